import Verif.Model.Located.Asm
/-
C headers, include directives and the assembly of files (src/cheader.rs, src/asm.rs 23–230) with spans.
-/
namespace Verif.Located

/-- The location of an unexpected character is that of the input, src/lexer.rs 496–518; the plain model keeps all of it
but the file. -/
def lexed {α : Type} (file : Nat) : Verif.Res α → Res α
  | .err (.unexpectedChar pos line column) => .err ⟨.unexpectedChar pos line column, .location ⟨file, pos, line, column⟩⟩
  | r => .lift r

/-- lex_input, src/lexer.rs 520–522 -/
def lexInput (seg : Seg) (i : Input) : Res (List Token) := lexed i.file (Verif.lexInput seg i)

/-- The rewriting of one line of a C header, src/cheader.rs 56–76 -/
def headerLine (line : List Token) : Res (List Token) :=
  match line with
  | hash :: define :: rest =>
    if hash.tok = .hash ∧ define.tok = .name "define".toList then do
      let (_, ts) ← readName rest
      let _ ← parseExpr ts
      match rest with
      | name :: more => .ok (name :: ⟨.name "equ".toList, hash.start, define.stop⟩ :: more)
      | [] => .panic
    else .ok line
  | _ => .ok line

/-- The loop over the lines, src/cheader.rs 56–77 -/
def headerLines : List (List Token) → Res (List Token)
  | [] => .ok []
  | l :: ls => do
    let a ← headerLine l
    let b ← headerLines ls
    .ok (a ++ b)

/-- lex_input, src/cheader.rs 52–79 -/
def lexHeader (seg : Seg) (i : Input) : Res (List Token) := do
  let raw ← lexed i.file (lexForWs seg (skipCBlank seg) i)
  headerLines (lines raw)

/-! ### Files -/

/-- A function with a parameter `files: &mut SourceFiles`: the files loaded are kept when it fails. -/
def Run (α : Type) : Type := SourceFiles → SourceFiles × Res α

namespace Run

/-- The `?` operator -/
def bind {α β : Type} (x : Run α) (f : α → Run β) : Run β := fun sf =>
  match x sf with
  | (sf, .ok a) => f a sf
  | (sf, .err e) => (sf, .err e)
  | (sf, .panic) => (sf, .panic)
  | (sf, .loop) => (sf, .loop)

instance : Monad Run where
  pure a := fun sf => (sf, .ok a)
  bind := bind

/-- A function without the parameter -/
def of {α : Type} (r : Res α) : Run α := fun sf => (sf, r)

end Run

/-- SourceFiles::path, src/files.rs 123–155 -/
def pathOf (fs : FS) (root : Option Path) (filename : Path) : Run Path := fun sf => (sf, .lift (sf.path fs root filename))

/-- SourceFiles::load, src/files.rs 157–178 -/
def load (fs : FS) (root : Option Path) (filename : Path) : Run SourceFile := fun sf =>
  match sf.load fs root filename with
  | .ok (file, sf) => (sf, .ok file)
  | .err e => (sf, .err ⟨e, .nowhere⟩)
  | .panic => (sf, .panic)
  | .loop => (sf, .loop)

/-- The loop body of replace_includes, src/asm.rs 65–129, for one line of the file `filename` -/
def includeLine (seg : Seg) (fs : FS) (go : Path → List Token → Run (List Token)) (filename : Path) (line : List Token) :
    Run (List Token) :=
  match parseDirective line with
  | .ok (some (.dir (.incl _ typ name), rest)) => do
    let path ← pathOf fs (some filename) (Path.parse name)
    match typ with
    | .asm => do
      let file ← load fs (some filename) path
      let toks ← .of (lexInput seg (Input.new file.id file.contents))
      let toks ← go file.name toks
      if atEnd rest then .of (.ok toks) else .of (failNext .unexpectedToken rest)
    | .cHeader => do
      let file ← load fs (some filename) path
      .of (lexHeader seg (Input.new file.id file.contents))
    | _ => .of (.ok (line.map (fixPath name path.render)))
  | .panic => .of .panic
  | .loop => .of .loop
  | _ => .of (.ok line)

/-- The loop of replace_includes, src/asm.rs 64–130 -/
def includeLines (step : List Token → Run (List Token)) : List (List Token) → Run (List Token)
  | [] => .of (.ok [])
  | l :: ls => do
    let a ← step l
    let b ← includeLines step ls
    .of (.ok (a ++ b))

/-- replace_includes, src/asm.rs 58–132 -/
def replaceIncludes (seg : Seg) (fs : FS) : Nat → Path → List Token → Run (List Token)
  | 0, _, _ => .of .loop
  | fuel + 1, filename, toks => includeLines (includeLine seg fs (replaceIncludes seg fs fuel) filename) (lines toks)

/-! ### Binary includes -/

/-- A value with the span Span::default -/
def ByteValue.plain : Verif.ByteValue → ByteValue
  | .expr e => .expr (.plain e)
  | .str bytes => .str .default bytes

/-- An argument with the span Span::default -/
def Arg.plain : Verif.Arg → Arg
  | .imm e => .imm (.plain e)
  | .ex e => .ex (.plain e)
  | .im r => .im .default r
  | .macroArg n => .macroArg .default n

/-- An include type with the span Span::default -/
def IncludeType.plain : Verif.IncludeType → IncludeType
  | .asm => .asm
  | .bytes => .bytes
  | .cHeader => .cHeader
  | .icon speed eyecatch => .icon (speed.map Expr.plain) (eyecatch.map ByteValue.plain)
  | .sprite t header => .sprite t header

/-- A directive with the span Span::default -/
def Directive.plain : Verif.Directive → Directive
  | .byte vs => .byte .default (vs.map ByteValue.plain)
  | .org l => .org .default l
  | .word es => .word .default (es.map Expr.plain)
  | .text size bytes => .text .default size bytes
  | .string size bytes => .string .default size bytes
  | .incl t path => .incl .default (.plain t) path
  | .cnop a k => .cnop .default (.plain a) (.plain k)

/-- A statement with the span Span::default everywhere.  The statements made for images (src/img.rs) are such:
`Statement::byte`, `Statement::word` and `Expr::num` use it (src/ast.rs 466–472, src/expression.rs 79–81). -/
def Stmt.plain : Verif.Stmt → Stmt
  | .dir d => .dir (.plain d)
  | .label n => .label .default n
  | .instr i => .instr .default (mapInstr Expr.plain i)
  | .variable n e => .variable .default n (.plain e)
  | .alias n e => .alias .default n (.plain e)
  | .comment t => .comment t
  | .macroCall n args => .macroCall .default n (args.map Arg.plain)

/-- The eyecatch of an icon, src/asm.rs 162–173 -/
def eyecatchPath : Option ByteValue → Res (Option Text)
  | none => .ok none
  | some (.str _ bs) =>
    match decodeUtf8 bs with
    | some t => .ok (some t)
    | none => .panic
  | some (.expr e) => .fail (.invalidPath e.erase.print) e.span

/-- The speed of an icon, src/asm.rs 158–161 -/
def evalSpeed (m : Mode) : Option Expr → Res (Option Nat)
  | none => .ok none
  | some e => do
    let v ← e.eval m (mapEnv [])
    .ok (some (v % 65536).toNat)

/-- The size check of sprites with a header, src/asm.rs 184–202 -/
def checkSprite (sp : Span) (i : Image) (header : Bool) : Res Unit :=
  if header then do
    let w ← .lift i.width
    if w > 255 then .fail (.spriteTooWide w 255) sp
    else do
      let h ← .lift i.height
      if h > 255 then .fail (.spriteTooTall h 255) sp else .ok ()
  else .ok ()

/-- The statements that replace one statement, src/asm.rs 140–226 -/
def includeData (m : Mode) (order : List Color → List Color) (load : Text → Verif.Res Image) (fs : FS) (filename : Path)
    (sf : SourceFiles) : Stmt → Res (List Stmt)
  | .dir (.incl _ .asm _) => .panic
  | .dir (.incl _ .cHeader _) => .panic
  | .dir (.incl sp .bytes name) => do
    let path ← .lift (sf.path fs (some filename) (Path.parse name))
    let bytes ← .lift (loadBytes fs path)
    .ok [.dir (.byte sp (bytes.map fun b => .expr (.plain (.num b.toNat))))]
  | .dir (.incl _ (.icon speed eyecatch) name) => do
    let speed ← evalSpeed m speed
    let eyecatch ← eyecatchPath eyecatch
    let path ← .lift (sf.path fs (some filename) (Path.parse name))
    let eyecatch ← .lift (fixEyecatch fs sf filename eyecatch)
    let stmts ← .lift (toIcon order load path.render speed eyecatch)
    .ok (stmts.map Stmt.plain)
  | .dir (.incl sp (.sprite t header) name) => do
    let path ← .lift (sf.path fs (some filename) (Path.parse name))
    let image ← .lift (load path.render)
    let _ ← checkSprite sp image header
    .ok (.comment (spriteComment path.render t header) :: (image.to1BitAsm (t = .masked) header).map Stmt.plain)
  | s => .ok [s]

/-- replace_byte_includes, src/asm.rs 134–230 -/
def replaceData (f : Stmt → Res (List Stmt)) : List Stmt → Res (List Stmt)
  | [] => .ok []
  | s :: ss => do
    let a ← f s
    let b ← replaceData f ss
    .ok (a ++ b)

/-- The tokens of read_statements, src/asm.rs 40–51, with the path of the file -/
def readTokens (seg : Seg) (fs : FS) (fuel : Nat) (name : Text) : Run (List Token × Path) := do
  let path ← pathOf fs none (Path.parse name)
  let file ← load fs none path
  let toks ← .of (lexInput seg (Input.new file.id file.contents))
  let toks ← replaceIncludes seg fs fuel path toks
  .of (.ok (toks, path))

/-- replace_byte_includes, src/asm.rs 134–230, with the files loaded so far -/
def replaceByteIncludes (m : Mode) (order : List Color → List Color) (load : Text → Verif.Res Image) (fs : FS)
    (filename : Path) (program : Program) : Run Program := fun sf =>
  (sf, do
    let stmts ← replaceData (includeData m order load fs filename sf) program.stmts
    .ok { program with stmts := stmts })

/-- read_statements, src/asm.rs 36–56 -/
def readStatements (m : Mode) (seg : Seg) (order : List Color → List Color) (load : Text → Verif.Res Image) (fs : FS)
    (fuel : Nat) (name : Text) : Run Program := do
  let (toks, path) ← readTokens seg fs fuel name
  let program ← .of (parse toks)
  replaceByteIncludes m order load fs path program

/-- assemble_file, src/asm.rs 23–27 -/
def assembleFile (m : Mode) (seg : Seg) (order : List Color → List Color) (load : Text → Verif.Res Image)
    (uuid : Nat → Text) (fs : FS) (fuel macroFuel : Nat) (name : Text) : Run (List UInt8) := do
  let program ← readStatements m seg order load fs fuel name
  .of do
    let program ← expandMacros uuid macroFuel program
    assemble m program.stmts

end Verif.Located
