import Verif.Model.CHeader
import Verif.Model.Files
import Verif.Model.Img
import Verif.Model.Print
/-
Include directives and the assembly of files (src/asm.rs 23–230).  The file system does not change during one run, and
image files are read by a parameter.
-/
namespace Verif

/-- One token of a line with a binary include, src/asm.rs 101–112: the string that is the path becomes the new path. -/
def fixPath (old new : Text) (t : Token) : Token := if t.tok = .string old then { t with tok := .string new } else t

/-- The loop body of replace_includes, src/asm.rs 65–129, for one line of the file `filename`.  `go` is the recursive
call. -/
def includeLine (seg : Seg) (fs : FS) (go : Path → SourceFiles → List Token → Res (List Token × SourceFiles))
    (filename : Path) (sf : SourceFiles) (line : List Token) : Res (List Token × SourceFiles) :=
  match parseDirective (line.map Token.tok) with
  | .ok (some (.dir (.incl typ name), rest)) => do
    let path ← sf.path fs (some filename) (Path.parse name)
    match typ with
    | .asm => do
      let (file, sf) ← sf.load fs (some filename) path
      let toks ← lexInput seg (Input.new file.id file.contents)
      let (toks, sf) ← go file.name sf toks
      if rest.isEmpty then .ok (toks, sf) else .err .unexpectedToken
    | .cHeader => do
      let (file, sf) ← sf.load fs (some filename) path
      let toks ← lexHeader seg (Input.new file.id file.contents)
      .ok (toks, sf)
    | _ => .ok (line.map (fixPath name path.render), sf)
  | .panic => .panic
  | .loop => .loop
  | _ => .ok (line, sf)

/-- The loop of replace_includes, src/asm.rs 64–130 -/
def includeLines (step : SourceFiles → List Token → Res (List Token × SourceFiles)) :
    SourceFiles → List (List Token) → Res (List Token × SourceFiles)
  | sf, [] => .ok ([], sf)
  | sf, l :: ls => do
    let (a, sf) ← step sf l
    let (b, sf) ← includeLines step sf ls
    .ok (a ++ b, sf)

/-- replace_includes, src/asm.rs 58–132.  The fuel is the depth of nested files; a file that includes itself is read
for ever. -/
def replaceIncludes (seg : Seg) (fs : FS) : Nat → Path → SourceFiles → List Token → Res (List Token × SourceFiles)
  | 0, _, _, _ => .loop
  | fuel + 1, filename, sf, toks => includeLines (includeLine seg fs (replaceIncludes seg fs fuel) filename) sf (lines toks)

/-- The eyecatch of an icon, src/asm.rs 162–173 -/
def eyecatchPath : Option ByteValue → Res (Option Text)
  | none => .ok none
  | some (.str bs) =>
    match decodeUtf8 bs with
    | some t => .ok (some t)
    | none => .panic
  | some (.expr e) => .err (.invalidPath e.print)

/-- The speed of an icon, src/asm.rs 158–161; `as u16` keeps the low 16 bits. -/
def evalSpeed (m : Mode) : Option Expr → Res (Option Nat)
  | none => .ok none
  | some e => do
    let v ← e.eval m (mapEnv [])
    .ok (some (v % 65536).toNat)

/-- The resolved path of an optional eyecatch, src/asm.rs 175 -/
def fixEyecatch (fs : FS) (sf : SourceFiles) (filename : Path) : Option Text → Res (Option Text)
  | none => .ok none
  | some t => do
    let p ← sf.path fs (some filename) (Path.parse t)
    .ok (some p.render)

/-- The comment before a sprite, src/asm.rs 207–216 -/
def spriteComment (path : Text) (t : SpriteType) (header : Bool) : Text :=
  "\nSprite \"".toList ++ path ++ "\" (".toList ++ (match t with | .simple => "simple".toList | .masked => "masked".toList) ++
    ", ".toList ++ (if header then "include".toList else "exclude".toList) ++ " header)".toList

/-- The size check of sprites with a header, src/asm.rs 184–202 -/
def checkSprite (i : Image) (header : Bool) : Res Unit :=
  if header then do
    let w ← i.width
    if w > 255 then .err (.spriteTooWide w 255)
    else do
      let h ← i.height
      if h > 255 then .err (.spriteTooTall h 255) else .ok ()
  else .ok ()

/-- The statements that replace one statement, src/asm.rs 140–226 -/
def includeData (m : Mode) (order : List Color → List Color) (load : Text → Res Image) (fs : FS) (filename : Path)
    (sf : SourceFiles) : Stmt → Res (List Stmt)
  | .dir (.incl .asm _) => .panic
  | .dir (.incl .cHeader _) => .panic
  | .dir (.incl .bytes name) => do
    let path ← sf.path fs (some filename) (Path.parse name)
    let bytes ← loadBytes fs path
    .ok [.dir (.byte (bytes.map fun b => .expr (.num b.toNat)))]
  | .dir (.incl (.icon speed eyecatch) name) => do
    let speed ← evalSpeed m speed
    let eyecatch ← eyecatchPath eyecatch
    let path ← sf.path fs (some filename) (Path.parse name)
    let eyecatch ← fixEyecatch fs sf filename eyecatch
    toIcon order load path.render speed eyecatch
  | .dir (.incl (.sprite t header) name) => do
    let path ← sf.path fs (some filename) (Path.parse name)
    let image ← load path.render
    let _ ← checkSprite image header
    .ok (.comment (spriteComment path.render t header) :: image.to1BitAsm (t = .masked) header)
  | s => .ok [s]

/-- replace_byte_includes, src/asm.rs 134–230 -/
def replaceData (f : Stmt → Res (List Stmt)) : List Stmt → Res (List Stmt)
  | [] => .ok []
  | s :: ss => do
    let a ← f s
    let b ← replaceData f ss
    .ok (a ++ b)

/-- The parsing part of read_statements, src/asm.rs 36–52, with the file and the files loaded. -/
def readProgram (seg : Seg) (fs : FS) (fuel : Nat) (sf : SourceFiles) (name : Text) : Res (Program × Path × SourceFiles) := do
  let path ← sf.path fs none (Path.parse name)
  let (file, sf) ← sf.load fs none path
  let toks ← lexInput seg (Input.new file.id file.contents)
  let (toks, sf) ← replaceIncludes seg fs fuel path sf toks
  let program ← parse toks
  .ok (program, path, sf)

/-- read_statements, src/asm.rs 36–56 -/
def readStatements (m : Mode) (seg : Seg) (order : List Color → List Color) (load : Text → Res Image) (fs : FS)
    (fuel : Nat) (sf : SourceFiles) (name : Text) : Res Program := do
  let (program, path, sf) ← readProgram seg fs fuel sf name
  let stmts ← replaceData (includeData m order load fs path sf) program.stmts
  .ok { program with stmts := stmts }

/-- assemble_file, src/asm.rs 23–27 -/
def assembleFile (m : Mode) (seg : Seg) (order : List Color → List Color) (load : Text → Res Image) (uuid : Nat → Text)
    (fs : FS) (fuel macroFuel : Nat) (sf : SourceFiles) (name : Text) : Res (List UInt8) := do
  let program ← readStatements m seg order load fs fuel sf name
  let program ← expandMacros uuid macroFuel program
  assemble m program.stmts

/-- expand_file, src/asm.rs 29–34: the text written to the standard output -/
def expandFile (m : Mode) (seg : Seg) (order : List Color → List Color) (load : Text → Res Image) (uuid : Nat → Text)
    (fs : FS) (fuel macroFuel : Nat) (sf : SourceFiles) (name : Text) : Res Text := do
  let program ← readStatements m seg order load fs fuel sf name
  let program ← expandMacros uuid macroFuel program
  let text ← printStatements program.stmts
  .ok (text ++ "\n".toList)

end Verif
