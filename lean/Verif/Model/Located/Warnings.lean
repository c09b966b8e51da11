import Verif.Model.Located.Messages
/-
The warnings that are written to the standard error while the files are read (src/files.rs 123–155).  The functions of
`Verif.Model.Located.Read` that look for files, with the warnings they write.  `Lemmas/Located/Warnings.lean` proves that apart
from the warnings they do the same.
-/
namespace Verif.Located

/-- The text of a warning, src/files.rs 143–148 -/
def warning (correct filename : Path) : Text :=
  "WARNING: Path \"".toList ++ correct.render ++ "\" not found. Falling back to \"".toList ++ filename.render ++ "\"".toList ++
    "\n".toList ++ ("         Please change the path to be relative to the source file, instead of relative to your working " ++
      "directory.").toList ++ "\n".toList

/-- `correct_path` of SourceFiles::path, src/files.rs 131–140; none if the program panics -/
def correctPath (fs : FS) (root filename : Path) : Option Path :=
  if filename.abs then some filename
  else if fs.isDir root then some (root.join filename)
  else root.parent.map (·.join filename)

/-- The warnings of SourceFiles::path, src/files.rs 123–155 -/
def pathWarnings (fs : FS) : Option Path → Path → List Text
  | none, _ => []
  | some root, filename =>
    match correctPath fs root filename with
    | none => []
    | some correct => if fs.isFile correct || !fs.isFile filename then [] else [warning correct filename]

/-- A function with a parameter `files: &mut SourceFiles` that may write warnings -/
def Loud (α : Type) : Type := SourceFiles → List Text × SourceFiles × Res α

namespace Loud

/-- The `?` operator; what was written stays. -/
def bind {α β : Type} (x : Loud α) (f : α → Loud β) : Loud β := fun sf =>
  match x sf with
  | (ws, sf, .ok a) => (ws ++ (f a sf).1, (f a sf).2)
  | (ws, sf, .err e) => (ws, sf, .err e)
  | (ws, sf, .panic) => (ws, sf, .panic)
  | (ws, sf, .loop) => (ws, sf, .loop)

instance : Monad Loud where
  pure a := fun sf => ([], sf, .ok a)
  bind := bind

/-- A function that writes these warnings, whatever its result -/
def says {α : Type} (ws : List Text) (x : Run α) : Loud α := fun sf => (ws, x sf)

/-- A function without the parameter -/
def of {α : Type} (r : Res α) : Loud α := says [] (.of r)

end Loud

/-- SourceFiles::path, src/files.rs 123–155 -/
def pathLoud (fs : FS) (root : Option Path) (filename : Path) : Loud Path :=
  .says (pathWarnings fs root filename) (pathOf fs root filename)

/-- SourceFiles::load, src/files.rs 157–178: it calls SourceFiles::path. -/
def loadLoud (fs : FS) (root : Option Path) (filename : Path) : Loud SourceFile :=
  .says (pathWarnings fs root filename) (load fs root filename)

/-- The loop body of replace_includes, src/asm.rs 65–129 -/
def includeLineLoud (seg : Seg) (fs : FS) (go : Path → List Token → Loud (List Token)) (filename : Path) (line : List Token) :
    Loud (List Token) :=
  match parseDirective line with
  | .ok (some (.dir (.incl _ typ name), rest)) => do
    let path ← pathLoud fs (some filename) (Path.parse name)
    match typ with
    | .asm => do
      let file ← loadLoud fs (some filename) path
      let toks ← .of (lexInput seg (Input.new file.id file.contents))
      let toks ← go file.name toks
      if atEnd rest then .of (.ok toks) else .of (failNext .unexpectedToken rest)
    | .cHeader => do
      let file ← loadLoud fs (some filename) path
      .of (lexHeader seg (Input.new file.id file.contents))
    | _ => .of (.ok (line.map (fixPath name path.render)))
  | .panic => .of .panic
  | .loop => .of .loop
  | _ => .of (.ok line)

/-- The loop of replace_includes, src/asm.rs 64–130 -/
def includeLinesLoud (step : List Token → Loud (List Token)) : List (List Token) → Loud (List Token)
  | [] => .of (.ok [])
  | l :: ls => do
    let a ← step l
    let b ← includeLinesLoud step ls
    .of (.ok (a ++ b))

/-- replace_includes, src/asm.rs 58–132 -/
def replaceIncludesLoud (seg : Seg) (fs : FS) : Nat → Path → List Token → Loud (List Token)
  | 0, _, _ => .of .loop
  | fuel + 1, filename, toks =>
    includeLinesLoud (includeLineLoud seg fs (replaceIncludesLoud seg fs fuel) filename) (lines toks)

/-- The resolved path of an optional eyecatch, src/asm.rs 175 -/
def fixEyecatchLoud (fs : FS) (filename : Path) : Option Text → Loud (Option Text)
  | none => .of (.ok none)
  | some t => do
    let p ← pathLoud fs (some filename) (Path.parse t)
    .of (.ok (some p.render))

/-- The statements that replace one statement, src/asm.rs 140–226 -/
def includeDataLoud (m : Mode) (order : List Color → List Color) (load : Text → Verif.Res Image) (fs : FS) (filename : Path) :
    Stmt → Loud (List Stmt)
  | .dir (.incl _ .asm _) => .of .panic
  | .dir (.incl _ .cHeader _) => .of .panic
  | .dir (.incl sp .bytes name) => do
    let path ← pathLoud fs (some filename) (Path.parse name)
    let bytes ← .of (.lift (loadBytes fs path))
    .of (.ok [.dir (.byte sp (bytes.map fun b => .expr (.plain (.num b.toNat))))])
  | .dir (.incl _ (.icon speed eyecatch) name) => do
    let speed ← .of (evalSpeed m speed)
    let eyecatch ← .of (eyecatchPath eyecatch)
    let path ← pathLoud fs (some filename) (Path.parse name)
    let eyecatch ← fixEyecatchLoud fs filename eyecatch
    let stmts ← .of (.lift (toIcon order load path.render speed eyecatch))
    .of (.ok (stmts.map Stmt.plain))
  | .dir (.incl sp (.sprite t header) name) => do
    let path ← pathLoud fs (some filename) (Path.parse name)
    let image ← .of (.lift (load path.render))
    let _ ← .of (checkSprite sp image header)
    .of (.ok (.comment (spriteComment path.render t header) :: (image.to1BitAsm (t = .masked) header).map Stmt.plain))
  | s => .of (.ok [s])

/-- The loop of replace_byte_includes, src/asm.rs 139–228 -/
def replaceDataLoud (f : Stmt → Loud (List Stmt)) : List Stmt → Loud (List Stmt)
  | [] => .of (.ok [])
  | s :: ss => do
    let a ← f s
    let b ← replaceDataLoud f ss
    .of (.ok (a ++ b))

/-- The tokens of read_statements, src/asm.rs 40–51, with the path of the file -/
def readTokensLoud (seg : Seg) (fs : FS) (fuel : Nat) (name : Text) : Loud (List Token × Path) := do
  let path ← pathLoud fs none (Path.parse name)
  let file ← loadLoud fs none path
  let toks ← .of (lexInput seg (Input.new file.id file.contents))
  let toks ← replaceIncludesLoud seg fs fuel path toks
  .of (.ok (toks, path))

/-- replace_byte_includes, src/asm.rs 134–230 -/
def replaceByteIncludesLoud (m : Mode) (order : List Color → List Color) (load : Text → Verif.Res Image) (fs : FS)
    (filename : Path) (program : Program) : Loud Program := do
  let stmts ← replaceDataLoud (includeDataLoud m order load fs filename) program.stmts
  .of (.ok { program with stmts := stmts })

/-- read_statements, src/asm.rs 36–56.  Nothing is written after it until the run ends. -/
def readStatementsLoud (m : Mode) (seg : Seg) (order : List Color → List Color) (load : Text → Verif.Res Image) (fs : FS)
    (fuel : Nat) (name : Text) : Loud Program := do
  let (toks, path) ← readTokensLoud seg fs fuel name
  let program ← .of (parse toks)
  replaceByteIncludesLoud m order load fs path program

/-- The warnings that `assemble` and `expand` write -/
def warnings (h : Host) (fs : FS) (input : Text) : List Text :=
  (readStatementsLoud h.mode h.seg h.order h.load fs h.fuel input (SourceFiles.new h.cwd)).1

/-- All that `assemble` writes to the standard error, src/lib.rs 122–146 and 537–560, if the output file can be written -/
def assembleStderr (h : Host) (fs : FS) (word why input output : Text) : Verif.Res Text := do
  let t ← assembleMessage h fs word why input output
  .ok ((warnings h fs input).flatten ++ t)

/-- All that `expand` writes to the standard error, src/lib.rs 278–301 -/
def expandStderr (h : Host) (fs : FS) (word why input : Text) : Verif.Res Text := do
  let t ← expandMessage h fs word why input
  .ok ((warnings h fs input).flatten ++ t)

end Verif.Located
