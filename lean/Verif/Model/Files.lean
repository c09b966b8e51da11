import Verif.Model.Vmi
/-
Loading of source files (src/files.rs).  The file system is a parameter of each operation, so it may change between
two of them.  The warnings written to stderr are in `Verif.Model.Located.Warnings`.
-/
namespace Verif

/-- `Path`: paths are compared by their components, so a path is the list of them.  `abs`: it starts at the root. -/
structure Path where
  abs : Bool
  comps : List Text
  deriving DecidableEq, Repr

/-- The components of a path (`Path::components` of the standard library, on Unix): empty components are dropped, and
`.` except at the start of a relative path. -/
def Path.parse (t : Text) : Path :=
  let parts := (splitSlash t).filter (· ≠ [])
  if t.head? = some '/' then ⟨true, parts.filter (· ≠ ['.'])⟩
  else
    match parts with
    | ['.'] :: ps => ⟨false, ['.'] :: ps.filter (· ≠ ['.'])⟩
    | ps => ⟨false, ps.filter (· ≠ ['.'])⟩

/-- The components separated by slashes. -/
def slashed : List Text → Text
  | [] => []
  | [c] => c
  | c :: cs => c ++ '/' :: slashed cs

/-- `path.display()`, `to_string_lossy`: simplified, redundant slashes and dots of the original spelling are lost. -/
def Path.render (p : Path) : Text := (if p.abs then ['/'] else []) ++ slashed p.comps

/-- `Path::join` of the standard library. -/
def Path.join (p q : Path) : Path :=
  if q.abs then q
  else if p = ⟨false, []⟩ then q
  else ⟨p.abs, p.comps ++ q.comps.filter (· ≠ ['.'])⟩

/-- `Path::parent` of the standard library. -/
def Path.parent (p : Path) : Option Path :=
  if p.comps = [] then none else some ⟨p.abs, p.comps.dropLast⟩

/-- What the file system answers. -/
structure FS where
  isFile : Path → Bool
  isDir : Path → Bool
  read : Path → Option (List UInt8)

/-- SourceFile, src/files.rs 31–35 -/
structure SourceFile where
  id : Nat
  name : Path
  contents : Text
  deriving DecidableEq

/-- SourceFiles, src/files.rs 51–54 -/
structure SourceFiles where
  workingDir : Path
  files : List SourceFile
  deriving DecidableEq

/-- SourceFiles::new, src/files.rs 79–92; the working directory is a parameter. -/
def SourceFiles.new (workingDir : Path) : SourceFiles := ⟨workingDir, []⟩

/-- load_bytes, src/files.rs 60–68 -/
def loadBytes (fs : FS) (p : Path) : Res (List UInt8) :=
  match fs.read p with
  | some bs => .ok bs
  | none => .err (.fileLoadFailure p.render)

/-- load_file, src/files.rs 70–76 -/
def loadFile (fs : FS) (p : Path) : Res Text := do
  let bs ← loadBytes fs p
  match decodeUtf8 bs with
  | some t => .ok t
  | none => .err (.fileUtf8Error p.render)

/-- SourceFiles::for_id, src/files.rs 94–100 -/
def SourceFiles.forId (sf : SourceFiles) (id : Nat) : Option SourceFile := sf.files[id]?

/-- SourceFiles::get_id, src/files.rs 106–114 -/
def SourceFiles.getId (sf : SourceFiles) (p : Path) : Option Nat := sf.files.findIdx? (fun f => f.name = p)

/-- SourceFiles::path, src/files.rs 123–155 -/
def SourceFiles.path (fs : FS) (sf : SourceFiles) (root : Option Path) (filename : Path) : Res Path :=
  match root with
  | some root => do
    let correct ←
      if filename.abs then .ok filename
      else if fs.isDir root then .ok (root.join filename)
      else
        match root.parent with
        | some dir => .ok (dir.join filename)
        | none => .panic
    if fs.isFile correct || !fs.isFile filename then .ok correct else .ok filename
  | none => .ok (sf.workingDir.join filename)

/-- SourceFiles::load, src/files.rs 157–178 -/
def SourceFiles.load (fs : FS) (sf : SourceFiles) (root : Option Path) (filename : Path) : Res (SourceFile × SourceFiles) := do
  let path ← sf.path fs root filename
  match sf.getId path with
  | some id =>
    match sf.files[id]? with
    | some f => .ok (f, sf)
    | none => .panic
  | none => do
    let contents ← loadFile fs path
    let file : SourceFile := ⟨sf.files.length, path, contents⟩
    .ok (file, { sf with files := sf.files ++ [file] })

end Verif
