import Verif.Model.Files
/-
Specification of loading source files.
-/
namespace Verif.Spec

/-- Where a file named `filename` in the file `root` is looked for: next to the file that names it; in the working
directory of the process only if it is not there but exists here. -/
inductive Resolves (fs : FS) (workingDir : Path) : Option Path → Path → Path → Prop where
  | main {filename} : Resolves fs workingDir none filename (workingDir.join filename)
  | absolute {root filename} : filename.abs = true → Resolves fs workingDir (some root) filename filename
  | inDir {root filename} : filename.abs = false → fs.isDir root = true →
      (fs.isFile (root.join filename) = true ∨ fs.isFile filename = false) →
      Resolves fs workingDir (some root) filename (root.join filename)
  | beside {root dir filename} : filename.abs = false → fs.isDir root = false → root.parent = some dir →
      (fs.isFile (dir.join filename) = true ∨ fs.isFile filename = false) →
      Resolves fs workingDir (some root) filename (dir.join filename)
  | fallbackDir {root filename} : filename.abs = false → fs.isDir root = true →
      fs.isFile (root.join filename) = false → fs.isFile filename = true →
      Resolves fs workingDir (some root) filename filename
  | fallback {root dir filename} : filename.abs = false → fs.isDir root = false → root.parent = some dir →
      fs.isFile (dir.join filename) = false → fs.isFile filename = true →
      Resolves fs workingDir (some root) filename filename

/-- A successful load: the file system at that time, what was asked for, and what was returned. -/
structure Loaded where
  fs : FS
  root : Option Path
  filename : Path
  file : SourceFile

/-- `History dir es sf`: starting from nothing, the successful loads were `es`, in this order; the other loads
failed. `sf` is the state afterwards. -/
inductive History (workingDir : Path) : List Loaded → SourceFiles → Prop where
  | start : History workingDir [] (SourceFiles.new workingDir)
  | ok {es sf fs root filename file sf'} : History workingDir es sf →
      SourceFiles.load fs sf root filename = .ok (file, sf') →
      History workingDir (es ++ [⟨fs, root, filename, file⟩]) sf'
  | failed {es sf fs root filename e} : History workingDir es sf →
      SourceFiles.load fs sf root filename = .err e → History workingDir es sf

end Verif.Spec
