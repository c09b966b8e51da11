import Verif.Spec.SourceTokens
/-
Specification of the warnings about included files that are found in the working directory instead of next to the file that
includes them.
-/
namespace Verif.Spec
open Verif Located Syntax

/-- The path of a file with a relative name that stands next to the file `root` (in it, if it is a directory) -/
def NextTo (fs : FS) (root name c : Path) : Prop :=
  name.abs = false ∧ (fs.isDir root = true ∧ c = root.join name ∨
    fs.isDir root = false ∧ ∃ d, root.parent = some d ∧ c = d.join name)

/-- The file is found in the working directory of the process instead of next to `root`, at `c`. -/
def FallsBack (fs : FS) (root name c : Path) : Prop := NextTo fs root name c ∧ fs.isFile c = false ∧ fs.isFile name = true

/-- The warning for this -/
def warned (c name : Path) : Text :=
  "WARNING: Path \"".toList ++ c.render ++ "\" not found. Falling back to \"".toList ++ name.render ++ "\"\n".toList ++
  "         Please change the path to be relative to the source file, instead of relative to your working directory.\n".toList

/-- `LookupWarns fs root name ws`: looking for the file called `name` in the file `root` gives the warnings `ws`, one or none. -/
inductive LookupWarns (fs : FS) (root name : Path) : List Text → Prop where
  | quiet : (∀ c, ¬ FallsBack fs root name c) → LookupWarns fs root name []
  | warns {c} : FallsBack fs root name c → LookupWarns fs root name [warned c name]

/-- The warnings for an included file, which is looked for twice: the path that was found is looked for once more. -/
inductive FoundWarns (fs : FS) (dir file : Path) (name : Text) : Path → List Text → Prop where
  | mk {r q a b} : Resolves fs dir (some file) (Path.parse name) r → LookupWarns fs file (Path.parse name) a →
      Resolves fs dir (some file) r q → LookupWarns fs file r b → FoundWarns fs dir file name q (a ++ b)

/-- `LinesWarn fs dir file ls ws`: reading the lines `ls` of the file, with all that they include, gives the warnings `ws`. -/
inductive LinesWarn (fs : FS) (dir : Path) : Path → List (List Token) → List Text → Prop where
  | nil {file} : LinesWarn fs dir file [] []
  | source {file l name rest q n ls ws a more b} : IncludeLine l name rest → FoundWarns fs dir file name q ws →
      FileLines fs n q ls → LinesWarn fs dir q ls a → LinesWarn fs dir file more b →
      LinesWarn fs dir file (l :: more) (ws ++ a ++ b)
  | header {file l name q ws more b} : NamesHeader (words l) name → FoundWarns fs dir file name q ws →
      LinesWarn fs dir file more b → LinesWarn fs dir file (l :: more) (ws ++ b)
  | data {file l name ws more b} : IncludesData l name → LookupWarns fs file (Path.parse name) ws →
      LinesWarn fs dir file more b → LinesWarn fs dir file (l :: more) (ws ++ b)
  | other {file l more b} : (∀ name rest, ¬ IncludeLine l name rest) → (∀ name, ¬ NamesHeader (words l) name) →
      (∀ name, ¬ IncludesData l name) → LinesWarn fs dir file more b → LinesWarn fs dir file (l :: more) b

/-- Reading the file, with all that it includes, gives these warnings. -/
def SourceWarns (fs : FS) (dir file : Path) (ws : List Text) : Prop :=
  ∃ n ls, FileLines fs n file ls ∧ LinesWarn fs dir file ls ws

/-- The files that an include of data names: the file itself, and the eyecatch of an icon -/
def dataNames : Stmt → List Text
  | .dir (.incl .bytes name) => [name]
  | .dir (.incl (.sprite _ _) name) => [name]
  | .dir (.incl (.icon _ none) name) => [name]
  | .dir (.incl (.icon _ (some (.str t))) name) => name :: (decodeUtf8 t).toList
  | _ => []

/-- `NamesWarn fs file names ws`: looking for these files in the file gives the warnings `ws`. -/
inductive NamesWarn (fs : FS) (file : Path) : List Text → List Text → Prop where
  | nil : NamesWarn fs file [] []
  | cons {name ws names more} : LookupWarns fs file (Path.parse name) ws → NamesWarn fs file names more →
      NamesWarn fs file (name :: names) (ws ++ more)

/-- A file in the working directory is the same as the file of this relative name. -/
def SeenFrom (fs : FS) (dir : Path) : Prop := ∀ name : Path, name.abs = false → fs.isFile (dir.join name) = fs.isFile name

end Verif.Spec
