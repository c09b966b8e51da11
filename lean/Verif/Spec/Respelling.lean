import Verif.Spec.Sources
/-
Specification: source texts that are spelled differently but have the same tokens.
-/
namespace Verif.Spec

/-- The same token, on the same lines of its text. -/
def SameSpot (a b : Token) : Prop := a.tok = b.tok ∧ a.start.line = b.start.line ∧ a.stop.line = b.stop.line

/-- The texts consist of the same tokens on the same lines.  They can differ in comments, in the white space within
lines, in empty lines at the end, in the letter case of names and in how numbers and strings are spelled. -/
def SameTokens (t t' : Text) : Prop :=
  ∃ toks toks', LexesTo 0 [] t toks ∧ LexesTo 0 [] t' toks' ∧ EachLine SameSpot toks toks'

/-- The same for texts that are read as C headers: they can also differ in C comments. -/
def SameHeaderTokens (t t' : Text) : Prop :=
  ∃ toks toks', CLexesTo 0 [] t toks ∧ CLexesTo 0 [] t' toks' ∧ EachLine SameSpot toks toks'

/-- Two disks with the same files and directories, where the files that differ are texts. -/
structure Respelled (fs fs' : FS) : Prop where
  isFile : fs'.isFile = fs.isFile
  isDir : fs'.isDir = fs.isDir
  read : ∀ p, fs'.read p = fs.read p ∨ ∃ t t', fs.read p = some (utf8 t) ∧ fs'.read p = some (utf8 t')

/-- The source files of the program have the same tokens on both disks. -/
def SameSources (seg : Seg) (fs fs' : FS) (dir main : Path) : Prop :=
  ∀ p, IncludeTree fs dir main p → fs'.read p = fs.read p ∨
    ∃ t t', fs.read p = some (utf8 t) ∧ fs'.read p = some (utf8 t') ∧ Plain seg t ∧ Plain seg t' ∧ SameTokens t t'

/-- The C headers of the program, which are ASCII texts, have the same tokens on both disks. -/
def SameHeaders (seg : Seg) (fs fs' : FS) (dir main : Path) : Prop :=
  ∀ p q, IncludeTree fs dir main p → IncludesHeader fs dir p q → fs'.read q = fs.read q ∨
    ∃ t t', fs.read q = some (utf8 t) ∧ fs'.read q = some (utf8 t') ∧ Plain seg t ∧ Plain seg t' ∧ Ascii t ∧ Ascii t' ∧
      SameHeaderTokens t t'

/-- The files that the program includes as bytes are the same on both disks. -/
def SameBinaries (fs fs' : FS) (dir main : Path) (p : Program) : Prop :=
  ∀ name q, .dir (.incl .bytes name) ∈ p.stmts → Resolves fs dir (some main) (Path.parse name) q → fs'.read q = fs.read q

end Verif.Spec
