import Verif.Spec.Include
import Verif.Model.Img
/-
Specification of the files that a run reads.
-/
namespace Verif.Spec

/-- One of the lines of tokens of the file is `l`. -/
def HasLine (fs : FS) (file : Path) (l : List Tok) : Prop :=
  ∃ t ls, fs.read file = some (utf8 t) ∧ ReadsAs t ls ∧ l ∈ ls

/-- The line starts with `.include "name"` or `.include asm "name"`. -/
def NamesSource (l : List Tok) (name : Text) : Prop :=
  ∃ rest, l = .name ".include".toList :: .string name :: rest ∨
    l = .name ".include".toList :: .name "asm".toList :: .string name :: rest

/-- The line starts with `.include cpp "name"`. -/
def NamesHeader (l : List Tok) (name : Text) : Prop :=
  ∃ rest, l = .name ".include".toList :: .name "cpp".toList :: .string name :: rest

/-- Where the program looks for an included file: the resolved path is resolved once more.  For absolute paths this
does nothing. -/
def FoundAt (fs : FS) (dir file : Path) (name : Text) (q : Path) : Prop :=
  ∃ r, Resolves fs dir (some file) (Path.parse name) r ∧ Resolves fs dir (some file) r q

/-- The file has a line that includes the assembly file `q`. -/
def IncludesFile (fs : FS) (dir file q : Path) : Prop :=
  ∃ l name, HasLine fs file l ∧ NamesSource l name ∧ FoundAt fs dir file name q

/-- The file has a line that includes the C header `q`. -/
def IncludesHeader (fs : FS) (dir file q : Path) : Prop :=
  ∃ l name, HasLine fs file l ∧ NamesHeader l name ∧ FoundAt fs dir file name q

/-- `IncludeTree fs dir main q`: the file `q` is `main`, or included in it, directly or not. -/
inductive IncludeTree (fs : FS) (dir main : Path) : Path → Prop where
  | main : IncludeTree fs dir main main
  | step {p q} : IncludeTree fs dir main p → IncludesFile fs dir p q → IncludeTree fs dir main q

/-- The assembly files that `main` includes have no combining characters, and the C headers are ASCII. -/
def AllPlain (seg : Seg) (fs : FS) (dir main : Path) : Prop :=
  (∀ q t, IncludeTree fs dir main q → fs.read q = some (utf8 t) → Plain seg t) ∧
  ∀ p q t, IncludeTree fs dir main p → IncludesHeader fs dir p q → fs.read q = some (utf8 t) → Ascii t

/-- A chain of includes that starts at the file and goes on for ever. -/
def Endless (fs : FS) (dir main : Path) : Prop :=
  ∃ chain : Nat → Path, chain 0 = main ∧ ∀ n, IncludesFile fs dir (chain n) (chain (n + 1))

/-- Only paths with a last component name files. -/
def NamedFiles (fs : FS) : Prop := ∀ p, fs.read p ≠ none → p.comps ≠ []

/-- Somewhere in the text, after tokens, there is a numeral of 2^31 or more. -/
def HasTooBig (text : Text) : Prop := ∃ ks b t, LexReaches [] text ks b t ∧ TooBig b t

/-- Like `LexReaches`, in a C header. -/
inductive CLexReaches : Text → Text → Prop where
  | here {text} : CLexReaches text text
  | token {g w rest k text'} : CGap g (w ++ rest) → Spells w rest k → CLexReaches rest text' →
      CLexReaches (g ++ w ++ rest) text'

/-- Somewhere in the C header, after tokens, there is a numeral of 2^31 or more. -/
def CHasTooBig (text : Text) : Prop :=
  ∃ g w rest v radix, CLexReaches text (g ++ w ++ rest) ∧ CGap g (w ++ rest) ∧ NumberToken w rest v radix ∧ 2 ^ 31 ≤ v

/-- One of the assembly files and C headers of the program has a numeral of 2^31 or more. -/
def HugeNumeral (fs : FS) (dir main : Path) : Prop :=
  (∃ q t, IncludeTree fs dir main q ∧ fs.read q = some (utf8 t) ∧ HasTooBig t) ∨
  ∃ p q t, IncludeTree fs dir main p ∧ IncludesHeader fs dir p q ∧ fs.read q = some (utf8 t) ∧ CHasTooBig t

/-- Image files are loaded, or give an error; images have frames. -/
def LoadsFrames (load : Text → Res Image) : Prop :=
  ∀ path, load path ≠ .loop ∧ load path ≠ .panic ∧ ∀ i, load path = .ok i → i.frames ≠ []

/-- An include of an assembly file or a C header that is still in the program after reading. -/
def LeftOver (s : Stmt) : Prop := ∃ name, s = .dir (.incl .asm name) ∨ s = .dir (.incl .cHeader name)

end Verif.Spec
