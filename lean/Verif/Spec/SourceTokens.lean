import Verif.Spec.SourceErrors
import Verif.Spec.Include
/-
Specification: the tokens of a program that consists of several files.
-/
namespace Verif.Spec
open Verif Located Syntax

/-- Different files have different numbers. -/
def Numbering (id : Path → Option Nat) : Prop := ∀ p q n, id p = some n → id q = some n → p = q

/-- A line of a C header and what stands for it: `#define name value` becomes `name equ value`, where `equ` has the place
of `#define`. -/
inductive Rewritten : List Token → List Token → Prop where
  | define {h d n : Token} {more} : h.tok = .hash → d.tok = .name "define".toList → HeaderFine (h :: d :: n :: more) →
      Rewritten (h :: d :: n :: more) (n :: ⟨.name "equ".toList, h.start, d.stop⟩ :: more)
  | other {l} : (∀ r, words l ≠ .hash :: .name "define".toList :: r) → Rewritten l l

/-- The line includes the file `name` as data.  Whether there is something else after an include of bytes is found out
later. -/
inductive IncludesData (l : List Token) : Text → Prop where
  | bytes {name rest} : words l = .name ".include".toList :: .name "bytes".toList :: .string name :: rest → IncludesData l name
  | image {w e typ name} : words l = w ++ e → LineEnd e → DirSyntax w (.incl typ name) → typ ≠ .asm → typ ≠ .cHeader →
      IncludesData l name

/-- `LinesTokens fs dir id file ls toks`: the lines `ls` of the file stand for the tokens `toks`. -/
inductive LinesTokens (fs : FS) (dir : Path) (id : Path → Option Nat) : Path → List (List Token) → List Token → Prop where
  | nil {file} : LinesTokens fs dir id file [] []
  /-- An included file stands where it is included. -/
  | source {file l name rest q n ls a more b} : IncludeLine l name rest → LineEnd (words rest) → FoundAt fs dir file name q →
      id q = some n → FileLines fs n q ls → LinesTokens fs dir id q ls a → LinesTokens fs dir id file more b →
      LinesTokens fs dir id file (l :: more) (a ++ b)
  /-- So does an included C header. -/
  | header {file l name q n hs outs more b} : NamesHeader (words l) name → FoundAt fs dir file name q →
      id q = some n → HeaderTokens fs n q hs → EachLine Rewritten hs outs → LinesTokens fs dir id file more b →
      LinesTokens fs dir id file (l :: more) (outs.flatten ++ b)
  /-- For data, the name of the file is replaced by its path, as found from the file with the line. -/
  | data {file l name q more b} : IncludesData l name → Resolves fs dir (some file) (Path.parse name) q →
      LinesTokens fs dir id file more b →
      LinesTokens fs dir id file (l :: more) (l.map (fun t => { t with tok := repath name q.render t.tok }) ++ b)
  | other {file l more b} : (∀ name rest, ¬ IncludeLine l name rest) → (∀ name, ¬ NamesHeader (words l) name) →
      (∀ name, ¬ IncludesData l name) → LinesTokens fs dir id file more b → LinesTokens fs dir id file (l :: more) (l ++ b)

/-- `SourceTokens fs dir id file toks`: the file, with all that it includes, consists of the tokens `toks`.  Places name files
by the numbers `id`. -/
def SourceTokens (fs : FS) (dir : Path) (id : Path → Option Nat) (file : Path) (toks : List Token) : Prop :=
  ∃ n ls, id file = some n ∧ FileLines fs n file ls ∧ LinesTokens fs dir id file ls toks

/-- The number of a file among those loaded -/
def loadedAs (sf : SourceFiles) (file : Path) : Option Nat := sf.files.findIdx? (·.name = file)

end Verif.Spec
