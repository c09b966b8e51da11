import Verif.Spec.Sources
import Verif.Spec.Syntax
/-
Specification: which source files can be read, and what the first thing is that is wrong with those that cannot.

A file is read line by line.  An included file is read where it is included.  `id` gives the number by which places name
a file.
-/
namespace Verif.Spec
open Verif Located Syntax

/-- The file, as number `n`, consists of these lines of tokens.  The end of the file is a token of its own. -/
def FileLines (fs : FS) (n : Nat) (file : Path) (ls : List (List Token)) : Prop :=
  ∃ t toks, fs.read file = some (utf8 t) ∧ LexesTo n [] t toks ∧ SplitsInto toks ls

/-- The line includes the assembly file `name`; `rest` is what follows on the line. -/
def IncludeLine (l : List Token) (name : Text) (rest : List Token) : Prop :=
  ∃ w, l = w ++ rest ∧ (words w = [.name ".include".toList, .string name] ∨
    words w = [.name ".include".toList, .name "asm".toList, .string name])

/-! ### C headers -/

/-- The C header, as number `n`, consists of these lines of tokens. -/
def HeaderTokens (fs : FS) (n : Nat) (file : Path) (ls : List (List Token)) : Prop :=
  ∃ t toks, fs.read file = some (utf8 t) ∧ CLexesTo n [] t toks ∧ SplitsInto toks ls

/-- The line of the header is no definition, or a right one. -/
def HeaderFine (l : List Token) : Prop := ∃ out, HeaderLine (words l) out

/-- The C header can be read. -/
def HeaderReads (fs : FS) (file : Path) : Prop := ∃ n ls, HeaderTokens fs n file ls ∧ ∀ l ∈ ls, HeaderFine l

/-- What comes after `#define` -/
def Definition (w : List Tok) : Prop := ∃ n w' e, w = .name n :: w' ∧ ExprSyntax w' e

/-- `CReaches before text before' text'`: reading tokens of a C header, and the blank text before each, takes one from
`before`, with `text` to come, to `before'`, with `text'` to come. -/
inductive CReaches : Text → Text → Text → Text → Prop where
  | here {before text} : CReaches before text before text
  | token {before g w rest k before' text'} : CGap g (w ++ rest) → Spells w rest k →
      CReaches (before ++ g ++ w) rest before' text' → CReaches before (g ++ w ++ rest) before' text'

/-- In a C header, the next thing is neither a token nor the end of the text. -/
def CNoToken (text : Text) : Prop :=
  ∃ g rest, text = g ++ rest ∧ CGap g rest ∧ rest ≠ [] ∧
    ∀ w rest', rest = w ++ rest' → (∀ k, ¬ Spells w rest' k) ∧ ∀ v radix, ¬ NumberToken w rest' v radix

/-- The place `b` leads to in a file, as an error -/
def charError (n : Nat) (b : Text) : Err := .unexpectedChar (placeIn n b).pos (placeIn n b).line (placeIn n b).column

/-- `HeaderFails fs n file x p`: the C header, with the number `n`, cannot be read, because of `x` at the place `p`. -/
inductive HeaderFails (fs : FS) (n : Nat) (file : Path) : Err → Place → Prop where
  | missing : fs.read file = none → HeaderFails fs n file (.fileLoadFailure file.render) .nowhere
  | notText {bs} : fs.read file = some bs → (∀ t, bs ≠ utf8 t) → HeaderFails fs n file (.fileUtf8Error file.render) .nowhere
  /-- Something that is no token comes after the text `b`. -/
  | character {t b r} : fs.read file = some (utf8 t) → CReaches [] t b r → CNoToken r →
      HeaderFails fs n file (charError n b) (.location (placeIn n b))
  /-- The first definition that is wrong -/
  | define {before h d l after x p} : HeaderTokens fs n file (before ++ (h :: d :: l) :: after) → (∀ o ∈ before, HeaderFine o) →
      h.tok = .hash → d.tok = .name "define".toList → Syntax.Stuck Definition l x p → HeaderFails fs n file x p

/-! ### Assembly files -/

/-- `SourceReads fs dir file`: the file and all that it includes can be read. -/
inductive SourceReads (fs : FS) (dir : Path) : Path → Prop where
  | mk {n file ls} : FileLines fs n file ls →
      (∀ l ∈ ls, ∀ name rest, IncludeLine l name rest → LineEnd (words rest) ∧ ∃ q, FoundAt fs dir file name q) →
      (∀ l ∈ ls, ∀ name rest q, IncludeLine l name rest → FoundAt fs dir file name q → SourceReads fs dir q) →
      (∀ l ∈ ls, ∀ name, NamesHeader (words l) name → ∃ q, FoundAt fs dir file name q ∧ HeaderReads fs q) →
      SourceReads fs dir file

/-- What the line of the file includes can be read. -/
def LineReads (fs : FS) (dir file : Path) (l : List Token) : Prop :=
  (∀ name rest, IncludeLine l name rest → LineEnd (words rest) ∧ ∃ q, FoundAt fs dir file name q ∧ SourceReads fs dir q) ∧
  ∀ name, NamesHeader (words l) name → ∃ q, FoundAt fs dir file name q ∧ HeaderReads fs q

/-- `SourceFails fs dir id file x p`: the file, or one that it includes, cannot be read.  The first reason for this is
`x` at the place `p`. -/
inductive SourceFails (fs : FS) (dir : Path) (id : Path → Nat) : Path → Err → Place → Prop where
  | missing {file} : fs.read file = none → SourceFails fs dir id file (.fileLoadFailure file.render) .nowhere
  | notText {file bs} : fs.read file = some bs → (∀ t, bs ≠ utf8 t) →
      SourceFails fs dir id file (.fileUtf8Error file.render) .nowhere
  /-- Something that is no token comes after the text `b`. -/
  | character {file t ks b r} : fs.read file = some (utf8 t) → LexReaches [] t ks b r → NoToken b r →
      SourceFails fs dir id file (charError (id file) b) (.location (placeIn (id file) b))
  /-- An included file cannot be read. -/
  | source {file before l after name rest q x p} : FileLines fs (id file) file (before ++ l :: after) →
      (∀ o ∈ before, LineReads fs dir file o) → IncludeLine l name rest → FoundAt fs dir file name q →
      SourceFails fs dir id q x p → SourceFails fs dir id file x p
  /-- After the name of an included file that can be read, there is something else on the line. -/
  | excess {file before l after name u rest q} : FileLines fs (id file) file (before ++ l :: after) →
      (∀ o ∈ before, LineReads fs dir file o) → IncludeLine l name (u :: rest) → u.tok ≠ .eof → FoundAt fs dir file name q →
      SourceReads fs dir q → SourceFails fs dir id file .unexpectedToken (.span u.span)
  /-- An included C header cannot be read. -/
  | header {file before l after name q x p} : FileLines fs (id file) file (before ++ l :: after) →
      (∀ o ∈ before, LineReads fs dir file o) → NamesHeader (words l) name → FoundAt fs dir file name q →
      HeaderFails fs (id q) q x p → SourceFails fs dir id file x p

/-- The number of a file among those loaded -/
def numberOf (sf : SourceFiles) (file : Path) : Nat := (sf.files.findIdx? (·.name = file)).getD 0

end Verif.Spec
