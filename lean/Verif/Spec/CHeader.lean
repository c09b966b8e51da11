import Verif.Spec.Grammar
import Verif.Spec.Lexing
/-
Specification of C headers: what stands between the tokens, and which lines are rewritten.
-/
namespace Verif.Spec

/-- The text has no `*/` in it. -/
def NoClose (t : Text) : Prop := ∀ a b, t ≠ a ++ '*' :: '/' :: b

/-- `CBlank g rest`: the text `g`, standing before `rest`, consists of white space, of comments from `//` to the end of
the line and of comments from `/*` to the next `*/` or the end of the text. -/
inductive CBlank : Text → Text → Prop where
  | nil {rest} : CBlank [] rest
  | space {c g rest} : isSpace c = true → CBlank g rest → CBlank (c :: g) rest
  | line {t g rest} : '\n' ∉ t → atEol (g ++ rest) → CBlank g rest → CBlank ('/' :: '/' :: t ++ g) rest
  | block {t g rest} : NoClose t → CBlank g rest → CBlank ('/' :: '*' :: t ++ '*' :: '/' :: g) rest
  | unclosed {t} : NoClose t → CBlank ('/' :: '*' :: t) []

/-- No blank text can start here. -/
def CStuck (rest : Text) : Prop :=
  (∀ c ∈ rest.head?, isSpace c = false) ∧ (∀ u, rest ≠ '/' :: '/' :: u) ∧ ∀ u, rest ≠ '/' :: '*' :: u

/-- `g` is all the blank text before `rest`. -/
def CGap (g rest : Text) : Prop := CBlank g rest ∧ CStuck rest

/-- `CLexesTo file before text toks`: after `before`, the text consists of the tokens `toks`, each at its place, with
only blank text and C comments around them; the tokens are those of assembly files. -/
inductive CLexesTo (file : Nat) : Text → Text → List Token → Prop where
  | done {before g} : CGap g [] → CLexesTo file before g [⟨.eof, placeIn file before, placeIn file before⟩]
  | token {before g w rest k toks} : CGap g (w ++ rest) → Spells w rest k →
      CLexesTo file (before ++ g ++ w) rest toks →
      CLexesTo file before (g ++ w ++ rest) (⟨k, placeIn file (before ++ g), placeIn file (before ++ g ++ w)⟩ :: toks)

/-- The tokens of the lines, without their places. -/
def KindLines (toks : List Token) (ls : List (List Tok)) : Prop :=
  ∃ L, SplitsInto toks L ∧ ls = L.map (·.map Token.tok)

/-- How a line of a header is rewritten: `#define NAME expression` to `NAME equ expression`, with whatever comes after
the expression, and other lines not at all. -/
inductive HeaderLine : List Tok → List Tok → Prop where
  | define {n w e rest} : ExprSyntax w e → NoOperator rest →
      HeaderLine (.hash :: .name "define".toList :: .name n :: (w ++ rest)) (.name n :: .name "equ".toList :: (w ++ rest))
  | other {l} : (∀ r, l ≠ .hash :: .name "define".toList :: r) → HeaderLine l l

/-- The statements a line of a header stands for: a define is an alias, and an assembly line is itself. -/
inductive HeaderStmts : List Tok → List Stmt → Prop where
  | define {n w e} : n ∉ directives.map String.toList → ExprSyntax w e →
      HeaderStmts (.hash :: .name "define".toList :: .name n :: w) [.alias n e]
  | line {l ss} : LineSyntax l ss → HeaderStmts l ss

/-- The two lists have the same length, and `R` holds line by line. -/
inductive EachLine {α β : Type} (R : α → β → Prop) : List α → List β → Prop where
  | nil : EachLine R [] []
  | cons {a b as bs} : R a b → EachLine R as bs → EachLine R (a :: as) (b :: bs)

end Verif.Spec
