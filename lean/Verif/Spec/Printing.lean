import Verif.Spec.Lexing
import Verif.Spec.Grammar
/-
Specification for printing: which expressions can be read back.
-/
namespace Verif.Spec

/-- The names are identifiers, and the numbers can be written: they have 31 bits and are not octal.  All expressions
the assembler reads are like this, except for octal numbers. -/
def Printable : Expr → Prop
  | .name n => Ident n
  | .macroLabel n => ∃ w, Ident w ∧ n = w ++ ['%']
  | .macroArg n => ∃ w, Ident w ∧ n = '%' :: w
  | .number v .decimal => -2 ^ 31 < v ∧ v < 2 ^ 31
  | .number v .hex => 0 ≤ v ∧ v < 2 ^ 31
  | .number v .binary => 0 ≤ v ∧ v < 2 ^ 31
  | .number _ .octal => False
  | .uminus e | .upperByte e | .lowerByte e => Printable e
  | .plus l r | .minus l r | .times l r | .divide l r | .bxor l r | .band l r | .bor l r => Printable l ∧ Printable r

/-- Every name is in lower case and no number is negative.  All expressions the assembler reads are like this. -/
def Normal : Expr → Prop
  | .name n | .macroLabel n | .macroArg n => lower n = n
  | .number v _ => 0 ≤ v
  | .uminus e | .upperByte e | .lowerByte e => Normal e
  | .plus l r | .minus l r | .times l r | .divide l r | .bxor l r | .band l r | .bor l r => Normal l ∧ Normal r

end Verif.Spec
