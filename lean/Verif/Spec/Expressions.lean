import Verif.Model.Expr
import Verif.Spec.InstrSet
/-
Specification: the value of an expression, as a relation over the unbounded integers, and the
reasons for which it may have none.  `env` gives the values of (lower-case) names.
-/
namespace Verif.Spec

/-- `r` is the result a 32-bit machine gives for an arithmetic operation with mathematical result
`v`: in a checked build `v` itself, provided it fits; in a wrapping build the 32-bit number
congruent to `v`. -/
def Fit : Mode → Int → Int → Prop
  | .checked, v, r => r = v ∧ -2147483648 ≤ v ∧ v ≤ 2147483647
  | .wrapping, v, r => (-2147483648 ≤ r ∧ r ≤ 2147483647) ∧ ∃ k : Int, v = r + k * 4294967296

/-- `r` is the bitwise combination by `op` of `a` and `b`, in two's complement of unlimited width. -/
def Bitwise (op : Bool → Bool → Bool) (a b r : Int) : Prop :=
  ∀ i, intBit r i = op (intBit a i) (intBit b i)

/-- The quotient rounded toward zero. -/
def Quotient (a b q : Int) : Prop :=
  ∃ r, a = b * q + r ∧ r.natAbs < b.natAbs ∧ (0 ≤ a → 0 ≤ r) ∧ (a ≤ 0 → r ≤ 0)

/-- `Value m env e v`: the expression has value `v`. -/
inductive Value (m : Mode) (env : Text → Option Int) : Expr → Int → Prop where
  | number {v radix} : Value m env (.number v radix) v
  | name {n v} : env (lower n) = some v → Value m env (.name n) v
  | plus {l r a b v} : Value m env l a → Value m env r b → Fit m (a + b) v → Value m env (.plus l r) v
  | minus {l r a b v} : Value m env l a → Value m env r b → Fit m (a - b) v → Value m env (.minus l r) v
  | times {l r a b v} : Value m env l a → Value m env r b → Fit m (a * b) v → Value m env (.times l r) v
  | uminus {e a v} : Value m env e a → Fit m (-a) v → Value m env (.uminus e) v
  | divide {l r a b v} : Value m env l a → Value m env r b → b ≠ 0 → Quotient a b v →
      (-2147483648 ≤ v ∧ v ≤ 2147483647) → Value m env (.divide l r) v
  | upperByte {e a} : Value m env e a → Value m env (.upperByte e) (a / 256 % 256)
  | lowerByte {e a} : Value m env e a → Value m env (.lowerByte e) (a % 256)
  | bxor {l r a b v} : Value m env l a → Value m env r b → Bitwise xor a b v → Value m env (.bxor l r) v
  | band {l r a b v} : Value m env l a → Value m env r b → Bitwise and a b v → Value m env (.band l r) v
  | bor {l r a b v} : Value m env l a → Value m env r b → Bitwise or a b v → Value m env (.bor l r) v

/-- The operands of a binary expression. -/
def binary : Expr → Option (Expr × Expr)
  | .plus l r | .minus l r | .times l r | .divide l r | .bxor l r | .band l r | .bor l r => some (l, r)
  | _ => none

/-- The operand of a unary expression. -/
def unary : Expr → Option Expr
  | .uminus e | .upperByte e | .lowerByte e => some e
  | _ => none

/-- `Fails m env e er`: reading operands left to right, the first problem met is `er`. -/
inductive Fails (m : Mode) (env : Text → Option Int) : Expr → Err → Prop where
  | name {n} : env (lower n) = none → Fails m env (.name n) (.nameNotFound n)
  | macroLabel {n} : Fails m env (.macroLabel n) (.macroLabelOutsideOfMacro n)
  | macroArg {n} : Fails m env (.macroArg n) (.macroArgOutsideOfMacro n)
  | zero {l r a} : Value m env l a → Value m env r 0 → Fails m env (.divide l r) (.divideByZero a)
  | left {e l r er} : binary e = some (l, r) → Fails m env l er → Fails m env e er
  | right {e l r a er} : binary e = some (l, r) → Value m env l a → Fails m env r er → Fails m env e er
  | under {e x er} : unary e = some x → Fails m env x er → Fails m env e er

/-- `Overflows m env e`: the first problem met is an operation on values whose result has no 32-bit
representation. -/
inductive Overflows (m : Mode) (env : Text → Option Int) : Expr → Prop where
  | here {e l r a b} : binary e = some (l, r) → Value m env l a → Value m env r b →
      (¬ ∃ v, Value m env e v) → ¬ (b = 0 ∧ e = .divide l r) → Overflows m env e
  | hereU {e x a} : unary e = some x → Value m env x a → (¬ ∃ v, Value m env e v) → Overflows m env e
  | left {e l r} : binary e = some (l, r) → Overflows m env l → Overflows m env e
  | right {e l r a} : binary e = some (l, r) → Value m env l a → Overflows m env r → Overflows m env e
  | under {e x} : unary e = some x → Overflows m env x → Overflows m env e

/-- All literals of the expression are 32-bit numbers, as the type of the code guarantees. -/
def Literals32 : Expr → Prop
  | .number v _ => -2147483648 ≤ v ∧ v ≤ 2147483647
  | .plus l r | .minus l r | .times l r | .divide l r | .bxor l r | .band l r | .bor l r =>
    Literals32 l ∧ Literals32 r
  | .uminus e | .upperByte e | .lowerByte e => Literals32 e
  | .name _ | .macroLabel _ | .macroArg _ => True

/-- All values of the environment are 32-bit numbers. -/
def Env32 (env : Text → Option Int) : Prop :=
  ∀ n v, env n = some v → -2147483648 ≤ v ∧ v ≤ 2147483647

/-- `Occurs n e`: the name `n` is written in `e`. -/
inductive Occurs (n : Text) : Expr → Prop where
  | name : Occurs n (.name n)
  | left {e l r} : binary e = some (l, r) → Occurs n l → Occurs n e
  | right {e l r} : binary e = some (l, r) → Occurs n r → Occurs n e
  | under {e x} : unary e = some x → Occurs n x → Occurs n e

end Verif.Spec
