import Verif.Lemmas.Located.Erase
import Verif.Spec.InstrSet
/-
Helper definitions: evaluation of instruction operands, with places.
-/
namespace Verif.Located
open Verif.Spec

/-- Evaluating one operand to its field, as `evalInstrIn` does for each kind. -/
def evalField (m : Mode) (env : Env) (next : Nat) : Kind → Sum Expr IM → Res Int
  | .i8, .inl e => evalBits m env 8 e
  | .d9, .inl e => evalBits m env 9 e
  | .b3, .inl e => evalBits m env 3 e
  | .r8, .inl e => evalRel8 m env next e
  | .a12, .inl e => evalAbs12 m env next e
  | .a16, .inl e => evalBits m env 16 e
  | .r16, .inl e => evalRel16 m env next e
  | .ri, .inr r => .ok r.index
  | _, _ => .panic

def evalFields (m : Mode) (env : Env) (next : Nat) : List Kind → List (Sum Expr IM) → Res (List Int)
  | k :: ks, o :: os => do
    let x ← evalField m env next k o
    let xs ← evalFields m env next ks os
    .ok (x :: xs)
  | _, _ => .ok []

end Verif.Located
