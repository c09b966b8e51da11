import Verif.Spec.Disasm
import Verif.Spec.Assembly
/-
Specification for assembling a listing again.
-/
namespace Verif.Spec

/-- The line stands for bytes of the binary, the last of them before position `e`. -/
def EndsBefore (d : DStmt) (e : Nat) : Prop :=
  ∃ p, d.pos = some p ∧ ((∃ i, d.stmt = .instr i ∧ e = p + (row i.form).size) ∨ ∃ bs, d.stmt = .dir (.byte bs) ∧ e = p + bs.length)

/-- The last line that stands for bytes ends before position `e`; 0 if there is none. -/
def ContentEnd (out : List DStmt) (e : Nat) : Prop :=
  (∀ d ∈ out, ∀ x, EndsBefore d x → x ≤ e) ∧ (e = 0 ∨ ∃ d ∈ out, EndsBefore d e)

/-- No two instructions of the listing share a byte. -/
def NoOverlap (bytes : List UInt8) (out : List DStmt) : Prop :=
  ∀ p q i, ListedAt out p → ListedAt out q → p < q → InstrAt bytes p i → p + i.size ≤ q

/-- Every address that a listed instruction jumps to, branches to or calls is that of a listed instruction, or the
instruction goes to another memory. -/
def TargetsListed (bytes : List UInt8) (out : List DStmt) : Prop :=
  ∀ p i, ListedAt out p → InstrAt bytes p i → ∀ t : Int, Target p i t → (∃ q : Nat, t = q ∧ ListedAt out q) ∨
    (2 ≤ p ∧ ListedAt out (p - 2) ∧ ∃ j, InstrAt bytes (p - 2) j ∧ toOtherMemory j i)

/-- The bytes, cut or filled with zeros to the length `n`. -/
def sized (n : Nat) (bytes : List UInt8) : List UInt8 := bytes.take n ++ List.replicate (n - bytes.length) 0

end Verif.Spec
