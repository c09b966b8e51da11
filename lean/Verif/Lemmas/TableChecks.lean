import Verif.Lemmas.Bits
import Verif.Lemmas.Table
import Verif.Spec.InstrSet
/-
Helper lemmas: facts about the instruction table and the codec round trips at the level of
operand lists.
-/
namespace Verif
open Derive

/-- Width of a field in bits. -/
def Spec.Kind.width : Spec.Kind → Nat
  | .i8 => 8 | .d9 => 9 | .ri => 2 | .b3 => 3 | .r8 => 8 | .a12 => 12 | .a16 => 16 | .r16 => 16

/-- Whether a field is read back as a signed number. -/
def Spec.Kind.signed : Spec.Kind → Bool
  | .r8 => true | .r16 => true | _ => false

/-- Operand names with their widths. -/
def Form.widths (f : Form) : List (Char × Nat) :=
  (operandNames (Spec.kinds f).length).zip ((Spec.kinds f).map Spec.Kind.width)

def checkValid (f : Form) : Bool :=
  f.tbl.all (validRanges 8) && decide (1 ≤ f.tbl.length) && decide (f.tbl.length ≤ 3)
   && decide (f.fields.length = (Spec.kinds f).length) && decide (f.fields.length ≤ 3)

def checkRefs (f : Form) : Bool :=
  (f.widths.all fun (n, w) => (List.range w).all fun i =>
    f.tbl.any fun rs => (List.range 8).any fun k => bitAt 8 rs k = some (.ref n i))
  && f.tbl.all fun rs => (List.range 8).all fun k =>
      match bitAt 8 rs k with
      | some (.ref n i) => f.widths.any fun (m, w) => m = n && decide (i < w)
      | some (.lit _) => true
      | none => false

def checkUnique (f : Form) : Bool :=
  (List.range 3).all fun j => (List.range 3).all fun j' =>
    (List.range 8).all fun k => (List.range 8).all fun k' =>
      match (f.tbl[j]?).bind (bitAt 8 · k), (f.tbl[j']?).bind (bitAt 8 · k') with
      | some (.ref n i), some (.ref n' i') => n ≠ n' || i ≠ i' || (j = j' && k = k')
      | _, _ => true

def checkLits (f : Form) : Bool :=
  f.tbl.tail.all fun rs => (List.range 8).all fun k =>
    match bitAt 8 rs k with
    | some (.lit _) => false
    | _ => true

def litsMatch (f : Form) (b : Nat) : Bool :=
  (List.range 8).all fun k =>
    match bitAt 8 (f.tbl.headD []) k with
    | some (.lit v) => b.testBit k == decide (v % 2 = 1)
    | _ => true

def checkOps (f : Form) : Bool :=
  (List.range 256).all fun b => f.opTbl.contains b == litsMatch f b

def checkDisjoint (b : Nat) : Bool := (Form.all.filter fun f => f.opTbl.contains b).length == 1

theorem checkValid_all (f : Form) : checkValid f = true := by
  have : Form.all.all checkValid = true := by decide +kernel
  exact List.all_eq_true.mp this f f.mem_all

theorem checkRefs_all (f : Form) : checkRefs f = true := by
  have : Form.all.all checkRefs = true := by decide +kernel
  exact List.all_eq_true.mp this f f.mem_all

theorem checkUnique_all (f : Form) : checkUnique f = true := by
  have : Form.all.all checkUnique = true := by decide +kernel
  exact List.all_eq_true.mp this f f.mem_all

theorem checkLits_all (f : Form) : checkLits f = true := by
  have : Form.all.all checkLits = true := by decide +kernel
  exact List.all_eq_true.mp this f f.mem_all

theorem checkOps_all (f : Form) : checkOps f = true := by
  have : Form.all.all checkOps = true := by decide +kernel
  exact List.all_eq_true.mp this f f.mem_all

theorem checkDisjoint_all (b : Nat) (h : b < 256) : checkDisjoint b = true := by
  have : (List.range 256).all checkDisjoint = true := by decide +kernel
  exact List.all_eq_true.mp this b (by simpa using h)

end Verif
