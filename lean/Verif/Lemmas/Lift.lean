import Verif.Lemmas.Trace
/-
Lifting: lift_instr.
-/
namespace Verif
open Verif.Spec

theorem IM.from_lt {n : Nat} (h : n < 4) : ∃ m, IM.from n = .ok m ∧ m.index = n := by
  rcases (by omega : n = 0 ∨ n = 1 ∨ n = 2 ∨ n = 3) with rfl | rfl | rfl | rfl <;> exact ⟨_, rfl, rfl⟩

/-- How an operand is written in the listing; `prev` is the value of the operand before it, `label` the address that
gets a label because of this instruction. -/
def liftedOp (names : DNames) (next : Nat) (label : Option Nat) (prev : Int) : Kind → Int → Sum Expr IM → Prop
  | .i8, v, o => o = .inl (.num v)
  | .d9, v, o => o = .inl (memExpr names v)
  | .ri, v, o => ∃ m : IM, o = .inr m ∧ m.index = v
  | .b3, v, o => o = .inl (bitsExpr names prev v)
  | .r8, v, o => o = .inl (labelExpr names (rel8 v next)) ∧ label = some (rel8 v next)
  | .r16, v, o => o = .inl (labelExpr names (rel16 v next)) ∧ label = some (rel16 v next)
  | .a12, v, o => o = .inl (labelExpr names (abs12 next v)) ∧ label = some (abs12 next v)
  | .a16, v, o => (o = .inl (labelExpr names (toUsize v)) ∧ label = some (toUsize v)) ∨ o = .inl (.num (asI32 (toUsize v)))

/-- All operands. -/
def liftedOps (names : DNames) (next : Nat) (label : Option Nat) : Int → List Kind → List Int → List (Sum Expr IM) → Prop
  | _, [], [], [] => True
  | prev, k :: ks, v :: vs, o :: os => liftedOp names next label prev k v o ∧ liftedOps names next label v ks vs os
  | _, _, _, _ => False

theorem lift_spec (pos : Nat) (g : Graph) (names : DNames) (i : Instr Int Nat) (h : InRange i) :
    ∃ l, liftInstr pos g names i = .ok l ∧ l.form = i.form ∧
      liftedOps names (pos + i.size) (labelFor g pos i) 0 (kinds i.form) (values i) (operands l) := by
  cases i
  case Jmpf a =>
    by_cases hf : g.toFlash pos = true
    · simp only [liftInstr, hf, ↓reduceIte]
      exact ⟨_, rfl, rfl, .inr rfl, trivial⟩
    · simp only [liftInstr, hf, Bool.false_eq_true, ↓reduceIte]
      exact ⟨_, rfl, rfl, .inl ⟨rfl, by simp [labelFor, hf]⟩, trivial⟩
  case Callf a => exact ⟨_, rfl, rfl, .inl ⟨rfl, rfl⟩, trivial⟩
  case Mov_Rj a b =>
    simp only [InRange, kinds, row, Instr.form, values, operands, holdsAll, Kind.holds, List.map_cons, List.map_nil] at h
    obtain ⟨m, h1, h2⟩ := IM.from_lt (n := b) (by omega)
    simp only [liftInstr, h1, Res.ok_bind]
    exact ⟨_, rfl, rfl, rfl, ⟨m, rfl, by rw [h2]⟩, trivial⟩
  case Be_Rj a b c =>
    simp only [InRange, kinds, row, Instr.form, values, operands, holdsAll, Kind.holds, List.map_cons, List.map_nil] at h
    obtain ⟨m, h1, h2⟩ := IM.from_lt (n := a) (by omega)
    simp only [liftInstr, h1, Res.ok_bind]
    exact ⟨_, rfl, rfl, ⟨m, rfl, by rw [h2]⟩, rfl, ⟨rfl, rfl⟩, trivial⟩
  case Bne_Rj a b c =>
    simp only [InRange, kinds, row, Instr.form, values, operands, holdsAll, Kind.holds, List.map_cons, List.map_nil] at h
    obtain ⟨m, h1, h2⟩ := IM.from_lt (n := a) (by omega)
    simp only [liftInstr, h1, Res.ok_bind]
    exact ⟨_, rfl, rfl, ⟨m, rfl, by rw [h2]⟩, rfl, ⟨rfl, rfl⟩, trivial⟩
  case Dbnz_Ri a b =>
    simp only [InRange, kinds, row, Instr.form, values, operands, holdsAll, Kind.holds, List.map_cons, List.map_nil] at h
    obtain ⟨m, h1, h2⟩ := IM.from_lt (n := a) (by omega)
    simp only [liftInstr, h1, Res.ok_bind]
    exact ⟨_, rfl, rfl, ⟨m, rfl, by rw [h2]⟩, ⟨rfl, rfl⟩, trivial⟩
  case Add_Ri a | Addc_Ri a | Sub_Ri a | Subc_Ri a | Inc_Ri a | Dec_Ri a | And_Ri a | Or_Ri a | Xor_Ri a | Ld_Ri a
      | St_Ri a | Xch_Ri a =>
    simp only [InRange, kinds, row, Instr.form, values, operands, holdsAll, Kind.holds, List.map_cons, List.map_nil] at h
    obtain ⟨m, h1, h2⟩ := IM.from_lt (n := a) (by omega)
    simp only [liftInstr, h1, Res.ok_bind]
    exact ⟨_, rfl, rfl, ⟨m, rfl, by rw [h2]⟩, trivial⟩
  all_goals first
    | exact ⟨_, rfl, rfl, trivial⟩
    | exact ⟨_, rfl, rfl, rfl, trivial⟩
    | exact ⟨_, rfl, rfl, rfl, rfl, trivial⟩
    | exact ⟨_, rfl, rfl, rfl, rfl, rfl, trivial⟩
    | exact ⟨_, rfl, rfl, ⟨rfl, rfl⟩, trivial⟩
    | exact ⟨_, rfl, rfl, rfl, ⟨rfl, rfl⟩, trivial⟩
    | exact ⟨_, rfl, rfl, rfl, rfl, ⟨rfl, rfl⟩, trivial⟩

end Verif
