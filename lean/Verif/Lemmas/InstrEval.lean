import Verif.Lemmas.EvalCases
/-
Helper lemmas: evaluating an operand succeeds exactly when the operand is representable.
-/
namespace Verif
open Spec

theorem evalIn_ok {m : Mode} {env : Env} {next : Nat} {e : Instr Expr IM} {i : Instr Int Nat} :
    e.evalIn m env next = .ok i →
      evalFields m env next (kinds e.form) (operands e) = .ok i.vals ∧ i.form = e.form := by
  intro h
  have := evalIn_eq m env next e
  rw [h, Res.ok_bind] at this
  obtain ⟨xs, h1, h2⟩ := Res.bind_eq_ok.mp this.symm
  simp only [Res.ok.injEq, Prod.mk.injEq] at h2
  exact ⟨by rw [h1, h2.2], h2.1.symm⟩

theorem evalFields_ok {m : Mode} {env : Env} {next : Nat} {e : Instr Expr IM} {xs : List Int}
    (h : evalFields m env next (kinds e.form) (operands e) = .ok xs) :
    ∃ i, e.evalIn m env next = .ok i ∧ i.vals = xs ∧ i.form = e.form := by
  have := evalIn_eq m env next e
  rw [h, Res.ok_bind] at this
  obtain ⟨i, h1, h2⟩ := Res.bind_eq_ok.mp this
  simp only [Res.ok.injEq, Prod.mk.injEq] at h2
  exact ⟨i, h1, h2.2, h2.1⟩

theorem evalFields_err {m : Mode} {env : Env} {next : Nat} {e : Instr Expr IM} {er : Err}
    (h : evalFields m env next (kinds e.form) (operands e) = .err er) :
    e.evalIn m env next = .err er := by
  have := evalIn_eq m env next e
  rw [h, Res.err_bind] at this
  rcases Res.bind_eq_err.mp this with h1 | ⟨i, h1, h2⟩
  · exact h1
  · cases h2

/-- Operand and kind agree on being an indirection mode. -/
def shapeOk : Kind → Sum Expr IM → Bool
  | .ri, .inr _ => true
  | .ri, .inl _ => false
  | _, .inl _ => true
  | _, .inr _ => false

def shapesOk : List Kind → List (Sum Expr IM) → Bool
  | [], [] => true
  | k :: ks, o :: os => shapeOk k o && shapesOk ks os
  | _, _ => false

theorem shapes (e : Instr Expr IM) : shapesOk (kinds e.form) (operands e) = true := by
  cases e <;> rfl

theorem shiftRight_eq_zero {v : Int} (n : Nat) : v >>> n = 0 ↔ 0 ≤ v ∧ v < 2 ^ n := by
  rw [Int.shiftRight_eq_div_pow]
  have hp : (0 : Int) < ((2 ^ n : Nat) : Int) := by exact_mod_cast Nat.two_pow_pos n
  have he : ((2 ^ n : Nat) : Int) = (2 : Int) ^ n := by norm_cast
  rw [← he]
  generalize ((2 ^ n : Nat) : Int) = p at *
  constructor
  · intro h
    have h1 := Int.emod_add_mul_ediv v p
    rw [h] at h1
    have h2 := Int.emod_nonneg v (b := p) (by omega)
    have h3 := Int.emod_lt_of_pos v hp
    simp only [Int.mul_zero, Int.add_zero] at h1
    omega
  · rintro ⟨h1, h2⟩
    exact Int.ediv_eq_zero_of_lt h1 h2

theorem evalBits_eq {m : Mode} {env : Env} {n : Nat} {e : Expr} {v : Int} (h : e.eval m env = .ok v) :
    evalBits m env n e = if 0 ≤ v ∧ v < 2 ^ n then .ok v else .err (.numOutOfRange n v) := by
  unfold evalBits
  rw [h, Res.ok_bind]
  by_cases hv : 0 ≤ v ∧ v < 2 ^ n
  · rw [if_pos hv, if_neg]; simp [(shiftRight_eq_zero n).mpr hv]
  · rw [if_neg hv, if_pos]
    intro h'; exact hv ((shiftRight_eq_zero n).mp h')

theorem and_top (x : Nat) : x &&& 0xF000 = (x % 65536) / 4096 * 4096 := by
  have h1 : (0xF000 : Nat) = 15 <<< 12 := rfl
  apply Nat.eq_of_testBit_eq
  intro i
  have e : (65536 : Nat) = 2 ^ 16 := rfl
  have e2 : (4096 : Nat) = 2 ^ 12 := rfl
  have e15 : (15 : Nat) = 2 ^ 4 - 1 := rfl
  rw [Nat.testBit_and, h1, Nat.testBit_shiftLeft, e, e2, ← Nat.shiftRight_eq_div_pow,
    ← Nat.shiftLeft_eq, Nat.testBit_shiftLeft, Nat.testBit_shiftRight, Nat.testBit_mod_two_pow, e15,
    Nat.testBit_two_pow_sub_one]
  by_cases h : 12 ≤ i
  · have e3 : 12 + (i - 12) = i := by omega
    rw [e3]
    by_cases h2 : i < 16
    · have : i - 12 < 4 := by omega
      simp [h, h2, this]
    · have : ¬ i - 12 < 4 := by omega
      simp [h2, this]
  · simp [h]

theorem and_low (x : Nat) : x &&& 0x0FFF = x % 4096 := by
  have : (0x0FFF : Nat) = 2 ^ 12 - 1 := rfl
  rw [this, Nat.and_two_pow_sub_one_eq_mod]

/-- Evaluating an operand of value `v` gives its field if it is representable, and a range error
otherwise. -/
theorem evalField_spec {m : Mode} {env : Env} {next : Nat} (hn : next < 2147483648) {k : Kind}
    {o : Sum Expr IM} (hs : shapeOk k o = true) {v : Int} (h : operandValue m env o = .ok v) :
    match k.field next v with
    | some x => evalField m env next k o = .ok x
    | none => ∃ er, evalField m env next k o = .err er ∧ isRangeError er = true := by
  have hw : wrap32 (next : Int) = next := by unfold wrap32; omega
  cases o with
  | inr r =>
    cases k <;> simp only [shapeOk, Bool.false_eq_true] at hs
    simp only [operandValue, Res.ok.injEq] at h
    subst h
    simp only [Kind.field, evalField]
    have : (0 : Int) ≤ r.index ∧ (r.index : Int) < 4 := by cases r <;> decide
    rw [if_pos this]
  | inl e =>
    simp only [operandValue] at h
    cases k with
    | ri => simp [shapeOk] at hs
    | i8 =>
      simp only [Kind.field, evalField, evalBits_eq h]
      have e2 : (2 : Int) ^ 8 = 256 := rfl
      rw [e2]
      by_cases hv : 0 ≤ v ∧ v < 256
      · simp [hv]
      · simp only [hv, if_false]; exact ⟨_, rfl, rfl⟩
    | d9 =>
      simp only [Kind.field, evalField, evalBits_eq h]
      have e2 : (2 : Int) ^ 9 = 512 := rfl
      rw [e2]
      by_cases hv : 0 ≤ v ∧ v < 512
      · simp [hv]
      · simp only [hv, if_false]; exact ⟨_, rfl, rfl⟩
    | b3 =>
      simp only [Kind.field, evalField, evalBits_eq h]
      have e2 : (2 : Int) ^ 3 = 8 := rfl
      rw [e2]
      by_cases hv : 0 ≤ v ∧ v < 8
      · simp [hv]
      · simp only [hv, if_false]; exact ⟨_, rfl, rfl⟩
    | a16 =>
      simp only [Kind.field, evalField, evalBits_eq h]
      have e2 : (2 : Int) ^ 16 = 65536 := rfl
      rw [e2]
      by_cases hv : 0 ≤ v ∧ v < 65536
      · simp [hv]
      · simp only [hv, if_false]; exact ⟨_, rfl, rfl⟩
    | a12 =>
      simp only [Kind.field, evalField, evalAbs12, evalBits_eq h]
      have e2 : (2 : Int) ^ 16 = 65536 := rfl
      rw [e2]
      by_cases hv : 0 ≤ v ∧ v < 65536
      · obtain ⟨n, rfl⟩ := Int.eq_ofNat_of_zero_le hv.1
        simp only [hv, and_self, if_true, true_and, Res.ok_bind, Int.toNat_natCast, and_top, and_low]
        have hn : n % 65536 = n := by omega
        rw [hn]
        by_cases hp : n / 4096 = next % 65536 / 4096
        · rw [if_pos (by omega)]
          simp only [hp, ne_eq, not_true_eq_false, if_false]
          congr 1
        · rw [if_neg (by omega)]
          rw [if_pos (by omega)]
          exact ⟨_, rfl, rfl⟩
      · simp only [hv, if_false, false_and, Res.err_bind]; exact ⟨_, rfl, rfl⟩
    | r8 =>
      simp only [Kind.field, evalField, evalRel8, h, Res.ok_bind, hw]
      by_cases hv : 0 ≤ v ∧ v < 65536
      · have hv' : 0 ≤ v ∧ v ≤ 65535 := by omega
        rw [if_pos hv', Mode.norm_of_inI32 _ (by unfold inI32; omega), Res.ok_bind]
        by_cases hd : -128 ≤ v - next ∧ v - next < 128
        · rw [if_pos ⟨hv, hd⟩, if_pos (by omega)]
        · rw [if_neg (fun h => hd h.2), if_neg (by omega)]; exact ⟨_, rfl, rfl⟩
      · rw [if_neg (fun h => hv h.1), if_neg (by omega)]; exact ⟨_, rfl, rfl⟩
    | r16 =>
      simp only [Kind.field, evalField, evalRel16, h, Res.ok_bind, hw]
      by_cases hv : 0 ≤ v ∧ v < 65536
      · have hv' : 0 ≤ v ∧ v ≤ 65535 := by omega
        rw [if_pos hv', Mode.norm_of_inI32 _ (by unfold inI32; omega), Res.ok_bind,
          Mode.norm_of_inI32 _ (by unfold inI32; omega), Res.ok_bind]
        have ea : v - (next : Int) + 1 = v - ((next : Int) - 1) := by omega
        rw [ea]
        by_cases hd : -32768 ≤ v - ((next : Int) - 1) ∧ v - ((next : Int) - 1) < 32768
        · rw [if_pos ⟨hv, hd⟩, if_pos (by omega)]
        · rw [if_neg (fun h => hd h.2), if_neg (by omega)]; exact ⟨_, rfl, rfl⟩
      · rw [if_neg (fun h => hv h.1), if_neg (by omega)]; exact ⟨_, rfl, rfl⟩

/-- If an operand's field is computed, the operand has a value. -/
theorem evalField_value {m : Mode} {env : Env} {next : Nat} {k : Kind} {o : Sum Expr IM} {x : Int}
    (h : evalField m env next k o = .ok x) : ∃ v, operandValue m env o = .ok v := by
  cases o with
  | inr r => exact ⟨_, rfl⟩
  | inl e =>
    simp only [operandValue]
    cases k <;> simp only [evalField, evalBits, evalRel8, evalAbs12, evalRel16] at h
    case ri => cases h
    case a12 =>
      obtain ⟨a, h1, -⟩ := Res.bind_eq_ok.mp h
      obtain ⟨b, h2, -⟩ := Res.bind_eq_ok.mp h1
      exact ⟨b, h2⟩
    all_goals
      obtain ⟨a, h1, -⟩ := Res.bind_eq_ok.mp h
      exact ⟨a, h1⟩

theorem evalFields_spec {m : Mode} {env : Env} {next : Nat} (hn : next < 2147483648) :
    ∀ (ks : List Kind) (os : List (Sum Expr IM)) (vs : List Int), shapesOk ks os = true →
      OperandValues m env os vs →
      match fields next ks vs with
      | some xs => evalFields m env next ks os = .ok xs
      | none => ∃ er, evalFields m env next ks os = .err er ∧ isRangeError er = true
  | [], [], [], _, _ => rfl
  | k :: ks, o :: os, v :: vs, hs, hv => by
    simp only [shapesOk, Bool.and_eq_true] at hs
    have h1 := evalField_spec (m := m) (env := env) hn hs.1 hv.1
    have h2 := evalFields_spec hn ks os vs hs.2 hv.2
    unfold fields evalFields
    cases hf : k.field next v with
    | none =>
      rw [hf] at h1
      obtain ⟨er, h1, h3⟩ := h1
      simp only [h1, Res.err_bind]
      exact ⟨er, rfl, h3⟩
    | some x =>
      rw [hf] at h1
      simp only [h1, Res.ok_bind]
      cases hg : fields next ks vs with
      | none =>
        rw [hg] at h2
        obtain ⟨er, h2, h3⟩ := h2
        simp only [h2, Res.err_bind]
        exact ⟨er, rfl, h3⟩
      | some xs =>
        rw [hg] at h2
        simp only [h2, Res.ok_bind]

theorem evalFields_values {m : Mode} {env : Env} {next : Nat} :
    ∀ (ks : List Kind) (os : List (Sum Expr IM)) (xs : List Int), shapesOk ks os = true →
      evalFields m env next ks os = .ok xs → ∃ vs, OperandValues m env os vs
  | [], [], _, _, _ => ⟨[], trivial⟩
  | k :: ks, o :: os, xs, hs, h => by
    simp only [shapesOk, Bool.and_eq_true] at hs
    unfold evalFields at h
    obtain ⟨x, h1, h2⟩ := Res.bind_eq_ok.mp h
    obtain ⟨ys, h3, h4⟩ := Res.bind_eq_ok.mp h2
    obtain ⟨v, hv⟩ := evalField_value h1
    obtain ⟨vs, hvs⟩ := evalFields_values ks os ys hs.2 h3
    exact ⟨v :: vs, hv, hvs⟩

/-- Fields given by the specification fit. -/
theorem field_holds {k : Kind} {next : Nat} {v x : Int} (h : k.field next v = some x) : k.holds x := by
  cases k <;> simp only [Kind.field] at h <;> split at h <;>
    simp only [Option.some.injEq, reduceCtorEq] at h <;> subst h <;> simp only [Kind.holds] <;> omega

theorem fields_holds {next : Nat} : ∀ (ks : List Kind) (vs xs : List Int),
    fields next ks vs = some xs → holdsAll ks xs
  | [], [], xs, h => by simp only [fields, Option.some.injEq] at h; subst h; trivial
  | k :: ks, v :: vs, xs, h => by
    unfold fields at h
    split at h
    · rename_i x ys h1 h2
      simp only [Option.some.injEq] at h
      subst h
      exact ⟨field_holds h1, fields_holds ks vs ys h2⟩
    · cases h
  | [], _ :: _, _, h => by simp [fields] at h
  | _ :: _, [], _, h => by simp [fields] at h

end Verif
