import Verif.Model.Asm
import Verif.Spec.Assembly
import Verif.Lemmas.Selects
import Verif.Lemmas.Decode
/-
Helper lemmas: Directive.size against the layout specification.
-/
namespace Verif
open Spec

theorem isDotted_eq (n : Text) : isDotted n = dotted n := by
  cases n with
  | nil => rfl
  | cons c cs =>
    unfold isDotted dotted
    split
    · rename_i h; cases h; rfl
    · rename_i h
      simp only [List.head?_cons, beq_eq_false_iff_ne, ne_eq, Option.some.injEq]
      intro hc
      exact h cs (by rw [hc])

theorem byteCount_eq (vs : List ByteValue) : (vs.map ByteValue.count).sum = byteCount vs := by
  induction vs with
  | nil => rfl
  | cons v vs ih =>
    cases v <;> simp [byteCount, ByteValue.count, ih]

theorem wrap32_nat {n : Nat} (h : n < 2147483648) : wrap32 n = n := by
  unfold wrap32; omega

theorem norm_nat (m : Mode) {n : Nat} (h : n < 2147483648) : m.norm n = .ok (n : Int) :=
  m.norm_of_inI32 (by unfold inI32; omega)

theorem norm_int (m : Mode) {v : Int} (h1 : -2147483648 ≤ v) (h2 : v ≤ 2147483647) : m.norm v = .ok v :=
  m.norm_of_inI32 ⟨h1, h2⟩

theorem leastMultiple_dvd {k : Nat} (hk : 0 < k) (p : Nat) : ∃ t, leastMultiple k p = k * t := by
  unfold leastMultiple
  have h := Nat.div_add_mod p k
  split
  · exact ⟨p / k, by omega⟩
  · have := Nat.mod_lt p hk
    exact ⟨p / k + 1, by rw [Nat.mul_add]; omega⟩

theorem le_leastMultiple (k p : Nat) : p ≤ leastMultiple k p := by
  unfold leastMultiple; split <;> omega

theorem leastMultiple_le {k p t : Nat} (hk : 0 < k) (h : p ≤ k * t) : leastMultiple k p ≤ k * t := by
  unfold leastMultiple
  split
  · exact h
  · rename_i hm
    have h1 := Nat.div_add_mod p k
    have h2 := Nat.mod_lt p hk
    have h3 : p / k < t := by
      apply Nat.lt_of_not_le
      intro hle
      have := Nat.mul_le_mul_left k hle
      omega
    have := Nat.mul_le_mul_left k (show p / k + 1 ≤ t from h3)
    rw [Nat.mul_add] at this
    omega

theorem cnopLoop_eq (m : Mode) {k p : Nat} (hk : 0 < k) (hL : leastMultiple k p < 2147483648) :
    ∀ (fuel t : Nat), k * t ≤ leastMultiple k p → leastMultiple k p < k * t + fuel →
      cnopLoop m p k fuel ((k * t : Nat) : Int) = .ok ((leastMultiple k p : Nat) : Int) := by
  intro fuel
  induction fuel with
  | zero => intro t h1 h2; omega
  | succ fuel ih =>
    intro t h1 h2
    unfold cnopLoop
    by_cases hp : p ≤ k * t
    · rw [if_pos (by omega)]
      have := leastMultiple_le hk hp
      congr 2
      omega
    · rw [if_neg (by omega)]
      obtain ⟨s, hs⟩ := leastMultiple_dvd hk p
      have hle := le_leastMultiple k p
      have hst : t < s := by
        apply Nat.lt_of_not_le
        intro hle'
        have := Nat.mul_le_mul_left k hle'
        omega
      have h3 := Nat.mul_le_mul_left k (show t + 1 ≤ s from hst)
      have e : ((k * t : Nat) : Int) + (k : Int) = ((k * (t + 1) : Nat) : Int) := by
        rw [Nat.mul_add, Nat.mul_one]; omega
      have hb : k * (t + 1) ≤ leastMultiple k p := by omega
      rw [e, norm_nat m (by omega), Res.ok_bind]
      apply ih (t + 1) hb
      rw [Nat.mul_add, Nat.mul_one]; omega

/-- The shape of a `.cnop` that can be laid out. -/
theorem cnop_shape {p p' : Nat} {a k : Expr} (h : advance p (.dir (.cnop a k)) = some p') :
    ∃ (x y : Int) (rx ry : Radix), a = .number x rx ∧ k = .number y ry ∧ 0 ≤ x ∧ 0 ≤ y ∧
      p' = if y = 0 then x.toNat else leastMultiple y.toNat p + x.toNat := by
  unfold advance at h
  split at h <;> try (first | cases h; done | (rename_i h2; cases h2; done))
  rename_i x rx y ry heq
  cases heq
  refine ⟨x, y, rx, ry, rfl, rfl, ?_⟩
  split at h
  · cases h
  · rename_i hneg
    split at h
    · rename_i hz
      simp only [Option.some.injEq] at h
      exact ⟨by omega, by omega, by rw [if_pos hz]; exact h.symm⟩
    · rename_i hz
      simp only [Option.some.injEq] at h
      exact ⟨by omega, by omega, by rw [if_neg hz]; exact h.symm⟩

theorem evalCnop_eq (m : Mode) {p p' : Nat} {a k : Expr} (h : advance p (.dir (.cnop a k)) = some p')
    (hp' : p' < 2147483648) : evalCnop m p a k = .ok (p' : Int) := by
  obtain ⟨x, y, rx, ry, rfl, rfl, hx, hy, rfl⟩ := cnop_shape h
  unfold evalCnop
  simp only [evalCnopExpr, Res.ok_bind]
  split
  · rename_i hz; congr 1; omega
  · rename_i hz
    rw [if_neg hz] at hp'
    have hk : 0 < y.toNat := by omega
    have := cnopLoop_eq m (k := y.toNat) (p := p) hk (by omega) cnopFuel 0 (by omega) (by unfold cnopFuel; omega)
    rw [show ((y.toNat : Nat) : Int) = y by omega] at this
    simp only [Nat.mul_zero, Int.ofNat_zero] at this
    rw [this, Res.ok_bind]
    rw [show ((leastMultiple y.toNat p : Nat) : Int) + x = ((leastMultiple y.toNat p + x.toNat : Nat) : Int) by omega]
    exact norm_nat m hp'

theorem dir_size (m : Mode) {p p' : Nat} {d : Directive} (h : advance p (.dir d) = some p')
    (hp : p < 2147483648) (hp' : p' < 2147483648) : d.size m p = .ok ((p' : Int) - p) := by
  cases d with
  | byte vs =>
    simp only [advance, Option.some.injEq] at h
    simp only [Directive.size, byteCount_eq]
    rw [wrap32_nat (by omega)]
    congr 1; omega
  | org n =>
    simp only [advance, Option.some.injEq] at h
    subst h
    simp only [Directive.size]
    rw [wrap32_nat hp', norm_int m (by omega) (by omega)]
  | word es =>
    simp only [advance, Option.some.injEq] at h
    simp only [Directive.size]
    rw [wrap32_nat (by omega)]
    congr 1; omega
  | text n bs =>
    simp only [advance, Option.some.injEq] at h
    simp only [Directive.size]
    rw [wrap32_nat (by omega)]
    congr 1; omega
  | string n bs =>
    simp only [advance, Option.some.injEq] at h
    simp only [Directive.size]
    rw [wrap32_nat (by omega)]
    congr 1; omega
  | incl t path => simp [advance] at h
  | cnop a k =>
    simp only [Directive.size]
    rw [evalCnop_eq m h hp', Res.ok_bind, norm_int m (by omega) (by omega)]

theorem dir_pos (m : Mode) {p p' : Nat} {d : Directive} (h : advance p (.dir d) = some p')
    (hp : p < 2147483648) (hp' : p' < 2147483648) {α : Type} (f : Int → Res α) :
    (do let size ← d.size m p; let pos ← m.norm (p + size); f pos) = f p' := by
  rw [dir_size m h hp hp', Res.ok_bind, show (p : Int) + ((p' : Int) - p) = p' by omega,
    norm_nat m hp', Res.ok_bind]

theorem instr_size (i : Instr Expr IM) : (row i.form).size = i.size := by
  rw [docSize_eq, size_eq]

theorem instr_pos (m : Mode) {p p' : Nat} {i : Instr Expr IM} (h : advance p (.instr i) = some p')
    (hp' : p' < 2147483648) {α : Type} (f : Int → Res α) :
    (do let pos ← m.norm ((p : Int) + i.size); f pos) = f p' := by
  simp only [advance, Option.some.injEq, instr_size] at h
  rw [show (p : Int) + (i.size : Int) = (p' : Int) by omega, norm_nat m hp', Res.ok_bind]

/-- Splitting a layout. -/
theorem place_cons {p : Nat} {sc : Text} {x : Stmt} {xs : List Stmt} {ps : List Placed}
    (h : place p sc (x :: xs) = some ps) :
    ∃ p' rest, advance p x = some p' ∧ place p' (nextScope sc x) xs = some rest ∧
      ps = ⟨p, sc, x⟩ :: rest := by
  unfold place at h
  split at h
  · cases h
  · rename_i p' hp'
    split at h
    · cases h
    · rename_i rest hr
      cases h
      exact ⟨p', rest, hp', hr, rfl⟩

theorem end_eq {p p' : Nat} {sc : Text} {x : Stmt} (h : advance p x = some p') :
    (⟨p, sc, x⟩ : Placed).end_ = p' := by
  simp [Placed.end_, h]

theorem nextScope_nonlabel {sc : Text} {x : Stmt} (h : ∀ n, x ≠ .label n) : nextScope sc x = sc := by
  cases x <;> simp [nextScope] at *

end Verif
