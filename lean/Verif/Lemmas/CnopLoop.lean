import Verif.Lemmas.AsmMore
import Mathlib.Data.Int.GCD
import Mathlib.Data.Nat.Prime.Basic
import Mathlib.Tactic.Ring
/-
The search for a multiple in `.cnop`: when it ends.
-/
namespace Verif
open Spec

theorem wrapping_norm (v : Int) : Mode.wrapping.norm v = .ok (wrap32 v) := by
  unfold Mode.norm
  split
  · rename_i h
    unfold inI32 at h
    rw [show wrap32 v = v by unfold wrap32; omega]
  · rfl

theorem wrap32_add (x k : Int) : wrap32 (wrap32 x + k) = wrap32 (x + k) := by unfold wrap32; omega

theorem cnopLoop_wrapping (p k : Int) : ∀ (fuel : Nat) (x : Int),
    cnopLoop .wrapping p k fuel (wrap32 x) = .loop ↔ ∀ s < fuel, wrap32 (x + (s : Int) * k) < p
  | 0, x => by simp [cnopLoop]
  | fuel + 1, x => by
    rw [cnopLoop]
    split
    · rename_i h
      refine ⟨nofun, fun h' => ?_⟩
      have := h' 0 (by omega)
      simp at this
      omega
    · rename_i h
      rw [wrapping_norm, Res.ok_bind, wrap32_add, cnopLoop_wrapping p k fuel]
      constructor
      · intro h1 s hs
        cases s with
        | zero => simp; omega
        | succ s =>
          have := h1 s (by omega)
          rwa [show x + k + (s : Int) * k = x + ((s + 1 : Nat) : Int) * k by
            rw [Int.natCast_add, Int.add_mul]; omega] at this
      · intro h1 s hs
        have := h1 (s + 1) (by omega)
        rwa [show x + ((s + 1 : Nat) : Int) * k = x + k + (s : Int) * k by
            rw [Int.natCast_add, Int.add_mul]; omega] at this

/-- The multiples repeat after 2^32 steps. -/
theorem wrap32_period (k : Int) (s : Nat) : wrap32 ((s : Int) * k) = wrap32 (((s % 4294967296 : Nat) : Int) * k) := by
  have e : (s : Int) = 4294967296 * ((s / 4294967296 : Nat) : Int) + ((s % 4294967296 : Nat) : Int) := by omega
  have e' : (s : Int) * k = 4294967296 * (((s / 4294967296 : Nat) : Int) * k) + ((s % 4294967296 : Nat) : Int) * k := by
    rw [← Int.mul_assoc, ← Int.add_mul, ← e]
  rw [e']
  generalize ((s / 4294967296 : Nat) : Int) * k = a
  generalize ((s % 4294967296 : Nat) : Int) * k = b
  unfold wrap32
  omega

theorem cnopLoop_hangs_iff (p k : Int) {fuel : Nat} (hf : 4294967296 ≤ fuel) :
    cnopLoop .wrapping p k fuel 0 = .loop ↔ ∀ s : Nat, wrap32 ((s : Int) * k) < p := by
  have := cnopLoop_wrapping p k fuel 0
  rw [show wrap32 0 = 0 by decide] at this
  rw [this]
  simp only [Int.zero_add]
  refine ⟨fun h s => ?_, fun h s _ => h s⟩
  rw [wrap32_period]
  exact h _ (by have := Nat.mod_lt s (show 0 < 4294967296 by decide); omega)

theorem cnopLoop_more (m : Mode) (p k : Int) : ∀ (fuel n : Nat) (x : Int), cnopLoop m p k fuel x ≠ .loop →
    cnopLoop m p k (fuel + n) x = cnopLoop m p k fuel x
  | 0, n, x => fun h => absurd rfl h
  | fuel + 1, n, x => by
    intro h
    rw [Nat.succ_add, cnopLoop]
    rw [cnopLoop] at h
    rw [cnopLoop]
    split
    · rfl
    · rename_i hlt
      rw [if_neg hlt] at h
      cases hn : m.norm (x + k) with
      | ok v =>
        rw [hn, Res.ok_bind] at h
        rw [Res.ok_bind, Res.ok_bind]
        exact cnopLoop_more m p k fuel n v h
      | err e => rfl
      | panic => rfl
      | loop => rfl

theorem cnopLoop_down {k : Int} (hk : k < 0) (p : Int) : ∀ (fuel : Nat) (mult : Int), -2147483648 ≤ mult →
    mult < fuel - 2147483648 → cnopLoop .checked p k fuel mult ≠ .loop
  | 0, mult, h0, h1 => by omega
  | fuel + 1, mult, h0, h1 => by
    intro h
    unfold cnopLoop at h
    split at h
    · cases h
    · rcases Res.bind_eq_loop.mp h with h | ⟨next, hn, h⟩
      · exact norm_ne_loop _ _ h
      · obtain ⟨rfl, h2, h3⟩ := checked_norm hn
        exact cnopLoop_down hk p fuel _ (by omega) (by omega) h

/-- Nothing changes after 2^32 steps. -/
theorem cnopLoop_fuel (m : Mode) (p : Int) {k : Int} (hk : k ≠ 0) {n : Nat} (hn : cnopFuel ≤ n) :
    cnopLoop m p k n 0 = cnopLoop m p k cnopFuel 0 := by
  by_cases h : cnopLoop m p k cnopFuel 0 = .loop
  · rw [h]
    cases m with
    | checked =>
      exfalso
      rcases Int.lt_or_gt_of_ne hk with h1 | h1
      · exact cnopLoop_down h1 p _ _ (by omega) (by unfold cnopFuel; omega) h
      · exact cnopLoop_ne_loop h1 p _ _ (by omega) (by unfold cnopFuel; omega) h
    | wrapping =>
      rw [cnopLoop_hangs_iff p k (by unfold cnopFuel; omega)] at h
      rw [cnopLoop_hangs_iff p k (by unfold cnopFuel at hn; omega)]
      exact h
  · obtain ⟨d, rfl⟩ := Nat.exists_eq_add_of_le hn
    exact cnopLoop_more m p k _ d 0 h

/-- The greatest of the multiples is just below 2^31. -/
theorem multiples_below {k : Int} (hk : k ≠ 0) (hi : inI32 k) (p : Int) :
    (∀ s : Nat, wrap32 ((s : Int) * k) < p) ↔ 2147483648 - (Int.gcd k 4294967296 : Int) < p := by
  obtain ⟨d1, d2⟩ := Int.gcd_dvd_left k 4294967296
  obtain ⟨e1, e2⟩ := Int.gcd_dvd_right k 4294967296
  have hbez := Int.gcd_eq_gcd_ab k 4294967296
  have hg : ((Int.gcd k 4294967296 : Nat) : Int) ∣ 2147483648 := by
    have h1 : Int.gcd k 4294967296 ∣ 2 ^ 32 := by
      have := Int.gcd_dvd_right k 4294967296
      exact Int.natCast_dvd_natCast.mp this
    obtain ⟨j, hj, h2⟩ := (Nat.dvd_prime_pow Nat.prime_two).mp h1
    have hle : Int.gcd k 4294967296 ≤ 2147483648 := by
      have : Int.gcd k 4294967296 ≤ k.natAbs := Int.gcd_le_natAbs_left _ hk
      unfold inI32 at hi
      omega
    have hj' : j ≤ 31 := by
      rcases Nat.lt_or_ge 31 j with h | h
      · have : j = 32 := by omega
        subst this
        rw [h2] at hle
        exact absurd hle (by decide)
      · exact h
    rw [h2]
    exact Int.natCast_dvd_natCast.mpr (Nat.pow_dvd_pow 2 hj')
  have hpos : 0 < Int.gcd k 4294967296 := Int.gcd_pos_of_ne_zero_left _ hk
  generalize hgg : Int.gcd k 4294967296 = g at *
  obtain ⟨c, hc⟩ := hg
  constructor
  · intro h
    -- the step with the greatest multiple
    have key : ∃ s : Nat, wrap32 ((s : Int) * k) = 2147483648 - (g : Int) := by
      refine ⟨((Int.gcdA k 4294967296 * (c - 1)) % 4294967296).toNat, ?_⟩
      rw [Int.toNat_of_nonneg (Int.emod_nonneg _ (by decide))]
      obtain ⟨q, hq⟩ : ∃ q, (Int.gcdA k 4294967296 * (c - 1)) % 4294967296 =
          Int.gcdA k 4294967296 * (c - 1) - 4294967296 * q := ⟨_, by rw [Int.emod_def]⟩
      rw [hq]
      have e : (Int.gcdA k 4294967296 * (c - 1) - 4294967296 * q) * k =
          2147483648 - (g : Int) + 4294967296 * (-(Int.gcdB k 4294967296 * (c - 1)) - q * k) := by
        have h1 : (k * Int.gcdA k 4294967296 + 4294967296 * Int.gcdB k 4294967296) * (c - 1) = 2147483648 - (g : Int) := by
          rw [← hbez, Int.mul_sub, ← hc]
          omega
        rw [← h1]
        ring
      rw [e]
      generalize -(Int.gcdB k 4294967296 * (c - 1)) - q * k = z
      have hgle : (g : Int) ≤ 2147483648 := Int.le_of_dvd (by decide) ⟨c, hc⟩
      unfold wrap32
      omega
    obtain ⟨s, hs⟩ := key
    rw [← hs]
    exact h s
  · intro h s
    have hdvd : (g : Int) ∣ wrap32 ((s : Int) * k) := by
      unfold wrap32
      rw [Int.emod_def]
      refine Int.dvd_sub (Int.dvd_sub (Int.dvd_add ?_ ⟨c, hc⟩) ?_) ⟨c, hc⟩
      · exact Int.dvd_mul_of_dvd_right ⟨d1, d2⟩
      · exact Int.dvd_mul_of_dvd_left ⟨e1, e2⟩
    obtain ⟨x, hx⟩ := hdvd
    have hlt : wrap32 ((s : Int) * k) < 2147483648 := by unfold wrap32; omega
    rw [hx] at hlt ⊢
    rw [hc] at hlt h
    have : x < c := Int.lt_of_mul_lt_mul_left hlt (by omega)
    have h2 : (g : Int) * x ≤ (g : Int) * (c - 1) := Int.mul_le_mul_of_nonneg_left (by omega) (by omega)
    rw [Int.mul_sub] at h2
    omega

/-! Programs -/

theorem inI32_norm {m : Mode} {v r : Int} (h : m.norm v = .ok r) : inI32 r := by
  unfold Mode.norm at h
  split at h
  · cases h; assumption
  · cases m with
    | checked => cases h
    | wrapping => cases h; exact inI32_wrap32 _

/-- The size of the statement is found, at whatever address. -/
def Calm (m : Mode) (x : Stmt) : Prop := ∀ d p, x = .dir d → inI32 p → d.size m p ≠ .loop

theorem runSteps_calm {σ : Type} {step : σ → Stmt → Res σ} {P : σ → Prop} : ∀ {xs : List Stmt},
    (∀ s, P s → ∀ x ∈ xs, step s x ≠ .loop ∧ ∀ s', step s x = .ok s' → P s') → ∀ s, P s → runSteps step xs s ≠ .loop
  | [], _, s, _ => by simp [runSteps]
  | x :: xs, h, s, hs => by
    intro h'
    simp only [runSteps] at h'
    obtain ⟨h1, h2⟩ := h s hs x (by simp)
    rcases Res.bind_eq_loop.mp h' with h' | ⟨s1, h3, h'⟩
    · exact h1 h'
    · exact runSteps_calm (fun s hs y hy => h s hs y (by simp [hy])) s1 (h2 s1 h3) h'

theorem labelStep_calm {m : Mode} {x : Stmt} (hx : Calm m x) {s : LabelState} (hs : inI32 s.pos) :
    labelStep m s x ≠ .loop ∧ ∀ s', labelStep m s x = .ok s' → inI32 s'.pos := by
  cases x with
  | dir d =>
    refine ⟨fun h => ?_, fun s' h => ?_⟩ <;> simp only [labelStep] at h
    · rcases Res.bind_eq_loop.mp h with h | ⟨z, hz, h⟩
      · exact hx d _ rfl hs h
      · rcases Res.bind_eq_loop.mp h with h | ⟨z, hz, h⟩
        · exact norm_ne_loop _ _ h
        · cases h
    · obtain ⟨z, -, h⟩ := Res.bind_eq_ok.mp h
      obtain ⟨z, hz, h⟩ := Res.bind_eq_ok.mp h
      cases h
      exact inI32_norm hz
  | label n =>
    refine ⟨fun h => ?_, fun s' h => ?_⟩ <;> simp only [labelStep] at h <;> split at h
    · rcases Res.bind_eq_loop.mp h with h | ⟨z, hz, h⟩
      · exact addName_ne_loop _ _ _ h
      · cases h
    · rcases Res.bind_eq_loop.mp h with h | ⟨z, hz, h⟩
      · exact addName_ne_loop _ _ _ h
      · cases h
    · obtain ⟨z, -, h⟩ := Res.bind_eq_ok.mp h
      cases h
      exact hs
    · obtain ⟨z, -, h⟩ := Res.bind_eq_ok.mp h
      cases h
      exact hs
  | instr i =>
    refine ⟨fun h => ?_, fun s' h => ?_⟩ <;> simp only [labelStep] at h
    · rcases Res.bind_eq_loop.mp h with h | ⟨z, hz, h⟩
      · exact norm_ne_loop _ _ h
      · cases h
    · obtain ⟨z, hz, h⟩ := Res.bind_eq_ok.mp h
      cases h
      exact inI32_norm hz
  | macroCall => exact ⟨nofun, nofun⟩
  | _ => exact ⟨nofun, fun s' h => by cases h; exact hs⟩

theorem nameStep_calm {m : Mode} {x : Stmt} (hx : Calm m x) {s : NameState} (hs : inI32 s.pos) :
    nameStep m s x ≠ .loop ∧ ∀ s', nameStep m s x = .ok s' → inI32 s'.pos := by
  cases x with
  | dir d =>
    refine ⟨fun h => ?_, fun s' h => ?_⟩ <;> simp only [nameStep] at h
    · rcases Res.bind_eq_loop.mp h with h | ⟨z, hz, h⟩
      · exact hx d _ rfl hs h
      · rcases Res.bind_eq_loop.mp h with h | ⟨z, hz, h⟩
        · exact norm_ne_loop _ _ h
        · cases h
    · obtain ⟨z, -, h⟩ := Res.bind_eq_ok.mp h
      obtain ⟨z, hz, h⟩ := Res.bind_eq_ok.mp h
      cases h
      exact inI32_norm hz
  | instr i =>
    refine ⟨fun h => ?_, fun s' h => ?_⟩ <;> simp only [nameStep] at h
    · rcases Res.bind_eq_loop.mp h with h | ⟨z, hz, h⟩
      · exact norm_ne_loop _ _ h
      · cases h
    · obtain ⟨z, hz, h⟩ := Res.bind_eq_ok.mp h
      cases h
      exact inI32_norm hz
  | «variable» n e | «alias» n e =>
    refine ⟨fun h => ?_, fun s' h => ?_⟩ <;> simp only [nameStep] at h
    · rcases Res.bind_eq_loop.mp h with h | ⟨z, hz, h⟩
      · exact eval_ne_loop _ h
      · rcases Res.bind_eq_loop.mp h with h | ⟨z, hz, h⟩
        · exact addName_ne_loop _ _ _ h
        · cases h
    · obtain ⟨z, -, h⟩ := Res.bind_eq_ok.mp h
      obtain ⟨z, hz, h⟩ := Res.bind_eq_ok.mp h
      cases h
      exact hs
  | macroCall => exact ⟨nofun, nofun⟩
  | _ => exact ⟨nofun, fun s' h => by cases h; exact hs⟩

theorem genStep_calm {m : Mode} {names : Names} {x : Stmt} (hx : Calm m x) (s : GenState) : genStep m names s x ≠ .loop := by
  intro h
  cases x with
  | dir d =>
    cases d with
    | byte vs =>
      simp only [genStep] at h
      rcases Res.bind_eq_loop.mp h with h | ⟨z, hz, h⟩
      · exact asEnv_ne_loop _ _ h
      · rcases Res.bind_eq_loop.mp h with h | ⟨z, hz, h⟩
        · exact writeByteValues_ne_loop _ _ _ _ _ h
        · cases h
    | word vs =>
      simp only [genStep] at h
      rcases Res.bind_eq_loop.mp h with h | ⟨z, hz, h⟩
      · exact asEnv_ne_loop _ _ h
      · rcases Res.bind_eq_loop.mp h with h | ⟨z, hz, h⟩
        · exact writeWords_ne_loop _ _ _ _ _ h
        · cases h
    | text n bs => exact writePadded_ne_loop _ _ _ _ h
    | string n bs => exact writePadded_ne_loop _ _ _ _ h
    | org n =>
      simp only [genStep] at h
      split at h <;> cases h
    | incl t path => cases h
    | cnop a k =>
      simp only [genStep] at h
      rcases Res.bind_eq_loop.mp h with h | ⟨z, hz, h⟩
      · exact hx _ _ rfl (inI32_wrap32 _) h
      · rcases Res.bind_eq_loop.mp h with h | ⟨z, hz, h⟩
        · exact addUsize_ne_loop _ _ _ h
        · cases h
  | label n =>
    simp only [genStep] at h
    split at h <;> cases h
  | instr i =>
    simp only [genStep] at h
    rcases Res.bind_eq_loop.mp h with h | ⟨z, hz, h⟩
    · exact addUsize_ne_loop _ _ _ h
    · rcases Res.bind_eq_loop.mp h with h | ⟨z, hz, h⟩
      · unfold Instr.eval at h
        rcases Res.bind_eq_loop.mp h with h | ⟨z, hz, h⟩
        · exact asEnv_ne_loop _ _ h
        · exact evalIn_ne_loop _ _ _ _ h
      · rcases Res.bind_eq_loop.mp h with h | ⟨z, hz, h⟩
        · exact writeBytes_ne_loop _ _ _ h
        · cases h
  | _ => cases h

theorem assemble_calm {m : Mode} {stmts : List Stmt} (hs : ∀ x ∈ stmts, Calm m x) : assemble m stmts ≠ .loop := by
  intro h
  unfold assemble at h
  rcases Res.bind_eq_loop.mp h with h | ⟨⟨mx, names⟩, hz, h⟩
  · unfold computeNames at h
    rcases Res.bind_eq_loop.mp h with h | ⟨z, hz, h⟩
    · unfold computeLabels at h
      rcases Res.bind_eq_loop.mp h with h | ⟨z, hz, h⟩
      · exact runSteps_calm (P := fun s : LabelState => inI32 s.pos) (fun s hi x hx => labelStep_calm (hs x hx) hi) _ (show inI32 0 by decide) h
      · split at h <;> cases h
    · rcases Res.bind_eq_loop.mp h with h | ⟨z, hz, h⟩
      · exact runSteps_calm (P := fun s : NameState => inI32 s.pos) (fun s hi x hx => nameStep_calm (hs x hx) hi) _ (show inI32 0 by decide) h
      · rcases Res.bind_eq_loop.mp h with h | ⟨z, hz, h⟩
        · exact norm_ne_loop _ _ h
        · cases h
  · simp only at h
    split at h
    · cases h
    · rcases Res.bind_eq_loop.mp h with h | ⟨z, hz, h⟩
      · exact runSteps_ne_loop (fun s x hx => genStep_calm (hs x hx) s) _ h
      · cases h

theorem cnop_size_loop {m : Mode} {p a k : Int} {ra rk : Radix} (hk : k ≠ 0) :
    (Directive.cnop (.number a ra) (.number k rk)).size m p = .loop ↔ cnopLoop m p k cnopFuel 0 = .loop := by
  simp only [Directive.size, evalCnop, evalCnopExpr, Res.ok_bind, if_neg hk]
  constructor
  · intro h
    rcases Res.bind_eq_loop.mp h with h | ⟨z, hz, h⟩
    · rcases Res.bind_eq_loop.mp h with h | ⟨z, hz, h⟩
      · exact h
      · exact absurd h (norm_ne_loop _ _)
    · exact absurd h (norm_ne_loop _ _)
  · intro h
    rw [h]
    rfl

theorem size_loop {m : Mode} {d : Directive} {p : Int} (h : d.size m p = .loop) :
    ∃ a ra k rk, d = .cnop (.number a ra) (.number k rk) ∧ k ≠ 0 := by
  cases d with
  | cnop a k =>
    cases a <;> try cases h
    cases k <;> try cases h
    refine ⟨_, _, _, _, rfl, ?_⟩
    rintro rfl
    simp only [Directive.size, evalCnop, evalCnopExpr, Res.ok_bind, if_pos] at h
    exact absurd h (norm_ne_loop _ _)
  | org n => exact absurd h (norm_ne_loop _ _)
  | _ => cases h

end Verif
