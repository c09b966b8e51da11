import Verif.Model.Derive
/-
Helper lemmas: what the generated encoder and extractor do, bit by bit.
-/
namespace Verif.Derive

def orAll (l : List Nat) : Nat := l.foldl (· ||| ·) 0

theorem foldl_or_testBit (l : List Nat) (a i : Nat) :
    (l.foldl (· ||| ·) a).testBit i = (a.testBit i || l.any (·.testBit i)) := by
  induction l generalizing a with
  | nil => simp
  | cons x xs ih => simp [ih, Bool.or_assoc]

theorem orAll_testBit (l : List Nat) (i : Nat) : (orAll l).testBit i = l.any (·.testBit i) := by
  simp [orAll, foldl_or_testBit]

theorem makeMask_testBit (n i : Nat) : (makeMask n).testBit i = decide (i < n) := by
  unfold makeMask
  induction n with
  | zero => simp
  | succ n ih =>
    rw [List.range_succ, List.foldl_append]
    simp only [List.foldl_cons, List.foldl_nil, Nat.testBit_or, ih, Nat.testBit_shiftLeft]
    by_cases h : i < n
    · have : i < n + 1 := by omega
      simp [h, this]
    · by_cases h2 : i = n
      · subst h2; simp
      · have h3 : ¬ i < n + 1 := by omega
        simp only [h, h3, decide_false, Bool.false_or]
        have : n ≤ i := by omega
        simp only [this, decide_true, Bool.true_and]
        exact Nat.testBit_lt_two_pow (Nat.one_lt_two_pow (by omega))

/-- The bit that a list of ranges, laid out downwards from bit `pos`, puts at bit number `k`. -/
def bitAt : Nat → List BitRange → Nat → Option Bit
  | _, [], _ => none
  | pos, .lit v s :: rs, k =>
    if pos - s ≤ k ∧ k < pos then some (.lit ((v >>> (k - (pos - s))) % 2))
    else bitAt (pos - s) rs k
  | pos, .ref n h l :: rs, k =>
    if pos - ((1 + h) - l) ≤ k ∧ k < pos then some (.ref n (l + (k - (pos - ((1 + h) - l)))))
    else bitAt (pos - ((1 + h) - l)) rs k

/-- Ranges that fit into `pos` bits and are well-formed. -/
def validRanges : Nat → List BitRange → Bool
  | _, [] => true
  | pos, .lit v s :: rs => decide (v < 2 ^ s) && decide (s ≤ pos) && validRanges (pos - s) rs
  | pos, .ref _ h l :: rs =>
    decide (l ≤ h) && decide ((1 + h) - l ≤ pos) && validRanges (pos - ((1 + h) - l)) rs

/-- The value of a pattern bit. -/
def bitVal (env : Char → Nat) : Option Bit → Bool
  | none => false
  | some (.lit b) => b % 2 = 1
  | some (.ref n i) => (env n).testBit i

theorem bitAt_none_of_ge {pos : Nat} {rs : List BitRange} {k : Nat} (h : pos ≤ k) :
    bitAt pos rs k = none := by
  induction rs generalizing pos with
  | nil => rfl
  | cons r rs ih =>
    cases r <;>
    · unfold bitAt
      rw [if_neg (by omega)]
      exact ih (by omega)

theorem orAll_cons (x : Nat) (l : List Nat) (i : Nat) :
    (orAll (x :: l)).testBit i = (x.testBit i || (orAll l).testBit i) := by
  simp [orAll_testBit]

theorem mod_two_eq_testBit (v i : Nat) : decide (v >>> i % 2 % 2 = 1) = v.testBit i := by
  rw [Nat.testBit_eq_decide_div_mod_eq, Nat.shiftRight_eq_div_pow, Nat.mod_mod]

theorem byteTokens_testBit (env : Char → Nat) (rs : List BitRange) (pos k : Nat) (hpos : pos ≤ 8)
    (hv : validRanges pos rs = true) :
    (orAll (byteTokens env pos rs)).testBit k = bitVal env (bitAt pos rs k) := by
  induction rs generalizing pos with
  | nil => simp [byteTokens, orAll_testBit, bitAt, bitVal]
  | cons r rs ih =>
    cases r with
    | lit v s =>
      simp only [validRanges, Bool.and_eq_true, decide_eq_true_eq] at hv
      obtain ⟨⟨hv1, hv2⟩, hv3⟩ := hv
      have := ih (pos - s) (by omega) hv3
      rw [byteTokens, orAll_cons, this, bitAt]
      have h256 : (256 : Nat) = 2 ^ 8 := rfl
      rw [h256, Nat.testBit_mod_two_pow, Nat.testBit_shiftLeft]
      by_cases hk : pos - s ≤ k ∧ k < pos
      · rw [if_pos hk, bitAt_none_of_ge hk.1]
        simp only [bitVal, Bool.or_false]
        have h8 : k < 8 := by omega
        rw [mod_two_eq_testBit]; simp [h8, hk.1]
      · rw [if_neg hk]
        by_cases h1 : pos - s ≤ k
        · have h2 : pos ≤ k := by omega
          have : v.testBit (k - (pos - s)) = false :=
            Nat.testBit_lt_two_pow (Nat.lt_of_lt_of_le hv1 (Nat.pow_le_pow_right (by omega) (by omega)))
          simp [this]
        · simp [h1]
    | ref n h l =>
      simp only [validRanges, Bool.and_eq_true, decide_eq_true_eq] at hv
      obtain ⟨⟨hv1, hv2⟩, hv3⟩ := hv
      have := ih (pos - (1 + h - l)) (by omega) hv3
      rw [byteTokens, orAll_cons, this, bitAt]
      have h256 : (256 : Nat) = 2 ^ 8 := rfl
      have hsz : h + 1 - (1 + h - l) = l := by omega
      have key : ∀ sa : Int, sa = (l : Int) - ((pos : Int) - ((1 + h - l : Nat) : Int)) →
          (if sa = 0 then (makeMask (1 + h - l) <<< (h + 1 - (1 + h - l)) &&& env n) % 256
           else if sa > 0 then
             (makeMask (1 + h - l) <<< (h + 1 - (1 + h - l)) &&& env n) >>> sa.toNat % 256
           else (makeMask (1 + h - l) <<< (h + 1 - (1 + h - l)) &&& env n) <<< (-sa).toNat % 256).testBit k
          = (decide (pos - (1 + h - l) ≤ k ∧ k < pos) &&
              (env n).testBit (l + (k - (pos - (1 + h - l))))) := by
        intro sa hsa
        rw [hsz, h256]
        by_cases hk : pos - (1 + h - l) ≤ k ∧ k < pos
        · have hk8 : k < 8 := by omega
          simp only [hk, and_self, decide_true, Bool.true_and]
          split
          · rw [Nat.testBit_mod_two_pow, Nat.testBit_and, Nat.testBit_shiftLeft, makeMask_testBit]
            have e : l + (k - (pos - (1 + h - l))) = k := by omega
            have e1 : l ≤ k := by omega
            have e2 : k - l < 1 + h - l := by omega
            simp [hk8, e, e1, e2]
          · split
            · rw [Nat.testBit_mod_two_pow, Nat.testBit_shiftRight, Nat.testBit_and,
                Nat.testBit_shiftLeft, makeMask_testBit]
              have e : l + (k - (pos - (1 + h - l))) = sa.toNat + k := by omega
              have e1 : l ≤ sa.toNat + k := by omega
              have e2 : sa.toNat + k - l < 1 + h - l := by omega
              simp [hk8, e, e1, e2]
            · rw [Nat.testBit_mod_two_pow, Nat.testBit_shiftLeft, Nat.testBit_and,
                Nat.testBit_shiftLeft, makeMask_testBit]
              have e0 : (-sa).toNat ≤ k := by omega
              have e : l + (k - (pos - (1 + h - l))) = k - (-sa).toNat := by omega
              have e1 : l ≤ k - (-sa).toNat := by omega
              have e2 : k - (-sa).toNat - l < 1 + h - l := by omega
              simp [hk8, e, e0, e1, e2]
        · simp only [hk, decide_false, Bool.false_and]
          split
          · rw [Nat.testBit_mod_two_pow, Nat.testBit_and, Nat.testBit_shiftLeft, makeMask_testBit]
            by_cases e1 : l ≤ k
            · have e2 : ¬ k - l < 1 + h - l := by omega
              simp [e2]
            · simp [e1]
          · split
            · rw [Nat.testBit_mod_two_pow, Nat.testBit_shiftRight, Nat.testBit_and,
                Nat.testBit_shiftLeft, makeMask_testBit]
              by_cases e1 : l ≤ sa.toNat + k
              · have e2 : ¬ sa.toNat + k - l < 1 + h - l := by omega
                simp [e2]
              · simp [e1]
            · rw [Nat.testBit_mod_two_pow, Nat.testBit_shiftLeft, Nat.testBit_and,
                Nat.testBit_shiftLeft, makeMask_testBit]
              by_cases e0 : (-sa).toNat ≤ k
              · by_cases e1 : l ≤ k - (-sa).toNat
                · have e2 : ¬ k - (-sa).toNat - l < 1 + h - l := by omega
                  simp [e2]
                · simp [e1]
              · simp [e0]
      rw [key _ rfl]
      by_cases hk : pos - (1 + h - l) ≤ k ∧ k < pos
      · rw [if_pos hk, bitAt_none_of_ge hk.1]
        simp [bitVal, hk]
      · rw [if_neg hk, decide_eq_false hk]
        simp

theorem byteExtractors_testBit (b : Nat) (name : Char) (rs : List BitRange) (pos i : Nat)
    (hv : validRanges pos rs = true) :
    (orAll (byteExtractors b name pos rs)).testBit i = true ↔
      ∃ k, bitAt pos rs k = some (.ref name i) ∧ b.testBit k = true := by
  induction rs generalizing pos with
  | nil => simp [byteExtractors, orAll_testBit, bitAt]
  | cons r rs ih =>
    cases r with
    | lit v s =>
      simp only [validRanges, Bool.and_eq_true, decide_eq_true_eq] at hv
      obtain ⟨⟨hv1, hv2⟩, hv3⟩ := hv
      rw [byteExtractors, ih _ hv3]
      constructor
      · rintro ⟨k, h1, h2⟩
        refine ⟨k, ?_, h2⟩
        rw [bitAt]
        rw [if_neg, h1]
        intro hk
        rw [bitAt_none_of_ge hk.1] at h1; cases h1
      · rintro ⟨k, h1, h2⟩
        refine ⟨k, ?_, h2⟩
        rw [bitAt] at h1
        split at h1
        · cases h1
        · exact h1
    | ref n h l =>
      simp only [validRanges, Bool.and_eq_true, decide_eq_true_eq] at hv
      obtain ⟨⟨hv1, hv2⟩, hv3⟩ := hv
      have hsz : h + 1 - l = 1 + h - l := by omega
      have hsz2 : h + 1 - (1 + h - l) = l := by omega
      have tok : (((b &&& makeMask (1 + h - l) <<< (pos - (1 + h - l))) >>> (pos - (1 + h - l))) <<< l).testBit i
          = (decide (l ≤ i ∧ i - l < 1 + h - l) && b.testBit (pos - (1 + h - l) + (i - l))) := by
        rw [Nat.testBit_shiftLeft, Nat.testBit_shiftRight, Nat.testBit_and, Nat.testBit_shiftLeft,
          makeMask_testBit]
        by_cases e1 : l ≤ i
        · by_cases e2 : i - l < 1 + h - l
          · have : pos - (1 + h - l) + (i - l) - (pos - (1 + h - l)) < 1 + h - l := by omega
            simp [e1, e2]
          · have : ¬ pos - (1 + h - l) + (i - l) - (pos - (1 + h - l)) < 1 + h - l := by omega
            simp [e2]
        · simp [e1]
      rw [byteExtractors]; simp only [hsz, hsz2]
      by_cases hn : n = name
      · rw [if_pos hn, orAll_cons, Bool.or_eq_true, tok, ih _ hv3]
        constructor
        · rintro (h1 | ⟨k, h1, h2⟩)
          · simp only [Bool.and_eq_true, decide_eq_true_eq] at h1
            obtain ⟨⟨e1, e2⟩, e3⟩ := h1
            refine ⟨_, ?_, e3⟩
            rw [bitAt]
            rw [if_pos (by omega), hn]
            congr 2
            omega
          · refine ⟨k, ?_, h2⟩
            rw [bitAt]
            rw [if_neg, h1]
            intro hk
            rw [bitAt_none_of_ge hk.1] at h1; cases h1
        · rintro ⟨k, h1, h2⟩
          rw [bitAt] at h1
          split at h1
          · left
            rename_i hk
            simp only [Option.some.injEq, Bit.ref.injEq] at h1
            simp only [Bool.and_eq_true, decide_eq_true_eq]
            refine ⟨⟨by omega, by omega⟩, ?_⟩
            have : pos - (1 + h - l) + (i - l) = k := by omega
            rw [this]; exact h2
          · right; exact ⟨k, h1, h2⟩
      · rw [if_neg hn, ih _ hv3]
        constructor
        · rintro ⟨k, h1, h2⟩
          refine ⟨k, ?_, h2⟩
          rw [bitAt]
          rw [if_neg, h1]
          intro hk
          rw [bitAt_none_of_ge hk.1] at h1; cases h1
        · rintro ⟨k, h1, h2⟩
          refine ⟨k, ?_, h2⟩
          rw [bitAt] at h1
          split at h1
          · simp only [Option.some.injEq, Bit.ref.injEq] at h1
            exact absurd h1.1 hn
          · exact h1

end Verif.Derive
