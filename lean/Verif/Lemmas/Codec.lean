import Verif.Lemmas.TableChecks
/-
Helper lemmas: codec round trips at the level of operand lists.
-/
namespace Verif
open Derive

theorem Form.valid (f : Form) : ∀ rs ∈ f.tbl, validRanges 8 rs = true := by
  have := checkValid_all f
  simp only [checkValid, Bool.and_eq_true, List.all_eq_true] at this
  exact this.1.1.1.1

theorem Form.len_pos (f : Form) : 1 ≤ f.tbl.length := by
  have := checkValid_all f
  simp only [checkValid, Bool.and_eq_true, decide_eq_true_eq] at this
  exact this.1.1.1.2

theorem Form.len_le (f : Form) : f.tbl.length ≤ 3 := by
  have := checkValid_all f
  simp only [checkValid, Bool.and_eq_true, decide_eq_true_eq] at this
  exact this.1.1.2

theorem Form.fields_len (f : Form) : f.fields.length = (Spec.kinds f).length := by
  have := checkValid_all f
  simp only [checkValid, Bool.and_eq_true, decide_eq_true_eq] at this
  exact this.1.2

theorem Form.fields_le (f : Form) : f.fields.length ≤ 3 := by
  have := checkValid_all f
  simp only [checkValid, Bool.and_eq_true, decide_eq_true_eq] at this
  exact this.2

theorem Form.ref_exists {f : Form} {n : Char} {w i : Nat} (hm : (n, w) ∈ f.widths) (hi : i < w) :
    ∃ rs ∈ f.tbl, ∃ k, bitAt 8 rs k = some (.ref n i) := by
  have := checkRefs_all f
  simp only [checkRefs, Bool.and_eq_true, List.all_eq_true, List.any_eq_true, decide_eq_true_eq,
    List.mem_range] at this
  obtain ⟨rs, h1, k, -, h2⟩ := this.1 _ hm i hi
  exact ⟨rs, h1, k, h2⟩

theorem bitAt_lt {pos : Nat} {rs : List BitRange} {k : Nat} {b : Bit} (h : bitAt pos rs k = some b) :
    k < pos := by
  apply Nat.lt_of_not_le
  intro h'
  rw [bitAt_none_of_ge h'] at h; cases h

theorem Form.ref_width {f : Form} {rs : List BitRange} (hr : rs ∈ f.tbl) {k : Nat} {n : Char} {i : Nat}
    (h : bitAt 8 rs k = some (.ref n i)) : ∃ w, (n, w) ∈ f.widths ∧ i < w := by
  have := checkRefs_all f
  simp only [checkRefs, Bool.and_eq_true, List.all_eq_true, List.any_eq_true, decide_eq_true_eq,
    List.mem_range] at this
  have h2 := this.2 rs hr k (bitAt_lt h)
  rw [h] at h2
  simp only [List.any_eq_true, Bool.and_eq_true, decide_eq_true_eq] at h2
  obtain ⟨⟨m, w⟩, h3, h4, h5⟩ := h2
  exact ⟨w, by rw [← h4]; exact h3, h5⟩

theorem Form.bit_some {f : Form} {rs : List BitRange} (hr : rs ∈ f.tbl) {k : Nat} (hk : k < 8) :
    ∃ b, bitAt 8 rs k = some b := by
  have := checkRefs_all f
  simp only [checkRefs, Bool.and_eq_true, List.all_eq_true, List.any_eq_true, decide_eq_true_eq,
    List.mem_range] at this
  have h2 := this.2 rs hr k hk
  cases h : bitAt 8 rs k with
  | none => rw [h] at h2; cases h2
  | some b => exact ⟨b, rfl⟩

theorem Form.ref_unique {f : Form} {j j' : Nat} {rs rs' : List BitRange} (h1 : f.tbl[j]? = some rs)
    (h2 : f.tbl[j']? = some rs') {k k' : Nat} {n : Char} {i : Nat}
    (h3 : bitAt 8 rs k = some (.ref n i)) (h4 : bitAt 8 rs' k' = some (.ref n i)) :
    j = j' ∧ k = k' := by
  have := checkUnique_all f
  simp only [checkUnique, List.all_eq_true, List.mem_range] at this
  have hj : j < 3 := by
    have := (List.getElem?_eq_some_iff.mp h1).1
    have := f.len_le; omega
  have hj' : j' < 3 := by
    have := (List.getElem?_eq_some_iff.mp h2).1
    have := f.len_le; omega
  have h5 := this j hj j' hj' k (bitAt_lt h3) k' (bitAt_lt h4)
  rw [h1, h2] at h5
  simp only [Option.bind_some, h3, h4] at h5
  simpa using h5

theorem Form.no_lits {f : Form} {j : Nat} {rs : List BitRange} (h1 : f.tbl[j + 1]? = some rs)
    {k v : Nat} : bitAt 8 rs k ≠ some (.lit v) := by
  intro h
  have := checkLits_all f
  simp only [checkLits, List.all_eq_true, List.mem_range] at this
  have hm : rs ∈ f.tbl.tail := by
    apply List.mem_of_getElem? (i := j)
    rw [List.getElem?_tail]; exact h1
  have := this rs hm k (bitAt_lt h)
  rw [h] at this; cases this

theorem encodeByte_testBit (env : Char → Nat) (rs : List BitRange) (k : Nat)
    (hv : validRanges 8 rs = true) (hk : k < 8) :
    (encodeByte env rs).toNat.testBit k = bitVal env (bitAt 8 rs k) := by
  have h := byteTokens_testBit env rs 8 k (by omega) hv
  unfold encodeByte
  rw [UInt8.toNat_ofNat']
  show (orAll (byteTokens env 8 rs) % 2 ^ 8).testBit k = _
  rw [Nat.testBit_mod_two_pow, h]
  simp [hk]

theorem extract_testBit (ranges : List (List BitRange)) (bytes : List UInt8) (n : Char) (i : Nat)
    (hv : ∀ rs ∈ ranges, validRanges 8 rs = true) :
    (extract ranges bytes n).testBit i = true ↔
      ∃ p ∈ ranges.zip bytes, ∃ k, bitAt 8 p.1 k = some (.ref n i) ∧ p.2.toNat.testBit k = true := by
  unfold extract
  show (orAll _).testBit i = true ↔ _
  rw [orAll_testBit, List.any_flatMap, List.any_eq_true]
  constructor
  · rintro ⟨⟨rs, b⟩, h1, h2⟩
    refine ⟨(rs, b), h1, ?_⟩
    have hm : rs ∈ ranges := (List.of_mem_zip h1).1
    rw [← byteExtractors_testBit _ _ _ _ _ (hv rs hm), orAll_testBit]
    exact h2
  · rintro ⟨⟨rs, b⟩, h1, h2⟩
    refine ⟨(rs, b), h1, ?_⟩
    have hm : rs ∈ ranges := (List.of_mem_zip h1).1
    rw [← byteExtractors_testBit _ _ _ _ _ (hv rs hm), orAll_testBit] at h2
    exact h2

theorem zip_map_append {α β : Type} (g : α → β) (l : List α) (rest : List β) :
    l.zip (l.map g ++ rest) = l.map fun a => (a, g a) := by
  induction l with
  | nil => simp
  | cons a l ih => simp [ih]

/-- Reading back a field of an encoding gives the operand modulo the field width. -/
theorem extract_encode (f : Form) (env : Char → Nat) (rest : List UInt8) (n : Char) (w : Nat)
    (hm : (n, w) ∈ f.widths) (huniq : ∀ w', (n, w') ∈ f.widths → w' = w) :
    extract f.tbl (encodeRanges env f.tbl ++ rest) n = env n % 2 ^ w := by
  apply Nat.eq_of_testBit_eq
  intro i
  rw [Nat.testBit_mod_two_pow, Bool.eq_iff_iff, extract_testBit _ _ _ _ f.valid, encodeRanges,
    zip_map_append]
  simp only [Bool.and_eq_true, decide_eq_true_eq]
  constructor
  · rintro ⟨p, h1, k, h2, h3⟩
    simp only [List.mem_map] at h1
    obtain ⟨rs, hr, rfl⟩ := h1
    simp only at h2 h3
    obtain ⟨w', hw', hi⟩ := Form.ref_width hr h2
    rw [encodeByte_testBit _ _ _ (f.valid rs hr) (bitAt_lt h2), h2] at h3
    exact ⟨by rw [← huniq w' hw']; exact hi, h3⟩
  · rintro ⟨hi, hb⟩
    obtain ⟨rs, hr, k, hk⟩ := Form.ref_exists hm hi
    refine ⟨(rs, encodeByte env rs), List.mem_map.mpr ⟨rs, hr, rfl⟩, k, hk, ?_⟩
    rw [encodeByte_testBit _ _ _ (f.valid rs hr) (bitAt_lt hk), hk]
    exact hb

theorem UInt8.eq_of_testBit {a b : UInt8} (h : ∀ k < 8, a.toNat.testBit k = b.toNat.testBit k) :
    a = b := by
  apply UInt8.toNat_inj.mp
  apply Nat.eq_of_testBit_eq
  intro k
  by_cases hk : k < 8
  · exact h k hk
  · have p : (2 : Nat) ^ 8 ≤ 2 ^ k := Nat.pow_le_pow_right (by omega) (by omega)
    have ha := UInt8.toNat_lt a
    have hb := UInt8.toNat_lt b
    rw [Nat.testBit_lt_two_pow (by omega), Nat.testBit_lt_two_pow (by omega)]

theorem opcode_iff (f : Form) (b : UInt8) : f.opTbl.contains b.toNat = litsMatch f b.toNat := by
  have := checkOps_all f
  simp only [checkOps, List.all_eq_true, List.mem_range] at this
  have := this b.toNat (UInt8.toNat_lt b)
  simpa using this

theorem litsMatch_bit {f : Form} {b : Nat} (h : litsMatch f b = true) {k v : Nat}
    (hk : bitAt 8 (f.tbl.headD []) k = some (.lit v)) : b.testBit k = decide (v % 2 = 1) := by
  simp only [litsMatch, List.all_eq_true, List.mem_range] at h
  have := h k (bitAt_lt hk)
  rw [hk] at this
  simpa using this

/-- Encoding operands that agree with the fields of some bytes gives those bytes back. -/
theorem encode_extract (f : Form) (env : Char → Nat) (bytes : List UInt8)
    (hlen : f.tbl.length ≤ bytes.length) (hop : ∀ b0, bytes.head? = some b0 → litsMatch f b0.toNat = true)
    (henv : ∀ n w, (n, w) ∈ f.widths → ∀ i < w, (env n).testBit i = (extract f.tbl bytes n).testBit i) :
    encodeRanges env f.tbl = bytes.take f.tbl.length := by
  apply List.ext_getElem?
  intro j
  unfold encodeRanges
  rw [List.getElem?_map, List.getElem?_take]
  by_cases hj : j < f.tbl.length
  · have hj2 : j < bytes.length := by omega
    rw [if_pos hj, List.getElem?_eq_getElem hj, List.getElem?_eq_getElem hj2, Option.map_some]
    congr 1
    have hmem : f.tbl[j] ∈ f.tbl := List.getElem_mem hj
    apply UInt8.eq_of_testBit
    intro k hk
    rw [encodeByte_testBit _ _ _ (f.valid _ hmem) hk]
    obtain ⟨b, hb⟩ := Form.bit_some hmem hk
    rw [hb]
    cases b with
    | lit v =>
      simp only [bitVal]
      cases j with
      | succ j => exact absurd hb (Form.no_lits (List.getElem?_eq_getElem hj))
      | zero =>
        have h0 : bytes.head? = some bytes[0] := by
          rw [List.head?_eq_getElem?]; exact List.getElem?_eq_getElem hj2
        have h1 := hop _ h0
        have h2 : f.tbl.headD [] = f.tbl[0] := by
          rw [List.headD_eq_head?_getD, List.head?_eq_getElem?, List.getElem?_eq_getElem hj]; rfl
        rw [litsMatch_bit h1 (by rw [h2]; exact hb)]
    | ref n i =>
      simp only [bitVal]
      obtain ⟨w, hw, hi⟩ := Form.ref_width hmem hb
      rw [henv n w hw i hi, Bool.eq_iff_iff, extract_testBit _ _ _ _ f.valid]
      constructor
      · rintro ⟨⟨rs, b⟩, h1, k', h2, h3⟩
        obtain ⟨j', hj'⟩ := List.getElem?_of_mem h1
        rw [List.getElem?_zip_eq_some] at hj'
        obtain ⟨e1, e2⟩ := Form.ref_unique hj'.1 (List.getElem?_eq_getElem hj) h2 hb
        subst e1 e2
        have := hj'.2
        rw [List.getElem?_eq_getElem hj2] at this
        cases this
        exact h3
      · intro h
        refine ⟨(f.tbl[j], bytes[j]), ?_, k, hb, h⟩
        apply List.mem_of_getElem? (i := j)
        rw [List.getElem?_zip_eq_some]
        exact ⟨List.getElem?_eq_getElem hj, List.getElem?_eq_getElem hj2⟩
  · rw [if_neg hj, List.getElem?_eq_none (by omega)]; rfl

/-- The first byte of an encoding selects the form. -/
theorem litsMatch_encode (f : Form) (env : Char → Nat) (b0 : UInt8) (rest : List UInt8)
    (h : encodeRanges env f.tbl ++ rest = b0 :: bs) : litsMatch f b0.toNat = true := by
  have hl := f.len_pos
  obtain ⟨rs, tl, ht⟩ : ∃ rs tl, f.tbl = rs :: tl := by
    cases e : f.tbl with
    | nil => rw [e] at hl; simp at hl
    | cons a b => exact ⟨a, b, rfl⟩
  have hmem : rs ∈ f.tbl := by rw [ht]; simp
  have hv := f.valid rs hmem
  rw [ht, encodeRanges] at h
  simp only [List.map_cons, List.cons_append, List.cons.injEq] at h
  rw [← h.1]
  simp only [litsMatch, List.all_eq_true, List.mem_range, ht, List.headD_cons]
  intro k hk
  rw [encodeByte_testBit _ _ _ hv hk]
  cases hb : bitAt 8 rs k with
  | none => rfl
  | some b => cases b <;> simp [bitVal]

/-- Every byte selects exactly one form. -/
theorem form_unique (b : UInt8) : ∃ f, f.opTbl.contains b.toNat = true ∧
    ∀ g : Form, g.opTbl.contains b.toNat = true → g = f := by
  have := checkDisjoint_all b.toNat (UInt8.toNat_lt b)
  simp only [checkDisjoint, beq_iff_eq, List.length_eq_one_iff] at this
  obtain ⟨f, hf⟩ := this
  refine ⟨f, ?_, ?_⟩
  · have : f ∈ Form.all.filter fun f => f.opTbl.contains b.toNat := by rw [hf]; simp
    exact (List.mem_filter.mp this).2
  · intro g hg
    have : g ∈ Form.all.filter fun f => f.opTbl.contains b.toNat :=
      List.mem_filter.mpr ⟨g.mem_all, hg⟩
    rw [hf] at this; simpa using this

end Verif
