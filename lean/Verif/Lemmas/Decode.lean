import Verif.Lemmas.InstrCases
/-
Helper lemmas: `decode` and `encode` of instructions.
-/
namespace Verif
open Derive Spec

theorem encode_eq (i : Instr Int Nat) : i.encode = encodeRanges (operandEnv i.vals) i.form.tbl := by
  unfold Instr.encode; rw [Form.ranges_eq]

theorem size_eq {Ex IM : Type} (i : Instr Ex IM) : i.size = i.form.tbl.length := by
  unfold Instr.size; rw [Form.ranges_eq]

theorem encode_length (i : Instr Int Nat) : i.encode.length = i.form.tbl.length := by
  rw [encode_eq, encodeRanges, List.length_map]

theorem decodeRaw_cons (b : UInt8) (rest : List UInt8) (f : Form)
    (hf : f.opTbl.contains b.toNat = true) (hlen : f.tbl.length ≤ (b :: rest).length) :
    decodeRaw (b :: rest) =
      .ok (f.build ((operandNames f.fields.length).map (extract f.tbl (b :: rest)))) := by
  unfold decodeRaw
  dsimp only
  rw [find?_unique (a := f) f.mem_all]
  · simp only [Form.ranges_eq]
  · rw [matches_eq, hf]; simp only [ge_iff_le, hlen, decide_true, Bool.or_true, Bool.and_true]
  · intro g hg
    rw [matches_eq, Bool.and_eq_true] at hg
    obtain ⟨f', -, hu⟩ := form_unique b
    rw [hu g hg.1, hu f hf]

theorem empty_fields_len (f : Form) (h : f.fields = []) : f.tbl.length = 1 := by
  have : Form.all.all (fun f => !f.fields.isEmpty || f.tbl.length == 1) = true := by decide +kernel
  have := List.all_eq_true.mp this f f.mem_all
  simpa [h] using this

theorem decodeRaw_short (b : UInt8) (rest : List UInt8) (f : Form)
    (hf : f.opTbl.contains b.toNat = true) (hlen : (b :: rest).length < f.tbl.length) :
    decodeRaw (b :: rest) = .ok none := by
  unfold decodeRaw
  have : Form.all.find? (fun f => f.matches (b :: rest) b) = none := by
    rw [List.find?_eq_none]
    intro g _ hg
    rw [matches_eq, Bool.and_eq_true] at hg
    obtain ⟨f', -, hu⟩ := form_unique b
    have e : g = f := by rw [hu g hg.1, hu f hf]
    subst e
    have h2 := hg.2
    simp only [Bool.or_eq_true, List.isEmpty_iff, ge_iff_le, decide_eq_true_eq] at h2
    rcases h2 with h2 | h2
    · have := empty_fields_len g h2
      simp at hlen; omega
    · omega
  dsimp only
  rw [this]

theorem decode_encode (i : Instr Int Nat) (rest : List UInt8) (h : InRange i) :
    decode (i.encode ++ rest) = .ok (some i) := by
  have hlen := encode_length i
  have hp := i.form.len_pos
  obtain ⟨b, bs, hb⟩ : ∃ b bs, i.encode ++ rest = b :: bs := by
    cases e : i.encode ++ rest with
    | nil =>
      have : (i.encode ++ rest).length = 0 := by rw [e]; rfl
      rw [List.length_append] at this; omega
    | cons b bs => exact ⟨b, bs, rfl⟩
  have hl : litsMatch i.form b.toNat = true :=
    litsMatch_encode i.form (operandEnv i.vals) b rest (bs := bs) (by rw [← encode_eq]; exact hb)
  unfold decode
  rw [hb, decodeRaw_cons b bs i.form (by rw [opcode_iff]; exact hl)
    (by rw [← hb, List.length_append]; omega), ← hb]
  have : (operandNames i.form.fields.length).map (extract i.form.tbl (i.encode ++ rest))
      = fieldVals i.form i.vals := by
    rw [← widths_fst, List.map_map, fieldVals]
    apply List.map_congr_left
    rintro ⟨n, w⟩ hm
    simp only [Function.comp]
    rw [encode_eq, extract_encode i.form _ rest n w hm (fun w' h' => widths_unique hm h')]
  rw [this, Res.ok_bind, build_fieldVals i h]

theorem testBit_of_mod_eq {a b w i : Nat} (h : a % 2 ^ w = b % 2 ^ w) (hi : i < w) :
    a.testBit i = b.testBit i := by
  have h1 := Nat.testBit_mod_two_pow a w i
  have h2 := Nat.testBit_mod_two_pow b w i
  rw [h, h2] at h1
  simpa [hi] using h1.symm

theorem decode_some {bytes : List UInt8} {i : Instr Int Nat} (h : decode bytes = .ok (some i)) :
    i.form.tbl.length ≤ bytes.length ∧
    (∀ b0, bytes.head? = some b0 → litsMatch i.form b0.toNat = true) ∧
    fieldVals i.form i.vals = i.form.widths.map (fun p => extract i.form.tbl bytes p.1 % 2 ^ p.2) ∧
    i.vals = List.zipWith Kind.read (kinds i.form)
      ((operandNames i.form.fields.length).map (extract i.form.tbl bytes)) := by
  cases bytes with
  | nil => simp [decode, decodeRaw] at h
  | cons b rest =>
    obtain ⟨f, hf, hu⟩ := form_unique b
    by_cases hlen : f.tbl.length ≤ (b :: rest).length
    · unfold decode at h
      rw [decodeRaw_cons b rest f hf hlen] at h
      have hnl : ((operandNames f.fields.length).map (extract f.tbl (b :: rest))).length
          = f.fields.length := by
        have := f.fields_le
        simp only [List.length_map, operandNames, List.length_take, List.length_cons, List.length_nil]
        omega
      obtain ⟨i', h1, h2, h3, h4⟩ := build_vals f _ hnl
      rw [h1] at h
      simp only [Option.map_some, Res.ok_bind, Res.ok.injEq, Option.some.injEq] at h
      subst h
      rw [h2]
      refine ⟨hlen, ?_, ?_, h4⟩
      · intro b0 hb0
        simp only [List.head?_cons, Option.some.injEq] at hb0
        subst hb0
        rw [← opcode_iff]; exact hf
      · rw [h3, ← widths_fst, List.map_map, List.zipWith_map_left, List.zipWith_self]
        rfl
    · unfold decode at h
      rw [decodeRaw_short b rest f hf (by omega)] at h
      simp at h

theorem encode_decode {bytes : List UInt8} {i : Instr Int Nat} (h : decode bytes = .ok (some i)) :
    i.encode = bytes.take i.size := by
  obtain ⟨h1, h2, h3, -⟩ := decode_some h
  rw [size_eq, encode_eq]
  apply encode_extract i.form _ bytes h1 h2
  intro n w hm j hj
  apply testBit_of_mod_eq _ hj
  unfold fieldVals at h3
  have := List.map_inj_left.mp h3 _ hm
  exact this

theorem read_holds (k : Kind) (x : Nat) (h : x < 2 ^ k.width) : k.holds (k.read x) := by
  cases k with
  | i8 =>
    have h : x < 256 := h
    show 0 ≤ wrap32 x ∧ wrap32 x < 256
    unfold wrap32; omega
  | d9 =>
    have h : x < 512 := h
    show 0 ≤ wrap32 x ∧ wrap32 x < 512
    unfold wrap32; omega
  | ri =>
    have h : x < 4 := h
    show (0 : Int) ≤ (x % 256 : Nat) ∧ ((x % 256 : Nat) : Int) < 4
    omega
  | b3 =>
    have h : x < 8 := h
    show 0 ≤ wrap32 x ∧ wrap32 x < 8
    unfold wrap32; omega
  | r8 =>
    show -128 ≤ rawRel8 (wrap32 x) ∧ rawRel8 (wrap32 x) < 128
    unfold rawRel8; split <;> omega
  | a12 =>
    have h : x < 4096 := h
    show 0 ≤ wrap32 x ∧ wrap32 x < 4096
    unfold wrap32; omega
  | a16 =>
    have h : x < 65536 := h
    show 0 ≤ wrap32 x ∧ wrap32 x < 65536
    unfold wrap32; omega
  | r16 =>
    show -32768 ≤ rawRel16 (wrap32 x) ∧ rawRel16 (wrap32 x) < 32768
    unfold rawRel16; split <;> omega

theorem mem_zip_swap {α β : Type} {l : List α} {m : List β} {a : α} {b : β} (h : (a, b) ∈ l.zip m) :
    (b, a) ∈ m.zip l := by
  obtain ⟨j, hj⟩ := List.getElem?_of_mem h
  rw [List.getElem?_zip_eq_some] at hj
  apply List.mem_of_getElem? (i := j)
  rw [List.getElem?_zip_eq_some]
  exact ⟨hj.2, hj.1⟩

theorem holdsAll_zipWith : ∀ (ks : List Kind) (xs : List Nat), ks.length = xs.length →
    (∀ p ∈ ks.zip xs, p.2 < 2 ^ p.1.width) → holdsAll ks (List.zipWith Kind.read ks xs)
  | [], [], _, _ => trivial
  | k :: ks, x :: xs, h, hb => by
    refine ⟨read_holds k x (hb (k, x) (by simp)), ?_⟩
    exact holdsAll_zipWith ks xs (by simpa using h) (fun p hp => hb p (by simp [hp]))

theorem extract_lt (f : Form) (bytes : List UInt8) {n : Char} {w : Nat} (hm : (n, w) ∈ f.widths) :
    extract f.tbl bytes n < 2 ^ w := by
  apply Nat.lt_pow_two_of_testBit
  intro i hi
  cases hb : (extract f.tbl bytes n).testBit i with
  | false => rfl
  | true =>
    rw [extract_testBit _ _ _ _ f.valid] at hb
    obtain ⟨p, hp, k, hk, -⟩ := hb
    obtain ⟨w', hw', hi'⟩ := Form.ref_width (List.of_mem_zip hp).1 hk
    have := widths_unique hm hw'
    omega

theorem decode_inRange {bytes : List UInt8} {i : Instr Int Nat} (h : decode bytes = .ok (some i)) :
    InRange i := by
  obtain ⟨-, -, -, h4⟩ := decode_some h
  unfold InRange
  rw [values_eq, h4]
  have hl := i.form.fields_len
  have hle := i.form.fields_le
  apply holdsAll_zipWith
  · simp only [List.length_map, operandNames, List.length_take, List.length_cons, List.length_nil]
    omega
  · rintro ⟨k, x⟩ hp
    rw [List.zip_map_right, List.mem_map] at hp
    obtain ⟨⟨k', n⟩, hkn, he⟩ := hp
    simp only [Prod.map_apply, id_eq, Prod.mk.injEq] at he
    obtain ⟨rfl, rfl⟩ := he
    apply extract_lt
    unfold Form.widths
    rw [List.zip_map_right, List.mem_map]
    refine ⟨(n, k'), ?_, rfl⟩
    rw [← hl]
    exact mem_zip_swap hkn

theorem vals_length (i : Instr Int Nat) : i.vals.length = (kinds i.form).length := by
  cases i <;> rfl

end Verif
