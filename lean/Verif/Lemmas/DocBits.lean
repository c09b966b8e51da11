import Verif.Lemmas.InstrEval
import Verif.Spec.Cpu
/-
Helper lemmas: encodings against the documented patterns and CPU rules.
-/
namespace Verif
open Derive Spec

/-- One bit of the source pattern agrees with one bit of the manual. -/
def sameBit (f : Form) : Option Bit → Option DocBit → Bool
  | some (.lit v), some (.const b) => decide (v % 2 = 1) == b
  | some (.ref n i), some (.opnd x i') =>
    i == i' && i < 32 && (operandNames f.fields.length).idxOf n == ((row f).operands.map (·.2)).idxOf x
  | _, _ => false

def checkDoc (f : Form) : Bool :=
  (readPattern (row f).pattern.toList).length == 8 * f.tbl.length &&
  (List.range f.tbl.length).all fun j => (List.range 8).all fun k =>
    sameBit f ((f.tbl[j]?).bind (bitAt 8 · (7 - k))) ((readPattern (row f).pattern.toList)[8 * j + k]?)

theorem checkDoc_all (f : Form) : checkDoc f = true := by
  have : Form.all.all checkDoc = true := by decide +kernel
  exact List.all_eq_true.mp this f f.mem_all

theorem lookup_zip_idxOf {α : Type} : ∀ (l1 l2 : List Char) (vs : List α) (n x : Char),
    l1.length = l2.length → l1.idxOf n = l2.idxOf x →
    (l1.zip vs).lookup n = (l2.zip vs).lookup x
  | [], [], _, _, _, _, _ => by simp
  | a :: l1, b :: l2, [], _, _, _, _ => by simp
  | a :: l1, b :: l2, v :: vs, n, x, hl, h => by
    simp only [List.idxOf_cons] at h
    simp only [List.zip_cons_cons, List.lookup_cons]
    by_cases h1 : a = n
    · by_cases h2 : b = x
      · simp [h1, h2]
      · have e2 : (b == x) = false := by simp [h2]
        simp [h1, e2] at h
    · have e1 : (a == n) = false := by simp [h1]
      by_cases h2 : b = x
      · simp [h2, e1] at h
      · have e2 : (b == x) = false := by simp [h2]
        simp only [e1, e2, cond_false] at h
        have e1' : (n == a) = false := by simp; exact fun e => h1 e.symm
        have e2' : (x == b) = false := by simp; exact fun e => h2 e.symm
        rw [e1', e2']
        exact lookup_zip_idxOf l1 l2 vs n x (by simpa using hl) (by omega)

theorem toU32_testBit (v : Int) {i : Nat} (hi : i < 32) : (toU32 v).testBit i = intBit v i := by
  unfold intBit toU32
  rw [Nat.testBit_eq_decide_div_mod_eq]
  congr 1
  have h2 : (0 : Int) ≤ v % 4294967296 := Int.emod_nonneg _ (by decide)
  have hp : (4294967296 : Int) = 2 ^ i * 2 ^ (32 - i) := by
    rw [← Int.pow_add]
    have : i + (32 - i) = 32 := by omega
    rw [this]; rfl
  have hq : (2 : Int) ^ (32 - i) = 2 * 2 ^ (31 - i) := by
    rw [show 32 - i = (31 - i) + 1 by omega, Int.pow_succ, Int.mul_comm]
  have hpos : (0 : Int) < 2 ^ i := Int.pow_pos (by decide)
  have key : v % 4294967296 / 2 ^ i % 2 = v / 2 ^ i % 2 := by
    have e1 : v % 4294967296 = v - 4294967296 * (v / 4294967296) := by
      have := Int.emod_add_mul_ediv v 4294967296; omega
    rw [e1]
    generalize v / 4294967296 = q
    have e2 : v - 4294967296 * q = v + (-(2 ^ (32 - i) * q)) * 2 ^ i := by
      have : (2 : Int) ^ i * 2 ^ (32 - i) * q = 2 ^ (32 - i) * q * 2 ^ i := by
        rw [Int.mul_assoc, Int.mul_comm]
      rw [hp, this, Int.neg_mul]
      omega
    rw [e2, Int.add_mul_ediv_right _ _ (by omega), hq]
    rw [Int.mul_assoc]
    omega
  rw [← key]
  generalize v % 4294967296 = u at h2
  obtain ⟨n, rfl⟩ := Int.eq_ofNat_of_zero_le h2
  rw [Int.toNat_natCast]
  have e3 : ((n / 2 ^ i % 2 : Nat) : Int) = (n : Int) / 2 ^ i % 2 := by
    rw [Int.natCast_emod, Int.natCast_ediv, Int.natCast_pow]
    rfl
  apply propext
  constructor
  · intro h; rw [h] at e3; exact e3.symm
  · intro h; rw [h] at e3; exact Int.ofNat_inj.mp e3

theorem operandEnv_doc (f : Form) (vals : List Int) (hl : vals.length = f.fields.length) {n x : Char}
    (h : (operandNames f.fields.length).idxOf n = ((row f).operands.map (·.2)).idxOf x) {i : Nat}
    (hi : i < 32) :
    (operandEnv vals n).testBit i = (row f).bitValue vals (.opnd x i) := by
  have hlen : (operandNames f.fields.length).length = ((row f).operands.map (·.2)).length := by
    have h1 := f.fields_len
    have h2 := f.fields_le
    unfold kinds at h1
    simp only [List.length_map] at h1 ⊢
    simp only [operandNames, List.length_take, List.length_cons, List.length_nil]
    omega
  have := lookup_zip_idxOf _ _ vals n x hlen h
  unfold operandEnv Row.bitValue
  rw [hl, this]
  dsimp only
  cases List.lookup x (((row f).operands.map (·.2)).zip vals) with
  | none => simp
  | some v => exact toU32_testBit v hi

theorem encode_doc_bits (i : Instr Int Nat) :
    (readPattern (row i.form).pattern.toList).length = 8 * i.encode.length ∧
    ∀ (j k : Nat) (b : UInt8), i.encode[j]? = some b → k < 8 →
      ∃ d, (readPattern (row i.form).pattern.toList)[8 * j + k]? = some d ∧
        b.toNat.testBit (7 - k) = (row i.form).bitValue i.vals d := by
  have hc := checkDoc_all i.form
  simp only [checkDoc, Bool.and_eq_true, beq_iff_eq, List.all_eq_true, List.mem_range] at hc
  refine ⟨by rw [encode_length]; exact hc.1, ?_⟩
  intro j k b hb hk
  rw [encode_eq, encodeRanges, List.getElem?_map, Option.map_eq_some_iff] at hb
  obtain ⟨rs, hrs, rfl⟩ := hb
  have hj : j < i.form.tbl.length := (List.getElem?_eq_some_iff.mp hrs).1
  have hmem := List.mem_of_getElem? hrs
  have hs := hc.2 j hj k hk
  rw [hrs, Option.bind_some] at hs
  rw [encodeByte_testBit _ _ _ (i.form.valid rs hmem) (by omega)]
  cases hd : (readPattern (row i.form).pattern.toList)[8 * j + k]? with
  | none =>
    rw [hd] at hs
    unfold sameBit at hs
    split at hs <;> simp_all
  | some d =>
    refine ⟨d, rfl, ?_⟩
    rw [hd] at hs
    cases hbit : bitAt 8 rs (7 - k) with
    | none => rw [hbit] at hs; simp [sameBit] at hs
    | some bt =>
      rw [hbit] at hs
      cases bt with
      | lit v =>
        cases d with
        | const c => simpa [sameBit, bitVal, Row.bitValue] using hs
        | opnd x i' => simp [sameBit] at hs
      | ref n q =>
        cases d with
        | const c => simp [sameBit] at hs
        | opnd x q' =>
          simp only [sameBit, Bool.and_eq_true, beq_iff_eq, decide_eq_true_eq] at hs
          obtain ⟨⟨rfl, hq⟩, hx⟩ := hs
          simp only [bitVal]
          exact operandEnv_doc i.form i.vals (by rw [vals_length, i.form.fields_len]) hx hq

end Verif
