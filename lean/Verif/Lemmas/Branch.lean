import Verif.Lemmas.Targets
import Verif.Lemmas.Selects
import Verif.Spec.Cpu
/-
Helper lemmas for the instruction properties (Props/Instructions.lean).
-/
namespace Verif
open Derive Spec

theorem decode_of_opcode (b : UInt8) (rest : List UInt8) (f : Form)
    (hf : f.opTbl.contains b.toNat = true) :
    if f.tbl.length ≤ rest.length + 1 then ∃ i, decode (b :: rest) = .ok (some i) ∧ i.form = f
    else decode (b :: rest) = .ok none := by
  split
  · rename_i h
    have hl := f.fields_len
    have hle := f.fields_le
    have hd := decodeRaw_cons b rest f hf (by simpa using h)
    have hlen : ((operandNames f.fields.length).map (extract f.tbl (b :: rest))).length = f.fields.length := by
      rw [List.length_map]
      have : ∀ n, n ≤ 3 → (operandNames n).length = n := by decide
      exact this _ hle
    obtain ⟨i, hi, hif⟩ : ∃ i, f.build ((operandNames f.fields.length).map (extract f.tbl (b :: rest))) = some i
        ∧ (decodeFromRaw i).form = f := by
      generalize (operandNames f.fields.length).map (extract f.tbl (b :: rest)) = xs at hlen
      clear hd hf hl hle h
      cases f <;> first
        | (obtain rfl : xs = [] := List.length_eq_zero_iff.mp hlen
           exact ⟨_, rfl, rfl⟩)
        | (obtain ⟨a, rfl⟩ := List.length_eq_one_iff.mp hlen
           exact ⟨_, rfl, rfl⟩)
        | (match xs, hlen with
           | [a, b], _ => exact ⟨_, rfl, rfl⟩)
        | (match xs, hlen with
           | [a, b, c], _ => exact ⟨_, rfl, rfl⟩)
    refine ⟨decodeFromRaw i, ?_, hif⟩
    unfold decode
    rw [hd, hi]
    rfl
  · rename_i h
    unfold decode
    rw [decodeRaw_short b rest f hf (by simp; omega)]
    rfl

theorem fields_snoc {next : Nat} {k : Kind} {v : Int} : ∀ {ks : List Kind} {vs : List Int},
    ks.length = vs.length → fields next (ks ++ [k]) (vs ++ [v]) =
      match fields next ks vs, k.field next v with
      | some xs, some x => some (xs ++ [x])
      | _, _ => none
  | [], [], _ => by
    simp only [List.nil_append, fields]
    cases k.field next v <;> rfl
  | k' :: ks, v' :: vs, h => by
    simp only [List.cons_append, fields]
    rw [fields_snoc (by simpa using h)]
    cases k'.field next v' <;> cases fields next ks vs <;> cases k.field next v <;> rfl

theorem fields_of_holds {next : Nat} : ∀ {ks : List Kind} {vs : List Int},
    (∀ k ∈ ks, k = .i8 ∨ k = .d9 ∨ k = .ri ∨ k = .b3) → holdsAll ks vs → fields next ks vs = some vs
  | [], [], _, _ => rfl
  | k :: ks, v :: vs, hk, h => by
    unfold fields
    rw [fields_of_holds (fun k hk' => hk k (by simp [hk'])) h.2]
    have : k.field next v = some v := by
      have h1 := h.1
      rcases hk k (by simp) with rfl | rfl | rfl | rfl <;> exact if_pos h1
    rw [this]

theorem holds_of_fields {next : Nat} : ∀ {ks : List Kind} {vs xs : List Int},
    (∀ k ∈ ks, k = .i8 ∨ k = .d9 ∨ k = .ri ∨ k = .b3) → fields next ks vs = some xs → holdsAll ks vs
  | [], [], _, _, _ => trivial
  | k :: ks, v :: vs, xs, hk, h => by
    unfold fields at h
    split at h
    · rename_i x ys h1 h2
      refine ⟨?_, holds_of_fields (fun k hk' => hk k (by simp [hk'])) h2⟩
      rcases hk k (by simp) with rfl | rfl | rfl | rfl <;>
      · simp only [Kind.field] at h1
        split at h1
        · assumption
        · cases h1
    · cases h

theorem r8_init (f : Form) (ks : List Kind) (h : kinds f = ks ++ [.r8]) :
    ∀ k ∈ ks, k = .i8 ∨ k = .d9 ∨ k = .ri ∨ k = .b3 := by
  have : Form.all.all (fun f => (kinds f).getLast? != some .r8 ||
      (kinds f).dropLast.all fun k => k == .i8 || k == .d9 || k == .ri || k == .b3) = true := by
    decide +kernel
  have := List.all_eq_true.mp this f f.mem_all
  rw [h] at this
  simpa [or_assoc] using this

theorem r8_value {v : Int} (h : -128 ≤ v ∧ v < 128) {b : UInt8} (hb : b.toNat = toU32 v % 256) :
    signExt8 b = v := by
  unfold signExt8
  unfold toU32 at hb
  have : (b.toNat : Int) = v % 256 := by
    have h2 : ((v % 4294967296).toNat : Int) = v % 4294967296 := Int.toNat_of_nonneg (by omega)
    omega
  split <;> omega

/-- The value of a one-operand instruction's only operand. -/
theorem single_value {m : Mode} {env : Env} {x : Expr} {vs : List Int}
    (h : OperandValues m env [.inl x] vs) : ∃ v, vs = [v] ∧ x.eval m env = .ok v := by
  match vs, h with
  | [v], h => exact ⟨v, rfl, h.1⟩

theorem fields_single {next : Nat} {k : Kind} {v : Int} {xs : List Int}
    (h : fields next [k] [v] = some xs) : ∃ x, xs = [x] ∧ k.field next v = some x := by
  unfold fields at h
  split at h
  · rename_i x ys h1 h2
    simp only [fields, Option.some.injEq] at h h2
    subst h h2
    exact ⟨x, rfl, h1⟩
  · cases h

theorem toU32_of_nonneg {v : Int} (h : 0 ≤ v ∧ v < 65536) : (toU32 v : Int) = v := by
  unfold toU32
  rw [Int.toNat_of_nonneg (by omega)]
  omega

theorem toU32_mod (v : Int) : ((toU32 v % 65536 : Nat) : Int) = v % 65536 := by
  unfold toU32
  have : ((v % 4294967296).toNat : Int) = v % 4294967296 := Int.toNat_of_nonneg (by omega)
  omega

end Verif
