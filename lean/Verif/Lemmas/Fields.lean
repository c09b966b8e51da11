import Verif.Lemmas.Codec
/-
Helper lemmas: codec round trips for instructions.
-/
namespace Verif
open Derive Spec

theorem widths_unique {f : Form} {n : Char} {w w' : Nat} (h : (n, w) ∈ f.widths)
    (h' : (n, w') ∈ f.widths) : w' = w := by
  have : Form.all.all (fun f => f.widths.all fun p => f.widths.all fun q =>
      p.1 ≠ q.1 || q.2 == p.2) = true := by decide +kernel
  simp only [List.all_eq_true] at this
  have := this f f.mem_all _ h _ h'
  simpa using this

theorem widths_fst (f : Form) : f.widths.map (·.1) = operandNames f.fields.length := by
  have : Form.all.all (fun f => decide (f.widths.map (·.1) = operandNames f.fields.length)) = true := by
    decide +kernel
  simpa using List.all_eq_true.mp this f f.mem_all

theorem matches_eq (f : Form) (bytes : List UInt8) (b0 : UInt8) :
    f.matches bytes b0 =
      (f.opTbl.contains b0.toNat && (f.fields.isEmpty || decide (bytes.length ≥ f.tbl.length))) := by
  unfold Form.matches
  rw [Form.opcodes_eq, Form.ranges_eq]

theorem find?_unique {α : Type} {l : List α} {p : α → Bool} {a : α} (hm : a ∈ l) (hp : p a = true)
    (hu : ∀ b, p b = true → b = a) : l.find? p = some a := by
  induction l with
  | nil => cases hm
  | cons x xs ih =>
    rw [List.find?_cons]
    cases hx : p x with
    | true => simp [hu x hx]
    | false =>
      rcases List.mem_cons.mp hm with h | h
      · subst h; rw [hp] at hx; cases hx
      · exact ih h

theorem toU32_field {v : Int} {w : Nat} (hw : w ≤ 32) :
    ((toU32 v % 2 ^ w : Nat) : Int) = v % 2 ^ w := by
  unfold toU32
  have h1 : (2 : Int) ^ 32 = 4294967296 := rfl
  have h2 : (0 : Int) ≤ v % 4294967296 := Int.emod_nonneg _ (by decide)
  rw [Int.natCast_emod, Int.toNat_of_nonneg h2]
  have : ((2 ^ w : Nat) : Int) = (2 : Int) ^ w := by norm_cast
  rw [this]
  apply Int.emod_emod_of_dvd
  rw [← h1]
  refine ⟨2 ^ (32 - w), ?_⟩
  rw [← Int.pow_add]
  congr 1
  omega

theorem field_i8 {v : Int} (h : 0 ≤ v ∧ v < 256) : wrap32 (toU32 v % 2 ^ 8 : Nat) = v := by
  rw [toU32_field (by decide)]; unfold wrap32; omega
theorem field_d9 {v : Int} (h : 0 ≤ v ∧ v < 512) : wrap32 (toU32 v % 2 ^ 9 : Nat) = v := by
  rw [toU32_field (by decide)]; unfold wrap32; omega
theorem field_b3 {v : Int} (h : 0 ≤ v ∧ v < 8) : wrap32 (toU32 v % 2 ^ 3 : Nat) = v := by
  rw [toU32_field (by decide)]; unfold wrap32; omega
theorem field_a12 {v : Int} (h : 0 ≤ v ∧ v < 4096) : wrap32 (toU32 v % 2 ^ 12 : Nat) = v := by
  rw [toU32_field (by decide)]; unfold wrap32; omega
theorem field_a16 {v : Int} (h : 0 ≤ v ∧ v < 65536) : wrap32 (toU32 v % 2 ^ 16 : Nat) = v := by
  rw [toU32_field (by decide)]; unfold wrap32; omega
theorem field_r8 {v : Int} (h : -128 ≤ v ∧ v < 128) : rawRel8 (wrap32 (toU32 v % 2 ^ 8 : Nat)) = v := by
  rw [toU32_field (by decide)]; unfold wrap32 rawRel8; split <;> omega
theorem field_r16 {v : Int} (h : -32768 ≤ v ∧ v < 32768) :
    rawRel16 (wrap32 (toU32 v % 2 ^ 16 : Nat)) = v := by
  rw [toU32_field (by decide)]; unfold wrap32 rawRel16; split <;> omega
theorem field_ri {v : Nat} (h : (0 : Int) ≤ v ∧ (v : Int) < 4) : toU32 v % 2 ^ 2 % 256 = v := by
  unfold toU32; omega

/-- The fields of an instruction's encoding. -/
def fieldVals (f : Form) (vals : List Int) : List Nat :=
  f.widths.map fun (n, w) => operandEnv vals n % 2 ^ w

/-- How a field of each kind is read back. -/
def Spec.Kind.read : Kind → Nat → Int
  | .r8, x => rawRel8 (wrap32 x)
  | .r16, x => rawRel16 (wrap32 x)
  | .ri, x => (x % 256 : Nat)
  | _, x => wrap32 x

theorem rfield_eq {v : Int} {x w : Nat} (hw : w ≤ 32) (h : v % 2 ^ w = (x : Int) % 2 ^ w) :
    toU32 v % 2 ^ w = x % 2 ^ w := by
  have h1 := toU32_field (v := v) hw
  have h2 : ((x % 2 ^ w : Nat) : Int) = (x : Int) % 2 ^ w := by
    rw [Int.natCast_emod]
    have : ((2 ^ w : Nat) : Int) = (2 : Int) ^ w := by norm_cast
    rw [this]
  apply Int.ofNat_inj.mp
  rw [h1, h2, h]

theorem rfield_i8 (x : Nat) : toU32 (wrap32 (x : Int)) % 2 ^ 8 = x % 2 ^ 8 :=
  rfield_eq (by decide) (by unfold wrap32; omega)
theorem rfield_d9 (x : Nat) : toU32 (wrap32 (x : Int)) % 2 ^ 9 = x % 2 ^ 9 :=
  rfield_eq (by decide) (by unfold wrap32; omega)
theorem rfield_b3 (x : Nat) : toU32 (wrap32 (x : Int)) % 2 ^ 3 = x % 2 ^ 3 :=
  rfield_eq (by decide) (by unfold wrap32; omega)
theorem rfield_a12 (x : Nat) : toU32 (wrap32 (x : Int)) % 2 ^ 12 = x % 2 ^ 12 :=
  rfield_eq (by decide) (by unfold wrap32; omega)
theorem rfield_a16 (x : Nat) : toU32 (wrap32 (x : Int)) % 2 ^ 16 = x % 2 ^ 16 :=
  rfield_eq (by decide) (by unfold wrap32; omega)
theorem rfield_r8 (x : Nat) : toU32 (rawRel8 (wrap32 (x : Int))) % 2 ^ 8 = x % 2 ^ 8 :=
  rfield_eq (by decide) (by unfold rawRel8 wrap32; split <;> omega)
theorem rfield_r16 (x : Nat) : toU32 (rawRel16 (wrap32 (x : Int))) % 2 ^ 16 = x % 2 ^ 16 :=
  rfield_eq (by decide) (by unfold rawRel16 wrap32; split <;> omega)
theorem rfield_ri (x : Nat) : toU32 ((x % 256 : Nat) : Int) % 2 ^ 2 = x % 2 ^ 2 :=
  rfield_eq (by decide) (by omega)

theorem list_len_0 {α : Type} {l : List α} (h : l.length = 0) : l = [] :=
  List.length_eq_zero_iff.mp h
theorem list_len_1 {α : Type} {l : List α} (h : l.length = 1) : ∃ a, l = [a] :=
  List.length_eq_one_iff.mp h
theorem list_len_2 {α : Type} {l : List α} (h : l.length = 2) : ∃ a b, l = [a, b] := by
  match l, h with
  | [a, b], _ => exact ⟨a, b, rfl⟩
theorem list_len_3 {α : Type} {l : List α} (h : l.length = 3) : ∃ a b c, l = [a, b, c] := by
  match l, h with
  | [a, b, c], _ => exact ⟨a, b, c, rfl⟩

end Verif
