import Verif.Lemmas.Fields
/-
Helper lemmas: the cases of decode/encode for each instruction form.  Generated by
tools/gen_cases.py.
-/
namespace Verif
open Derive Spec

theorem values_eq (i : Instr Int Nat) : values i = i.vals := by
  cases i <;> rfl

theorem build_fieldVals (i : Instr Int Nat) (h : InRange i) :
    (i.form.build (fieldVals i.form i.vals)).map decodeFromRaw = some i := by
  cases i with
  | Add_i8 a =>
    have h : (0 ≤ (a : Int) ∧ (a : Int) < 256) ∧ True := h
    show some (Instr.Add_i8 (wrap32 ((toU32 (a : Int) % 2 ^ 8 : Nat) : Int))) = _
    rw [field_i8 h.1]
  | Add_d9 a =>
    have h : (0 ≤ (a : Int) ∧ (a : Int) < 512) ∧ True := h
    show some (Instr.Add_d9 (wrap32 ((toU32 (a : Int) % 2 ^ 9 : Nat) : Int))) = _
    rw [field_d9 h.1]
  | Add_Ri a =>
    have h : (0 ≤ (a : Int) ∧ (a : Int) < 4) ∧ True := h
    show some (Instr.Add_Ri (toU32 (a : Int) % 2 ^ 2 % 256)) = _
    rw [field_ri h.1]
  | Addc_i8 a =>
    have h : (0 ≤ (a : Int) ∧ (a : Int) < 256) ∧ True := h
    show some (Instr.Addc_i8 (wrap32 ((toU32 (a : Int) % 2 ^ 8 : Nat) : Int))) = _
    rw [field_i8 h.1]
  | Addc_d9 a =>
    have h : (0 ≤ (a : Int) ∧ (a : Int) < 512) ∧ True := h
    show some (Instr.Addc_d9 (wrap32 ((toU32 (a : Int) % 2 ^ 9 : Nat) : Int))) = _
    rw [field_d9 h.1]
  | Addc_Ri a =>
    have h : (0 ≤ (a : Int) ∧ (a : Int) < 4) ∧ True := h
    show some (Instr.Addc_Ri (toU32 (a : Int) % 2 ^ 2 % 256)) = _
    rw [field_ri h.1]
  | Sub_i8 a =>
    have h : (0 ≤ (a : Int) ∧ (a : Int) < 256) ∧ True := h
    show some (Instr.Sub_i8 (wrap32 ((toU32 (a : Int) % 2 ^ 8 : Nat) : Int))) = _
    rw [field_i8 h.1]
  | Sub_d9 a =>
    have h : (0 ≤ (a : Int) ∧ (a : Int) < 512) ∧ True := h
    show some (Instr.Sub_d9 (wrap32 ((toU32 (a : Int) % 2 ^ 9 : Nat) : Int))) = _
    rw [field_d9 h.1]
  | Sub_Ri a =>
    have h : (0 ≤ (a : Int) ∧ (a : Int) < 4) ∧ True := h
    show some (Instr.Sub_Ri (toU32 (a : Int) % 2 ^ 2 % 256)) = _
    rw [field_ri h.1]
  | Subc_i8 a =>
    have h : (0 ≤ (a : Int) ∧ (a : Int) < 256) ∧ True := h
    show some (Instr.Subc_i8 (wrap32 ((toU32 (a : Int) % 2 ^ 8 : Nat) : Int))) = _
    rw [field_i8 h.1]
  | Subc_d9 a =>
    have h : (0 ≤ (a : Int) ∧ (a : Int) < 512) ∧ True := h
    show some (Instr.Subc_d9 (wrap32 ((toU32 (a : Int) % 2 ^ 9 : Nat) : Int))) = _
    rw [field_d9 h.1]
  | Subc_Ri a =>
    have h : (0 ≤ (a : Int) ∧ (a : Int) < 4) ∧ True := h
    show some (Instr.Subc_Ri (toU32 (a : Int) % 2 ^ 2 % 256)) = _
    rw [field_ri h.1]
  | Inc_d9 a =>
    have h : (0 ≤ (a : Int) ∧ (a : Int) < 512) ∧ True := h
    show some (Instr.Inc_d9 (wrap32 ((toU32 (a : Int) % 2 ^ 9 : Nat) : Int))) = _
    rw [field_d9 h.1]
  | Inc_Ri a =>
    have h : (0 ≤ (a : Int) ∧ (a : Int) < 4) ∧ True := h
    show some (Instr.Inc_Ri (toU32 (a : Int) % 2 ^ 2 % 256)) = _
    rw [field_ri h.1]
  | Dec_d9 a =>
    have h : (0 ≤ (a : Int) ∧ (a : Int) < 512) ∧ True := h
    show some (Instr.Dec_d9 (wrap32 ((toU32 (a : Int) % 2 ^ 9 : Nat) : Int))) = _
    rw [field_d9 h.1]
  | Dec_Ri a =>
    have h : (0 ≤ (a : Int) ∧ (a : Int) < 4) ∧ True := h
    show some (Instr.Dec_Ri (toU32 (a : Int) % 2 ^ 2 % 256)) = _
    rw [field_ri h.1]
  | Mul => rfl
  | Div => rfl
  | And_i8 a =>
    have h : (0 ≤ (a : Int) ∧ (a : Int) < 256) ∧ True := h
    show some (Instr.And_i8 (wrap32 ((toU32 (a : Int) % 2 ^ 8 : Nat) : Int))) = _
    rw [field_i8 h.1]
  | And_d9 a =>
    have h : (0 ≤ (a : Int) ∧ (a : Int) < 512) ∧ True := h
    show some (Instr.And_d9 (wrap32 ((toU32 (a : Int) % 2 ^ 9 : Nat) : Int))) = _
    rw [field_d9 h.1]
  | And_Ri a =>
    have h : (0 ≤ (a : Int) ∧ (a : Int) < 4) ∧ True := h
    show some (Instr.And_Ri (toU32 (a : Int) % 2 ^ 2 % 256)) = _
    rw [field_ri h.1]
  | Or_i8 a =>
    have h : (0 ≤ (a : Int) ∧ (a : Int) < 256) ∧ True := h
    show some (Instr.Or_i8 (wrap32 ((toU32 (a : Int) % 2 ^ 8 : Nat) : Int))) = _
    rw [field_i8 h.1]
  | Or_d9 a =>
    have h : (0 ≤ (a : Int) ∧ (a : Int) < 512) ∧ True := h
    show some (Instr.Or_d9 (wrap32 ((toU32 (a : Int) % 2 ^ 9 : Nat) : Int))) = _
    rw [field_d9 h.1]
  | Or_Ri a =>
    have h : (0 ≤ (a : Int) ∧ (a : Int) < 4) ∧ True := h
    show some (Instr.Or_Ri (toU32 (a : Int) % 2 ^ 2 % 256)) = _
    rw [field_ri h.1]
  | Xor_i8 a =>
    have h : (0 ≤ (a : Int) ∧ (a : Int) < 256) ∧ True := h
    show some (Instr.Xor_i8 (wrap32 ((toU32 (a : Int) % 2 ^ 8 : Nat) : Int))) = _
    rw [field_i8 h.1]
  | Xor_d9 a =>
    have h : (0 ≤ (a : Int) ∧ (a : Int) < 512) ∧ True := h
    show some (Instr.Xor_d9 (wrap32 ((toU32 (a : Int) % 2 ^ 9 : Nat) : Int))) = _
    rw [field_d9 h.1]
  | Xor_Ri a =>
    have h : (0 ≤ (a : Int) ∧ (a : Int) < 4) ∧ True := h
    show some (Instr.Xor_Ri (toU32 (a : Int) % 2 ^ 2 % 256)) = _
    rw [field_ri h.1]
  | Rol => rfl
  | Rolc => rfl
  | Ror => rfl
  | Rorc => rfl
  | Ld_d9 a =>
    have h : (0 ≤ (a : Int) ∧ (a : Int) < 512) ∧ True := h
    show some (Instr.Ld_d9 (wrap32 ((toU32 (a : Int) % 2 ^ 9 : Nat) : Int))) = _
    rw [field_d9 h.1]
  | Ld_Ri a =>
    have h : (0 ≤ (a : Int) ∧ (a : Int) < 4) ∧ True := h
    show some (Instr.Ld_Ri (toU32 (a : Int) % 2 ^ 2 % 256)) = _
    rw [field_ri h.1]
  | St_d9 a =>
    have h : (0 ≤ (a : Int) ∧ (a : Int) < 512) ∧ True := h
    show some (Instr.St_d9 (wrap32 ((toU32 (a : Int) % 2 ^ 9 : Nat) : Int))) = _
    rw [field_d9 h.1]
  | St_Ri a =>
    have h : (0 ≤ (a : Int) ∧ (a : Int) < 4) ∧ True := h
    show some (Instr.St_Ri (toU32 (a : Int) % 2 ^ 2 % 256)) = _
    rw [field_ri h.1]
  | Mov_d9 a b =>
    have h : (0 ≤ (a : Int) ∧ (a : Int) < 256) ∧ (0 ≤ (b : Int) ∧ (b : Int) < 512) ∧ True := h
    show some (Instr.Mov_d9 (wrap32 ((toU32 (a : Int) % 2 ^ 8 : Nat) : Int)) (wrap32 ((toU32 (b : Int) % 2 ^ 9 : Nat) : Int))) = _
    rw [field_i8 h.1, field_d9 h.2.1]
  | Mov_Rj a b =>
    have h : (0 ≤ (a : Int) ∧ (a : Int) < 256) ∧ (0 ≤ (b : Int) ∧ (b : Int) < 4) ∧ True := h
    show some (Instr.Mov_Rj (wrap32 ((toU32 (a : Int) % 2 ^ 8 : Nat) : Int)) (toU32 (b : Int) % 2 ^ 2 % 256)) = _
    rw [field_i8 h.1, field_ri h.2.1]
  | Ldc => rfl
  | Push a =>
    have h : (0 ≤ (a : Int) ∧ (a : Int) < 512) ∧ True := h
    show some (Instr.Push (wrap32 ((toU32 (a : Int) % 2 ^ 9 : Nat) : Int))) = _
    rw [field_d9 h.1]
  | Pop a =>
    have h : (0 ≤ (a : Int) ∧ (a : Int) < 512) ∧ True := h
    show some (Instr.Pop (wrap32 ((toU32 (a : Int) % 2 ^ 9 : Nat) : Int))) = _
    rw [field_d9 h.1]
  | Xch_d9 a =>
    have h : (0 ≤ (a : Int) ∧ (a : Int) < 512) ∧ True := h
    show some (Instr.Xch_d9 (wrap32 ((toU32 (a : Int) % 2 ^ 9 : Nat) : Int))) = _
    rw [field_d9 h.1]
  | Xch_Ri a =>
    have h : (0 ≤ (a : Int) ∧ (a : Int) < 4) ∧ True := h
    show some (Instr.Xch_Ri (toU32 (a : Int) % 2 ^ 2 % 256)) = _
    rw [field_ri h.1]
  | Jmp a =>
    have h : (0 ≤ (a : Int) ∧ (a : Int) < 4096) ∧ True := h
    show some (Instr.Jmp (wrap32 ((toU32 (a : Int) % 2 ^ 12 : Nat) : Int))) = _
    rw [field_a12 h.1]
  | Jmpf a =>
    have h : (0 ≤ (a : Int) ∧ (a : Int) < 65536) ∧ True := h
    show some (Instr.Jmpf (wrap32 ((toU32 (a : Int) % 2 ^ 16 : Nat) : Int))) = _
    rw [field_a16 h.1]
  | Br a =>
    have h : (-128 ≤ (a : Int) ∧ (a : Int) < 128) ∧ True := h
    show some (Instr.Br (rawRel8 (wrap32 ((toU32 (a : Int) % 2 ^ 8 : Nat) : Int)))) = _
    rw [field_r8 h.1]
  | Brf a =>
    have h : (-32768 ≤ (a : Int) ∧ (a : Int) < 32768) ∧ True := h
    show some (Instr.Brf (rawRel16 (wrap32 ((toU32 (a : Int) % 2 ^ 16 : Nat) : Int)))) = _
    rw [field_r16 h.1]
  | Bz a =>
    have h : (-128 ≤ (a : Int) ∧ (a : Int) < 128) ∧ True := h
    show some (Instr.Bz (rawRel8 (wrap32 ((toU32 (a : Int) % 2 ^ 8 : Nat) : Int)))) = _
    rw [field_r8 h.1]
  | Bnz a =>
    have h : (-128 ≤ (a : Int) ∧ (a : Int) < 128) ∧ True := h
    show some (Instr.Bnz (rawRel8 (wrap32 ((toU32 (a : Int) % 2 ^ 8 : Nat) : Int)))) = _
    rw [field_r8 h.1]
  | Bp a b c =>
    have h : (0 ≤ (a : Int) ∧ (a : Int) < 512) ∧ (0 ≤ (b : Int) ∧ (b : Int) < 8) ∧ (-128 ≤ (c : Int) ∧ (c : Int) < 128) ∧ True := h
    show some (Instr.Bp (wrap32 ((toU32 (a : Int) % 2 ^ 9 : Nat) : Int)) (wrap32 ((toU32 (b : Int) % 2 ^ 3 : Nat) : Int)) (rawRel8 (wrap32 ((toU32 (c : Int) % 2 ^ 8 : Nat) : Int)))) = _
    rw [field_d9 h.1, field_b3 h.2.1, field_r8 h.2.2.1]
  | Bpc a b c =>
    have h : (0 ≤ (a : Int) ∧ (a : Int) < 512) ∧ (0 ≤ (b : Int) ∧ (b : Int) < 8) ∧ (-128 ≤ (c : Int) ∧ (c : Int) < 128) ∧ True := h
    show some (Instr.Bpc (wrap32 ((toU32 (a : Int) % 2 ^ 9 : Nat) : Int)) (wrap32 ((toU32 (b : Int) % 2 ^ 3 : Nat) : Int)) (rawRel8 (wrap32 ((toU32 (c : Int) % 2 ^ 8 : Nat) : Int)))) = _
    rw [field_d9 h.1, field_b3 h.2.1, field_r8 h.2.2.1]
  | Bn a b c =>
    have h : (0 ≤ (a : Int) ∧ (a : Int) < 512) ∧ (0 ≤ (b : Int) ∧ (b : Int) < 8) ∧ (-128 ≤ (c : Int) ∧ (c : Int) < 128) ∧ True := h
    show some (Instr.Bn (wrap32 ((toU32 (a : Int) % 2 ^ 9 : Nat) : Int)) (wrap32 ((toU32 (b : Int) % 2 ^ 3 : Nat) : Int)) (rawRel8 (wrap32 ((toU32 (c : Int) % 2 ^ 8 : Nat) : Int)))) = _
    rw [field_d9 h.1, field_b3 h.2.1, field_r8 h.2.2.1]
  | Dbnz_d9 a b =>
    have h : (0 ≤ (a : Int) ∧ (a : Int) < 512) ∧ (-128 ≤ (b : Int) ∧ (b : Int) < 128) ∧ True := h
    show some (Instr.Dbnz_d9 (wrap32 ((toU32 (a : Int) % 2 ^ 9 : Nat) : Int)) (rawRel8 (wrap32 ((toU32 (b : Int) % 2 ^ 8 : Nat) : Int)))) = _
    rw [field_d9 h.1, field_r8 h.2.1]
  | Dbnz_Ri a b =>
    have h : (0 ≤ (a : Int) ∧ (a : Int) < 4) ∧ (-128 ≤ (b : Int) ∧ (b : Int) < 128) ∧ True := h
    show some (Instr.Dbnz_Ri (toU32 (a : Int) % 2 ^ 2 % 256) (rawRel8 (wrap32 ((toU32 (b : Int) % 2 ^ 8 : Nat) : Int)))) = _
    rw [field_ri h.1, field_r8 h.2.1]
  | Be_i8 a b =>
    have h : (0 ≤ (a : Int) ∧ (a : Int) < 256) ∧ (-128 ≤ (b : Int) ∧ (b : Int) < 128) ∧ True := h
    show some (Instr.Be_i8 (wrap32 ((toU32 (a : Int) % 2 ^ 8 : Nat) : Int)) (rawRel8 (wrap32 ((toU32 (b : Int) % 2 ^ 8 : Nat) : Int)))) = _
    rw [field_i8 h.1, field_r8 h.2.1]
  | Be_d9 a b =>
    have h : (0 ≤ (a : Int) ∧ (a : Int) < 512) ∧ (-128 ≤ (b : Int) ∧ (b : Int) < 128) ∧ True := h
    show some (Instr.Be_d9 (wrap32 ((toU32 (a : Int) % 2 ^ 9 : Nat) : Int)) (rawRel8 (wrap32 ((toU32 (b : Int) % 2 ^ 8 : Nat) : Int)))) = _
    rw [field_d9 h.1, field_r8 h.2.1]
  | Be_Rj a b c =>
    have h : (0 ≤ (a : Int) ∧ (a : Int) < 4) ∧ (0 ≤ (b : Int) ∧ (b : Int) < 256) ∧ (-128 ≤ (c : Int) ∧ (c : Int) < 128) ∧ True := h
    show some (Instr.Be_Rj (toU32 (a : Int) % 2 ^ 2 % 256) (wrap32 ((toU32 (b : Int) % 2 ^ 8 : Nat) : Int)) (rawRel8 (wrap32 ((toU32 (c : Int) % 2 ^ 8 : Nat) : Int)))) = _
    rw [field_ri h.1, field_i8 h.2.1, field_r8 h.2.2.1]
  | Bne_i8 a b =>
    have h : (0 ≤ (a : Int) ∧ (a : Int) < 256) ∧ (-128 ≤ (b : Int) ∧ (b : Int) < 128) ∧ True := h
    show some (Instr.Bne_i8 (wrap32 ((toU32 (a : Int) % 2 ^ 8 : Nat) : Int)) (rawRel8 (wrap32 ((toU32 (b : Int) % 2 ^ 8 : Nat) : Int)))) = _
    rw [field_i8 h.1, field_r8 h.2.1]
  | Bne_d9 a b =>
    have h : (0 ≤ (a : Int) ∧ (a : Int) < 512) ∧ (-128 ≤ (b : Int) ∧ (b : Int) < 128) ∧ True := h
    show some (Instr.Bne_d9 (wrap32 ((toU32 (a : Int) % 2 ^ 9 : Nat) : Int)) (rawRel8 (wrap32 ((toU32 (b : Int) % 2 ^ 8 : Nat) : Int)))) = _
    rw [field_d9 h.1, field_r8 h.2.1]
  | Bne_Rj a b c =>
    have h : (0 ≤ (a : Int) ∧ (a : Int) < 4) ∧ (0 ≤ (b : Int) ∧ (b : Int) < 256) ∧ (-128 ≤ (c : Int) ∧ (c : Int) < 128) ∧ True := h
    show some (Instr.Bne_Rj (toU32 (a : Int) % 2 ^ 2 % 256) (wrap32 ((toU32 (b : Int) % 2 ^ 8 : Nat) : Int)) (rawRel8 (wrap32 ((toU32 (c : Int) % 2 ^ 8 : Nat) : Int)))) = _
    rw [field_ri h.1, field_i8 h.2.1, field_r8 h.2.2.1]
  | Call a =>
    have h : (0 ≤ (a : Int) ∧ (a : Int) < 4096) ∧ True := h
    show some (Instr.Call (wrap32 ((toU32 (a : Int) % 2 ^ 12 : Nat) : Int))) = _
    rw [field_a12 h.1]
  | Callf a =>
    have h : (0 ≤ (a : Int) ∧ (a : Int) < 65536) ∧ True := h
    show some (Instr.Callf (wrap32 ((toU32 (a : Int) % 2 ^ 16 : Nat) : Int))) = _
    rw [field_a16 h.1]
  | Callr a =>
    have h : (-32768 ≤ (a : Int) ∧ (a : Int) < 32768) ∧ True := h
    show some (Instr.Callr (rawRel16 (wrap32 ((toU32 (a : Int) % 2 ^ 16 : Nat) : Int)))) = _
    rw [field_r16 h.1]
  | Ret => rfl
  | Reti => rfl
  | Clr1 a b =>
    have h : (0 ≤ (a : Int) ∧ (a : Int) < 512) ∧ (0 ≤ (b : Int) ∧ (b : Int) < 8) ∧ True := h
    show some (Instr.Clr1 (wrap32 ((toU32 (a : Int) % 2 ^ 9 : Nat) : Int)) (wrap32 ((toU32 (b : Int) % 2 ^ 3 : Nat) : Int))) = _
    rw [field_d9 h.1, field_b3 h.2.1]
  | Set1 a b =>
    have h : (0 ≤ (a : Int) ∧ (a : Int) < 512) ∧ (0 ≤ (b : Int) ∧ (b : Int) < 8) ∧ True := h
    show some (Instr.Set1 (wrap32 ((toU32 (a : Int) % 2 ^ 9 : Nat) : Int)) (wrap32 ((toU32 (b : Int) % 2 ^ 3 : Nat) : Int))) = _
    rw [field_d9 h.1, field_b3 h.2.1]
  | Not1 a b =>
    have h : (0 ≤ (a : Int) ∧ (a : Int) < 512) ∧ (0 ≤ (b : Int) ∧ (b : Int) < 8) ∧ True := h
    show some (Instr.Not1 (wrap32 ((toU32 (a : Int) % 2 ^ 9 : Nat) : Int)) (wrap32 ((toU32 (b : Int) % 2 ^ 3 : Nat) : Int))) = _
    rw [field_d9 h.1, field_b3 h.2.1]
  | Nop => rfl
  | Ldf => rfl
  | Stf => rfl

theorem build_vals (f : Form) (xs : List Nat) (h : xs.length = f.fields.length) :
    ∃ i, f.build xs = some i ∧ (decodeFromRaw i).form = f ∧
      fieldVals f (decodeFromRaw i).vals = List.zipWith (fun x (p : Char × Nat) => x % 2 ^ p.2) xs f.widths ∧
      (decodeFromRaw i).vals = List.zipWith Kind.read (kinds f) xs := by
  cases f with
  | Add_i8 =>
    obtain ⟨a, rfl⟩ := list_len_1 h
    refine ⟨_, rfl, rfl, ?_, rfl⟩
    show [toU32 (wrap32 ((a : Nat) : Int)) % 2 ^ 8] = _
    simp only [rfield_i8]
    rfl
  | Add_d9 =>
    obtain ⟨a, rfl⟩ := list_len_1 h
    refine ⟨_, rfl, rfl, ?_, rfl⟩
    show [toU32 (wrap32 ((a : Nat) : Int)) % 2 ^ 9] = _
    simp only [rfield_d9]
    rfl
  | Add_Ri =>
    obtain ⟨a, rfl⟩ := list_len_1 h
    refine ⟨_, rfl, rfl, ?_, rfl⟩
    show [toU32 ((a % 256 : Nat) : Int) % 2 ^ 2] = _
    simp only [rfield_ri]
    rfl
  | Addc_i8 =>
    obtain ⟨a, rfl⟩ := list_len_1 h
    refine ⟨_, rfl, rfl, ?_, rfl⟩
    show [toU32 (wrap32 ((a : Nat) : Int)) % 2 ^ 8] = _
    simp only [rfield_i8]
    rfl
  | Addc_d9 =>
    obtain ⟨a, rfl⟩ := list_len_1 h
    refine ⟨_, rfl, rfl, ?_, rfl⟩
    show [toU32 (wrap32 ((a : Nat) : Int)) % 2 ^ 9] = _
    simp only [rfield_d9]
    rfl
  | Addc_Ri =>
    obtain ⟨a, rfl⟩ := list_len_1 h
    refine ⟨_, rfl, rfl, ?_, rfl⟩
    show [toU32 ((a % 256 : Nat) : Int) % 2 ^ 2] = _
    simp only [rfield_ri]
    rfl
  | Sub_i8 =>
    obtain ⟨a, rfl⟩ := list_len_1 h
    refine ⟨_, rfl, rfl, ?_, rfl⟩
    show [toU32 (wrap32 ((a : Nat) : Int)) % 2 ^ 8] = _
    simp only [rfield_i8]
    rfl
  | Sub_d9 =>
    obtain ⟨a, rfl⟩ := list_len_1 h
    refine ⟨_, rfl, rfl, ?_, rfl⟩
    show [toU32 (wrap32 ((a : Nat) : Int)) % 2 ^ 9] = _
    simp only [rfield_d9]
    rfl
  | Sub_Ri =>
    obtain ⟨a, rfl⟩ := list_len_1 h
    refine ⟨_, rfl, rfl, ?_, rfl⟩
    show [toU32 ((a % 256 : Nat) : Int) % 2 ^ 2] = _
    simp only [rfield_ri]
    rfl
  | Subc_i8 =>
    obtain ⟨a, rfl⟩ := list_len_1 h
    refine ⟨_, rfl, rfl, ?_, rfl⟩
    show [toU32 (wrap32 ((a : Nat) : Int)) % 2 ^ 8] = _
    simp only [rfield_i8]
    rfl
  | Subc_d9 =>
    obtain ⟨a, rfl⟩ := list_len_1 h
    refine ⟨_, rfl, rfl, ?_, rfl⟩
    show [toU32 (wrap32 ((a : Nat) : Int)) % 2 ^ 9] = _
    simp only [rfield_d9]
    rfl
  | Subc_Ri =>
    obtain ⟨a, rfl⟩ := list_len_1 h
    refine ⟨_, rfl, rfl, ?_, rfl⟩
    show [toU32 ((a % 256 : Nat) : Int) % 2 ^ 2] = _
    simp only [rfield_ri]
    rfl
  | Inc_d9 =>
    obtain ⟨a, rfl⟩ := list_len_1 h
    refine ⟨_, rfl, rfl, ?_, rfl⟩
    show [toU32 (wrap32 ((a : Nat) : Int)) % 2 ^ 9] = _
    simp only [rfield_d9]
    rfl
  | Inc_Ri =>
    obtain ⟨a, rfl⟩ := list_len_1 h
    refine ⟨_, rfl, rfl, ?_, rfl⟩
    show [toU32 ((a % 256 : Nat) : Int) % 2 ^ 2] = _
    simp only [rfield_ri]
    rfl
  | Dec_d9 =>
    obtain ⟨a, rfl⟩ := list_len_1 h
    refine ⟨_, rfl, rfl, ?_, rfl⟩
    show [toU32 (wrap32 ((a : Nat) : Int)) % 2 ^ 9] = _
    simp only [rfield_d9]
    rfl
  | Dec_Ri =>
    obtain ⟨a, rfl⟩ := list_len_1 h
    refine ⟨_, rfl, rfl, ?_, rfl⟩
    show [toU32 ((a % 256 : Nat) : Int) % 2 ^ 2] = _
    simp only [rfield_ri]
    rfl
  | Mul =>
    obtain ⟨rfl⟩ := list_len_0 h
    exact ⟨_, rfl, rfl, rfl, rfl⟩
  | Div =>
    obtain ⟨rfl⟩ := list_len_0 h
    exact ⟨_, rfl, rfl, rfl, rfl⟩
  | And_i8 =>
    obtain ⟨a, rfl⟩ := list_len_1 h
    refine ⟨_, rfl, rfl, ?_, rfl⟩
    show [toU32 (wrap32 ((a : Nat) : Int)) % 2 ^ 8] = _
    simp only [rfield_i8]
    rfl
  | And_d9 =>
    obtain ⟨a, rfl⟩ := list_len_1 h
    refine ⟨_, rfl, rfl, ?_, rfl⟩
    show [toU32 (wrap32 ((a : Nat) : Int)) % 2 ^ 9] = _
    simp only [rfield_d9]
    rfl
  | And_Ri =>
    obtain ⟨a, rfl⟩ := list_len_1 h
    refine ⟨_, rfl, rfl, ?_, rfl⟩
    show [toU32 ((a % 256 : Nat) : Int) % 2 ^ 2] = _
    simp only [rfield_ri]
    rfl
  | Or_i8 =>
    obtain ⟨a, rfl⟩ := list_len_1 h
    refine ⟨_, rfl, rfl, ?_, rfl⟩
    show [toU32 (wrap32 ((a : Nat) : Int)) % 2 ^ 8] = _
    simp only [rfield_i8]
    rfl
  | Or_d9 =>
    obtain ⟨a, rfl⟩ := list_len_1 h
    refine ⟨_, rfl, rfl, ?_, rfl⟩
    show [toU32 (wrap32 ((a : Nat) : Int)) % 2 ^ 9] = _
    simp only [rfield_d9]
    rfl
  | Or_Ri =>
    obtain ⟨a, rfl⟩ := list_len_1 h
    refine ⟨_, rfl, rfl, ?_, rfl⟩
    show [toU32 ((a % 256 : Nat) : Int) % 2 ^ 2] = _
    simp only [rfield_ri]
    rfl
  | Xor_i8 =>
    obtain ⟨a, rfl⟩ := list_len_1 h
    refine ⟨_, rfl, rfl, ?_, rfl⟩
    show [toU32 (wrap32 ((a : Nat) : Int)) % 2 ^ 8] = _
    simp only [rfield_i8]
    rfl
  | Xor_d9 =>
    obtain ⟨a, rfl⟩ := list_len_1 h
    refine ⟨_, rfl, rfl, ?_, rfl⟩
    show [toU32 (wrap32 ((a : Nat) : Int)) % 2 ^ 9] = _
    simp only [rfield_d9]
    rfl
  | Xor_Ri =>
    obtain ⟨a, rfl⟩ := list_len_1 h
    refine ⟨_, rfl, rfl, ?_, rfl⟩
    show [toU32 ((a % 256 : Nat) : Int) % 2 ^ 2] = _
    simp only [rfield_ri]
    rfl
  | Rol =>
    obtain ⟨rfl⟩ := list_len_0 h
    exact ⟨_, rfl, rfl, rfl, rfl⟩
  | Rolc =>
    obtain ⟨rfl⟩ := list_len_0 h
    exact ⟨_, rfl, rfl, rfl, rfl⟩
  | Ror =>
    obtain ⟨rfl⟩ := list_len_0 h
    exact ⟨_, rfl, rfl, rfl, rfl⟩
  | Rorc =>
    obtain ⟨rfl⟩ := list_len_0 h
    exact ⟨_, rfl, rfl, rfl, rfl⟩
  | Ld_d9 =>
    obtain ⟨a, rfl⟩ := list_len_1 h
    refine ⟨_, rfl, rfl, ?_, rfl⟩
    show [toU32 (wrap32 ((a : Nat) : Int)) % 2 ^ 9] = _
    simp only [rfield_d9]
    rfl
  | Ld_Ri =>
    obtain ⟨a, rfl⟩ := list_len_1 h
    refine ⟨_, rfl, rfl, ?_, rfl⟩
    show [toU32 ((a % 256 : Nat) : Int) % 2 ^ 2] = _
    simp only [rfield_ri]
    rfl
  | St_d9 =>
    obtain ⟨a, rfl⟩ := list_len_1 h
    refine ⟨_, rfl, rfl, ?_, rfl⟩
    show [toU32 (wrap32 ((a : Nat) : Int)) % 2 ^ 9] = _
    simp only [rfield_d9]
    rfl
  | St_Ri =>
    obtain ⟨a, rfl⟩ := list_len_1 h
    refine ⟨_, rfl, rfl, ?_, rfl⟩
    show [toU32 ((a % 256 : Nat) : Int) % 2 ^ 2] = _
    simp only [rfield_ri]
    rfl
  | Mov_d9 =>
    obtain ⟨a, b, rfl⟩ := list_len_2 h
    refine ⟨_, rfl, rfl, ?_, rfl⟩
    show [toU32 (wrap32 ((a : Nat) : Int)) % 2 ^ 8, toU32 (wrap32 ((b : Nat) : Int)) % 2 ^ 9] = _
    simp only [rfield_i8, rfield_d9]
    rfl
  | Mov_Rj =>
    obtain ⟨a, b, rfl⟩ := list_len_2 h
    refine ⟨_, rfl, rfl, ?_, rfl⟩
    show [toU32 (wrap32 ((a : Nat) : Int)) % 2 ^ 8, toU32 ((b % 256 : Nat) : Int) % 2 ^ 2] = _
    simp only [rfield_i8, rfield_ri]
    rfl
  | Ldc =>
    obtain ⟨rfl⟩ := list_len_0 h
    exact ⟨_, rfl, rfl, rfl, rfl⟩
  | Push =>
    obtain ⟨a, rfl⟩ := list_len_1 h
    refine ⟨_, rfl, rfl, ?_, rfl⟩
    show [toU32 (wrap32 ((a : Nat) : Int)) % 2 ^ 9] = _
    simp only [rfield_d9]
    rfl
  | Pop =>
    obtain ⟨a, rfl⟩ := list_len_1 h
    refine ⟨_, rfl, rfl, ?_, rfl⟩
    show [toU32 (wrap32 ((a : Nat) : Int)) % 2 ^ 9] = _
    simp only [rfield_d9]
    rfl
  | Xch_d9 =>
    obtain ⟨a, rfl⟩ := list_len_1 h
    refine ⟨_, rfl, rfl, ?_, rfl⟩
    show [toU32 (wrap32 ((a : Nat) : Int)) % 2 ^ 9] = _
    simp only [rfield_d9]
    rfl
  | Xch_Ri =>
    obtain ⟨a, rfl⟩ := list_len_1 h
    refine ⟨_, rfl, rfl, ?_, rfl⟩
    show [toU32 ((a % 256 : Nat) : Int) % 2 ^ 2] = _
    simp only [rfield_ri]
    rfl
  | Jmp =>
    obtain ⟨a, rfl⟩ := list_len_1 h
    refine ⟨_, rfl, rfl, ?_, rfl⟩
    show [toU32 (wrap32 ((a : Nat) : Int)) % 2 ^ 12] = _
    simp only [rfield_a12]
    rfl
  | Jmpf =>
    obtain ⟨a, rfl⟩ := list_len_1 h
    refine ⟨_, rfl, rfl, ?_, rfl⟩
    show [toU32 (wrap32 ((a : Nat) : Int)) % 2 ^ 16] = _
    simp only [rfield_a16]
    rfl
  | Br =>
    obtain ⟨a, rfl⟩ := list_len_1 h
    refine ⟨_, rfl, rfl, ?_, rfl⟩
    show [toU32 (rawRel8 (wrap32 ((a : Nat) : Int))) % 2 ^ 8] = _
    simp only [rfield_r8]
    rfl
  | Brf =>
    obtain ⟨a, rfl⟩ := list_len_1 h
    refine ⟨_, rfl, rfl, ?_, rfl⟩
    show [toU32 (rawRel16 (wrap32 ((a : Nat) : Int))) % 2 ^ 16] = _
    simp only [rfield_r16]
    rfl
  | Bz =>
    obtain ⟨a, rfl⟩ := list_len_1 h
    refine ⟨_, rfl, rfl, ?_, rfl⟩
    show [toU32 (rawRel8 (wrap32 ((a : Nat) : Int))) % 2 ^ 8] = _
    simp only [rfield_r8]
    rfl
  | Bnz =>
    obtain ⟨a, rfl⟩ := list_len_1 h
    refine ⟨_, rfl, rfl, ?_, rfl⟩
    show [toU32 (rawRel8 (wrap32 ((a : Nat) : Int))) % 2 ^ 8] = _
    simp only [rfield_r8]
    rfl
  | Bp =>
    obtain ⟨a, b, c, rfl⟩ := list_len_3 h
    refine ⟨_, rfl, rfl, ?_, rfl⟩
    show [toU32 (wrap32 ((a : Nat) : Int)) % 2 ^ 9, toU32 (wrap32 ((b : Nat) : Int)) % 2 ^ 3, toU32 (rawRel8 (wrap32 ((c : Nat) : Int))) % 2 ^ 8] = _
    simp only [rfield_d9, rfield_b3, rfield_r8]
    rfl
  | Bpc =>
    obtain ⟨a, b, c, rfl⟩ := list_len_3 h
    refine ⟨_, rfl, rfl, ?_, rfl⟩
    show [toU32 (wrap32 ((a : Nat) : Int)) % 2 ^ 9, toU32 (wrap32 ((b : Nat) : Int)) % 2 ^ 3, toU32 (rawRel8 (wrap32 ((c : Nat) : Int))) % 2 ^ 8] = _
    simp only [rfield_d9, rfield_b3, rfield_r8]
    rfl
  | Bn =>
    obtain ⟨a, b, c, rfl⟩ := list_len_3 h
    refine ⟨_, rfl, rfl, ?_, rfl⟩
    show [toU32 (wrap32 ((a : Nat) : Int)) % 2 ^ 9, toU32 (wrap32 ((b : Nat) : Int)) % 2 ^ 3, toU32 (rawRel8 (wrap32 ((c : Nat) : Int))) % 2 ^ 8] = _
    simp only [rfield_d9, rfield_b3, rfield_r8]
    rfl
  | Dbnz_d9 =>
    obtain ⟨a, b, rfl⟩ := list_len_2 h
    refine ⟨_, rfl, rfl, ?_, rfl⟩
    show [toU32 (wrap32 ((a : Nat) : Int)) % 2 ^ 9, toU32 (rawRel8 (wrap32 ((b : Nat) : Int))) % 2 ^ 8] = _
    simp only [rfield_d9, rfield_r8]
    rfl
  | Dbnz_Ri =>
    obtain ⟨a, b, rfl⟩ := list_len_2 h
    refine ⟨_, rfl, rfl, ?_, rfl⟩
    show [toU32 ((a % 256 : Nat) : Int) % 2 ^ 2, toU32 (rawRel8 (wrap32 ((b : Nat) : Int))) % 2 ^ 8] = _
    simp only [rfield_ri, rfield_r8]
    rfl
  | Be_i8 =>
    obtain ⟨a, b, rfl⟩ := list_len_2 h
    refine ⟨_, rfl, rfl, ?_, rfl⟩
    show [toU32 (wrap32 ((a : Nat) : Int)) % 2 ^ 8, toU32 (rawRel8 (wrap32 ((b : Nat) : Int))) % 2 ^ 8] = _
    simp only [rfield_i8, rfield_r8]
    rfl
  | Be_d9 =>
    obtain ⟨a, b, rfl⟩ := list_len_2 h
    refine ⟨_, rfl, rfl, ?_, rfl⟩
    show [toU32 (wrap32 ((a : Nat) : Int)) % 2 ^ 9, toU32 (rawRel8 (wrap32 ((b : Nat) : Int))) % 2 ^ 8] = _
    simp only [rfield_d9, rfield_r8]
    rfl
  | Be_Rj =>
    obtain ⟨a, b, c, rfl⟩ := list_len_3 h
    refine ⟨_, rfl, rfl, ?_, rfl⟩
    show [toU32 ((a % 256 : Nat) : Int) % 2 ^ 2, toU32 (wrap32 ((b : Nat) : Int)) % 2 ^ 8, toU32 (rawRel8 (wrap32 ((c : Nat) : Int))) % 2 ^ 8] = _
    simp only [rfield_ri, rfield_i8, rfield_r8]
    rfl
  | Bne_i8 =>
    obtain ⟨a, b, rfl⟩ := list_len_2 h
    refine ⟨_, rfl, rfl, ?_, rfl⟩
    show [toU32 (wrap32 ((a : Nat) : Int)) % 2 ^ 8, toU32 (rawRel8 (wrap32 ((b : Nat) : Int))) % 2 ^ 8] = _
    simp only [rfield_i8, rfield_r8]
    rfl
  | Bne_d9 =>
    obtain ⟨a, b, rfl⟩ := list_len_2 h
    refine ⟨_, rfl, rfl, ?_, rfl⟩
    show [toU32 (wrap32 ((a : Nat) : Int)) % 2 ^ 9, toU32 (rawRel8 (wrap32 ((b : Nat) : Int))) % 2 ^ 8] = _
    simp only [rfield_d9, rfield_r8]
    rfl
  | Bne_Rj =>
    obtain ⟨a, b, c, rfl⟩ := list_len_3 h
    refine ⟨_, rfl, rfl, ?_, rfl⟩
    show [toU32 ((a % 256 : Nat) : Int) % 2 ^ 2, toU32 (wrap32 ((b : Nat) : Int)) % 2 ^ 8, toU32 (rawRel8 (wrap32 ((c : Nat) : Int))) % 2 ^ 8] = _
    simp only [rfield_ri, rfield_i8, rfield_r8]
    rfl
  | Call =>
    obtain ⟨a, rfl⟩ := list_len_1 h
    refine ⟨_, rfl, rfl, ?_, rfl⟩
    show [toU32 (wrap32 ((a : Nat) : Int)) % 2 ^ 12] = _
    simp only [rfield_a12]
    rfl
  | Callf =>
    obtain ⟨a, rfl⟩ := list_len_1 h
    refine ⟨_, rfl, rfl, ?_, rfl⟩
    show [toU32 (wrap32 ((a : Nat) : Int)) % 2 ^ 16] = _
    simp only [rfield_a16]
    rfl
  | Callr =>
    obtain ⟨a, rfl⟩ := list_len_1 h
    refine ⟨_, rfl, rfl, ?_, rfl⟩
    show [toU32 (rawRel16 (wrap32 ((a : Nat) : Int))) % 2 ^ 16] = _
    simp only [rfield_r16]
    rfl
  | Ret =>
    obtain ⟨rfl⟩ := list_len_0 h
    exact ⟨_, rfl, rfl, rfl, rfl⟩
  | Reti =>
    obtain ⟨rfl⟩ := list_len_0 h
    exact ⟨_, rfl, rfl, rfl, rfl⟩
  | Clr1 =>
    obtain ⟨a, b, rfl⟩ := list_len_2 h
    refine ⟨_, rfl, rfl, ?_, rfl⟩
    show [toU32 (wrap32 ((a : Nat) : Int)) % 2 ^ 9, toU32 (wrap32 ((b : Nat) : Int)) % 2 ^ 3] = _
    simp only [rfield_d9, rfield_b3]
    rfl
  | Set1 =>
    obtain ⟨a, b, rfl⟩ := list_len_2 h
    refine ⟨_, rfl, rfl, ?_, rfl⟩
    show [toU32 (wrap32 ((a : Nat) : Int)) % 2 ^ 9, toU32 (wrap32 ((b : Nat) : Int)) % 2 ^ 3] = _
    simp only [rfield_d9, rfield_b3]
    rfl
  | Not1 =>
    obtain ⟨a, b, rfl⟩ := list_len_2 h
    refine ⟨_, rfl, rfl, ?_, rfl⟩
    show [toU32 (wrap32 ((a : Nat) : Int)) % 2 ^ 9, toU32 (wrap32 ((b : Nat) : Int)) % 2 ^ 3] = _
    simp only [rfield_d9, rfield_b3]
    rfl
  | Nop =>
    obtain ⟨rfl⟩ := list_len_0 h
    exact ⟨_, rfl, rfl, rfl, rfl⟩
  | Ldf =>
    obtain ⟨rfl⟩ := list_len_0 h
    exact ⟨_, rfl, rfl, rfl, rfl⟩
  | Stf =>
    obtain ⟨rfl⟩ := list_len_0 h
    exact ⟨_, rfl, rfl, rfl, rfl⟩

end Verif
