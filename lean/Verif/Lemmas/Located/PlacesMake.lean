import Verif.Lemmas.Located.PlacesExpr
import Verif.Lemmas.MakeInstr
/-
The expressions of instructions.
-/
namespace Verif.Located

/-- The expressions of the instructions made are arguments. -/
def FromArgs (f : List Arg → Option (Instr Expr IM)) : Prop :=
  ∀ args i, f args = some i → ∀ e ∈ exprsOf i, .imm e ∈ args ∨ .ex e ∈ args

theorem make_add_fromArgs : FromArgs make_add := by
  intro args i h
  unfold make_add at h
  split at h <;> cases h <;> simp [exprsOf]

theorem make_addc_fromArgs : FromArgs make_addc := by
  intro args i h
  unfold make_addc at h
  split at h <;> cases h <;> simp [exprsOf]

theorem make_sub_fromArgs : FromArgs make_sub := by
  intro args i h
  unfold make_sub at h
  split at h <;> cases h <;> simp [exprsOf]

theorem make_subc_fromArgs : FromArgs make_subc := by
  intro args i h
  unfold make_subc at h
  split at h <;> cases h <;> simp [exprsOf]

theorem make_inc_fromArgs : FromArgs make_inc := by
  intro args i h
  unfold make_inc at h
  split at h <;> cases h <;> simp [exprsOf]

theorem make_dec_fromArgs : FromArgs make_dec := by
  intro args i h
  unfold make_dec at h
  split at h <;> cases h <;> simp [exprsOf]

theorem make_mul_fromArgs : FromArgs make_mul := by
  intro args i h
  unfold make_mul at h
  split at h <;> cases h <;> simp [exprsOf]

theorem make_div_fromArgs : FromArgs make_div := by
  intro args i h
  unfold make_div at h
  split at h <;> cases h <;> simp [exprsOf]

theorem make_and_fromArgs : FromArgs make_and := by
  intro args i h
  unfold make_and at h
  split at h <;> cases h <;> simp [exprsOf]

theorem make_or_fromArgs : FromArgs make_or := by
  intro args i h
  unfold make_or at h
  split at h <;> cases h <;> simp [exprsOf]

theorem make_xor_fromArgs : FromArgs make_xor := by
  intro args i h
  unfold make_xor at h
  split at h <;> cases h <;> simp [exprsOf]

theorem make_rol_fromArgs : FromArgs make_rol := by
  intro args i h
  unfold make_rol at h
  split at h <;> cases h <;> simp [exprsOf]

theorem make_rolc_fromArgs : FromArgs make_rolc := by
  intro args i h
  unfold make_rolc at h
  split at h <;> cases h <;> simp [exprsOf]

theorem make_ror_fromArgs : FromArgs make_ror := by
  intro args i h
  unfold make_ror at h
  split at h <;> cases h <;> simp [exprsOf]

theorem make_rorc_fromArgs : FromArgs make_rorc := by
  intro args i h
  unfold make_rorc at h
  split at h <;> cases h <;> simp [exprsOf]

theorem make_ld_fromArgs : FromArgs make_ld := by
  intro args i h
  unfold make_ld at h
  split at h <;> cases h <;> simp [exprsOf]

theorem make_st_fromArgs : FromArgs make_st := by
  intro args i h
  unfold make_st at h
  split at h <;> cases h <;> simp [exprsOf]

theorem make_mov_fromArgs : FromArgs make_mov := by
  intro args i h
  unfold make_mov at h
  split at h <;> cases h <;> simp [exprsOf]

theorem make_ldc_fromArgs : FromArgs make_ldc := by
  intro args i h
  unfold make_ldc at h
  split at h <;> cases h <;> simp [exprsOf]

theorem make_push_fromArgs : FromArgs make_push := by
  intro args i h
  unfold make_push at h
  split at h <;> cases h <;> simp [exprsOf]

theorem make_pop_fromArgs : FromArgs make_pop := by
  intro args i h
  unfold make_pop at h
  split at h <;> cases h <;> simp [exprsOf]

theorem make_xch_fromArgs : FromArgs make_xch := by
  intro args i h
  unfold make_xch at h
  split at h <;> cases h <;> simp [exprsOf]

theorem make_jmp_fromArgs : FromArgs make_jmp := by
  intro args i h
  unfold make_jmp at h
  split at h <;> cases h <;> simp [exprsOf]

theorem make_jmpf_fromArgs : FromArgs make_jmpf := by
  intro args i h
  unfold make_jmpf at h
  split at h <;> cases h <;> simp [exprsOf]

theorem make_br_fromArgs : FromArgs make_br := by
  intro args i h
  unfold make_br at h
  split at h <;> cases h <;> simp [exprsOf]

theorem make_brf_fromArgs : FromArgs make_brf := by
  intro args i h
  unfold make_brf at h
  split at h <;> cases h <;> simp [exprsOf]

theorem make_bz_fromArgs : FromArgs make_bz := by
  intro args i h
  unfold make_bz at h
  split at h <;> cases h <;> simp [exprsOf]

theorem make_bnz_fromArgs : FromArgs make_bnz := by
  intro args i h
  unfold make_bnz at h
  split at h <;> cases h <;> simp [exprsOf]

theorem make_bp_fromArgs : FromArgs make_bp := by
  intro args i h
  unfold make_bp at h
  split at h <;> cases h <;> simp [exprsOf]

theorem make_bpc_fromArgs : FromArgs make_bpc := by
  intro args i h
  unfold make_bpc at h
  split at h <;> cases h <;> simp [exprsOf]

theorem make_bn_fromArgs : FromArgs make_bn := by
  intro args i h
  unfold make_bn at h
  split at h <;> cases h <;> simp [exprsOf]

theorem make_dbnz_fromArgs : FromArgs make_dbnz := by
  intro args i h
  unfold make_dbnz at h
  split at h <;> cases h <;> simp [exprsOf]

theorem make_be_fromArgs : FromArgs make_be := by
  intro args i h
  unfold make_be at h
  split at h <;> cases h <;> simp [exprsOf]

theorem make_bne_fromArgs : FromArgs make_bne := by
  intro args i h
  unfold make_bne at h
  split at h <;> cases h <;> simp [exprsOf]

theorem make_call_fromArgs : FromArgs make_call := by
  intro args i h
  unfold make_call at h
  split at h <;> cases h <;> simp [exprsOf]

theorem make_callf_fromArgs : FromArgs make_callf := by
  intro args i h
  unfold make_callf at h
  split at h <;> cases h <;> simp [exprsOf]

theorem make_callr_fromArgs : FromArgs make_callr := by
  intro args i h
  unfold make_callr at h
  split at h <;> cases h <;> simp [exprsOf]

theorem make_ret_fromArgs : FromArgs make_ret := by
  intro args i h
  unfold make_ret at h
  split at h <;> cases h <;> simp [exprsOf]

theorem make_reti_fromArgs : FromArgs make_reti := by
  intro args i h
  unfold make_reti at h
  split at h <;> cases h <;> simp [exprsOf]

theorem make_clr1_fromArgs : FromArgs make_clr1 := by
  intro args i h
  unfold make_clr1 at h
  split at h <;> cases h <;> simp [exprsOf]

theorem make_set1_fromArgs : FromArgs make_set1 := by
  intro args i h
  unfold make_set1 at h
  split at h <;> cases h <;> simp [exprsOf]

theorem make_not1_fromArgs : FromArgs make_not1 := by
  intro args i h
  unfold make_not1 at h
  split at h <;> cases h <;> simp [exprsOf]

theorem make_nop_fromArgs : FromArgs make_nop := by
  intro args i h
  unfold make_nop at h
  split at h <;> cases h <;> simp [exprsOf]

theorem make_ldf_fromArgs : FromArgs make_ldf := by
  intro args i h
  unfold make_ldf at h
  split at h <;> cases h <;> simp [exprsOf]

theorem make_stf_fromArgs : FromArgs make_stf := by
  intro args i h
  unfold make_stf at h
  split at h <;> cases h <;> simp [exprsOf]

theorem makers_fromArgs : ∀ x ∈ makers, FromArgs x.2 := by
  unfold makers
  repeat' refine List.forall_mem_cons.mpr ⟨?_, ?_⟩
  · exact make_add_fromArgs
  · exact make_addc_fromArgs
  · exact make_sub_fromArgs
  · exact make_subc_fromArgs
  · exact make_inc_fromArgs
  · exact make_dec_fromArgs
  · exact make_mul_fromArgs
  · exact make_div_fromArgs
  · exact make_and_fromArgs
  · exact make_or_fromArgs
  · exact make_xor_fromArgs
  · exact make_rol_fromArgs
  · exact make_rolc_fromArgs
  · exact make_ror_fromArgs
  · exact make_rorc_fromArgs
  · exact make_ld_fromArgs
  · exact make_st_fromArgs
  · exact make_mov_fromArgs
  · exact make_ldc_fromArgs
  · exact make_push_fromArgs
  · exact make_pop_fromArgs
  · exact make_xch_fromArgs
  · exact make_jmp_fromArgs
  · exact make_jmpf_fromArgs
  · exact make_br_fromArgs
  · exact make_brf_fromArgs
  · exact make_bz_fromArgs
  · exact make_bnz_fromArgs
  · exact make_bp_fromArgs
  · exact make_bpc_fromArgs
  · exact make_bn_fromArgs
  · exact make_dbnz_fromArgs
  · exact make_be_fromArgs
  · exact make_bne_fromArgs
  · exact make_call_fromArgs
  · exact make_callf_fromArgs
  · exact make_callr_fromArgs
  · exact make_ret_fromArgs
  · exact make_reti_fromArgs
  · exact make_clr1_fromArgs
  · exact make_set1_fromArgs
  · exact make_not1_fromArgs
  · exact make_nop_fromArgs
  · exact make_ldf_fromArgs
  · exact make_stf_fromArgs
  · intro x hx; cases hx

theorem lookup_pair {κ α : Type} [BEq κ] [LawfulBEq κ] {l : List (κ × α)} {n : κ} {a : α} (h : l.lookup n = some a) : (n, a) ∈ l := by
  induction l with
  | nil => cases h
  | cons x xs ih =>
    obtain ⟨b, f⟩ := x
    simp only [List.lookup_cons] at h
    cases hb : n == b with
    | true =>
      rw [hb] at h
      cases h
      simp [beq_iff_eq.mp hb]
    | false =>
      rw [hb] at h
      exact List.mem_cons_of_mem _ (ih h)

theorem makers_mnemonic {p : Text × (List Arg → Option (Instr Expr IM))} (h : p ∈ makers) : Spec.Mnemonic p.1 := by
  have h1 : (makers.all fun p => Form.all.any fun f => p.1 = (Spec.row f).name.toList) = true := by decide +kernel
  obtain ⟨f, _, hf⟩ := List.any_eq_true.mp (List.all_eq_true.mp h1 p h)
  exact ⟨f, of_decide_eq_true hf⟩

theorem makeInstr_all {E : Err → Place → Prop} {s : Span} {name : Text} {args : List Arg}
    (h1 : E (.unknownInstruction name) (.span s))
    (h2 : Spec.Mnemonic name → E (.wrongInstructionArgs name) (.span s)) :
    (makeInstr s name args).All E fun i => ∀ e ∈ exprsOf i, .imm e ∈ args ∨ .ex e ∈ args := by
  unfold makeInstr
  split
  next f hf =>
    split
    next i hi => exact makers_fromArgs _ (lookup_pair hf) args i hi
    next => exact h2 (makers_mnemonic (lookup_pair hf))
  next => exact h1

theorem evalInstrIn_all {E : Err → Place → Prop} {m : Mode} {env : Env} {pos : Nat} {i : Instr Expr IM}
    (hb : ∀ e ∈ exprsOf i, ∀ bits, (evalBits m env bits e).All E fun _ => True)
    (h8 : ∀ e ∈ exprsOf i, (evalRel8 m env pos e).All E fun _ => True)
    (h12 : ∀ e ∈ exprsOf i, (evalAbs12 m env pos e).All E fun _ => True)
    (h16 : ∀ e ∈ exprsOf i, (evalRel16 m env pos e).All E fun _ => True) :
    (evalInstrIn m env pos i).All E fun _ => True := by
  cases i with
  | Add_i8 a => exact .bind (hb a (by simp [exprsOf]) 8) fun _ _ => trivial
  | Add_d9 a => exact .bind (hb a (by simp [exprsOf]) 9) fun _ _ => trivial
  | Add_Ri a => exact trivial
  | Addc_i8 a => exact .bind (hb a (by simp [exprsOf]) 8) fun _ _ => trivial
  | Addc_d9 a => exact .bind (hb a (by simp [exprsOf]) 9) fun _ _ => trivial
  | Addc_Ri a => exact trivial
  | Sub_i8 a => exact .bind (hb a (by simp [exprsOf]) 8) fun _ _ => trivial
  | Sub_d9 a => exact .bind (hb a (by simp [exprsOf]) 9) fun _ _ => trivial
  | Sub_Ri a => exact trivial
  | Subc_i8 a => exact .bind (hb a (by simp [exprsOf]) 8) fun _ _ => trivial
  | Subc_d9 a => exact .bind (hb a (by simp [exprsOf]) 9) fun _ _ => trivial
  | Subc_Ri a => exact trivial
  | Inc_d9 a => exact .bind (hb a (by simp [exprsOf]) 9) fun _ _ => trivial
  | Inc_Ri a => exact trivial
  | Dec_d9 a => exact .bind (hb a (by simp [exprsOf]) 9) fun _ _ => trivial
  | Dec_Ri a => exact trivial
  | Mul => exact trivial
  | Div => exact trivial
  | And_i8 a => exact .bind (hb a (by simp [exprsOf]) 8) fun _ _ => trivial
  | And_d9 a => exact .bind (hb a (by simp [exprsOf]) 9) fun _ _ => trivial
  | And_Ri a => exact trivial
  | Or_i8 a => exact .bind (hb a (by simp [exprsOf]) 8) fun _ _ => trivial
  | Or_d9 a => exact .bind (hb a (by simp [exprsOf]) 9) fun _ _ => trivial
  | Or_Ri a => exact trivial
  | Xor_i8 a => exact .bind (hb a (by simp [exprsOf]) 8) fun _ _ => trivial
  | Xor_d9 a => exact .bind (hb a (by simp [exprsOf]) 9) fun _ _ => trivial
  | Xor_Ri a => exact trivial
  | Rol => exact trivial
  | Rolc => exact trivial
  | Ror => exact trivial
  | Rorc => exact trivial
  | Ld_d9 a => exact .bind (hb a (by simp [exprsOf]) 9) fun _ _ => trivial
  | Ld_Ri a => exact trivial
  | St_d9 a => exact .bind (hb a (by simp [exprsOf]) 9) fun _ _ => trivial
  | St_Ri a => exact trivial
  | Mov_d9 a b => exact .bind (hb a (by simp [exprsOf]) 8) fun _ _ => .bind (hb b (by simp [exprsOf]) 9) fun _ _ => trivial
  | Mov_Rj a b => exact .bind (hb a (by simp [exprsOf]) 8) fun _ _ => trivial
  | Ldc => exact trivial
  | Push a => exact .bind (hb a (by simp [exprsOf]) 9) fun _ _ => trivial
  | Pop a => exact .bind (hb a (by simp [exprsOf]) 9) fun _ _ => trivial
  | Xch_d9 a => exact .bind (hb a (by simp [exprsOf]) 9) fun _ _ => trivial
  | Xch_Ri a => exact trivial
  | Jmp a => exact .bind (h12 a (by simp [exprsOf])) fun _ _ => trivial
  | Jmpf a => exact .bind (hb a (by simp [exprsOf]) 16) fun _ _ => trivial
  | Br a => exact .bind (h8 a (by simp [exprsOf])) fun _ _ => trivial
  | Brf a => exact .bind (h16 a (by simp [exprsOf])) fun _ _ => trivial
  | Bz a => exact .bind (h8 a (by simp [exprsOf])) fun _ _ => trivial
  | Bnz a => exact .bind (h8 a (by simp [exprsOf])) fun _ _ => trivial
  | Bp a b c => exact .bind (hb a (by simp [exprsOf]) 9) fun _ _ => .bind (hb b (by simp [exprsOf]) 3) fun _ _ => .bind (h8 c (by simp [exprsOf])) fun _ _ => trivial
  | Bpc a b c => exact .bind (hb a (by simp [exprsOf]) 9) fun _ _ => .bind (hb b (by simp [exprsOf]) 3) fun _ _ => .bind (h8 c (by simp [exprsOf])) fun _ _ => trivial
  | Bn a b c => exact .bind (hb a (by simp [exprsOf]) 9) fun _ _ => .bind (hb b (by simp [exprsOf]) 3) fun _ _ => .bind (h8 c (by simp [exprsOf])) fun _ _ => trivial
  | Dbnz_d9 a b => exact .bind (hb a (by simp [exprsOf]) 9) fun _ _ => .bind (h8 b (by simp [exprsOf])) fun _ _ => trivial
  | Dbnz_Ri a b => exact .bind (h8 b (by simp [exprsOf])) fun _ _ => trivial
  | Be_i8 a b => exact .bind (hb a (by simp [exprsOf]) 8) fun _ _ => .bind (h8 b (by simp [exprsOf])) fun _ _ => trivial
  | Be_d9 a b => exact .bind (hb a (by simp [exprsOf]) 9) fun _ _ => .bind (h8 b (by simp [exprsOf])) fun _ _ => trivial
  | Be_Rj a b c => exact .bind (hb b (by simp [exprsOf]) 8) fun _ _ => .bind (h8 c (by simp [exprsOf])) fun _ _ => trivial
  | Bne_i8 a b => exact .bind (hb a (by simp [exprsOf]) 8) fun _ _ => .bind (h8 b (by simp [exprsOf])) fun _ _ => trivial
  | Bne_d9 a b => exact .bind (hb a (by simp [exprsOf]) 9) fun _ _ => .bind (h8 b (by simp [exprsOf])) fun _ _ => trivial
  | Bne_Rj a b c => exact .bind (hb b (by simp [exprsOf]) 8) fun _ _ => .bind (h8 c (by simp [exprsOf])) fun _ _ => trivial
  | Call a => exact .bind (h12 a (by simp [exprsOf])) fun _ _ => trivial
  | Callf a => exact .bind (hb a (by simp [exprsOf]) 16) fun _ _ => trivial
  | Callr a => exact .bind (h16 a (by simp [exprsOf])) fun _ _ => trivial
  | Ret => exact trivial
  | Reti => exact trivial
  | Clr1 a b => exact .bind (hb a (by simp [exprsOf]) 9) fun _ _ => .bind (hb b (by simp [exprsOf]) 3) fun _ _ => trivial
  | Set1 a b => exact .bind (hb a (by simp [exprsOf]) 9) fun _ _ => .bind (hb b (by simp [exprsOf]) 3) fun _ _ => trivial
  | Not1 a b => exact .bind (hb a (by simp [exprsOf]) 9) fun _ _ => .bind (hb b (by simp [exprsOf]) 3) fun _ _ => trivial
  | Nop => exact trivial
  | Ldf => exact trivial
  | Stf => exact trivial

end Verif.Located
