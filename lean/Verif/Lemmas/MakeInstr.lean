import Verif.Spec.Macros
import Verif.Lemmas.Table
/-
The arms of make_instr against the manual.  The per-mnemonic lemmas are generated.
-/
namespace Verif
open Spec

theorem lookup_mem_pair {α β : Type} [BEq α] [LawfulBEq α] {l : List (α × β)} {k : α} {v : β}
    (h : l.lookup k = some v) : (k, v) ∈ l := by
  induction l with
  | nil => simp at h
  | cons x xs ih =>
    obtain ⟨a, b⟩ := x
    rw [List.lookup_cons] at h
    by_cases e : k = a
    · subst e; simp at h; subst h; exact List.mem_cons_self
    · have : (k == a) = false := by simp [e]
      simp [this] at h
      exact List.mem_cons_of_mem _ (ih h)

theorem make_add_sound {args : List Arg} {i : Instr Expr IM} (h : make_add args = some i) :
    Writes "add".toList args i := by
  revert h; fun_cases make_add args <;> intro h <;> simp at h <;> subst h <;> exact ⟨rfl, rfl⟩

theorem make_addc_sound {args : List Arg} {i : Instr Expr IM} (h : make_addc args = some i) :
    Writes "addc".toList args i := by
  revert h; fun_cases make_addc args <;> intro h <;> simp at h <;> subst h <;> exact ⟨rfl, rfl⟩

theorem make_sub_sound {args : List Arg} {i : Instr Expr IM} (h : make_sub args = some i) :
    Writes "sub".toList args i := by
  revert h; fun_cases make_sub args <;> intro h <;> simp at h <;> subst h <;> exact ⟨rfl, rfl⟩

theorem make_subc_sound {args : List Arg} {i : Instr Expr IM} (h : make_subc args = some i) :
    Writes "subc".toList args i := by
  revert h; fun_cases make_subc args <;> intro h <;> simp at h <;> subst h <;> exact ⟨rfl, rfl⟩

theorem make_inc_sound {args : List Arg} {i : Instr Expr IM} (h : make_inc args = some i) :
    Writes "inc".toList args i := by
  revert h; fun_cases make_inc args <;> intro h <;> simp at h <;> subst h <;> exact ⟨rfl, rfl⟩

theorem make_dec_sound {args : List Arg} {i : Instr Expr IM} (h : make_dec args = some i) :
    Writes "dec".toList args i := by
  revert h; fun_cases make_dec args <;> intro h <;> simp at h <;> subst h <;> exact ⟨rfl, rfl⟩

theorem make_mul_sound {args : List Arg} {i : Instr Expr IM} (h : make_mul args = some i) :
    Writes "mul".toList args i := by
  revert h; fun_cases make_mul args <;> intro h <;> simp at h <;> subst h <;> exact ⟨rfl, rfl⟩

theorem make_div_sound {args : List Arg} {i : Instr Expr IM} (h : make_div args = some i) :
    Writes "div".toList args i := by
  revert h; fun_cases make_div args <;> intro h <;> simp at h <;> subst h <;> exact ⟨rfl, rfl⟩

theorem make_and_sound {args : List Arg} {i : Instr Expr IM} (h : make_and args = some i) :
    Writes "and".toList args i := by
  revert h; fun_cases make_and args <;> intro h <;> simp at h <;> subst h <;> exact ⟨rfl, rfl⟩

theorem make_or_sound {args : List Arg} {i : Instr Expr IM} (h : make_or args = some i) :
    Writes "or".toList args i := by
  revert h; fun_cases make_or args <;> intro h <;> simp at h <;> subst h <;> exact ⟨rfl, rfl⟩

theorem make_xor_sound {args : List Arg} {i : Instr Expr IM} (h : make_xor args = some i) :
    Writes "xor".toList args i := by
  revert h; fun_cases make_xor args <;> intro h <;> simp at h <;> subst h <;> exact ⟨rfl, rfl⟩

theorem make_rol_sound {args : List Arg} {i : Instr Expr IM} (h : make_rol args = some i) :
    Writes "rol".toList args i := by
  revert h; fun_cases make_rol args <;> intro h <;> simp at h <;> subst h <;> exact ⟨rfl, rfl⟩

theorem make_rolc_sound {args : List Arg} {i : Instr Expr IM} (h : make_rolc args = some i) :
    Writes "rolc".toList args i := by
  revert h; fun_cases make_rolc args <;> intro h <;> simp at h <;> subst h <;> exact ⟨rfl, rfl⟩

theorem make_ror_sound {args : List Arg} {i : Instr Expr IM} (h : make_ror args = some i) :
    Writes "ror".toList args i := by
  revert h; fun_cases make_ror args <;> intro h <;> simp at h <;> subst h <;> exact ⟨rfl, rfl⟩

theorem make_rorc_sound {args : List Arg} {i : Instr Expr IM} (h : make_rorc args = some i) :
    Writes "rorc".toList args i := by
  revert h; fun_cases make_rorc args <;> intro h <;> simp at h <;> subst h <;> exact ⟨rfl, rfl⟩

theorem make_ld_sound {args : List Arg} {i : Instr Expr IM} (h : make_ld args = some i) :
    Writes "ld".toList args i := by
  revert h; fun_cases make_ld args <;> intro h <;> simp at h <;> subst h <;> exact ⟨rfl, rfl⟩

theorem make_st_sound {args : List Arg} {i : Instr Expr IM} (h : make_st args = some i) :
    Writes "st".toList args i := by
  revert h; fun_cases make_st args <;> intro h <;> simp at h <;> subst h <;> exact ⟨rfl, rfl⟩

theorem make_mov_sound {args : List Arg} {i : Instr Expr IM} (h : make_mov args = some i) :
    Writes "mov".toList args i := by
  revert h; fun_cases make_mov args <;> intro h <;> simp at h <;> subst h <;> exact ⟨rfl, rfl⟩

theorem make_ldc_sound {args : List Arg} {i : Instr Expr IM} (h : make_ldc args = some i) :
    Writes "ldc".toList args i := by
  revert h; fun_cases make_ldc args <;> intro h <;> simp at h <;> subst h <;> exact ⟨rfl, rfl⟩

theorem make_push_sound {args : List Arg} {i : Instr Expr IM} (h : make_push args = some i) :
    Writes "push".toList args i := by
  revert h; fun_cases make_push args <;> intro h <;> simp at h <;> subst h <;> exact ⟨rfl, rfl⟩

theorem make_pop_sound {args : List Arg} {i : Instr Expr IM} (h : make_pop args = some i) :
    Writes "pop".toList args i := by
  revert h; fun_cases make_pop args <;> intro h <;> simp at h <;> subst h <;> exact ⟨rfl, rfl⟩

theorem make_xch_sound {args : List Arg} {i : Instr Expr IM} (h : make_xch args = some i) :
    Writes "xch".toList args i := by
  revert h; fun_cases make_xch args <;> intro h <;> simp at h <;> subst h <;> exact ⟨rfl, rfl⟩

theorem make_jmp_sound {args : List Arg} {i : Instr Expr IM} (h : make_jmp args = some i) :
    Writes "jmp".toList args i := by
  revert h; fun_cases make_jmp args <;> intro h <;> simp at h <;> subst h <;> exact ⟨rfl, rfl⟩

theorem make_jmpf_sound {args : List Arg} {i : Instr Expr IM} (h : make_jmpf args = some i) :
    Writes "jmpf".toList args i := by
  revert h; fun_cases make_jmpf args <;> intro h <;> simp at h <;> subst h <;> exact ⟨rfl, rfl⟩

theorem make_br_sound {args : List Arg} {i : Instr Expr IM} (h : make_br args = some i) :
    Writes "br".toList args i := by
  revert h; fun_cases make_br args <;> intro h <;> simp at h <;> subst h <;> exact ⟨rfl, rfl⟩

theorem make_brf_sound {args : List Arg} {i : Instr Expr IM} (h : make_brf args = some i) :
    Writes "brf".toList args i := by
  revert h; fun_cases make_brf args <;> intro h <;> simp at h <;> subst h <;> exact ⟨rfl, rfl⟩

theorem make_bz_sound {args : List Arg} {i : Instr Expr IM} (h : make_bz args = some i) :
    Writes "bz".toList args i := by
  revert h; fun_cases make_bz args <;> intro h <;> simp at h <;> subst h <;> exact ⟨rfl, rfl⟩

theorem make_bnz_sound {args : List Arg} {i : Instr Expr IM} (h : make_bnz args = some i) :
    Writes "bnz".toList args i := by
  revert h; fun_cases make_bnz args <;> intro h <;> simp at h <;> subst h <;> exact ⟨rfl, rfl⟩

theorem make_bp_sound {args : List Arg} {i : Instr Expr IM} (h : make_bp args = some i) :
    Writes "bp".toList args i := by
  revert h; fun_cases make_bp args <;> intro h <;> simp at h <;> subst h <;> exact ⟨rfl, rfl⟩

theorem make_bpc_sound {args : List Arg} {i : Instr Expr IM} (h : make_bpc args = some i) :
    Writes "bpc".toList args i := by
  revert h; fun_cases make_bpc args <;> intro h <;> simp at h <;> subst h <;> exact ⟨rfl, rfl⟩

theorem make_bn_sound {args : List Arg} {i : Instr Expr IM} (h : make_bn args = some i) :
    Writes "bn".toList args i := by
  revert h; fun_cases make_bn args <;> intro h <;> simp at h <;> subst h <;> exact ⟨rfl, rfl⟩

theorem make_dbnz_sound {args : List Arg} {i : Instr Expr IM} (h : make_dbnz args = some i) :
    Writes "dbnz".toList args i := by
  revert h; fun_cases make_dbnz args <;> intro h <;> simp at h <;> subst h <;> exact ⟨rfl, rfl⟩

theorem make_be_sound {args : List Arg} {i : Instr Expr IM} (h : make_be args = some i) :
    Writes "be".toList args i := by
  revert h; fun_cases make_be args <;> intro h <;> simp at h <;> subst h <;> exact ⟨rfl, rfl⟩

theorem make_bne_sound {args : List Arg} {i : Instr Expr IM} (h : make_bne args = some i) :
    Writes "bne".toList args i := by
  revert h; fun_cases make_bne args <;> intro h <;> simp at h <;> subst h <;> exact ⟨rfl, rfl⟩

theorem make_call_sound {args : List Arg} {i : Instr Expr IM} (h : make_call args = some i) :
    Writes "call".toList args i := by
  revert h; fun_cases make_call args <;> intro h <;> simp at h <;> subst h <;> exact ⟨rfl, rfl⟩

theorem make_callf_sound {args : List Arg} {i : Instr Expr IM} (h : make_callf args = some i) :
    Writes "callf".toList args i := by
  revert h; fun_cases make_callf args <;> intro h <;> simp at h <;> subst h <;> exact ⟨rfl, rfl⟩

theorem make_callr_sound {args : List Arg} {i : Instr Expr IM} (h : make_callr args = some i) :
    Writes "callr".toList args i := by
  revert h; fun_cases make_callr args <;> intro h <;> simp at h <;> subst h <;> exact ⟨rfl, rfl⟩

theorem make_ret_sound {args : List Arg} {i : Instr Expr IM} (h : make_ret args = some i) :
    Writes "ret".toList args i := by
  revert h; fun_cases make_ret args <;> intro h <;> simp at h <;> subst h <;> exact ⟨rfl, rfl⟩

theorem make_reti_sound {args : List Arg} {i : Instr Expr IM} (h : make_reti args = some i) :
    Writes "reti".toList args i := by
  revert h; fun_cases make_reti args <;> intro h <;> simp at h <;> subst h <;> exact ⟨rfl, rfl⟩

theorem make_clr1_sound {args : List Arg} {i : Instr Expr IM} (h : make_clr1 args = some i) :
    Writes "clr1".toList args i := by
  revert h; fun_cases make_clr1 args <;> intro h <;> simp at h <;> subst h <;> exact ⟨rfl, rfl⟩

theorem make_set1_sound {args : List Arg} {i : Instr Expr IM} (h : make_set1 args = some i) :
    Writes "set1".toList args i := by
  revert h; fun_cases make_set1 args <;> intro h <;> simp at h <;> subst h <;> exact ⟨rfl, rfl⟩

theorem make_not1_sound {args : List Arg} {i : Instr Expr IM} (h : make_not1 args = some i) :
    Writes "not1".toList args i := by
  revert h; fun_cases make_not1 args <;> intro h <;> simp at h <;> subst h <;> exact ⟨rfl, rfl⟩

theorem make_nop_sound {args : List Arg} {i : Instr Expr IM} (h : make_nop args = some i) :
    Writes "nop".toList args i := by
  revert h; fun_cases make_nop args <;> intro h <;> simp at h <;> subst h <;> exact ⟨rfl, rfl⟩

theorem make_ldf_sound {args : List Arg} {i : Instr Expr IM} (h : make_ldf args = some i) :
    Writes "ldf".toList args i := by
  revert h; fun_cases make_ldf args <;> intro h <;> simp at h <;> subst h <;> exact ⟨rfl, rfl⟩

theorem make_stf_sound {args : List Arg} {i : Instr Expr IM} (h : make_stf args = some i) :
    Writes "stf".toList args i := by
  revert h; fun_cases make_stf args <;> intro h <;> simp at h <;> subst h <;> exact ⟨rfl, rfl⟩

theorem lookup_add : makers.lookup "add".toList = some make_add := by simp [makers, List.lookup]

theorem lookup_addc : makers.lookup "addc".toList = some make_addc := by simp [makers, List.lookup]

theorem lookup_sub : makers.lookup "sub".toList = some make_sub := by simp [makers, List.lookup]

theorem lookup_subc : makers.lookup "subc".toList = some make_subc := by simp [makers, List.lookup]

theorem lookup_inc : makers.lookup "inc".toList = some make_inc := by simp [makers, List.lookup]

theorem lookup_dec : makers.lookup "dec".toList = some make_dec := by simp [makers, List.lookup]

theorem lookup_mul : makers.lookup "mul".toList = some make_mul := by simp [makers, List.lookup]

theorem lookup_div : makers.lookup "div".toList = some make_div := by simp [makers, List.lookup]

theorem lookup_and : makers.lookup "and".toList = some make_and := by simp [makers, List.lookup]

theorem lookup_or : makers.lookup "or".toList = some make_or := by simp [makers, List.lookup]

theorem lookup_xor : makers.lookup "xor".toList = some make_xor := by simp [makers, List.lookup]

theorem lookup_rol : makers.lookup "rol".toList = some make_rol := by simp [makers, List.lookup]

theorem lookup_rolc : makers.lookup "rolc".toList = some make_rolc := by simp [makers, List.lookup]

theorem lookup_ror : makers.lookup "ror".toList = some make_ror := by simp [makers, List.lookup]

theorem lookup_rorc : makers.lookup "rorc".toList = some make_rorc := by simp [makers, List.lookup]

theorem lookup_ld : makers.lookup "ld".toList = some make_ld := by simp [makers, List.lookup]

theorem lookup_st : makers.lookup "st".toList = some make_st := by simp [makers, List.lookup]

theorem lookup_mov : makers.lookup "mov".toList = some make_mov := by simp [makers, List.lookup]

theorem lookup_ldc : makers.lookup "ldc".toList = some make_ldc := by simp [makers, List.lookup]

theorem lookup_push : makers.lookup "push".toList = some make_push := by simp [makers, List.lookup]

theorem lookup_pop : makers.lookup "pop".toList = some make_pop := by simp [makers, List.lookup]

theorem lookup_xch : makers.lookup "xch".toList = some make_xch := by simp [makers, List.lookup]

theorem lookup_jmp : makers.lookup "jmp".toList = some make_jmp := by simp [makers, List.lookup]

theorem lookup_jmpf : makers.lookup "jmpf".toList = some make_jmpf := by simp [makers, List.lookup]

theorem lookup_br : makers.lookup "br".toList = some make_br := by simp [makers, List.lookup]

theorem lookup_brf : makers.lookup "brf".toList = some make_brf := by simp [makers, List.lookup]

theorem lookup_bz : makers.lookup "bz".toList = some make_bz := by simp [makers, List.lookup]

theorem lookup_bnz : makers.lookup "bnz".toList = some make_bnz := by simp [makers, List.lookup]

theorem lookup_bp : makers.lookup "bp".toList = some make_bp := by simp [makers, List.lookup]

theorem lookup_bpc : makers.lookup "bpc".toList = some make_bpc := by simp [makers, List.lookup]

theorem lookup_bn : makers.lookup "bn".toList = some make_bn := by simp [makers, List.lookup]

theorem lookup_dbnz : makers.lookup "dbnz".toList = some make_dbnz := by simp [makers, List.lookup]

theorem lookup_be : makers.lookup "be".toList = some make_be := by simp [makers, List.lookup]

theorem lookup_bne : makers.lookup "bne".toList = some make_bne := by simp [makers, List.lookup]

theorem lookup_call : makers.lookup "call".toList = some make_call := by simp [makers, List.lookup]

theorem lookup_callf : makers.lookup "callf".toList = some make_callf := by simp [makers, List.lookup]

theorem lookup_callr : makers.lookup "callr".toList = some make_callr := by simp [makers, List.lookup]

theorem lookup_ret : makers.lookup "ret".toList = some make_ret := by simp [makers, List.lookup]

theorem lookup_reti : makers.lookup "reti".toList = some make_reti := by simp [makers, List.lookup]

theorem lookup_clr1 : makers.lookup "clr1".toList = some make_clr1 := by simp [makers, List.lookup]

theorem lookup_set1 : makers.lookup "set1".toList = some make_set1 := by simp [makers, List.lookup]

theorem lookup_not1 : makers.lookup "not1".toList = some make_not1 := by simp [makers, List.lookup]

theorem lookup_nop : makers.lookup "nop".toList = some make_nop := by simp [makers, List.lookup]

theorem lookup_ldf : makers.lookup "ldf".toList = some make_ldf := by simp [makers, List.lookup]

theorem lookup_stf : makers.lookup "stf".toList = some make_stf := by simp [makers, List.lookup]

theorem makeInstr_writes (i : Instr Expr IM) :
    makeInstr (row i.form).name.toList (List.zipWith writtenAs (kinds i.form) (operands i)) = .ok i := by
  cases i
  · show makeInstr "add".toList _ = _
    unfold makeInstr; rw [lookup_add]; rfl
  · show makeInstr "add".toList _ = _
    unfold makeInstr; rw [lookup_add]; rfl
  · show makeInstr "add".toList _ = _
    unfold makeInstr; rw [lookup_add]; rfl
  · show makeInstr "addc".toList _ = _
    unfold makeInstr; rw [lookup_addc]; rfl
  · show makeInstr "addc".toList _ = _
    unfold makeInstr; rw [lookup_addc]; rfl
  · show makeInstr "addc".toList _ = _
    unfold makeInstr; rw [lookup_addc]; rfl
  · show makeInstr "sub".toList _ = _
    unfold makeInstr; rw [lookup_sub]; rfl
  · show makeInstr "sub".toList _ = _
    unfold makeInstr; rw [lookup_sub]; rfl
  · show makeInstr "sub".toList _ = _
    unfold makeInstr; rw [lookup_sub]; rfl
  · show makeInstr "subc".toList _ = _
    unfold makeInstr; rw [lookup_subc]; rfl
  · show makeInstr "subc".toList _ = _
    unfold makeInstr; rw [lookup_subc]; rfl
  · show makeInstr "subc".toList _ = _
    unfold makeInstr; rw [lookup_subc]; rfl
  · show makeInstr "inc".toList _ = _
    unfold makeInstr; rw [lookup_inc]; rfl
  · show makeInstr "inc".toList _ = _
    unfold makeInstr; rw [lookup_inc]; rfl
  · show makeInstr "dec".toList _ = _
    unfold makeInstr; rw [lookup_dec]; rfl
  · show makeInstr "dec".toList _ = _
    unfold makeInstr; rw [lookup_dec]; rfl
  · show makeInstr "mul".toList _ = _
    unfold makeInstr; rw [lookup_mul]; rfl
  · show makeInstr "div".toList _ = _
    unfold makeInstr; rw [lookup_div]; rfl
  · show makeInstr "and".toList _ = _
    unfold makeInstr; rw [lookup_and]; rfl
  · show makeInstr "and".toList _ = _
    unfold makeInstr; rw [lookup_and]; rfl
  · show makeInstr "and".toList _ = _
    unfold makeInstr; rw [lookup_and]; rfl
  · show makeInstr "or".toList _ = _
    unfold makeInstr; rw [lookup_or]; rfl
  · show makeInstr "or".toList _ = _
    unfold makeInstr; rw [lookup_or]; rfl
  · show makeInstr "or".toList _ = _
    unfold makeInstr; rw [lookup_or]; rfl
  · show makeInstr "xor".toList _ = _
    unfold makeInstr; rw [lookup_xor]; rfl
  · show makeInstr "xor".toList _ = _
    unfold makeInstr; rw [lookup_xor]; rfl
  · show makeInstr "xor".toList _ = _
    unfold makeInstr; rw [lookup_xor]; rfl
  · show makeInstr "rol".toList _ = _
    unfold makeInstr; rw [lookup_rol]; rfl
  · show makeInstr "rolc".toList _ = _
    unfold makeInstr; rw [lookup_rolc]; rfl
  · show makeInstr "ror".toList _ = _
    unfold makeInstr; rw [lookup_ror]; rfl
  · show makeInstr "rorc".toList _ = _
    unfold makeInstr; rw [lookup_rorc]; rfl
  · show makeInstr "ld".toList _ = _
    unfold makeInstr; rw [lookup_ld]; rfl
  · show makeInstr "ld".toList _ = _
    unfold makeInstr; rw [lookup_ld]; rfl
  · show makeInstr "st".toList _ = _
    unfold makeInstr; rw [lookup_st]; rfl
  · show makeInstr "st".toList _ = _
    unfold makeInstr; rw [lookup_st]; rfl
  · show makeInstr "mov".toList _ = _
    unfold makeInstr; rw [lookup_mov]; rfl
  · show makeInstr "mov".toList _ = _
    unfold makeInstr; rw [lookup_mov]; rfl
  · show makeInstr "ldc".toList _ = _
    unfold makeInstr; rw [lookup_ldc]; rfl
  · show makeInstr "push".toList _ = _
    unfold makeInstr; rw [lookup_push]; rfl
  · show makeInstr "pop".toList _ = _
    unfold makeInstr; rw [lookup_pop]; rfl
  · show makeInstr "xch".toList _ = _
    unfold makeInstr; rw [lookup_xch]; rfl
  · show makeInstr "xch".toList _ = _
    unfold makeInstr; rw [lookup_xch]; rfl
  · show makeInstr "jmp".toList _ = _
    unfold makeInstr; rw [lookup_jmp]; rfl
  · show makeInstr "jmpf".toList _ = _
    unfold makeInstr; rw [lookup_jmpf]; rfl
  · show makeInstr "br".toList _ = _
    unfold makeInstr; rw [lookup_br]; rfl
  · show makeInstr "brf".toList _ = _
    unfold makeInstr; rw [lookup_brf]; rfl
  · show makeInstr "bz".toList _ = _
    unfold makeInstr; rw [lookup_bz]; rfl
  · show makeInstr "bnz".toList _ = _
    unfold makeInstr; rw [lookup_bnz]; rfl
  · show makeInstr "bp".toList _ = _
    unfold makeInstr; rw [lookup_bp]; rfl
  · show makeInstr "bpc".toList _ = _
    unfold makeInstr; rw [lookup_bpc]; rfl
  · show makeInstr "bn".toList _ = _
    unfold makeInstr; rw [lookup_bn]; rfl
  · show makeInstr "dbnz".toList _ = _
    unfold makeInstr; rw [lookup_dbnz]; rfl
  · show makeInstr "dbnz".toList _ = _
    unfold makeInstr; rw [lookup_dbnz]; rfl
  · show makeInstr "be".toList _ = _
    unfold makeInstr; rw [lookup_be]; rfl
  · show makeInstr "be".toList _ = _
    unfold makeInstr; rw [lookup_be]; rfl
  · show makeInstr "be".toList _ = _
    unfold makeInstr; rw [lookup_be]; rfl
  · show makeInstr "bne".toList _ = _
    unfold makeInstr; rw [lookup_bne]; rfl
  · show makeInstr "bne".toList _ = _
    unfold makeInstr; rw [lookup_bne]; rfl
  · show makeInstr "bne".toList _ = _
    unfold makeInstr; rw [lookup_bne]; rfl
  · show makeInstr "call".toList _ = _
    unfold makeInstr; rw [lookup_call]; rfl
  · show makeInstr "callf".toList _ = _
    unfold makeInstr; rw [lookup_callf]; rfl
  · show makeInstr "callr".toList _ = _
    unfold makeInstr; rw [lookup_callr]; rfl
  · show makeInstr "ret".toList _ = _
    unfold makeInstr; rw [lookup_ret]; rfl
  · show makeInstr "reti".toList _ = _
    unfold makeInstr; rw [lookup_reti]; rfl
  · show makeInstr "clr1".toList _ = _
    unfold makeInstr; rw [lookup_clr1]; rfl
  · show makeInstr "set1".toList _ = _
    unfold makeInstr; rw [lookup_set1]; rfl
  · show makeInstr "not1".toList _ = _
    unfold makeInstr; rw [lookup_not1]; rfl
  · show makeInstr "nop".toList _ = _
    unfold makeInstr; rw [lookup_nop]; rfl
  · show makeInstr "ldf".toList _ = _
    unfold makeInstr; rw [lookup_ldf]; rfl
  · show makeInstr "stf".toList _ = _
    unfold makeInstr; rw [lookup_stf]; rfl

theorem makers_sound : ∀ x ∈ makers, ∀ args i, x.2 args = some i → Writes x.1 args i := by
  intro x hx
  simp only [makers, List.mem_cons, List.not_mem_nil, or_false] at hx
  rcases hx with h | h | h | h | h | h | h | h | h | h | h | h | h | h | h | h | h | h | h | h | h | h | h | h | h | h | h | h | h | h | h | h | h | h | h | h | h | h | h | h | h | h | h | h | h
  · subst h; exact fun _ _ => make_add_sound
  · subst h; exact fun _ _ => make_addc_sound
  · subst h; exact fun _ _ => make_sub_sound
  · subst h; exact fun _ _ => make_subc_sound
  · subst h; exact fun _ _ => make_inc_sound
  · subst h; exact fun _ _ => make_dec_sound
  · subst h; exact fun _ _ => make_mul_sound
  · subst h; exact fun _ _ => make_div_sound
  · subst h; exact fun _ _ => make_and_sound
  · subst h; exact fun _ _ => make_or_sound
  · subst h; exact fun _ _ => make_xor_sound
  · subst h; exact fun _ _ => make_rol_sound
  · subst h; exact fun _ _ => make_rolc_sound
  · subst h; exact fun _ _ => make_ror_sound
  · subst h; exact fun _ _ => make_rorc_sound
  · subst h; exact fun _ _ => make_ld_sound
  · subst h; exact fun _ _ => make_st_sound
  · subst h; exact fun _ _ => make_mov_sound
  · subst h; exact fun _ _ => make_ldc_sound
  · subst h; exact fun _ _ => make_push_sound
  · subst h; exact fun _ _ => make_pop_sound
  · subst h; exact fun _ _ => make_xch_sound
  · subst h; exact fun _ _ => make_jmp_sound
  · subst h; exact fun _ _ => make_jmpf_sound
  · subst h; exact fun _ _ => make_br_sound
  · subst h; exact fun _ _ => make_brf_sound
  · subst h; exact fun _ _ => make_bz_sound
  · subst h; exact fun _ _ => make_bnz_sound
  · subst h; exact fun _ _ => make_bp_sound
  · subst h; exact fun _ _ => make_bpc_sound
  · subst h; exact fun _ _ => make_bn_sound
  · subst h; exact fun _ _ => make_dbnz_sound
  · subst h; exact fun _ _ => make_be_sound
  · subst h; exact fun _ _ => make_bne_sound
  · subst h; exact fun _ _ => make_call_sound
  · subst h; exact fun _ _ => make_callf_sound
  · subst h; exact fun _ _ => make_callr_sound
  · subst h; exact fun _ _ => make_ret_sound
  · subst h; exact fun _ _ => make_reti_sound
  · subst h; exact fun _ _ => make_clr1_sound
  · subst h; exact fun _ _ => make_set1_sound
  · subst h; exact fun _ _ => make_not1_sound
  · subst h; exact fun _ _ => make_nop_sound
  · subst h; exact fun _ _ => make_ldf_sound
  · subst h; exact fun _ _ => make_stf_sound

theorem makeInstr_ok_iff {name : Text} {args : List Arg} {i : Instr Expr IM} :
    makeInstr name args = .ok i ↔ Writes name args i := by
  constructor
  · intro h
    unfold makeInstr at h
    split at h
    · rename_i f hf
      split at h
      · rename_i j hj
        cases h
        exact makers_sound _ (lookup_mem_pair hf) _ _ hj
      · cases h
    · cases h
  · rintro ⟨rfl, rfl⟩
    exact makeInstr_writes i

theorem makers_keys : ∀ f, (makers.lookup (row f).name.toList).isSome = true := by
  intro f; cases f
  · show (makers.lookup "add".toList).isSome = true
    rw [lookup_add]; rfl
  · show (makers.lookup "add".toList).isSome = true
    rw [lookup_add]; rfl
  · show (makers.lookup "add".toList).isSome = true
    rw [lookup_add]; rfl
  · show (makers.lookup "addc".toList).isSome = true
    rw [lookup_addc]; rfl
  · show (makers.lookup "addc".toList).isSome = true
    rw [lookup_addc]; rfl
  · show (makers.lookup "addc".toList).isSome = true
    rw [lookup_addc]; rfl
  · show (makers.lookup "sub".toList).isSome = true
    rw [lookup_sub]; rfl
  · show (makers.lookup "sub".toList).isSome = true
    rw [lookup_sub]; rfl
  · show (makers.lookup "sub".toList).isSome = true
    rw [lookup_sub]; rfl
  · show (makers.lookup "subc".toList).isSome = true
    rw [lookup_subc]; rfl
  · show (makers.lookup "subc".toList).isSome = true
    rw [lookup_subc]; rfl
  · show (makers.lookup "subc".toList).isSome = true
    rw [lookup_subc]; rfl
  · show (makers.lookup "inc".toList).isSome = true
    rw [lookup_inc]; rfl
  · show (makers.lookup "inc".toList).isSome = true
    rw [lookup_inc]; rfl
  · show (makers.lookup "dec".toList).isSome = true
    rw [lookup_dec]; rfl
  · show (makers.lookup "dec".toList).isSome = true
    rw [lookup_dec]; rfl
  · show (makers.lookup "mul".toList).isSome = true
    rw [lookup_mul]; rfl
  · show (makers.lookup "div".toList).isSome = true
    rw [lookup_div]; rfl
  · show (makers.lookup "and".toList).isSome = true
    rw [lookup_and]; rfl
  · show (makers.lookup "and".toList).isSome = true
    rw [lookup_and]; rfl
  · show (makers.lookup "and".toList).isSome = true
    rw [lookup_and]; rfl
  · show (makers.lookup "or".toList).isSome = true
    rw [lookup_or]; rfl
  · show (makers.lookup "or".toList).isSome = true
    rw [lookup_or]; rfl
  · show (makers.lookup "or".toList).isSome = true
    rw [lookup_or]; rfl
  · show (makers.lookup "xor".toList).isSome = true
    rw [lookup_xor]; rfl
  · show (makers.lookup "xor".toList).isSome = true
    rw [lookup_xor]; rfl
  · show (makers.lookup "xor".toList).isSome = true
    rw [lookup_xor]; rfl
  · show (makers.lookup "rol".toList).isSome = true
    rw [lookup_rol]; rfl
  · show (makers.lookup "rolc".toList).isSome = true
    rw [lookup_rolc]; rfl
  · show (makers.lookup "ror".toList).isSome = true
    rw [lookup_ror]; rfl
  · show (makers.lookup "rorc".toList).isSome = true
    rw [lookup_rorc]; rfl
  · show (makers.lookup "ld".toList).isSome = true
    rw [lookup_ld]; rfl
  · show (makers.lookup "ld".toList).isSome = true
    rw [lookup_ld]; rfl
  · show (makers.lookup "st".toList).isSome = true
    rw [lookup_st]; rfl
  · show (makers.lookup "st".toList).isSome = true
    rw [lookup_st]; rfl
  · show (makers.lookup "mov".toList).isSome = true
    rw [lookup_mov]; rfl
  · show (makers.lookup "mov".toList).isSome = true
    rw [lookup_mov]; rfl
  · show (makers.lookup "ldc".toList).isSome = true
    rw [lookup_ldc]; rfl
  · show (makers.lookup "push".toList).isSome = true
    rw [lookup_push]; rfl
  · show (makers.lookup "pop".toList).isSome = true
    rw [lookup_pop]; rfl
  · show (makers.lookup "xch".toList).isSome = true
    rw [lookup_xch]; rfl
  · show (makers.lookup "xch".toList).isSome = true
    rw [lookup_xch]; rfl
  · show (makers.lookup "jmp".toList).isSome = true
    rw [lookup_jmp]; rfl
  · show (makers.lookup "jmpf".toList).isSome = true
    rw [lookup_jmpf]; rfl
  · show (makers.lookup "br".toList).isSome = true
    rw [lookup_br]; rfl
  · show (makers.lookup "brf".toList).isSome = true
    rw [lookup_brf]; rfl
  · show (makers.lookup "bz".toList).isSome = true
    rw [lookup_bz]; rfl
  · show (makers.lookup "bnz".toList).isSome = true
    rw [lookup_bnz]; rfl
  · show (makers.lookup "bp".toList).isSome = true
    rw [lookup_bp]; rfl
  · show (makers.lookup "bpc".toList).isSome = true
    rw [lookup_bpc]; rfl
  · show (makers.lookup "bn".toList).isSome = true
    rw [lookup_bn]; rfl
  · show (makers.lookup "dbnz".toList).isSome = true
    rw [lookup_dbnz]; rfl
  · show (makers.lookup "dbnz".toList).isSome = true
    rw [lookup_dbnz]; rfl
  · show (makers.lookup "be".toList).isSome = true
    rw [lookup_be]; rfl
  · show (makers.lookup "be".toList).isSome = true
    rw [lookup_be]; rfl
  · show (makers.lookup "be".toList).isSome = true
    rw [lookup_be]; rfl
  · show (makers.lookup "bne".toList).isSome = true
    rw [lookup_bne]; rfl
  · show (makers.lookup "bne".toList).isSome = true
    rw [lookup_bne]; rfl
  · show (makers.lookup "bne".toList).isSome = true
    rw [lookup_bne]; rfl
  · show (makers.lookup "call".toList).isSome = true
    rw [lookup_call]; rfl
  · show (makers.lookup "callf".toList).isSome = true
    rw [lookup_callf]; rfl
  · show (makers.lookup "callr".toList).isSome = true
    rw [lookup_callr]; rfl
  · show (makers.lookup "ret".toList).isSome = true
    rw [lookup_ret]; rfl
  · show (makers.lookup "reti".toList).isSome = true
    rw [lookup_reti]; rfl
  · show (makers.lookup "clr1".toList).isSome = true
    rw [lookup_clr1]; rfl
  · show (makers.lookup "set1".toList).isSome = true
    rw [lookup_set1]; rfl
  · show (makers.lookup "not1".toList).isSome = true
    rw [lookup_not1]; rfl
  · show (makers.lookup "nop".toList).isSome = true
    rw [lookup_nop]; rfl
  · show (makers.lookup "ldf".toList).isSome = true
    rw [lookup_ldf]; rfl
  · show (makers.lookup "stf".toList).isSome = true
    rw [lookup_stf]; rfl


theorem makers_key_rows : ∀ k ∈ makers.map (·.1), ∃ f, k = (row f).name.toList := by
  have h : (makers.map (·.1)).all (fun k => Form.all.any fun f => k == (row f).name.toList) = true := by
    decide +kernel
  intro k hk
  have := List.all_eq_true.mp h k hk
  obtain ⟨f, -, hf⟩ := List.any_eq_true.mp this
  exact ⟨f, by simpa using hf⟩

theorem mnemonic_row (f : Form) : f.mnemonic = (row f).name.toList := by
  have h : Form.all.all (fun f => f.mnemonic == (row f).name.toList) = true := by decide +kernel
  simpa using List.all_eq_true.mp h f f.mem_all

theorem instrExists_iff {name : Text} : instrExists name = true ↔ ∃ f, name = (row f).name.toList := by
  unfold instrExists
  rw [List.any_eq_true]
  constructor
  · rintro ⟨f, -, h⟩
    exact ⟨f, by rw [← mnemonic_row]; simpa using Eq.symm (of_decide_eq_true h)⟩
  · rintro ⟨f, h⟩
    exact ⟨f, f.mem_all, by rw [mnemonic_row, h]; simp⟩

theorem makeInstr_unknown {name : Text} {args : List Arg} (h : instrExists name = false) :
    makeInstr name args = .err (.unknownInstruction name) := by
  unfold makeInstr
  split
  · rename_i f hf
    exfalso
    obtain ⟨g, hg⟩ := makers_key_rows name (List.mem_map.mpr ⟨_, lookup_mem_pair hf, rfl⟩)
    rw [instrExists_iff.mpr ⟨g, hg⟩] at h
    cases h
  · rfl

theorem makeInstr_wrong {name : Text} {args : List Arg} (h : instrExists name = true)
    (hn : ∀ i, ¬ Writes name args i) : makeInstr name args = .err (.wrongInstructionArgs name) := by
  obtain ⟨f, rfl⟩ := instrExists_iff.mp h
  have hk := makers_keys f
  cases e : makeInstr (row f).name.toList args with
  | ok i => exact absurd (makeInstr_ok_iff.mp e) (hn i)
  | _ =>
    unfold makeInstr at e
    split at e
    · split at e <;> cases e
      try rfl
    · rename_i he; rw [he] at hk; cases hk

end Verif
