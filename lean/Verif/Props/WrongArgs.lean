import Verif.Lemmas.WrongArgs
/-
Properties of the message about wrong arguments of an instruction: C73.
-/
namespace Verif.Props
open Verif.Spec

/-- **C73**: if an instruction has wrong arguments, the message lists its forms, all of them, as in the manual. -/
theorem C73_message {name n : Text} {args : List Arg} (h : makeInstr name args = .err (.wrongInstructionArgs n)) :
    n = name ∧ ∃ forms, wrongForms.lookup name = some forms ∧ wrongArgsText name forms = formsMessage name := by
  have hn : n = name := by
    unfold makeInstr at h
    split at h
    · split at h <;> cases h
      rfl
    · cases h
  refine ⟨hn, ?_⟩
  have hex : ∃ f, name = (row f).name.toList := by
    rw [← instrExists_iff]
    cases he : instrExists name with
    | true => rfl
    | false => rw [makeInstr_unknown he] at h; cases h
  obtain ⟨f, rfl⟩ := hex
  obtain ⟨forms, hf⟩ := lookup_forms (f := f)
  exact ⟨forms, hf, wrongArgs_message hf⟩

/-- **C73**: the forms listed are those that are accepted: a list of arguments is accepted exactly when it has one of them. -/
theorem C73_accepted (name : Text) (args : List Arg) :
    (∃ i, makeInstr name args = .ok i) ↔ ∃ ks ∈ docForms name, EachLine OfKind ks args := by
  constructor
  · rintro ⟨i, h⟩
    obtain ⟨h1, h2⟩ := makeInstr_ok_iff.mp h
    refine ⟨kinds i.form, List.mem_map.mpr ⟨i.form, List.mem_filter.mpr ⟨i.form.mem_all, ?_⟩, rfl⟩, ?_⟩
    · rw [h1]; simp
    · rw [h2]; exact operands_of i
  · rintro ⟨ks, hk, h⟩
    obtain ⟨f, hf, rfl⟩ := List.mem_map.mp hk
    obtain ⟨-, hf⟩ := List.mem_filter.mp hf
    obtain ⟨i, rfl, h2⟩ := instr_of h
    exact ⟨i, makeInstr_ok_iff.mpr ⟨(of_decide_eq_true hf).symm, h2⟩⟩

/-- `dbnz` with a wrong argument, and the message. -/
example : makeInstr "dbnz".toList [.imm (.num 5)] = .err (.wrongInstructionArgs "dbnz".toList) ∧
    formsMessage "dbnz".toList = "Allowed forms for instruction dbnz:\n  dbnz d9, r8\n  dbnz @Ri, r8\n\n".toList ∧
    formsMessage "nop".toList = "nop expects 0 arguments.\n\n\n".toList := by
  refine ⟨by decide, by decide +kernel, by decide +kernel⟩

end Verif.Props
