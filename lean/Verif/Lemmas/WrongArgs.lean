import Verif.Model.WrongArgs
import Verif.Spec.WrongArgs
import Verif.Lemmas.MakeInstr
/-
Lemmas about the forms of instructions that are listed in error messages.
-/
namespace Verif
open Spec

theorem each_cons {α β : Type} {R : α → β → Prop} {a : α} {as : List α} {bs : List β} :
    EachLine R (a :: as) bs ↔ ∃ b bs', bs = b :: bs' ∧ R a b ∧ EachLine R as bs' := by
  constructor
  · intro h; cases h with | cons h h' => exact ⟨_, _, rfl, h, h'⟩
  · rintro ⟨b, bs', rfl, h, h'⟩; exact .cons h h'

theorem each_nil {α β : Type} {R : α → β → Prop} {bs : List β} : EachLine R [] bs ↔ bs = [] := by
  constructor
  · intro h; cases h; rfl
  · rintro rfl; exact .nil

theorem ofKind_iff (k : Kind) (a : Arg) : OfKind k a ↔
    match k with
    | .i8 => ∃ e, a = .imm e
    | .ri => ∃ r, a = .im r
    | _ => ∃ e, a = .ex e := by
  constructor
  · intro h; cases h <;> first | exact ⟨_, rfl⟩ | (cases k <;> first | exact ⟨_, rfl⟩ | contradiction)
  · intro h
    cases k <;> obtain ⟨x, rfl⟩ := h <;> first | exact .immediate | exact .mode | exact .plain (by decide) (by decide)

/-- The instruction with these operands -/
theorem instr_of {f : Form} {args : List Arg} (h : EachLine OfKind (kinds f) args) :
    ∃ i : Instr Expr IM, i.form = f ∧ args = List.zipWith writtenAs (kinds f) (operands i) := by
  cases f <;> simp only [kinds, row, List.map_cons, List.map_nil, each_cons, each_nil, ofKind_iff] at h
  · obtain ⟨_, _, rfl, ⟨x, rfl⟩, rfl⟩ := h; exact ⟨.Add_i8 x, rfl, rfl⟩
  · obtain ⟨_, _, rfl, ⟨x, rfl⟩, rfl⟩ := h; exact ⟨.Add_d9 x, rfl, rfl⟩
  · obtain ⟨_, _, rfl, ⟨x, rfl⟩, rfl⟩ := h; exact ⟨.Add_Ri x, rfl, rfl⟩
  · obtain ⟨_, _, rfl, ⟨x, rfl⟩, rfl⟩ := h; exact ⟨.Addc_i8 x, rfl, rfl⟩
  · obtain ⟨_, _, rfl, ⟨x, rfl⟩, rfl⟩ := h; exact ⟨.Addc_d9 x, rfl, rfl⟩
  · obtain ⟨_, _, rfl, ⟨x, rfl⟩, rfl⟩ := h; exact ⟨.Addc_Ri x, rfl, rfl⟩
  · obtain ⟨_, _, rfl, ⟨x, rfl⟩, rfl⟩ := h; exact ⟨.Sub_i8 x, rfl, rfl⟩
  · obtain ⟨_, _, rfl, ⟨x, rfl⟩, rfl⟩ := h; exact ⟨.Sub_d9 x, rfl, rfl⟩
  · obtain ⟨_, _, rfl, ⟨x, rfl⟩, rfl⟩ := h; exact ⟨.Sub_Ri x, rfl, rfl⟩
  · obtain ⟨_, _, rfl, ⟨x, rfl⟩, rfl⟩ := h; exact ⟨.Subc_i8 x, rfl, rfl⟩
  · obtain ⟨_, _, rfl, ⟨x, rfl⟩, rfl⟩ := h; exact ⟨.Subc_d9 x, rfl, rfl⟩
  · obtain ⟨_, _, rfl, ⟨x, rfl⟩, rfl⟩ := h; exact ⟨.Subc_Ri x, rfl, rfl⟩
  · obtain ⟨_, _, rfl, ⟨x, rfl⟩, rfl⟩ := h; exact ⟨.Inc_d9 x, rfl, rfl⟩
  · obtain ⟨_, _, rfl, ⟨x, rfl⟩, rfl⟩ := h; exact ⟨.Inc_Ri x, rfl, rfl⟩
  · obtain ⟨_, _, rfl, ⟨x, rfl⟩, rfl⟩ := h; exact ⟨.Dec_d9 x, rfl, rfl⟩
  · obtain ⟨_, _, rfl, ⟨x, rfl⟩, rfl⟩ := h; exact ⟨.Dec_Ri x, rfl, rfl⟩
  · subst h; exact ⟨.Mul, rfl, rfl⟩
  · subst h; exact ⟨.Div, rfl, rfl⟩
  · obtain ⟨_, _, rfl, ⟨x, rfl⟩, rfl⟩ := h; exact ⟨.And_i8 x, rfl, rfl⟩
  · obtain ⟨_, _, rfl, ⟨x, rfl⟩, rfl⟩ := h; exact ⟨.And_d9 x, rfl, rfl⟩
  · obtain ⟨_, _, rfl, ⟨x, rfl⟩, rfl⟩ := h; exact ⟨.And_Ri x, rfl, rfl⟩
  · obtain ⟨_, _, rfl, ⟨x, rfl⟩, rfl⟩ := h; exact ⟨.Or_i8 x, rfl, rfl⟩
  · obtain ⟨_, _, rfl, ⟨x, rfl⟩, rfl⟩ := h; exact ⟨.Or_d9 x, rfl, rfl⟩
  · obtain ⟨_, _, rfl, ⟨x, rfl⟩, rfl⟩ := h; exact ⟨.Or_Ri x, rfl, rfl⟩
  · obtain ⟨_, _, rfl, ⟨x, rfl⟩, rfl⟩ := h; exact ⟨.Xor_i8 x, rfl, rfl⟩
  · obtain ⟨_, _, rfl, ⟨x, rfl⟩, rfl⟩ := h; exact ⟨.Xor_d9 x, rfl, rfl⟩
  · obtain ⟨_, _, rfl, ⟨x, rfl⟩, rfl⟩ := h; exact ⟨.Xor_Ri x, rfl, rfl⟩
  · subst h; exact ⟨.Rol, rfl, rfl⟩
  · subst h; exact ⟨.Rolc, rfl, rfl⟩
  · subst h; exact ⟨.Ror, rfl, rfl⟩
  · subst h; exact ⟨.Rorc, rfl, rfl⟩
  · obtain ⟨_, _, rfl, ⟨x, rfl⟩, rfl⟩ := h; exact ⟨.Ld_d9 x, rfl, rfl⟩
  · obtain ⟨_, _, rfl, ⟨x, rfl⟩, rfl⟩ := h; exact ⟨.Ld_Ri x, rfl, rfl⟩
  · obtain ⟨_, _, rfl, ⟨x, rfl⟩, rfl⟩ := h; exact ⟨.St_d9 x, rfl, rfl⟩
  · obtain ⟨_, _, rfl, ⟨x, rfl⟩, rfl⟩ := h; exact ⟨.St_Ri x, rfl, rfl⟩
  · obtain ⟨_, _, rfl, ⟨x, rfl⟩, ⟨_, _, rfl, ⟨y, rfl⟩, rfl⟩⟩ := h; exact ⟨.Mov_d9 x y, rfl, rfl⟩
  · obtain ⟨_, _, rfl, ⟨x, rfl⟩, ⟨_, _, rfl, ⟨y, rfl⟩, rfl⟩⟩ := h; exact ⟨.Mov_Rj x y, rfl, rfl⟩
  · subst h; exact ⟨.Ldc, rfl, rfl⟩
  · obtain ⟨_, _, rfl, ⟨x, rfl⟩, rfl⟩ := h; exact ⟨.Push x, rfl, rfl⟩
  · obtain ⟨_, _, rfl, ⟨x, rfl⟩, rfl⟩ := h; exact ⟨.Pop x, rfl, rfl⟩
  · obtain ⟨_, _, rfl, ⟨x, rfl⟩, rfl⟩ := h; exact ⟨.Xch_d9 x, rfl, rfl⟩
  · obtain ⟨_, _, rfl, ⟨x, rfl⟩, rfl⟩ := h; exact ⟨.Xch_Ri x, rfl, rfl⟩
  · obtain ⟨_, _, rfl, ⟨x, rfl⟩, rfl⟩ := h; exact ⟨.Jmp x, rfl, rfl⟩
  · obtain ⟨_, _, rfl, ⟨x, rfl⟩, rfl⟩ := h; exact ⟨.Jmpf x, rfl, rfl⟩
  · obtain ⟨_, _, rfl, ⟨x, rfl⟩, rfl⟩ := h; exact ⟨.Br x, rfl, rfl⟩
  · obtain ⟨_, _, rfl, ⟨x, rfl⟩, rfl⟩ := h; exact ⟨.Brf x, rfl, rfl⟩
  · obtain ⟨_, _, rfl, ⟨x, rfl⟩, rfl⟩ := h; exact ⟨.Bz x, rfl, rfl⟩
  · obtain ⟨_, _, rfl, ⟨x, rfl⟩, rfl⟩ := h; exact ⟨.Bnz x, rfl, rfl⟩
  · obtain ⟨_, _, rfl, ⟨x, rfl⟩, ⟨_, _, rfl, ⟨y, rfl⟩, ⟨_, _, rfl, ⟨z, rfl⟩, rfl⟩⟩⟩ := h; exact ⟨.Bp x y z, rfl, rfl⟩
  · obtain ⟨_, _, rfl, ⟨x, rfl⟩, ⟨_, _, rfl, ⟨y, rfl⟩, ⟨_, _, rfl, ⟨z, rfl⟩, rfl⟩⟩⟩ := h; exact ⟨.Bpc x y z, rfl, rfl⟩
  · obtain ⟨_, _, rfl, ⟨x, rfl⟩, ⟨_, _, rfl, ⟨y, rfl⟩, ⟨_, _, rfl, ⟨z, rfl⟩, rfl⟩⟩⟩ := h; exact ⟨.Bn x y z, rfl, rfl⟩
  · obtain ⟨_, _, rfl, ⟨x, rfl⟩, ⟨_, _, rfl, ⟨y, rfl⟩, rfl⟩⟩ := h; exact ⟨.Dbnz_d9 x y, rfl, rfl⟩
  · obtain ⟨_, _, rfl, ⟨x, rfl⟩, ⟨_, _, rfl, ⟨y, rfl⟩, rfl⟩⟩ := h; exact ⟨.Dbnz_Ri x y, rfl, rfl⟩
  · obtain ⟨_, _, rfl, ⟨x, rfl⟩, ⟨_, _, rfl, ⟨y, rfl⟩, rfl⟩⟩ := h; exact ⟨.Be_i8 x y, rfl, rfl⟩
  · obtain ⟨_, _, rfl, ⟨x, rfl⟩, ⟨_, _, rfl, ⟨y, rfl⟩, rfl⟩⟩ := h; exact ⟨.Be_d9 x y, rfl, rfl⟩
  · obtain ⟨_, _, rfl, ⟨x, rfl⟩, ⟨_, _, rfl, ⟨y, rfl⟩, ⟨_, _, rfl, ⟨z, rfl⟩, rfl⟩⟩⟩ := h; exact ⟨.Be_Rj x y z, rfl, rfl⟩
  · obtain ⟨_, _, rfl, ⟨x, rfl⟩, ⟨_, _, rfl, ⟨y, rfl⟩, rfl⟩⟩ := h; exact ⟨.Bne_i8 x y, rfl, rfl⟩
  · obtain ⟨_, _, rfl, ⟨x, rfl⟩, ⟨_, _, rfl, ⟨y, rfl⟩, rfl⟩⟩ := h; exact ⟨.Bne_d9 x y, rfl, rfl⟩
  · obtain ⟨_, _, rfl, ⟨x, rfl⟩, ⟨_, _, rfl, ⟨y, rfl⟩, ⟨_, _, rfl, ⟨z, rfl⟩, rfl⟩⟩⟩ := h; exact ⟨.Bne_Rj x y z, rfl, rfl⟩
  · obtain ⟨_, _, rfl, ⟨x, rfl⟩, rfl⟩ := h; exact ⟨.Call x, rfl, rfl⟩
  · obtain ⟨_, _, rfl, ⟨x, rfl⟩, rfl⟩ := h; exact ⟨.Callf x, rfl, rfl⟩
  · obtain ⟨_, _, rfl, ⟨x, rfl⟩, rfl⟩ := h; exact ⟨.Callr x, rfl, rfl⟩
  · subst h; exact ⟨.Ret, rfl, rfl⟩
  · subst h; exact ⟨.Reti, rfl, rfl⟩
  · obtain ⟨_, _, rfl, ⟨x, rfl⟩, ⟨_, _, rfl, ⟨y, rfl⟩, rfl⟩⟩ := h; exact ⟨.Clr1 x y, rfl, rfl⟩
  · obtain ⟨_, _, rfl, ⟨x, rfl⟩, ⟨_, _, rfl, ⟨y, rfl⟩, rfl⟩⟩ := h; exact ⟨.Set1 x y, rfl, rfl⟩
  · obtain ⟨_, _, rfl, ⟨x, rfl⟩, ⟨_, _, rfl, ⟨y, rfl⟩, rfl⟩⟩ := h; exact ⟨.Not1 x y, rfl, rfl⟩
  · subst h; exact ⟨.Nop, rfl, rfl⟩
  · subst h; exact ⟨.Ldf, rfl, rfl⟩
  · subst h; exact ⟨.Stf, rfl, rfl⟩

theorem operands_of (i : Instr Expr IM) : EachLine OfKind (kinds i.form) (List.zipWith writtenAs (kinds i.form) (operands i)) := by
  cases i <;> first
    | exact .nil
    | exact .cons ((ofKind_iff _ _).mpr ⟨_, rfl⟩) .nil
    | exact .cons ((ofKind_iff _ _).mpr ⟨_, rfl⟩) (.cons ((ofKind_iff _ _).mpr ⟨_, rfl⟩) .nil)
    | exact .cons ((ofKind_iff _ _).mpr ⟨_, rfl⟩) (.cons ((ofKind_iff _ _).mpr ⟨_, rfl⟩) (.cons ((ofKind_iff _ _).mpr ⟨_, rfl⟩) .nil))

theorem wrongForms_rows : ∀ p ∈ wrongForms, (if p.2 = [] then [[]] else p.2).map (·.map ArgType.text) =
    (docForms p.1).map (·.map Kind.text) := by decide +kernel

theorem lookup_forms {f : Form} : ∃ forms, wrongForms.lookup (row f).name.toList = some forms := by
  have h : Form.all.all (fun f => (wrongForms.lookup (row f).name.toList).isSome) = true := by decide +kernel
  exact Option.isSome_iff_exists.mp (List.all_eq_true.mp h f f.mem_all)

theorem commaList_eq (ts : List Text) : commaList ts = commas ts := by
  unfold commas
  induction ts with
  | nil => rfl
  | cons t ts ih =>
    cases ts with
    | nil => simp [commaList]
    | cons u ts => rw [commaList, ih]; · simp [List.intersperse]
                   · intro h; cases h

theorem wrongArgs_message {name : Text} {forms : List (List ArgType)} (h : wrongForms.lookup name = some forms) :
    wrongArgsText name forms = formsMessage name := by
  have h1 := wrongForms_rows _ (lookup_mem_pair h)
  have h2 : ∀ p ∈ wrongForms, (p.2 = [] ↔ docForms p.1 = [[]]) ∧ p.2 ≠ [[]] ∧ (p.2 ≠ [] → (p.2.length = (docForms p.1).length)) := by
    decide +kernel
  obtain ⟨h2, h3, h4⟩ := h2 _ (lookup_mem_pair h)
  dsimp only at h1 h2 h3 h4
  unfold wrongArgsText formsMessage
  by_cases hf : forms = []
  · rw [if_pos (.inl hf), if_pos (h2.mp hf)]; simp
  · rw [if_neg (by simp [hf, h3]), if_neg (fun h => hf (h2.mpr h))]
    rw [if_neg hf] at h1
    have e1 : (forms.flatMap fun form => "  ".toList ++ name ++ " ".toList ++ commaList (form.map ArgType.text) ++ "\n".toList) =
        ((docForms name).map fun ks => "  ".toList ++ name ++ " ".toList ++ commas (ks.map Kind.text) ++ "\n".toList).flatten := by
      have := congrArg (List.flatMap fun ts => "  ".toList ++ name ++ " ".toList ++ commas ts ++ "\n".toList) h1
      rw [List.flatMap_map, List.flatMap_map] at this
      simp only [commaList_eq]
      exact this
    rw [e1, ← h4 hf]
    have : forms.length ≠ 0 := fun h => hf (List.length_eq_zero_iff.mp h)
    congr 1
    congr 1
    by_cases hl : forms.length = 1
    · rw [if_pos hl, if_neg (by omega)]; simp
    · rw [if_neg hl, if_pos (by omega)]; rfl

end Verif
