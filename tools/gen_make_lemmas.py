import re
ns=re.findall(r'def make_(\w+)',open('/verif/lean/Verif/Model/MakeInstr.lean').read())
t='''import Verif.Spec.Macros
import Verif.Lemmas.Table
/-
The arms of make_instr against the manual.  The per-mnemonic lemmas are generated.
-/
namespace Verif
open Spec

theorem lookup_mem_pair {α β : Type} [BEq α] [LawfulBEq α] {l : List (α × β)} {k : α} {v : β}
    (h : l.lookup k = some v) : (k, v) ∈ l := by
  induction l with
  | nil => simp at h
  | cons x xs ih =>
    obtain ⟨a, b⟩ := x
    rw [List.lookup_cons] at h
    by_cases e : k = a
    · subst e; simp at h; subst h; exact List.mem_cons_self
    · have : (k == a) = false := by simp [e]
      simp [this] at h
      exact List.mem_cons_of_mem _ (ih h)

'''
for n in ns:
    t+=f'''theorem make_{n}_sound {{args : List Arg}} {{i : Instr Expr IM}} (h : make_{n} args = some i) :
    Writes "{n}".toList args i := by
  revert h; fun_cases make_{n} args <;> intro h <;> simp at h <;> subst h <;> exact ⟨rfl, rfl⟩

'''
for n in ns:
    t+=f'''theorem lookup_{n} : makers.lookup "{n}".toList = some make_{n} := by simp [makers, List.lookup]

'''
t+='''theorem makeInstr_writes (i : Instr Expr IM) :
    makeInstr (row i.form).name.toList (List.zipWith writtenAs (kinds i.form) (operands i)) = .ok i := by
  cases i
'''
src=open('/verif/lean/Verif/Model/MakeInstr.lean').read()
of={}
for m in re.finditer(r'def make_(\w+) .*\n((?:  \|.*\n)+)',src):
    for c in re.findall(r'some \(?\.(\w+)',m.group(2)): of[c]=m.group(1)
inst=open('/verif/lean/Verif/Model/Instr.lean').read()
forms=re.findall(r'^  \| (\w+)',inst[inst.index('inductive Form'):inst.index('def Form.all')],re.M)
for f in forms:
    t+=f'''  · show makeInstr "{of[f]}".toList _ = _
    unfold makeInstr; rw [lookup_{of[f]}]; rfl
'''
t+='''
'''
t+='''theorem makers_sound : ∀ x ∈ makers, ∀ args i, x.2 args = some i → Writes x.1 args i := by
  intro x hx
  simp only [makers, List.mem_cons, List.not_mem_nil, or_false] at hx
  rcases hx with '''+' | '.join(['h']*len(ns))+'''
'''
for n in ns: t+=f'  · subst h; exact fun _ _ => make_{n}_sound\n'
t+='''
theorem makeInstr_ok_iff {name : Text} {args : List Arg} {i : Instr Expr IM} :
    makeInstr name args = .ok i ↔ Writes name args i := by
  constructor
  · intro h
    unfold makeInstr at h
    split at h
    · rename_i f hf
      split at h
      · rename_i j hj
        cases h
        exact makers_sound _ (lookup_mem_pair hf) _ _ hj
      · cases h
    · cases h
  · rintro ⟨rfl, rfl⟩
    exact makeInstr_writes i

theorem makers_keys : ∀ f, (makers.lookup (row f).name.toList).isSome = true := by
  intro f; cases f
'''
for f in forms:
    t+=f'''  · show (makers.lookup "{of[f]}".toList).isSome = true
    rw [lookup_{of[f]}]; rfl
'''
t+='''

theorem makers_key_rows : ∀ k ∈ makers.map (·.1), ∃ f, k = (row f).name.toList := by
  have h : (makers.map (·.1)).all (fun k => Form.all.any fun f => k == (row f).name.toList) = true := by
    decide +kernel
  intro k hk
  have := List.all_eq_true.mp h k hk
  obtain ⟨f, -, hf⟩ := List.any_eq_true.mp this
  exact ⟨f, by simpa using hf⟩

theorem mnemonic_row (f : Form) : f.mnemonic = (row f).name.toList := by
  have h : Form.all.all (fun f => f.mnemonic == (row f).name.toList) = true := by decide +kernel
  simpa using List.all_eq_true.mp h f f.mem_all

theorem instrExists_iff {name : Text} : instrExists name = true ↔ ∃ f, name = (row f).name.toList := by
  unfold instrExists
  rw [List.any_eq_true]
  constructor
  · rintro ⟨f, -, h⟩
    exact ⟨f, by rw [← mnemonic_row]; simpa using Eq.symm (of_decide_eq_true h)⟩
  · rintro ⟨f, h⟩
    exact ⟨f, f.mem_all, by rw [mnemonic_row, h]; simp⟩

theorem makeInstr_unknown {name : Text} {args : List Arg} (h : instrExists name = false) :
    makeInstr name args = .err (.unknownInstruction name) := by
  unfold makeInstr
  split
  · rename_i f hf
    exfalso
    obtain ⟨g, hg⟩ := makers_key_rows name (List.mem_map.mpr ⟨_, lookup_mem_pair hf, rfl⟩)
    rw [instrExists_iff.mpr ⟨g, hg⟩] at h
    cases h
  · rfl

theorem makeInstr_wrong {name : Text} {args : List Arg} (h : instrExists name = true)
    (hn : ∀ i, ¬ Writes name args i) : makeInstr name args = .err (.wrongInstructionArgs name) := by
  obtain ⟨f, rfl⟩ := instrExists_iff.mp h
  have hk := makers_keys f
  cases e : makeInstr (row f).name.toList args with
  | ok i => exact absurd (makeInstr_ok_iff.mp e) (hn i)
  | _ =>
    unfold makeInstr at e
    split at e
    · split at e <;> cases e
      try rfl
    · rename_i he; rw [he] at hk; cases hk

end Verif
'''
open('/verif/lean/Verif/Lemmas/MakeInstr.lean','w').write(t)
