import Verif.Lemmas.Hygiene
/-
Properties of macro expansion: C31–C36.  The specification is Spec/Macros.lean.
-/
namespace Verif.Props
open Verif Verif.Spec

/-- Macros used in examples: `%macro twice %r` calls `%macro spin %n, %r` twice and loops over a
hygienic label. -/
def sampleMacros : Macros := [
  (("twice".toList, 1), ⟨"twice".toList, ["%r".toList],
    [.macroLabel "top%".toList,
     .instr "spin".toList [.ex (.num 3), .macroArg "%r".toList],
     .instr "spin".toList [.ex (.plus (.num 1) (.num 4)), .macroArg "%r".toList],
     .instr "br".toList [.ex (.macroLabel "top%".toList)]]⟩),
  (("spin".toList, 2), ⟨"spin".toList, ["%n".toList, "%r".toList],
    [.instr "mov".toList [.imm (.plus (.macroArg "%n".toList) (.num 1)), .macroArg "%r".toList],
     .macroLabel "loop%".toList,
     .instr "dbnz".toList [.macroArg "%r".toList, .ex (.macroLabel "loop%".toList)]]⟩)]

def sampleCalls : List Stmt :=
  [.label "start".toList, .macroCall "twice".toList [.im .R2], .macroCall "spin".toList [.ex (.num 9), .ex (.name "acc".toList)]]

/-- A supply of names for the examples. -/
def sampleUuid (k : Nat) : Text := List.replicate 31 '0' ++ [Char.ofNat (97 + k)]

theorem sampleMacros_wf : WellFormed sampleMacros := by
  intro key d h
  have := lookup_mem_pair h
  simp only [sampleMacros, List.mem_cons, Prod.mk.injEq, List.not_mem_nil, or_false] at this
  rcases this with ⟨rfl, rfl⟩ | ⟨rfl, rfl⟩ <;> decide

theorem sampleCalls_closed : ClosedCalls sampleCalls := by
  intro name args h
  simp only [sampleCalls, List.mem_cons, Stmt.macroCall.injEq, List.not_mem_nil, or_false, reduceCtorEq, false_or] at h
  rcases h with ⟨rfl, rfl⟩ | ⟨rfl, rfl⟩ <;> decide

theorem sampleUuid_supply : Supply sampleUuid 4 := by
  constructor
  · intro i j hi hj h
    have h1 : i = 0 ∨ i = 1 ∨ i = 2 ∨ i = 3 := by omega
    have h2 : j = 0 ∨ j = 1 ∨ j = 2 ∨ j = 3 := by omega
    rcases h1 with rfl | rfl | rfl | rfl <;> rcases h2 with rfl | rfl | rfl | rfl <;> first | rfl | (revert h; decide)
  · intro i _
    simp [sampleUuid]

/-- The expansion of the sample, up to the UUIDs. -/
def sampleExpansion (uuid : Nat → Text) : List Stmt := [
  .label "start".toList,
  .label ("top_".toList ++ uuid 0),
  .instr (.Mov_Rj (.plus (.num 3) (.num 1)) .R2),
  .label ("loop_".toList ++ uuid 1),
  .instr (.Dbnz_Ri .R2 (.name ("loop_".toList ++ uuid 1))),
  .instr (.Mov_Rj (.plus (.plus (.num 1) (.num 4)) (.num 1)) .R2),
  .label ("loop_".toList ++ uuid 2),
  .instr (.Dbnz_Ri .R2 (.name ("loop_".toList ++ uuid 2))),
  .instr (.Br (.name ("top_".toList ++ uuid 0))),
  .instr (.Mov_d9 (.plus (.num 9) (.num 1)) (.name "acc".toList)),
  .label ("loop_".toList ++ uuid 3),
  .instr (.Dbnz_d9 (.name "acc".toList) (.name ("loop_".toList ++ uuid 3)))]

theorem sample_expands : expandMacros sampleUuid 3 ⟨sampleMacros, sampleCalls⟩ =
    .ok ⟨sampleMacros, sampleExpansion sampleUuid⟩ := by decide +kernel

/-- C31: expansion succeeds with result `q` exactly when `q` is the program in which every call is
replaced by the body of the macro with its parameters replaced, all at once, by the arguments, in body
order and through nested calls; hygienic labels are named after the UUIDs drawn in order.  The calls
outside macros must not themselves use parameters (`C31_open_arguments`). -/
theorem C31_substitution (uuid : Nat → Text) (p q : Program) (wf : WellFormed p.macros)
    (hc : ClosedCalls p.stmts) :
    (∃ fuel, expandMacros uuid fuel p = .ok q) ↔
      q.macros = p.macros ∧ ∃ fresh, ProgramExpands (table p.macros) p.stmts q.stmts fresh ∧ NamedBy uuid 0 fresh :=
  expandMacros_iff wf hc

example : ∃ fresh, ProgramExpands (table sampleMacros) sampleCalls (sampleExpansion sampleUuid) fresh ∧
    NamedBy sampleUuid 0 fresh :=
  ((C31_substitution sampleUuid ⟨sampleMacros, sampleCalls⟩ ⟨sampleMacros, sampleExpansion sampleUuid⟩
    sampleMacros_wf sampleCalls_closed).mp ⟨3, sample_expands⟩).2

/-- `%macro foo %a, %b`, body `add #%a+0`. -/
def captureMacros : Macros := [(("foo".toList, 2), ⟨"foo".toList, ["%a".toList, "%b".toList],
  [.instr "add".toList [.imm (.plus (.macroArg "%a".toList) (.num 0))]]⟩)]

/-- C31, negative part: when a call outside macros uses the name of a parameter in an argument, the
argument is substituted again (src/expression.rs 194–196): `foo 1+%b, 5` adds 1+5 instead of failing. -/
theorem C31_open_arguments : ∃ (p q : Program), WellFormed p.macros ∧
    (∀ uuid, expandMacros uuid 4 p = .ok q) ∧ ∀ fresh, ¬ ProgramExpands (table p.macros) p.stmts q.stmts fresh := by
  refine ⟨⟨captureMacros, [.macroCall "foo".toList [.ex (.plus (.num 1) (.macroArg "%b".toList)), .ex (.num 5)]]⟩,
    ⟨captureMacros, [.instr (.Add_i8 (.plus (.plus (.num 1) (.num 5)) (.num 0)))]⟩, ?_, ?_, ?_⟩
  · intro key d h
    have := lookup_mem_pair h
    simp only [captureMacros, List.mem_cons, Prod.mk.injEq, List.not_mem_nil, or_false] at this
    obtain ⟨rfl, rfl⟩ := this
    decide
  · intro uuid; rfl
  · intro fresh h
    generalize ho : ([.instr (.Add_i8 (.plus (.plus (.num 1) (.num 5)) (.num 0)))] : List Stmt) = out at h
    cases h with
    | keep hk _ => exact hk _ _ rfl
    | call hd hnm hnd hb hr =>
      have hd' : captureMacros.lookup ("foo".toList, 2) = some _ := hd
      have e := hd'.symm.trans (show captureMacros.lookup ("foo".toList, 2) = some _ from rfl)
      cases e
      cases hb with
      | instr h1 h2 h3 h4 =>
        have e2 := h2.symm.trans (show _ = some [.imm (.plus (.plus (.num 1) (.macroArg "%b".toList)) (.num 0))] from rfl)
        cases e2
        have hw := h3
        have hm := makeInstr_ok_iff.mpr hw
        have e3 := hm.symm.trans (show _ = Res.ok (.Add_i8 (.plus (.plus (.num 1) (.macroArg "%b".toList)) (.num 0))) from rfl)
        cases e3
        have e4 := (List.cons.inj ho).1
        cases e4
      | call h1 _ _ _ _ _ => cases h1

/-- C32: the names given to the hygienic labels of all invocations are pairwise different when the
UUIDs are, and each is defined exactly once in the expansion when no label written in the program looks
like a generated one.  That uses agree with definitions within an invocation is part of C31. -/
theorem C32_hygiene (uuid : Nat → Text) (fuel : Nat) (p q : Program) (wf : WellFormed p.macros)
    (hc : ClosedCalls p.stmts) (h : expandMacros uuid fuel p = .ok q) :
    ∃ fresh, ProgramExpands (table p.macros) p.stmts q.stmts fresh ∧
      (Supply uuid fresh.length → (fresh.map (·.2)).Nodup ∧
        ((∀ l ∈ writtenLabels p, ¬ looksGenerated uuid fresh.length l) →
          ∀ x ∈ fresh, q.stmts.count (.label x.2) = 1)) := by
  obtain ⟨_, fresh, hp, hn⟩ := (expandMacros_iff wf hc).mp ⟨fuel, h⟩
  refine ⟨fresh, hp, fun hs => ⟨named_nodup hn hs, fun hw x hx => ?_⟩⟩
  have hl : x.2 ∉ writtenLabels p := by
    intro hm
    obtain ⟨j, hj, he⟩ := List.getElem_of_mem hx
    refine hw _ hm ⟨x.1.filter (· ≠ '%'), j, hj, ?_⟩
    have := hn j x (by rw [List.getElem?_eq_getElem hj, he])
    rwa [Nat.zero_add] at this
  rw [program_count (fun name n d hd => written_macros hl hd) hp (written_stmts hl)]
  have := (named_nodup hn hs).count (a := x.2)
  rw [this, if_pos (List.mem_map_of_mem hx)]

example : Supply sampleUuid 4 := sampleUuid_supply
example : ∀ l ∈ writtenLabels ⟨sampleMacros, sampleCalls⟩, ¬ looksGenerated sampleUuid 4 l := by
  intro l hl
  have : l = "start".toList := by
    have e : writtenLabels ⟨sampleMacros, sampleCalls⟩ = ["start".toList] := by decide
    rw [e] at hl; simpa using hl
  rintro ⟨x, j, _, e⟩
  rw [this] at e
  have := congrArg List.length e
  simp [sampleUuid] at this

/-- C33: a successful expansion contains no macro calls. -/
theorem C33_no_calls (uuid : Nat → Text) (fuel : Nat) (p q : Program) (h : expandMacros uuid fuel p = .ok q) :
    ∀ name args, Stmt.macroCall name args ∉ q.stmts := by
  simp only [expandMacros, Res.bind_eq_ok] at h
  obtain ⟨⟨out, k⟩, h1, h2⟩ := h
  cases h2
  intro name args hm
  exact expandStmts_shape h1 _ hm _ _ rfl

/-- C33: if parameters and hygienic labels occur only inside macro definitions, none is left after
expansion, and assembling the result never fails for that reason. -/
theorem C33_closed (uuid : Nat → Text) (fuel : Nat) (p q : Program) (wf : WellFormed p.macros)
    (hc : ClosedCalls p.stmts) (hs : ∀ x ∈ p.stmts, stmtClosed x) (h : expandMacros uuid fuel p = .ok q) :
    (∀ x ∈ q.stmts, stmtClosed x) ∧ ∀ m n, assemble m q.stmts ≠ .err (.macroArgOutsideOfMacro n) ∧
      assemble m q.stmts ≠ .err (.macroLabelOutsideOfMacro n) := by
  obtain ⟨_, fresh, hp, hn⟩ := (expandMacros_iff wf hc).mp ⟨fuel, h⟩
  have hcl : ∀ x ∈ q.stmts, stmtClosed x := fun x hx =>
    (program_closed hp hc x hx).2.elim (fun hm => hs x hm) id
  exact ⟨hcl, fun m n => ⟨NoMac.assemble m _ hcl _ rfl, NoMac.assemble m _ hcl _ rfl⟩⟩

example : ∀ x ∈ sampleCalls, stmtClosed x := by
  intro x hx
  simp only [sampleCalls, List.mem_cons, List.not_mem_nil, or_false] at hx
  rcases hx with rfl | rfl | rfl <;> intro e he <;> simp [exprsOf] at he

/-- C33, negative part: a parameter used outside macros as a bare argument of a call survives. -/
theorem C33_open_arguments : ∃ (p q : Program), WellFormed p.macros ∧ (∀ x ∈ p.stmts, stmtClosed x) ∧
    (∀ uuid, expandMacros uuid 4 p = .ok q) ∧ ¬ ∀ x ∈ q.stmts, stmtClosed x := by
  refine ⟨⟨[(("foo".toList, 1), ⟨"foo".toList, ["%a".toList], [.instr "ld".toList [.macroArg "%a".toList]]⟩)],
    [.macroCall "foo".toList [.ex (.plus (.num 1) (.macroArg "%b".toList))]]⟩,
    ⟨[(("foo".toList, 1), ⟨"foo".toList, ["%a".toList], [.instr "ld".toList [.macroArg "%a".toList]]⟩)],
      [.instr (.Ld_d9 (.plus (.num 1) (.macroArg "%b".toList)))]⟩, ?_, ?_, ?_, ?_⟩
  · intro key d h
    have := lookup_mem_pair h
    simp only [List.mem_cons, Prod.mk.injEq, List.not_mem_nil, or_false] at this
    obtain ⟨rfl, rfl⟩ := this
    decide
  · intro x hx
    simp only [List.mem_cons, List.not_mem_nil, or_false] at hx
    subst hx
    intro e he
    simp [exprsOf] at he
  · intro uuid; rfl
  · intro hx
    have := hx _ List.mem_cons_self (.plus (.num 1) (.macroArg "%b".toList)) (by decide)
    exact absurd this (by decide)

/-- C34: a program without macro calls is its own expansion, whatever macros it defines. -/
theorem C34_unchanged (uuid : Nat → Text) (fuel : Nat) (p : Program)
    (h : ∀ name args, Stmt.macroCall name args ∉ p.stmts) : expandMacros uuid fuel p = .ok p := by
  unfold expandMacros
  rw [expandStmts_none (fun x hx n a e => h n a (e ▸ hx))]
  rfl

example : expandMacros sampleUuid 0 ⟨sampleMacros, sampleExpansion sampleUuid⟩ =
    .ok ⟨sampleMacros, sampleExpansion sampleUuid⟩ :=
  C34_unchanged _ _ _ (by
    intro name args h
    simp [sampleExpansion] at h)

/-- C34: in particular expanding twice is the same as expanding once. -/
theorem C34_idempotent (uuid uuid' : Nat → Text) (fuel fuel' : Nat) (p q : Program)
    (h : expandMacros uuid fuel p = .ok q) : expandMacros uuid' fuel' q = .ok q :=
  C34_unchanged uuid' fuel' q (C33_no_calls uuid fuel p q h)

/-- C35: expansion succeeds only if every call has a macro of exactly this name and number of
parameters. -/
theorem C35_selected (uuid : Nat → Text) (fuel : Nat) (p q : Program) (wf : WellFormed p.macros)
    (h : expandMacros uuid fuel p = .ok q) (name : Text) (args : List Arg)
    (hm : Stmt.macroCall name args ∈ p.stmts) :
    ∃ d, table p.macros name args.length = some d ∧ d.name = name ∧ d.args.length = args.length := by
  simp only [expandMacros, Res.bind_eq_ok] at h
  obtain ⟨⟨out, k⟩, h1, h2⟩ := h
  cases hd : table p.macros name args.length with
  | some d =>
    have := wf _ _ hd
    exact ⟨d, rfl, (Prod.mk.inj this.1).1.symm, (Prod.mk.inj this.1).2.symm⟩
  | none =>
    exfalso
    clear h2
    generalize p.stmts = stmts at hm h1
    generalize 0 = k0 at h1
    induction stmts generalizing k0 out k with
    | nil => cases hm
    | cons s rest ih =>
      by_cases hs : ∃ name args, s = .macroCall name args
      · obtain ⟨name', args', rfl⟩ := hs
        simp only [expandStmts, Res.bind_eq_ok] at h1
        obtain ⟨⟨new, k1⟩, h2, ⟨o, k2⟩, h3, _⟩ := h1
        rcases List.mem_cons.mp hm with e | hm
        · cases e
          cases fuel with
          | zero => cases h2
          | succ f =>
            simp only [expand] at h2
            rw [show p.macros.lookup (name, args.length) = none from hd] at h2
            cases h2
        · exact ih o k2 hm k1 h3
      · have hk : ∀ n a, s ≠ .macroCall n a := fun n a e => hs ⟨n, a, e⟩
        rw [expandStmts_keep hk] at h1
        simp only [Res.bind_eq_ok] at h1
        obtain ⟨⟨o, k1⟩, h1, _⟩ := h1
        rcases List.mem_cons.mp hm with e | hm
        · exact hk _ _ e.symm
        · exact ih o k1 hm k0 h1

/-- C35: the first call for which no macro of this name and arity exists is reported as such. -/
theorem C35_missing (uuid : Nat → Text) (fuel : Nat) (macros : Macros) (before after : List Stmt)
    (name : Text) (args : List Arg) (q : Program) (hf : 0 < fuel)
    (hb : expandMacros uuid fuel ⟨macros, before⟩ = .ok q) (hd : table macros name args.length = none) :
    expandMacros uuid fuel ⟨macros, before ++ .macroCall name args :: after⟩ = .err (.noSuchMacro name) := by
  simp only [expandMacros, Res.bind_eq_ok] at hb
  obtain ⟨⟨out, k⟩, h1, h2⟩ := hb
  unfold expandMacros
  simp only
  rw [expandStmts_append h1]
  obtain ⟨f, rfl⟩ : ∃ f, fuel = f + 1 := ⟨fuel - 1, by omega⟩
  have : expand uuid macros (f + 1) name args k = .err (.noSuchMacro name) := by
    simp only [expand]
    rw [show macros.lookup (name, args.length) = none from hd]
  simp only [expandStmts, this, Res.err_bind]

example : table sampleMacros "twice".toList [Arg.im .R2, .im .R2].length = none := by decide

/-- C35: a macro whose name and arity the program never uses, be it another arity of a name that is
used, makes no difference. -/
theorem C35_irrelevant (uuid : Nat → Text) (fuel : Nat) (macros : Macros) (stmts : List Stmt)
    (name : Text) (n : Nat) (d : MacroDef) (h : ¬ Mentions ⟨macros, stmts⟩ name n) :
    (do let q ← expandMacros uuid fuel ⟨((name, n), d) :: macros, stmts⟩; Res.ok q.stmts) =
      (do let q ← expandMacros uuid fuel ⟨macros, stmts⟩; Res.ok q.stmts) := by
  unfold expandMacros
  simp only
  rw [expandStmts_extra]
  · cases expandStmts uuid macros fuel stmts 0 <;> rfl
  · intro key d' hm name' args hi e
    cases e
    exact h (.inr ⟨key, d', args, hm, hi, rfl⟩)
  · intro name' args hi e
    cases e
    exact h (.inl ⟨args, hi, rfl⟩)

example : ¬ Mentions ⟨sampleMacros, sampleCalls⟩ "twice".toList 2 := by
  rintro (⟨args, h, hl⟩ | ⟨key, d, args, h, hb, hl⟩)
  · simp [sampleCalls] at h
    rw [h] at hl; cases hl
  · simp only [sampleMacros, List.mem_cons, Prod.mk.injEq, List.not_mem_nil, or_false] at h
    rcases h with ⟨_, rfl⟩ | ⟨_, rfl⟩ <;> simp at hb

/-- C36: with macros none of which reaches itself, expansion finishes, with a program or an error: the
depth of the recursion is bounded by the number of macros. -/
theorem C36_terminates (uuid : Nat → Text) (p : Program) (hr : NonRecursive p.macros)
    (hc : ClosedCalls p.stmts) (fuel : Nat) (hf : p.macros.length + 2 ≤ fuel) :
    (∃ q, expandMacros uuid fuel p = .ok q) ∨ ∃ e, expandMacros uuid fuel p = .err e := by
  have h := expandStmts_ends (uuid := uuid) hr hf p.stmts hc 0
  unfold expandMacros
  cases hx : expandStmts uuid p.macros fuel p.stmts 0 with
  | ok x => exact .inl ⟨_, rfl⟩
  | err e => exact .inr ⟨e, rfl⟩
  | panic => exact absurd hx h.2
  | loop => exact absurd hx h.1

example : NonRecursive sampleMacros := by
  have hstep : ∀ a b, Calls sampleMacros a b → a = ("twice".toList, 1) ∧ b = ("spin".toList, 2) := by
    rintro a ⟨bn, bk⟩ ⟨d, args, h1, h2, h3, h4⟩
    have := lookup_mem_pair h1
    simp only [sampleMacros, List.mem_cons, Prod.mk.injEq, List.not_mem_nil, or_false] at this
    rcases this with ⟨rfl, rfl⟩ | ⟨rfl, rfl⟩
    · simp only [List.mem_cons, List.not_mem_nil, or_false, reduceCtorEq, false_or, MacroStmt.instr.injEq] at h2
      rcases h2 with ⟨rfl, rfl⟩ | ⟨rfl, rfl⟩ | ⟨rfl, rfl⟩
      · exact ⟨rfl, by simp only at h3; rw [← h3]; rfl⟩
      · exact ⟨rfl, by simp only at h3; rw [← h3]; rfl⟩
      · exfalso; simp only at h3 h4; subst h3; revert h4; decide
    · simp only [List.mem_cons, List.not_mem_nil, or_false, reduceCtorEq, false_or, MacroStmt.instr.injEq] at h2
      rcases h2 with ⟨rfl, rfl⟩ | ⟨rfl, rfl⟩ <;> (exfalso; simp only at h3 h4; subst h3; revert h4; decide)
  have hreach : ∀ a b, Reaches sampleMacros a b → a = ("twice".toList, 1) ∧ b = ("spin".toList, 2) := by
    intro a b h
    induction h with
    | step h => exact hstep _ _ h
    | trans h _ ih => exact ⟨(hstep _ _ h).1, ih.2⟩
  intro a h
  have := hreach a a h
  rw [this.1] at this
  exact absurd this.2 (by decide)

/-- C36: a macro that reaches itself never has an expansion, at any depth. -/
theorem C36_recursive (uuid : Nat → Text) (macros : Macros) (name : Text) (args : List Arg)
    (before after : List Stmt) (hr : Reaches macros (name, args.length) (name, args.length)) (fuel : Nat) (q : Program) :
    expandMacros uuid fuel ⟨macros, before ++ .macroCall name args :: after⟩ ≠ .ok q := by
  intro h
  simp only [expandMacros, Res.bind_eq_ok] at h
  obtain ⟨⟨out, k⟩, h1, h2⟩ := h
  clear h2
  generalize 0 = k0 at h1
  induction before generalizing k0 out k with
  | nil =>
    simp only [List.nil_append, expandStmts, Res.bind_eq_ok] at h1
    obtain ⟨x, h2, _⟩ := h1
    exact expand_recursive hr fuel args k0 x rfl h2
  | cons s rest ih =>
    by_cases hs : ∃ name args, s = .macroCall name args
    · obtain ⟨name', args', rfl⟩ := hs
      simp only [List.cons_append, expandStmts, Res.bind_eq_ok] at h1
      obtain ⟨⟨new, k1⟩, h2, ⟨o, k2⟩, h3, _⟩ := h1
      exact ih o k2 k1 h3
    · have hk : ∀ n a, s ≠ .macroCall n a := fun n a e => hs ⟨n, a, e⟩
      rw [List.cons_append, expandStmts_keep hk] at h1
      simp only [Res.bind_eq_ok] at h1
      obtain ⟨⟨o, k1⟩, h1, _⟩ := h1
      exact ih o k1 k0 h1

/-- C36: direct recursion does not finish: if the body of the macro starts by calling it again, the
expansion of a call runs out of every bound on the depth. -/
theorem C36_direct_recursion (uuid : Nat → Text) (macros : Macros) (d : MacroDef) (cargs args : List Arg)
    (rest : List MacroStmt) (hd : table macros d.name cargs.length = some d)
    (hb : d.body = .instr d.name cargs :: rest) (hl : d.args.length = cargs.length)
    (hn : (hygienic d.body).Nodup) (hcl : ∀ a ∈ cargs, closedArg a = true) (ha : args.length = cargs.length)
    (fuel : Nat) (after : List Stmt) :
    expandMacros uuid fuel ⟨macros, .macroCall d.name args :: after⟩ = .loop := by
  unfold expandMacros
  simp only [expandStmts, expand_self hd hb hl hn hcl fuel args 0 ha, Res.loop_bind]

/-- The macro `again %x` whose body is `again 1`. -/
def againDef : MacroDef := ⟨"again".toList, ["%x".toList], [.instr "again".toList [.ex (.num 1)]]⟩

example (uuid : Nat → Text) (fuel : Nat) :
    expandMacros uuid fuel ⟨[(("again".toList, 1), againDef)], [.macroCall "again".toList [.ex (.num 0)]]⟩ = .loop :=
  C36_direct_recursion uuid _ againDef [.ex (.num 1)] [.ex (.num 0)] [] rfl rfl rfl (by decide) (by decide) rfl fuel []

example : Reaches [(("again".toList, 1), againDef)] ("again".toList, 1) ("again".toList, 1) :=
  .step ⟨againDef, [.ex (.num 1)], rfl, List.mem_cons_self, rfl, rfl⟩

/-- C36, negative part: without recursive macros, but with a parameter used in an argument outside
macros, expansion need not finish: `add1 1+%a` for `%macro add1 %a` substitutes `%a` for ever. -/
theorem C36_open_arguments : ∃ p : Program, WellFormed p.macros ∧ NonRecursive p.macros ∧
    ∀ uuid fuel, expandMacros uuid fuel p = .loop := by
  refine ⟨⟨[(("add1".toList, 1), ⟨"add1".toList, ["%a".toList], [.instr "add".toList [.imm (.macroArg "%a".toList)]]⟩)],
    [.macroCall "add1".toList [.ex (.plus (.num 1) (.macroArg "%a".toList))]]⟩, ?_, ?_, ?_⟩
  · intro key d h
    have := lookup_mem_pair h
    simp only [List.mem_cons, Prod.mk.injEq, List.not_mem_nil, or_false] at this
    obtain ⟨rfl, rfl⟩ := this
    decide
  · intro a h
    have hstep : ∀ a b, ¬ Calls [(("add1".toList, 1), ⟨"add1".toList, ["%a".toList], [.instr "add".toList [.imm (.macroArg "%a".toList)]]⟩)] a b := by
      rintro a ⟨bn, bk⟩ ⟨d, args, h1, h2, h3, h4⟩
      have := lookup_mem_pair h1
      simp only [List.mem_cons, Prod.mk.injEq, List.not_mem_nil, or_false] at this
      obtain ⟨rfl, rfl⟩ := this
      simp only [List.mem_cons, List.not_mem_nil, or_false, MacroStmt.instr.injEq] at h2
      obtain ⟨rfl, rfl⟩ := h2
      simp only at h3 h4; subst h3; revert h4; decide
    cases h with
    | step h => exact hstep _ _ h
    | trans h _ => exact hstep _ _ h
  · intro uuid fuel
    have key : ∀ (f : Nat), Expr.replaceMacroArgs f [] [("%a".toList, .ex (.plus (.num 1) (.macroArg "%a".toList)))]
        (.plus (.num 1) (.macroArg "%a".toList)) = .loop := by
      intro f
      induction f with
      | zero => rfl
      | succ f ih =>
        show (do let b ← Expr.replaceMacroArgs f [] [("%a".toList, .ex (.plus (.num 1) (.macroArg "%a".toList)))]
                  (.plus (.num 1) (.macroArg "%a".toList)); Res.ok (Expr.plus (.num 1) b)) = .loop
        rw [ih]; rfl
    cases fuel with
    | zero => rfl
    | succ f =>
      cases f with
      | zero => rfl
      | succ f =>
        have := key f
        unfold expandMacros
        simp only [expandStmts]
        rw [show expand uuid _ (f + 1 + 1) "add1".toList [.ex (.plus (.num 1) (.macroArg "%a".toList))] 0 = Res.loop from ?_]
        · rfl
        · show (do
            let args ← (do
              let a ← (do
                let x ← Expr.replaceMacroArgs f [] [("%a".toList, .ex (.plus (.num 1) (.macroArg "%a".toList)))]
                  (.plus (.num 1) (.macroArg "%a".toList))
                Res.ok (Arg.imm x))
              Res.ok [a])
            let i ← makeInstr "add".toList args
            Res.ok ([Stmt.instr i], 0)) = .loop
          rw [this]; rfl

end Verif.Props
