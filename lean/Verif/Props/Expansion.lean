import Verif.Lemmas.Located.ExpansionFails
import Verif.Props.Macros
import Verif.Props.Parsing
import Verif.Props.Reasons
/-
C78: when macro calls cannot be expanded, the first thing that is wrong is reported, with its place.  The specification
is Spec/Expansion.lean.
-/
namespace Verif.Props
open Verif Verif.Spec Verif.Spec.Expansion
open Verif.Located (Span Place)

/-- **C78**: macro expansion reports an error if and only if it is the first thing that is wrong with the calls of the
program; and it reports its place. -/
theorem C78_first {uuid : Nat → Text} {program : Located.Program} (wf : WellFormed program.erase.macros)
    (hc : ClosedCalls program.erase.stmts) {x : Err} {p : Place} :
    (∃ fuel, Located.expandMacros uuid fuel program = .err ⟨x, p⟩) ↔ ∃ s, p = .span s ∧ Fails uuid program x s := by
  constructor
  · rintro ⟨fuel, h⟩
    exact Located.expandMacros_fails wf hc h
  · rintro ⟨s, rfl, h⟩
    obtain ⟨N, hN⟩ := Located.fails_expandMacros wf hc h
    exact ⟨N, hN N (Nat.le_refl _)⟩

/-- **C78**: there is only one first thing. -/
theorem C78_only {uuid : Nat → Text} {program : Located.Program} (wf : WellFormed program.erase.macros)
    (hc : ClosedCalls program.erase.stmts) {x y : Err} {s t : Span} (h : Fails uuid program x s) (h' : Fails uuid program y t) :
    x = y ∧ s = t := by
  obtain ⟨N, hN⟩ := Located.enough (Located.fails_expandMacros wf hc h) (Located.fails_expandMacros wf hc h')
  obtain ⟨h1, h2⟩ := hN N (Nat.le_refl _)
  rw [h1] at h2
  cases h2
  exact ⟨rfl, rfl⟩

/-- **C78**: if no macro calls itself, either all calls have a meaning or something is wrong with one of them, and not
both. -/
theorem C78_either {uuid : Nat → Text} {program : Located.Program} (wf : WellFormed program.erase.macros)
    (hc : ClosedCalls program.erase.stmts) (hr : NonRecursive program.erase.macros) :
    (∃ x s, Fails uuid program x s) ↔
      ¬ ∃ out fresh, ProgramExpands (bareMacros program.macros) (program.stmts.map Located.Stmt.erase) out fresh ∧
        NamedBy uuid 0 fresh := by
  have hiff : (∃ fuel q, Verif.expandMacros uuid fuel program.erase = .ok q) ↔
      ∃ out fresh, ProgramExpands (bareMacros program.macros) (program.stmts.map Located.Stmt.erase) out fresh ∧
        NamedBy uuid 0 fresh := by
    rw [← Located.table_eraseMacros]
    constructor
    · rintro ⟨fuel, q, h⟩
      obtain ⟨-, fresh, h⟩ := (expandMacros_iff wf hc).mp ⟨fuel, h⟩
      exact ⟨q.stmts, fresh, h⟩
    · rintro ⟨out, fresh, h⟩
      obtain ⟨fuel, h⟩ := (expandMacros_iff (q := ⟨program.erase.macros, out⟩) wf hc).mpr ⟨rfl, fresh, h⟩
      exact ⟨fuel, _, h⟩
  rw [← hiff]
  constructor
  · rintro ⟨x, s, h⟩ ⟨fuel, q, hq⟩
    obtain ⟨out, fresh, h1, h2⟩ := hiff.mp ⟨fuel, q, hq⟩
    rw [← Located.table_eraseMacros] at h1
    obtain ⟨M, hM⟩ := expandStmts_complete (uuid := uuid) wf h1 hc
    obtain ⟨N, hN⟩ := Located.fails_expandMacros wf hc h
    have he := Located.erase_expandMacros uuid (N + M) program
    rw [hN _ (by omega)] at he
    have hM := hM (N + M) (by omega) 0 h2
    unfold Verif.expandMacros at he
    rw [show Verif.expandStmts uuid program.erase.macros (N + M) program.erase.stmts 0 = _ from hM] at he
    cases he
  · intro hn
    rcases C36_terminates uuid program.erase hr hc _ (Nat.le_refl _) with ⟨q, hq⟩ | ⟨e, he⟩
    · exact absurd ⟨_, q, hq⟩ hn
    · have h := Located.erase_expandMacros uuid (program.erase.macros.length + 2) program
      rw [he] at h
      cases hl : Located.expandMacros uuid (program.erase.macros.length + 2) program with
      | err y =>
        obtain ⟨x, p⟩ := y
        obtain ⟨s, -, hf⟩ := Located.expandMacros_fails wf hc hl
        exact ⟨x, s, hf⟩
      | _ => rw [hl] at h; cases h

/-- The macros of a program that has been read. -/
theorem readStatements_wellFormed {m : Mode} {seg : Seg} {order : List Color → List Color} {load : Text → Res Image} {fs : FS}
    {fuel : Nat} {sf : SourceFiles} {name : Text} {p : Program}
    (h : readStatements m seg order load fs fuel sf name = .ok p) : WellFormed p.macros := by
  unfold readStatements at h
  obtain ⟨⟨q, path, sf'⟩, hq, h⟩ := Res.bind_eq_ok.mp h
  obtain ⟨ss, -, h⟩ := Res.bind_eq_ok.mp h
  cases h
  unfold readProgram at hq
  obtain ⟨_, -, hq⟩ := Res.bind_eq_ok.mp hq
  obtain ⟨⟨_, _⟩, -, hq⟩ := Res.bind_eq_ok.mp hq
  obtain ⟨_, -, hq⟩ := Res.bind_eq_ok.mp hq
  obtain ⟨⟨_, _⟩, -, hq⟩ := Res.bind_eq_ok.mp hq
  obtain ⟨r, hr, hq⟩ := Res.bind_eq_ok.mp hq
  cases hq
  exact (C45_wellFormed hr : WellFormed q.macros)

/-- **C78**: so, when a file has been read and does not assemble, the error is the first thing that is wrong with its
macro calls, or else the first thing that is wrong with the program that results from them (C76). -/
theorem C78_file {m : Mode} {seg : Seg} {order : List Color → List Color} {load : Text → Res Image} {uuid : Nat → Text} {fs : FS}
    {fuel macroFuel : Nat} {name : Text} {sf sf' sf'' : SourceFiles} {x : Err} {p : Place} {program : Located.Program}
    (hu : Suffixes uuid) (hr : Located.readStatements m seg order load fs fuel name sf = (sf'', .ok program))
    (hc : ClosedCalls program.erase.stmts)
    (h : Located.assembleFile m seg order load uuid fs fuel macroFuel name sf = (sf', .err ⟨x, p⟩)) :
    (∃ s, p = .span s ∧ Fails uuid program x s) ∨
    ∃ expanded, Located.expandMacros uuid macroFuel program = .ok expanded ∧
      (Reasons.Below expanded.stmts → Reasons.Wrong m expanded.stmts x p) := by
  have he := Located.erase_readStatements m seg order load fs fuel name sf
  rw [hr] at he
  rcases C76_file hu h with h1 | ⟨program', h1, h2⟩
  · rw [hr] at h1; cases h1
  · rw [hr] at h1
    cases h1
    rcases h2 with h2 | h2
    · exact .inl ((C78_first (readStatements_wellFormed he.symm) hc).mp ⟨_, h2⟩)
    · exact .inr h2

/-! A program that meets the hypotheses. -/

/-- The place of a word in column `i` of line `l`. -/
def wordAt (l i : Nat) : Span := ⟨⟨0, 100 * l + i, l, i⟩, ⟨0, 100 * l + i + 1, l, i + 1⟩, []⟩

/-- `%macro inner %a, %b` with the lines `mov %a, %b` and `ld %a + 1`, and `%macro outer %r` with the lines `inner #1, %r`
and `nosuch`. -/
def innerOuter : Located.Macros := [
  (("inner".toList, 2), ⟨wordAt 1 1, "inner".toList, [(wordAt 1 2, "%a".toList), (wordAt 1 3, "%b".toList)],
    [.instr (wordAt 2 1) "mov".toList [.macroArg (wordAt 2 2) "%a".toList, .macroArg (wordAt 2 3) "%b".toList],
     .instr (wordAt 3 1) "ld".toList
       [.ex (.plus (wordAt 3 3) (.macroArg (wordAt 3 2) "%a".toList) (.number (wordAt 3 4) 1 .decimal))]]⟩),
  (("outer".toList, 1), ⟨wordAt 4 1, "outer".toList, [(wordAt 4 2, "%r".toList)],
    [.macroLabel (wordAt 5 1) "top%".toList,
     .instr (wordAt 6 1) "inner".toList [.imm (.number (wordAt 6 2) 1 .decimal), .macroArg (wordAt 6 3) "%r".toList],
     .instr (wordAt 7 1) "nosuch".toList []]⟩)]

/-- `outer acc` and `other`. -/
def outerCall : Located.Program := ⟨innerOuter,
  [.macroCall (wordAt 8 1) "outer".toList [.ex (.name (wordAt 8 2) "acc".toList)],
   .macroCall (wordAt 9 1) "other".toList []]⟩

theorem outerCall_wf : WellFormed outerCall.erase.macros := by
  intro key d h
  have := lookup_mem_pair h
  simp only [outerCall, innerOuter, Located.Program.erase, Located.eraseMacros, List.map_cons, List.map_nil, List.mem_cons,
    Prod.mk.injEq, List.not_mem_nil, or_false] at this
  rcases this with ⟨rfl, rfl⟩ | ⟨rfl, rfl⟩ <;> decide

theorem outerCall_closed : ClosedCalls outerCall.erase.stmts := by
  intro name args h
  simp only [outerCall, Located.Program.erase, Located.Stmt.erase, List.map_cons, List.map_nil, List.mem_cons,
    Stmt.macroCall.injEq, List.not_mem_nil, or_false] at h
  rcases h with ⟨rfl, rfl⟩ | ⟨rfl, rfl⟩ <;> decide

/-- What is wrong is that the `%a` of `ld %a + 1` is an immediate: its place is in the body of `inner`, as part of the
argument `#1`, which is a part of the call of `outer`. -/
theorem outerCall_fails : Fails sampleUuid outerCall .immediateNotAllowed
    ((wordAt 3 2).withParent ((wordAt 6 2).withParent (wordAt 8 1))) := by
  have h : Located.expandMacros sampleUuid 10 outerCall = .err ⟨.immediateNotAllowed,
      .span ((wordAt 3 2).withParent ((wordAt 6 2).withParent (wordAt 8 1)))⟩ := by decide +kernel
  obtain ⟨s, hs, hf⟩ := (C78_first outerCall_wf outerCall_closed).mp ⟨10, h⟩
  cases hs
  exact hf

end Verif.Props
