import Verif.Lemmas.Located.ReasonsBack
import Verif.Props.Places
import Verif.Props.Pipeline
/-
C76: the error that is reported for a program is the first thing that is wrong with it.
-/
namespace Verif.Props
open Verif.Spec Verif.Spec.Places
open Verif.Spec.Reasons hiding Defines
open Verif.Located (Span Place)

/-- **C76**: the error for a program without includes and macro calls is the first thing that is wrong with it, in the order of
`Wrong`: the layout and the labels, then the variables, then the bytes. -/
theorem C76_wrong {m : Mode} {stmts : List Located.Stmt} {x : Err} {p : Place} (hp : Plain stmts) (hs : Source (bare stmts))
    (hb : Below stmts) (h : Located.assemble m stmts = .err ⟨x, p⟩) : Wrong m stmts x p :=
  Located.assemble_wrong hp hs hb h

/-- **C76**: … and the first thing that is wrong with it is always reported.  So nothing else is `Wrong` with it, and nothing at
all is wrong with a program that the assembler accepts. -/
theorem C76_first {m : Mode} {stmts : List Located.Stmt} (hp : Plain stmts) (hs : Source (bare stmts)) (hb : Below stmts)
    (hc : Forward m stmts) (x : Err) (p : Place) : Located.assemble m stmts = .err ⟨x, p⟩ ↔ Wrong m stmts x p :=
  ⟨Located.assemble_wrong hp hs hb, Located.wrong_assemble hs hb hc⟩

/-- **C76**: at most one thing is the first thing that is wrong. -/
theorem C76_only {m : Mode} {stmts : List Located.Stmt} (hp : Plain stmts) (hs : Source (bare stmts)) (hb : Below stmts)
    (hc : Forward m stmts) {x x' : Err} {p p' : Place} (h : Wrong m stmts x p) (h' : Wrong m stmts x' p') : x = x' ∧ p = p' := by
  have h1 := (C76_first hp hs hb hc x p).mpr h
  rw [(C76_first hp hs hb hc x' p').mpr h'] at h1
  cases h1
  exact ⟨rfl, rfl⟩

/-- **C76**: for a file, the error is one of reading it or of the expansion of macros, or it is the first thing that is wrong with the
program that results. -/
theorem C76_file {m : Mode} {seg : Seg} {order : List Color → List Color} {load : Text → Res Image} {uuid : Nat → Text} {fs : FS}
    {fuel macroFuel : Nat} {name : Text} {sf sf' : SourceFiles} {x : Err} {p : Place} (hu : Suffixes uuid)
    (h : Located.assembleFile m seg order load uuid fs fuel macroFuel name sf = (sf', .err ⟨x, p⟩)) :
    Located.readStatements m seg order load fs fuel name sf = (sf', .err ⟨x, p⟩) ∨
    ∃ program, Located.readStatements m seg order load fs fuel name sf = (sf', .ok program) ∧
      (Located.expandMacros uuid macroFuel program = .err ⟨x, p⟩ ∨
       ∃ expanded, Located.expandMacros uuid macroFuel program = .ok expanded ∧
         (Below expanded.stmts → Wrong m expanded.stmts x p)) := by
  have hr := Located.erase_readStatements m seg order load fs fuel name sf
  unfold Located.assembleFile at h
  rw [Located.Run.bind_def] at h
  unfold Located.Run.bind at h
  generalize Located.readStatements m seg order load fs fuel name sf = r at h hr ⊢
  obtain ⟨sf1, r⟩ := r
  cases r with
  | err e => exact .inl (by cases h; rfl)
  | panic => cases h
  | loop => cases h
  | ok program =>
    refine .inr ⟨program, ?_⟩
    simp only [Located.Run.of, Prod.mk.injEq] at h
    obtain ⟨rfl, h⟩ := h
    refine ⟨rfl, ?_⟩
    rcases Located.Res.bind_eq_err.mp h with h | ⟨q, h1, h⟩
    · exact .inl h
    · refine .inr ⟨q, h1, fun hb => ?_⟩
      have he := Located.erase_expandMacros uuid macroFuel program
      rw [h1] at he
      obtain ⟨hs, _, hn⟩ := C64_source hu hr.symm he.symm
      refine C76_wrong ⟨fun s t path hm => ?_, fun s n args hm => ?_⟩ hs hb h
      · exact (hn _ (List.mem_map.mpr ⟨_, hm, rfl⟩)).2 _ _ rfl
      · exact (hn _ (List.mem_map.mpr ⟨_, hm, rfl⟩)).1 _ _ rfl

/-- A program that meets the hypotheses: `x: mov #300, 700`. -/
def twoUnfit : List Located.Stmt :=
  [.label .default "x".toList, .instr .default (.Mov_d9 (.number .default 300 .decimal) (.number .default 700 .decimal))]

example : Plain twoUnfit ∧ Source (bare twoUnfit) ∧ Below twoUnfit ∧ Forward .checked twoUnfit ∧
    Located.assemble .checked twoUnfit = .err ⟨.numOutOfRange 8 300, .span .default⟩ := by
  refine ⟨⟨?_, ?_⟩, ⟨?_, ?_⟩, Located.below_of_fits (ps := [⟨0, [], .label "x".toList⟩,
    ⟨0, "x".toList, .instr (.Mov_d9 (.number 300 .decimal) (.number 700 .decimal))⟩]) rfl ?_, .inr ?_, by decide +kernel⟩
  · intro s t path h
    simp [twoUnfit] at h
  · intro s n args h
    simp [twoUnfit] at h
  · intro n h
    have h : Stmt.label n ∈ [Stmt.label "x".toList, .instr (.Mov_d9 (.number 300 .decimal) (.number 700 .decimal))] := h
    simp only [List.mem_cons, Stmt.label.injEq, reduceCtorEq, List.not_mem_nil, or_false] at h
    subst h
    decide
  · intro a k h
    have h : Stmt.dir (.cnop a k) ∈ [Stmt.label "x".toList, .instr (.Mov_d9 (.number 300 .decimal) (.number 700 .decimal))] := h
    simp at h
  · intro q hq
    simp only [List.mem_cons, List.not_mem_nil, or_false] at hq
    rcases hq with rfl | rfl <;> decide
  · intro ps hps
    cases hps
    intro q hq a k hs
    simp only [List.mem_cons, List.not_mem_nil, or_false] at hq
    rcases hq with rfl | rfl <;> cases hs

/-- A label that is defined twice is reported before a name that is not defined; the first place is that of the second one. -/
example : shortPlace (placeOf [("main.s", " .byte nope\na:\na:\n")]) =
    some (.nameAlreadyExists "a".toList, [(0, 3, 0, 2), (0, 2, 0, 2)]) := by decide +kernel

/-- So is a variable without a value, -/
example : shortPlace (placeOf [("main.s", " .byte nope\nx = 1/0\n")]) = some (.divideByZero 1, [(0, 2, 4, 7)]) := by decide +kernel

/-- and one that exists already, if it has a value. -/
example : shortPlace (placeOf [("main.s", " .byte 300\nx = 1\n X = y\n")]) = some (.nameNotFound "y".toList, [(0, 3, 5, 6)]) ∧
    shortPlace (placeOf [("main.s", " .byte 300\nx = 1\n X = 4\n")]) =
      some (.nameAlreadyExists "x".toList, [(0, 3, 1, 6), (0, 2, 0, 5)]) := ⟨by decide +kernel, by decide +kernel⟩

/-- Labels and `.cnop` are checked in their order. -/
example : shortPlace (placeOf [("main.s", "x = y\n .cnop 3, 4 + 5\n.b:\n.b:\n")]) = some (.mustBeLiteralNumber, [(0, 2, 10, 15)]) ∧
    shortPlace (placeOf [("main.s", "x = y\n.b:\n.b:\n .cnop 3, 4 + 5\n")]) =
      some (.nameAlreadyExists ".b".toList, [(0, 3, 0, 3), (0, 2, 0, 3)]) := ⟨by decide +kernel, by decide +kernel⟩

/-- The first statement, the first operand -/
example : shortPlace (placeOf [("main.s", " mov #300, 700\n .text 3 \"abcd\"\n")]) = some (.numOutOfRange 8 300, [(0, 1, 6, 9)]) ∧
    shortPlace (placeOf [("main.s", " .text 3 \"abcd\"\n .org 65536\n")]) = some (.bytesLongerThanLength 3 4, [(0, 1, 1, 15)]) ∧
    shortPlace (placeOf [("main.s", " br 200\n .org 65536\n")]) = some (.signedNumOutOfRange 8 198, [(0, 1, 4, 7)]) :=
  ⟨by decide +kernel, by decide +kernel, by decide +kernel⟩

end Verif.Props
