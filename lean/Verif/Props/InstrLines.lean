import Verif.Lemmas.ExpandMore
/-
Properties of instruction lines: C44.  The specification is `Writes` in Spec/Macros.lean.
-/
namespace Verif.Props
open Verif Verif.Spec

/-- C44: a name with a list of arguments is accepted as the instruction `i` exactly when it is how the
manual writes `i`: its mnemonic, and its operands in order, each of the documented kind. -/
theorem C44_accepted (name : Text) (args : List Arg) (i : Instr Expr IM) :
    makeInstr name args = .ok i ↔ Writes name args i := makeInstr_ok_iff

example : Writes "bne".toList [.im .R1, .imm (.num 5), .ex (.name "x".toList)]
    (.Bne_Rj .R1 (.num 5) (.name "x".toList)) := ⟨rfl, rfl⟩

/-- C44: a known name with other arguments is reported as wrong arguments. -/
theorem C44_wrong_args (name : Text) (args : List Arg) (h : ∃ f, name = (row f).name.toList)
    (hn : ∀ i, ¬ Writes name args i) : makeInstr name args = .err (.wrongInstructionArgs name) :=
  makeInstr_wrong (instrExists_iff.mpr h) hn

example : ∀ i, ¬ Writes "bne".toList [.imm (.num 5)] i := by
  intro i h
  have := (C44_accepted _ _ _).mpr h
  have e := this.symm.trans (show makeInstr "bne".toList [.imm (.num 5)] = .err (.wrongInstructionArgs "bne".toList) from by decide)
  cases e

/-- C44: an unknown name is reported as such. -/
theorem C44_unknown (name : Text) (args : List Arg) (h : ∀ f, name ≠ (row f).name.toList) :
    makeInstr name args = .err (.unknownInstruction name) := by
  apply makeInstr_unknown
  cases e : instrExists name with
  | false => rfl
  | true =>
    obtain ⟨f, hf⟩ := instrExists_iff.mp e
    exact absurd hf (h f)

/-- C44: a name is reserved exactly when it is the mnemonic of a documented form. -/
theorem C44_exists (name : Text) : instrExists name = true ↔ ∃ f, name = (row f).name.toList := instrExists_iff

end Verif.Props
