import Verif.Lemmas.ReadExpr
/-
C15: printed expressions read back.  `Printable` and `Normal` are in Spec/Printing.lean.
-/
namespace Verif.Props
open Verif.Spec

/-- What a text is read as, if it is an expression. -/
def readExpr (seg : Seg) (text : Text) : Option Expr :=
  match lexInput seg (Input.new 0 text) with
  | .ok toks =>
    match parseExpr (tokKinds toks) with
    | .ok (e, [.eof]) => some e
    | _ => none
  | _ => none

theorem readExpr_print {seg : Seg} (hs : AsciiSeg seg) {e : Expr} (h : Printable e) :
    readExpr seg e.print = some (reread e) := by
  have hp := plain_of_ascii hs (ascii_print h)
  have h1 := (piece_expr h).2 0 [] [] [] boundary_nil (lx_nil _ _)
  rw [List.append_nil] at h1
  obtain ⟨toks, h2, h3⟩ := lx_lex h1 hp
  have h4 : tokKinds toks = printedToks e ++ [.eof] := by rw [h3]; simp [Function.comp_def]
  have h5 : parseExpr (printedToks e ++ [.eof]) = .ok (reread e, [.eof]) :=
    parseExpr_iff.mpr ⟨_, rfl, printed_syntax e, by
      intro t ts lv f ht
      simp only [List.cons.injEq] at ht
      rw [← ht.1]
      rintro ⟨⟩⟩
  simp only [readExpr, h2, h4, h5]

/-- **C15**: a printed expression is read back as an expression, which has the same value in every environment. -/
theorem C15_same_value {seg : Seg} (hs : AsciiSeg seg) {e : Expr} (h : Printable e) :
    ∃ e', readExpr seg e.print = some e' ∧ ∀ m env v, e.eval m env = .ok v ↔ e'.eval m env = .ok v :=
  ⟨_, readExpr_print hs h, fun m env v => reread_eval h m env v⟩

/-- **C15**: if its names are in lower case and its numbers are not negative, as in all expressions that come from a
source file, it is read back as itself. -/
theorem C15_same {seg : Seg} (hs : AsciiSeg seg) {e : Expr} (h : Printable e) (hn : Normal e) :
    readExpr seg e.print = some e := by
  rw [readExpr_print hs h, reread_normal hn]

/-- A nested expression. -/
def sampleExpr : Expr := .times (.plus (.name "a.b".toList) (.number 300 .hex))
  (.upperByte (.minus (.number (-5) .decimal) (.uminus (.macroArg "%x".toList))))

/-- The text it is printed as, and what that is read as. -/
example : Printable sampleExpr ∧ sampleExpr.print = "(a.b + $012C) * (>(-5 - (-%x)))".toList ∧
    readExpr plainSeg sampleExpr.print = some (.times (.plus (.name "a.b".toList) (.number 300 .hex))
      (.upperByte (.minus (.uminus (.number 5 .decimal)) (.uminus (.macroArg "%x".toList))))) := by
  refine ⟨⟨⟨?_, by decide, by decide⟩, ⟨by decide, by decide⟩, ?_⟩, by decide +kernel, by decide +kernel⟩
  · exact ⟨'a', ".b".toList, rfl, .inl (by decide), by
      intro d hd
      have : ∀ d ∈ ".b".toList, d.isAlpha = true ∨ d = '.' := by decide
      rcases this d hd with h | h
      · exact .inl (.inl h)
      · exact .inl (.inr (.inr h))⟩
  · exact ⟨"x".toList, ⟨'x', [], rfl, .inl (by decide), by simp⟩, rfl⟩

/-- Octal numbers are not read back: `0o10` is printed as `$0010`, which is 16. -/
theorem C15_octal : (Expr.number 8 .octal).print = "$0010".toList ∧
    readExpr plainSeg (Expr.number 8 .octal).print = some (.number 16 .hex) := by decide +kernel

end Verif.Props
