import Verif.Lemmas.Located.OneProgram
import Verif.Props.Places
import Verif.Props.Parsing
/-
C77: the error that is reported for a program that does not follow the grammar is the first thing that is wrong with it.
-/
namespace Verif.Props
open Verif.Spec Verif.Spec.Syntax
open Verif.Located (Span Place Range)

/-- **C77**: the error for a line says what the first thing is that is wrong with it, and points at it. -/
theorem C77_line {l : List Token} {x : Err} {p : Place} (h : Located.parseLine l = .err ⟨x, p⟩) : LineError l x p :=
  Located.line_err h

/-- **C77**: the same for a program. -/
theorem C77_program {tokens : List Token} {x : Err} {p : Place} (h : Located.parse tokens = .err ⟨x, p⟩) :
    SyntaxError tokens x p := Located.parse_err h

/-- **C77**: a line has no other error than the one that is reported, and no other place of it unless the line has the right shape. -/
theorem C77_line_only {l : List Token} {x : Err} {p : Place} (h : LineError l x p) :
    ∃ q, Located.parseLine l = .err ⟨x, q⟩ ∧ (q = p ∨ ∃ w e, l = w ++ e ∧ Shaped (words w) ∧ LineEnd (words e)) :=
  Located.lineError_parse h

/-- **C77**: so a program has exactly the error that is reported. -/
theorem C77_program_only {tokens : List Token} {x : Err} :
    (∃ p, SyntaxError tokens x p) ↔ ∃ p, Located.parse tokens = .err ⟨x, p⟩ :=
  ⟨fun ⟨_, h⟩ => Located.syntaxError_parse h, fun ⟨p, h⟩ => ⟨p, Located.parse_err h⟩⟩

/-- **C77**: and tokens that are a program have none. -/
theorem C77_right {tokens : List Token} {program : Program} {x : Err} {p : Place} (h : Parses tokens program) :
    ¬ SyntaxError tokens x p := by
  intro hs
  obtain ⟨q, h1⟩ := Located.syntaxError_parse hs
  have h2 := Located.erase_parse tokens
  rw [h1, C43_program.mpr h] at h2
  cases h2

/-- **C77**: for every sequence of tokens that is no program there is such an error. -/
theorem C77_reported {tokens : List Token} (h : ¬ ∃ program, Parses tokens program) :
    ∃ x p, Located.parse tokens = .err ⟨x, p⟩ ∧ SyntaxError tokens x p := by
  obtain ⟨er, h1⟩ := C43_program_error h
  have h2 := Located.erase_parse tokens
  rw [h1] at h2
  generalize hr : Located.parse tokens = r at h2
  cases r with
  | err e => exact ⟨e.err, e.place, rfl, Located.parse_err hr⟩
  | ok _ => cases h2
  | panic => cases h2
  | loop => cases h2

/-- **C77**: so, if the files of a program can be read and their tokens are no program, this error is the outcome. -/
theorem C77_file {m : Mode} {seg : Seg} {order : List Color → List Color} {load : Text → Res Image} {uuid : Nat → Text} {fs : FS}
    {fuel macroFuel : Nat} {name : Text} {sf sf' : SourceFiles} {tokens : List Token} {path : Path}
    (h : Located.readTokens seg fs fuel name sf = (sf', .ok (tokens, path))) (hn : ¬ ∃ program, Parses tokens program) :
    ∃ x p, Located.assembleFile m seg order load uuid fs fuel macroFuel name sf = (sf', .err ⟨x, p⟩) ∧ SyntaxError tokens x p := by
  obtain ⟨x, p, h1, h2⟩ := C77_reported hn
  refine ⟨x, p, ?_, h2⟩
  unfold Located.assembleFile Located.readStatements
  simp only [Located.Run.bind_def, Located.Run.bind, h, Located.Run.of, h1]

/-- An operand without a comma before it, an expression that is missing, and a parenthesis that is. -/
example : shortPlace (placeOf [("main.s", " mov #1 2\n")]) = some (.expectedTokenNotFound "','".toList, [(0, 1, 8, 9)]) ∧
    shortPlace (placeOf [("main.s", " .byte 1,\n")]) = some (.invalidExpression, [(0, 1, 9, 9)]) ∧
    shortPlace (placeOf [("main.s", " .byte (1 + 2\n")]) = some (.expectedTokenNotFound "')'".toList, [(0, 1, 13, 13)]) :=
  ⟨by decide +kernel, by decide +kernel, by decide +kernel⟩

/-- A line that is too long, an unknown directive, and instruction operands and properties without a meaning -/
example : shortPlace (placeOf [("main.s", " .org 3 \"a\"\n")]) = some (.unexpectedToken, [(0, 1, 8, 11)]) ∧
    shortPlace (placeOf [("main.s", " .foo 3\n")]) = some (.unknownDirective ".foo".toList, [(0, 1, 1, 5)]) ∧
    shortPlace (placeOf [("main.s", " mov 1 + 2, @R1\n")]) = some (.wrongInstructionArgs "mov".toList, [(0, 1, 1, 15)]) ∧
    shortPlace (placeOf [("main.s", " .include sprite \"a.png\" type=\"q\"\n")]) = some (.invalidSpriteType "q".toList, [(0, 1, 30, 33)]) :=
  ⟨by decide +kernel, by decide +kernel, by decide +kernel, by decide +kernel⟩

/-- Macro definitions come first. -/
example : shortPlace (placeOf [("main.s", " .byte 1,,\n%macro a %x, %x\n%end\n%macro a %x, %y\n")]) =
      some (.duplicateMacroArg "%x".toList, [(0, 2, 13, 15)]) ∧
    shortPlace (placeOf [("main.s", " .byte 1,,\n%macro a %z, %x\n%end\n%macro a %x, %y\n")]) =
      some (.macroAlreadyExists "a".toList 2, [(0, 4, 7, 8), (0, 2, 7, 8)]) ∧
    shortPlace (placeOf [("main.s", " .byte 1,,\n%macro a %z, %x\n .foo 3\n%end\n%macro a %x, %y\n")]) =
      some (.unknownInstruction ".foo".toList, [(0, 3, 1, 5)]) :=
  ⟨by decide +kernel, by decide +kernel, by decide +kernel⟩

end Verif.Props
