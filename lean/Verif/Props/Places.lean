import Verif.Lemmas.Located.PlacesRead
import Verif.Lemmas.Located.PlacesEval
import Verif.Props.Sources
/-
Properties of the places that errors of the assembler point at: C71.  The functions of `Verif.Located` are those of the
model with the spans that the code has.
-/
namespace Verif.Props
open Verif.Spec Verif.Spec.Places
open Verif.Located (Range Span Place Error)

/-! C71: errors point at the right place. -/

/-- **C71**: the model with places and the model without them have the same outcomes: the same bytes, the same errors. -/
theorem C71_same (m : Mode) (seg : Seg) (order : List Color → List Color) (load : Text → Res Image) (uuid : Nat → Text) (fs : FS)
    (fuel macroFuel : Nat) (name : Text) (sf : SourceFiles) :
    (match (Located.assembleFile m seg order load uuid fs fuel macroFuel name sf).2 with
      | .ok bytes => Res.ok bytes
      | .err e => .err e.err
      | .panic => .panic
      | .loop => .loop) = assembleFile m seg order load uuid fs fuel macroFuel sf name := by
  rw [← Located.erase_assembleFile]
  cases (Located.assembleFile m seg order load uuid fs fuel macroFuel name sf).2 <;> rfl

/-- **C71**: if assembling a file fails, then the place of the error is right: a file cannot be read, or it is a character of
a loaded file that starts no token, or the error is in the syntax of a line of a loaded file, or it is in the whole
program, whose tokens are those of the main file with the included files put in. -/
theorem C71_place {m : Mode} {seg : Seg} {order : List Color → List Color} {load : Text → Res Image} {uuid : Nat → Text}
    {fs : FS} {fuel macroFuel : Nat} {name : Text} {dir : Path} {sf : SourceFiles} {e : Err} {p : Place}
    (h : Located.assembleFile m seg order load uuid fs fuel macroFuel name (SourceFiles.new dir) = (sf, .err ⟨e, p⟩)) :
    (Placeless e ∧ p = .nowhere) ∨ (∃ f ∈ sf.files, BadCharacter seg f e p) ∨
    (∃ f ∈ sf.files, ∃ all, FileTokens seg f all ∧ Blames all load e p) ∨
    ∃ all path, Located.readTokens seg fs fuel name (SourceFiles.new dir) = (sf, .ok (all, path)) ∧ Blames all load e p := by
  obtain ⟨_, (h | ⟨f, hf, h | h⟩) | ⟨all, path, h1, _, _, h2⟩⟩ := Located.assembleFile_places (good_new fs dir).1 h
  · exact .inl h
  · exact .inr (.inl ⟨f, hf, h⟩)
  · exact .inr (.inr (.inl ⟨f, hf, h⟩))
  · exact .inr (.inr (.inr ⟨all, path, h1, h2⟩))

/-- **C71**: everything an error points at is in a loaded file, with the right byte offset, line and column. -/
theorem C71_in_files {m : Mode} {seg : Seg} {order : List Color → List Color} {load : Text → Res Image} {uuid : Nat → Text}
    {fs : FS} {fuel macroFuel : Nat} {name : Text} {dir : Path} {sf : SourceFiles} {e : Err} {p : Place}
    (h : Located.assembleFile m seg order load uuid fs fuel macroFuel name (SourceFiles.new dir) = (sf, .err ⟨e, p⟩)) :
    PlaceIn seg sf.files p := by
  obtain ⟨ho, h | ⟨all, path, h1, h2, h3, h4⟩⟩ := Located.assembleFile_places (good_new fs dir).1 h
  · exact Located.fileError_in ho h
  · exact Located.blames_in h2 h3 h4

/-- **C71**: if an expression has no value, the error is the first fault in it, and the place is that of the part that is at
fault: a name that is not defined, or a division whose right operand is 0.  All faults are reported like this. -/
theorem C71_expression {m : Mode} {env : Env} {e : Located.Expr} {x : Err} {p : Place} :
    e.eval m env = .err ⟨x, p⟩ ↔ Fault m env e x p := Located.eval_err_iff

/-- **C71**: if an instruction that ends at `pos` cannot be encoded, the error is that of the first operand with which something is
wrong; the place is that of the part of it that is at fault, or of the whole operand if its value does not fit, and then the message
has this value and the reason is the one for this kind of operand.  All unfit operands are reported like this. -/
theorem C71_operand {m : Mode} {env : Env} {pos : Nat} (hp : pos < 2147483648) {i : Instr Located.Expr IM} {x : Err} {p : Place} :
    Located.evalInstrIn m env pos i = .err ⟨x, p⟩ ↔ InOperands m env pos (kinds i.form) (operands i) x p :=
  Located.evalInstr_err_iff hp

/-- **C71**: likewise for the values of `.byte` and `.word`. -/
theorem C71_byte {m : Mode} {env : Env} {out : List UInt8} {pos : Nat} {vs : List Located.ByteValue} {x : Err} {p : Place}
    (h : Located.writeByteValues m env out pos vs = .err ⟨x, p⟩) : ∃ e, .expr e ∈ vs ∧
      InExpr m env (fun v x => ¬ (-128 ≤ v ∧ v ≤ 255) ∧ x = .byteOutOfRange v) e x p := by
  have := Located.writeByteValues_inExpr (m := m) (env := env) vs out pos
  rw [h] at this
  exact this

theorem C71_word {m : Mode} {env : Env} {out : List UInt8} {pos : Nat} {es : List Located.Expr} {x : Err} {p : Place}
    (h : Located.writeWords m env out pos es = .err ⟨x, p⟩) : ∃ e ∈ es,
      InExpr m env (fun v x => ¬ (-32768 ≤ v ∧ v ≤ 65535) ∧ x = .wordOutOfRange v) e x p := by
  have := Located.writeWords_inExpr (m := m) (env := env) es out pos
  rw [h] at this
  exact this

/-- The outcome for the file `main.s` of some files. -/
def placeOf (files : List (String × String)) : SourceFiles × Located.Res (List UInt8) :=
  Located.assembleFile .checked plainSeg id (fun _ => .panic) (fun _ => "u".toList) (folder files) 9 9 "main.s".toList
    (SourceFiles.new work)

/-- The file, line and columns of a range -/
def shortRange (r : Range) : Nat × Nat × Nat × Nat := (r.start.file, r.start.line, r.start.column, r.stop.column)

/-- The error, the place and the calls it was expanded from -/
def shortPlace : SourceFiles × Located.Res (List UInt8) → Option (Err × List (Nat × Nat × Nat × Nat))
  | (_, .err ⟨e, .span s⟩) => some (e, shortRange s.range :: s.parents.map shortRange)
  | (_, .err ⟨e, .spans s s'⟩) => some (e, [shortRange s.range, shortRange s'.range])
  | (_, .err ⟨e, .location l⟩) => some (e, [shortRange ⟨l, l⟩])
  | _ => none

/-- The operand of a macro call, in line 5 and columns 5 to 8, is too large; it was expanded from the call in the same line. -/
example : shortPlace (placeOf [("main.s", "%macro two %x\n  mov #%x, $20\n%end\n two 3\n two 300\n")]) =
    some (.numOutOfRange 8 300, [(0, 5, 5, 8), (0, 5, 1, 8)]) := by decide +kernel

/-- A name in an included file is not defined. -/
example : shortPlace (placeOf [("main.s", " .org 0\n .include asm \"b.s\"\n"), ("b.s", "x:\n .byte 1 + y, -200\n")]) =
    some (.nameNotFound "y".toList, [(1, 2, 11, 12)]) := by decide +kernel

/-- A character that starts no token -/
example : shortPlace (placeOf [("main.s", " .org 0\n .byte 1 ? 2\n")]) = some (.unexpectedChar 16 2 8, [(0, 2, 8, 8)]) := by
  decide +kernel

/-- A name is defined twice, in different files. -/
example : shortPlace (placeOf [("main.s", "a:\n .include asm \"b.s\"\n"), ("b.s", "\n A:\n")]) =
    some (.nameAlreadyExists "a".toList, [(1, 2, 1, 3), (0, 1, 0, 2)]) := by decide +kernel

/-- **C71**: the place of a value that does not fit is not always the whole expression: of `-200` only the sign is highlighted, and
of a quotient of two parenthesized sums not the last parenthesis. -/
theorem C71_not_whole :
    shortPlace (placeOf [("main.s", " .byte -200\n")]) = some (.byteOutOfRange (-200), [(0, 1, 7, 8)]) ∧
    shortPlace (placeOf [("main.s", " .byte (1 + 2) / (4 - 4)\n")]) = some (.divideByZero 3, [(0, 1, 8, 23)]) :=
  ⟨by decide +kernel, by decide +kernel⟩

end Verif.Props
