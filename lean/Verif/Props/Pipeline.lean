import Verif.Lemmas.Pipeline
import Verif.Props.Include
/-
Properties of the whole way from source files to bytes: C64.
-/
namespace Verif.Props
open Verif.Spec

/-- **C64**: whatever the files contain, a program that was read and expanded is as the assembler needs it: names of
labels are lower case and not empty, literals fit 32 bits, literals of `.cnop` are not negative, and no macro call and no
include directive is left.  (`uuid` makes the suffixes of macro labels.) -/
theorem C64_source {m : Mode} {seg : Seg} {order : List Color → List Color} {load : Text → Res Image} {uuid : Nat → Text}
    {fs : FS} {fuel macroFuel : Nat} {sf : SourceFiles} {name : Text} {p q : Program}
    (hu : Suffixes uuid)
    (hr : readStatements m seg order load fs fuel sf name = .ok p) (he : expandMacros uuid macroFuel p = .ok q) :
    Source q.stmts ∧ (∀ x ∈ q.stmts, ∀ e ∈ exprsOf x, Literals32 e) ∧
      ∀ x ∈ q.stmts, (∀ n args, x ≠ .macroCall n args) ∧ ∀ t path, x ≠ .dir (.incl t path) := by
  have h := expandMacros_sane hu (readStatements_sane hr) he
  refine ⟨sane_source fun s hs => (h s hs).1, sane_literals fun s hs => (h s hs).1, fun x hx => ⟨(h x hx).2, ?_⟩⟩
  intro t path e
  subst e
  rcases expandMacros_mem he _ hx with (⟨_, h⟩ | ⟨_, h⟩) | ⟨h, _⟩
  · cases h
  · cases h
  · exact readStatements_no_incl hr _ h t path rfl

/-- **C64**: if a checked build assembles a file, the file was read and its macros expanded, and the bytes are the
meaning of the resulting program.  So it is for an unchecked build if the program is laid out below 2 GiB. -/
theorem C64_bytes {m : Mode} {seg : Seg} {order : List Color → List Color} {load : Text → Res Image} {uuid : Nat → Text}
    {fs : FS} {fuel macroFuel : Nat} {sf : SourceFiles} {name : Text} {out : List UInt8}
    (hu : Suffixes uuid)
    (h : assembleFile m seg order load uuid fs fuel macroFuel sf name = .ok out) :
    ∃ p q, readStatements m seg order load fs fuel sf name = .ok p ∧ expandMacros uuid macroFuel p = .ok q ∧
      (m = .checked ∨ Below2GiB q.stmts → Assembles m q.stmts out) := by
  unfold assembleFile at h
  obtain ⟨p, h1, h2⟩ := Res.bind_eq_ok.mp h
  obtain ⟨q, h3, h4⟩ := Res.bind_eq_ok.mp h2
  exact ⟨p, q, h1, h3, fun hb => assemble_sound (C64_source hu h1 h3).1 hb h4⟩

/-- **C64**: a checked build runs for ever only in reading files or in expanding macros. -/
theorem C64_terminates {seg : Seg} {order : List Color → List Color} {load : Text → Res Image} {uuid : Nat → Text}
    {fs : FS} {fuel macroFuel : Nat} {sf : SourceFiles} {name : Text} (hu : Suffixes uuid)
    (h : assembleFile .checked seg order load uuid fs fuel macroFuel sf name = .loop) :
    readStatements .checked seg order load fs fuel sf name = .loop ∨
      ∃ p, readStatements .checked seg order load fs fuel sf name = .ok p ∧ expandMacros uuid macroFuel p = .loop := by
  unfold assembleFile at h
  rcases Res.bind_eq_loop.mp h with h | ⟨p, h1, h⟩
  · exact .inl h
  · rcases Res.bind_eq_loop.mp h with h | ⟨q, h2, h⟩
    · exact .inr ⟨p, h1, h⟩
    · exact absurd h (assemble_checked_ne_loop (C64_source hu h1 h2).1.2)

/-- **C64**: assembling a file panics only in reading, or because the layout leaves the 2 GiB (or goes backwards) that
the address arithmetic can express, or because an expression of the program overflows. -/
theorem C64_panics {m : Mode} {seg : Seg} {order : List Color → List Color} {load : Text → Res Image} {uuid : Nat → Text}
    {fs : FS} {fuel macroFuel : Nat} {sf : SourceFiles} {name : Text} (hu : Suffixes uuid)
    (h : assembleFile m seg order load uuid fs fuel macroFuel sf name = .panic) :
    readStatements m seg order load fs fuel sf name = .panic ∨
      ∃ p q, readStatements m seg order load fs fuel sf name = .ok p ∧ expandMacros uuid macroFuel p = .ok q ∧
        ((¬ ∃ ps, Laid m q.stmts ps) ∨ ∃ x ∈ q.stmts, ∃ e ∈ exprsOf x, ∃ env, Env32 env ∧ Overflows m env e) := by
  unfold assembleFile at h
  rcases Res.bind_eq_panic.mp h with h | ⟨p, h1, h⟩
  · exact .inl h
  · rcases Res.bind_eq_panic.mp h with h | ⟨q, h2, h⟩
    · exact absurd h (expandMacros_not_panic _ _ _)
    · refine .inr ⟨p, q, h1, h2, ?_⟩
      obtain ⟨hs, hlit, _⟩ := C64_source hu h1 h2
      by_cases hL : ∃ ps, Laid m q.stmts ps
      · obtain ⟨ps, hL⟩ := hL
        exact .inr (assemble_panic hL.source.1 hL.layout hL.fits hL.forward hlit h)
      · exact .inl hL

/-- Two files with a macro, a macro label and a binary include. -/
def twoFiles : FS := folder [("main.s", ".include \"a.s\"\nStart: twice #5\n.include bytes \"b.bin\"\n.cnop 0, 4\n jmp start\n"),
  ("a.s", "%macro twice %x\n add %x\nlp%: bnz lp%\n%end\n"), ("b.bin", "AB")]

/-- The suffixes of the macro labels of the examples. -/
def suffixes (k : Nat) : Text := 'u' :: digitsOf 10 k

/-- They are as the theorems want them. -/
theorem suffixes_plain : Suffixes suffixes := by
  have hd : ∀ d < 10, (digitChar d).isDigit = true := by decide
  have h : ∀ f n, ∀ c ∈ digitsLoop 10 f n, c.isDigit = true := by
    intro f
    induction f with
    | zero => intro n c hc; rw [digitsLoop, List.mem_singleton] at hc; subst hc; exact hd _ (by omega)
    | succ f ih =>
      intro n c hc
      unfold digitsLoop at hc
      split at hc
      · rw [List.mem_singleton] at hc; subst hc; exact hd _ (by omega)
      · rcases List.mem_append.mp hc with hc | hc
        · exact ih _ c hc
        · rw [List.mem_singleton] at hc; subst hc; exact hd _ (by omega)
  intro k c hc
  rcases List.mem_cons.mp hc with rfl | hc
  · exact .inl (by decide)
  · exact .inr (h _ _ c hc)

/-- The bytes of `main.s`. -/
def bytesOfMain (fs : FS) : Res (List UInt8) :=
  assembleFile .checked plainSeg id (fun _ => .err (.invalidPath [])) suffixes fs 3 3 (SourceFiles.new work) "main.s".toList

/-- The files are assembled: the macro, the included bytes, the gap of `.cnop`, the jump. -/
example : bytesOfMain twoFiles = .ok [0x81, 0x05, 0x90, 0xFE, 0x41, 0x42, 0, 0, 0x28, 0x00] := by decide +kernel

/-- A literal that overflows in an expression is found in the assembler, one that is too big in the lexer. -/
example : bytesOfMain (folder [("main.s", ".byte 2147483647+1\n")]) = .panic ∧
    bytesOfMain (folder [("main.s", ".byte 2147483648\n")]) = .panic ∧
    bytesOfMain (folder [("main.s", ".include \"main.s\"\n")]) = .loop ∧
    bytesOfMain (folder [("main.s", "%macro m\n m\n%end\n m\n")]) = .loop := by decide +kernel

end Verif.Props
