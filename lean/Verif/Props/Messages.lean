import Verif.Lemmas.Located.MessageShapes
import Verif.Props.Highlight
import Verif.Props.Command
import Verif.Props.LoadImage
/-
Properties of the messages that `assemble` and `expand` write to the standard error: C83.
-/
namespace Verif.Props
open Verif.Spec Verif.Spec.Places Verif.Spec.Messages
open Verif.Located (Range Span Place Error)

/-! C83: the messages say what is wrong. -/

/-- **C83**: for each error of the assembler a message is written, which says what is wrong and shows the places.  (If a place
is at the beginning of a file with only one byte, writing the message may crash: `C83_crash`.) -/
theorem C83_message {m m' : Mode} {seg : Seg} (hs : BreaksLines seg) {order : List Color → List Color}
    {load : Text → Res Image} (hl : LoadErrors load) {uuid : Nat → Text} {fs : FS} {fuel macroFuel : Nat} {name : Text} {dir : Path}
    {sf : SourceFiles} {e : Err} {p : Place}
    (h : Located.assembleFile m seg order load uuid fs fuel macroFuel name (SourceFiles.new dir) = (sf, .err ⟨e, p⟩))
    (hf : ∀ r ∈ shownRanges p, ¬ Unshowable m' sf r) (word why : Text) :
    ∃ t, Located.printError m' seg sf word why ⟨e, p⟩ = .ok t ∧ MessageAbout seg sf word why e p t := by
  obtain ⟨parts, texts, h1, h2, h3⟩ := C72_report_partial (m' := m') hs h hf
  have hx : Located.Explained e p := by
    rcases C71_place h with ⟨h, rfl⟩ | ⟨_, _, h⟩ | ⟨_, _, _, _, h⟩ | ⟨_, _, _, h⟩
    · rename_i h'
      exact Located.placeless_explained h'
    · exact Located.badCharacter_explained h
    · exact Located.blames_explained hl h
    · exact Located.blames_explained hl h
  obtain ⟨t, h4, h5⟩ := Located.printError_message word why hx h2
  exact ⟨t, h4, parts, texts, h1, h3, h5⟩

/-- **C83**: writing the message crashes only for such places. -/
theorem C83_crash {m m' : Mode} {seg : Seg} (hs : BreaksLines seg) {order : List Color → List Color}
    {load : Text → Res Image} (hl : LoadErrors load) {uuid : Nat → Text} {fs : FS} {fuel macroFuel : Nat} {name : Text} {dir : Path}
    {sf : SourceFiles} {e : Err} {p : Place}
    (h : Located.assembleFile m seg order load uuid fs fuel macroFuel name (SourceFiles.new dir) = (sf, .err ⟨e, p⟩)) (word why : Text) :
    Located.printError m' seg sf word why ⟨e, p⟩ = .panic ↔ ∃ r ∈ shownRanges p, Unshowable m' sf r := by
  constructor
  · intro hp
    refine Classical.byContradiction fun hn => ?_
    obtain ⟨_, h2, _⟩ := C83_message (m' := m') hs hl h (fun r hr hu => hn ⟨r, hr, hu⟩) word why
    rw [hp] at h2
    cases h2
  · intro hu
    unfold Located.printError
    rw [(C72_panics hs h).mpr hu]
    rfl

theorem failed_eq (doing input : Text) : Located.failed doing input =
      "[ERROR] Failed to ".toList ++ doing ++ " ".toList ++ input ++ "\n\n✘ ".toList := by
  unfold Located.failed
  have h1 : "[ERROR] Failed to ".toList = "[ERROR]".toList ++ " ".toList ++ "Failed to ".toList := by decide +kernel
  have h2 : "\n\n✘ ".toList = "\n\n".toList ++ "✘ ".toList := by decide +kernel
  rw [h1, h2]
  simp only [List.append_assoc]

theorem failed_assemble (input : Text) : Located.failed "assemble".toList input =
    "[ERROR] Failed to assemble ".toList ++ input ++ "\n\n✘ ".toList := by
  rw [failed_eq, show "[ERROR] Failed to assemble ".toList = "[ERROR] Failed to ".toList ++ "assemble".toList ++ " ".toList by decide +kernel]

theorem failed_expand (input : Text) : Located.failed "expand".toList input =
    "[ERROR] Failed to expand ".toList ++ input ++ "\n\n✘ ".toList := by
  rw [failed_eq, show "[ERROR] Failed to expand ".toList = "[ERROR] Failed to ".toList ++ "expand".toList ++ " ".toList by decide +kernel]

theorem reported {r : Res Text} {t begin begin' : Text} (h : r = .ok t) (hb : begin = begin') :
    (do let t ← r; Res.ok (begin ++ t)) = .ok (begin' ++ t) := by
  rw [h, Res.ok_bind, hb]

/-- **C83**: `assemble` that ends with code 0 says how many bytes are in the output file; with code 1 it says what is wrong. -/
theorem C83_assemble (h : Host) (hs : BreaksLines h.seg) (hl : LoadErrors h.load) (fs : FS) (word why input output : Text) :
    ((run h fs (.assemble input output)).exit = .code 0 → ∃ d bytes, (run h fs (.assemble input output)).disks.getLast? = some d ∧
      d.read (h.cwd.join (Path.parse output)) = some bytes ∧ Located.assembleMessage h fs word why input output =
        .ok ("[OK] Assembled ".toList ++ number bytes.length ++ " bytes to ".toList ++ output ++ ".\n".toList)) ∧
    ((run h fs (.assemble input output)).exit = .code 1 → ∃ sf e p,
      Located.assembleFile h.mode h.seg h.order h.load h.uuid fs h.fuel h.macroFuel input (SourceFiles.new h.cwd) = (sf, .err ⟨e, p⟩) ∧
      ((∀ r ∈ shownRanges p, ¬ Unshowable h.mode sf r) → ∃ t, MessageAbout h.seg sf word why e p t ∧
        Located.assembleMessage h fs word why input output =
          .ok ("[ERROR] Failed to assemble ".toList ++ input ++ "\n\n✘ ".toList ++ t))) := by
  have hsame := C71_same h.mode h.seg h.order h.load h.uuid fs h.fuel h.macroFuel input (SourceFiles.new h.cwd)
  unfold Located.assembleMessage
  generalize hr : Located.assembleFile h.mode h.seg h.order h.load h.uuid fs h.fuel h.macroFuel input (SourceFiles.new h.cwd) = r at hsame
  obtain ⟨sf, r⟩ := r
  cases r with
  | ok bytes =>
    have hw : ToWrite h fs (.assemble input output) (h.cwd.join (Path.parse output)) bytes := .assemble hsame.symm
    obtain ⟨-, -, h2⟩ := C70_writes h fs (.assemble input output) _ _ trivial hw
    refine ⟨fun he => ?_, fun he => ?_⟩
    · obtain ⟨d, h3, h4, -⟩ := h2 he
      refine ⟨d, bytes, h3, h4, ?_⟩
      dsimp only
      rw [Located.digits_number]
      simp
    · rcases (toWrite_saves (c := .assemble input output) trivial hw).exit with hx | hx <;> rw [he] at hx <;> cases hx
  | err e =>
    obtain ⟨e, p⟩ := e
    refine ⟨fun he => ?_, fun _ => ⟨sf, e, p, rfl, fun hf => ?_⟩⟩
    · rw [run, ← hsame] at he
      exact absurd he (by change Exit.code 1 ≠ Exit.code 0; decide)
    · have hm := C83_message (m' := h.mode) hs hl hr hf word why
      exact Exists.elim hm fun t ht => ⟨t, ht.2, reported ht.1 (failed_assemble input)⟩
  | panic => constructor <;> intro he <;> rw [run, ← hsame] at he <;> exact absurd he (by change Exit.panic ≠ _; exact nofun)
  | loop => constructor <;> intro he <;> rw [run, ← hsame] at he <;> exact absurd he (by change Exit.endless ≠ _; exact nofun)

/-- **C83**: `expand` that ends with code 0 says nothing; with code 1 it says what is wrong, and `assemble` would say the same. -/
theorem C83_expand (h : Host) (hs : BreaksLines h.seg) (hl : LoadErrors h.load) (fs : FS) (word why input : Text) :
    ((run h fs (.expand input)).exit = .code 0 → Located.expandMessage h fs word why input = .ok []) ∧
    ((run h fs (.expand input)).exit = .code 1 → ∃ sf e p,
      Located.assembleFile h.mode h.seg h.order h.load h.uuid fs h.fuel h.macroFuel input (SourceFiles.new h.cwd) = (sf, .err ⟨e, p⟩) ∧
      ((∀ r ∈ shownRanges p, ¬ Unshowable h.mode sf r) → ∃ t, MessageAbout h.seg sf word why e p t ∧
        Located.expandMessage h fs word why input = .ok ("[ERROR] Failed to expand ".toList ++ input ++ "\n\n✘ ".toList ++ t))) := by
  have hsame := Located.erase_expandFile h.mode h.seg h.order h.load h.uuid fs h.fuel h.macroFuel input (SourceFiles.new h.cwd)
  unfold Located.expandMessage
  generalize hr : Located.expandFile h.mode h.seg h.order h.load h.uuid fs h.fuel h.macroFuel input (SourceFiles.new h.cwd) = r at hsame
  obtain ⟨sf, r⟩ := r
  cases r with
  | ok text =>
    refine ⟨fun _ => rfl, fun he => ?_⟩
    rw [run, ← hsame] at he
    exact absurd he (by change Exit.code 0 ≠ Exit.code 1; decide)
  | err e =>
    obtain ⟨e, p⟩ := e
    refine ⟨fun he => ?_, fun _ => ⟨sf, e, p, Located.expand_err hr, fun hf => ?_⟩⟩
    · rw [run, ← hsame] at he
      exact absurd he (by change Exit.code 1 ≠ Exit.code 0; decide)
    · have hm := C83_message (m' := h.mode) hs hl (Located.expand_err hr) hf word why
      exact Exists.elim hm fun t ht => ⟨t, ht.2, reported ht.1 (failed_expand input)⟩
  | panic => constructor <;> intro he <;> rw [run, ← hsame] at he <;> exact absurd he (by change Exit.panic ≠ _; exact nofun)
  | loop => constructor <;> intro he <;> rw [run, ← hsame] at he <;> exact absurd he (by change Exit.endless ≠ _; exact nofun)

/-- **C83**: different things that are wrong have different messages, unless names with line breaks occur in them. -/
theorem C83_tells {seg seg' : Seg} {sf sf' : SourceFiles} {word word' why : Text} {e e' : Err} {p p' : Place} {t : Text}
    (hw : word ∈ words) (hw' : word' ∈ words) (hy : '\n' ∉ why) (hg : FitsLine word why e) (hg' : FitsLine word' why e')
    (h : MessageAbout seg sf word why e p t) (h' : MessageAbout seg' sf' word' why e' p' t) :
    explanation word why e = explanation word' why e' := by
  obtain ⟨_, _, _, _, h⟩ := h
  obtain ⟨_, _, _, _, h'⟩ := h'
  exact Located.tells hw hw' hy hg hg' h h'

/-- **C83**: the numbers in the messages can be told: no two numbers are written the same. -/
theorem C83_numbers : (∀ a b : Nat, number a = number b → a = b) ∧ (∀ a b : Int, signed a = signed b → a = b) ∧
    (∀ a b : Nat, hex a = hex b → a = b) ∧ (∀ a b : Nat, hex4 a = hex4 b → a = b) := by
  refine ⟨fun a b h => ?_, fun a b h => ?_, fun a b h => ?_, fun a b h => ?_⟩
  · exact Located.number_inj h
  · exact Located.signed_inj h
  · exact Located.hex_inj h
  · exact Located.hex4_inj h

/-- Loading images of files fails in one of the two ways. -/
theorem loadErrors_files (d : Decoders) (fs : FS) (cwd : Path) : LoadErrors (loadImage d fs cwd) := by
  intro path e he
  have hn : ¬ ∃ pictures, Decodes d fs cwd path pictures := by
    rintro ⟨ps, h⟩
    have := (C75_loads d fs cwd path ⟨ps.map fun p => toFrame p.1 p.2⟩).mpr ⟨ps, h, (shows_all _ _).mpr rfl⟩
    rw [he] at this
    cases this
  rcases C75_fails d fs cwd path hn with ⟨_, _, h⟩ | ⟨_, h⟩ <;> rw [he] at h <;> cases h
  · exact ⟨path, .inl rfl⟩
  · exact ⟨path, .inr rfl⟩

/-- What is written when `main.s` of some files is assembled to `out.bin` -/
def written (files : List (String × String)) : Res Text :=
  Located.assembleMessage { host byteByByte with fuel := 9, macroFuel := 9, load := fun _ => .err (.imageParseError []) }
    (folder files) "Name".toList [] "main.s".toList "out.bin".toList

/-- The hypotheses of the theorems hold for it. -/
example : LoadErrors (fun _ => .err (.imageParseError [])) ∧ BreaksLines plainSeg := by
  refine ⟨fun _ e h => ?_, plain_breaks⟩
  cases h
  exact ⟨[], .inr rfl⟩

/-- Messages -/
example : written [("main.s", " .byte 1, 2\n")] = .ok "[OK] Assembled 2 bytes to out.bin.\n".toList := by decide +kernel

example : written [("main.s", " .byte 1, 300\n nop\n")] = .ok
    "[ERROR] Failed to assemble main.s\n\n✘ Byte out of range: 300\n\nmain.s:1:10-13\n   .byte 1, 300\n            ^^^\n".toList := by
  decide +kernel

example : written [("main.s", "a:\n .include asm \"b.s\"\n"), ("b.s", "\n A:\n nop\n")] = .ok
    "[ERROR] Failed to assemble main.s\n\n✘ Name already exists: a\n\nThe name found here...\nb.s:2:1-3\n   A:\n   ^^ Duplicate\n\n...was already declared here\nmain.s:1:0-2\n  a:\n  ^^ Original\n".toList := by
  decide +kernel

example : written [("main.s", " mov $20\n nop\n")] = .ok
    "[ERROR] Failed to assemble main.s\n\n✘ Wrong arguments for instruction mov.\n\nmain.s:1:1-8\n   mov $20\n   ^^^^^^^\n\nAllowed forms for instruction mov:\n  mov #i8, d9\n  mov #i8, @Ri\n\n".toList := by
  decide +kernel

end Verif.Props
