import Verif.Lemmas.Located.Highlight
import Verif.Props.Places
/-
Properties of what is printed for an error of the assembler: C72.
-/
namespace Verif.Props
open Verif.Spec Verif.Spec.Places
open Verif.Located (Range Span Place Error)

/-- What kinds of places there are -/
theorem place_cases {m : Mode} {seg : Seg} {order : List Color → List Color}
    {load : Text → Res Image} {uuid : Nat → Text} {fs : FS} {fuel macroFuel : Nat} {name : Text} {dir : Path}
    {sf : SourceFiles} {e : Err} {p : Place}
    (h : Located.assembleFile m seg order load uuid fs fuel macroFuel name (SourceFiles.new dir) = (sf, .err ⟨e, p⟩)) :
    (∃ s s', p = .spans s s' ∧ Captions e p [(s, (Located.captionsOf e).1), (s', (Located.captionsOf e).2)]) ∨
      (∃ s, p = .span s) ∨ (∃ l, p = .location l) ∨ p = .nowhere := by
  rcases C71_place h with ⟨_, h⟩ | ⟨_, _, _, _, _, _, h, _⟩ | ⟨_, _, _, _, h⟩ | ⟨_, _, _, h⟩
  · exact .inr (.inr (.inr h))
  · exact .inr (.inr (.inl ⟨_, h⟩))
  · exact Located.captions_blames h
  · exact Located.captions_blames h

/-- **C72**: for every error of the assembler, what is printed shows each place that the error has: the file, the line and
the columns, the text of that line with carets below it, and the macro calls it was expanded from.  Missing: a place at the
beginning of a file with only one byte, in a build with overflow checks or if the byte is a carriage return.  Then printing
panics (`C72_panics`). -/
theorem C72_report_partial {m m' : Mode} {seg : Seg} (hs : BreaksLines seg) {order : List Color → List Color}
    {load : Text → Res Image} {uuid : Nat → Text} {fs : FS} {fuel macroFuel : Nat} {name : Text} {dir : Path}
    {sf : SourceFiles} {e : Err} {p : Place}
    (h : Located.assembleFile m seg order load uuid fs fuel macroFuel name (SourceFiles.new dir) = (sf, .err ⟨e, p⟩))
    (hf : ∀ r ∈ shownRanges p, ¬ Unshowable m' sf r) :
    ∃ parts texts, Captions e p parts ∧ Located.highlighted m' seg sf ⟨e, p⟩ = .ok texts ∧
      EachLine (fun part t => Report seg sf part.1 part.2 t) parts texts := by
  have hin := C71_in_files h
  rcases place_cases h with ⟨s, s', rfl, hc⟩ | ⟨s, rfl⟩ | ⟨l, rfl⟩ | rfl
  · obtain ⟨t, h1, h2⟩ := Located.highlight_report (m := m') hs (fun r hr => hf r (List.mem_append_left _ hr)) hin.1
      (Located.captionsOf e).1
    obtain ⟨t', h3, h4⟩ := Located.highlight_report (m := m') hs (fun r hr => hf r (List.mem_append_right _ hr)) hin.2
      (Located.captionsOf e).2
    refine ⟨_, [t, t'], hc, ?_, .cons h2 (.cons h4 .nil)⟩
    unfold Located.highlighted
    dsimp only
    rw [h1, Res.ok_bind, h3, Res.ok_bind]
  · obtain ⟨t, h1, h2⟩ := Located.highlight_report (m := m') hs hf hin (Located.captionOf e)
    refine ⟨_, [t], Located.captions_span e s, ?_, .cons h2 .nil⟩
    unfold Located.highlighted
    dsimp only
    rw [h1, Res.ok_bind]
  · obtain ⟨t, h1, h2⟩ := Located.highlight_report (m := m') (s := ⟨l, l, []⟩) hs hf
      ⟨⟨hin, hin, rfl⟩, fun r hr => by cases hr⟩ []
    refine ⟨_, [t], .location, ?_, .cons h2 .nil⟩
    unfold Located.highlighted
    dsimp only
    rw [h1, Res.ok_bind]
  · exact ⟨[], [], .nowhere, rfl, .nil⟩

/-- **C72**: and printing panics only for such places. -/
theorem C72_panics {m m' : Mode} {seg : Seg} (hs : BreaksLines seg) {order : List Color → List Color}
    {load : Text → Res Image} {uuid : Nat → Text} {fs : FS} {fuel macroFuel : Nat} {name : Text} {dir : Path}
    {sf : SourceFiles} {e : Err} {p : Place}
    (h : Located.assembleFile m seg order load uuid fs fuel macroFuel name (SourceFiles.new dir) = (sf, .err ⟨e, p⟩)) :
    Located.highlighted m' seg sf ⟨e, p⟩ = .panic ↔ ∃ r ∈ shownRanges p, Unshowable m' sf r := by
  constructor
  · intro hp
    refine Classical.byContradiction fun hn => ?_
    obtain ⟨_, _, _, h2, _⟩ := C72_report_partial (m' := m') hs h fun r hr hu => hn ⟨r, hr, hu⟩
    rw [hp] at h2
    cases h2
  · intro hu
    have hin := C71_in_files h
    rcases place_cases h with ⟨s, s', rfl, hc⟩ | ⟨s, rfl⟩ | ⟨l, rfl⟩ | rfl
    · unfold Located.highlighted
      dsimp only
      by_cases h1 : ∃ r ∈ s.range :: s.parents, Unshowable m' sf r
      · rw [Located.highlight_panic hs hin.1 h1]; rfl
      · obtain ⟨t, h3, _⟩ := Located.highlight_report (m := m') hs (fun r hr hu => h1 ⟨r, hr, hu⟩) hin.1
          (Located.captionsOf e).1
        have h2 : ∃ r ∈ s'.range :: s'.parents, Unshowable m' sf r := by
          obtain ⟨r, hr, hu⟩ := hu
          rcases List.mem_append.mp hr with hr | hr
          · exact absurd ⟨r, hr, hu⟩ h1
          · exact ⟨r, hr, hu⟩
        rw [h3, Res.ok_bind, Located.highlight_panic hs hin.2 h2]; rfl
    · unfold Located.highlighted
      dsimp only
      rw [Located.highlight_panic hs hin hu]; rfl
    · unfold Located.highlighted
      dsimp only
      rw [Located.highlight_panic (s := ⟨l, l, []⟩) hs ⟨⟨hin, hin, rfl⟩, fun r hr => by cases hr⟩ hu]; rfl
    · obtain ⟨r, hr, _⟩ := hu
      cases hr

/-- **C72**: a file in the working directory, or in a directory in it, is shown by its path from there; any other file is
shown with its whole path.  (If the working directory is the root, all are.) -/
theorem C72_path {w p : Path} (hw : w.abs = true ∧ ∀ c ∈ w.comps, '/' ∉ c) (hp : ∀ c ∈ p.comps, c ≠ [] ∧ '/' ∉ c) (t : Text) :
    PathText w p t ↔ (∃ rest, w.comps ≠ [] ∧ rest ≠ [] ∧ p = ⟨true, w.comps ++ rest⟩ ∧ t = slashed rest) ∨
      (∀ rest, w.comps ≠ [] → rest ≠ [] → p ≠ ⟨true, w.comps ++ rest⟩) ∧ t = p.render := by
  have huniq : ∀ t', PathText w p t' ↔ t' = Located.shownPath w p := by
    intro t'
    have h0 := Located.pathText w p
    constructor
    · rintro (h1 | ⟨h1, rfl⟩) <;> rcases h0 with h2 | ⟨h2, h3⟩
      · rw [h1] at h2
        have := List.append_cancel_left h2
        injection this
      · exact absurd h1 (h2 t')
      · exact absurd h2 (h1 _)
      · exact h3.symm
    · rintro rfl; exact h0
  rw [huniq]
  by_cases h : ∃ rest, w.comps ≠ [] ∧ rest ≠ [] ∧ p = ⟨true, w.comps ++ rest⟩
  · obtain ⟨rest, h1, h2, rfl⟩ := h
    have hs := Located.shown_inside (w := w) h1 h2
    rw [hw.1] at hs
    rw [hs]
    constructor
    · rintro rfl; exact .inl ⟨rest, h1, h2, rfl, rfl⟩
    · rintro (⟨rest', _, _, h3, rfl⟩ | ⟨h3, _⟩)
      · injection h3 with _ h3; rw [List.append_cancel_left h3]
      · exact absurd rfl (h3 rest h1 h2)
  · have hs := Located.shown_outside hw.2 hp hw.1 fun rest h1 h2 h3 => h ⟨rest, h2, h1, h3⟩
    rw [hs]
    constructor
    · rintro rfl; exact .inr ⟨fun rest h1 h2 h3 => h ⟨rest, h1, h2, h3⟩, rfl⟩
    · rintro (⟨rest, h1, h2, h3, _⟩ | ⟨_, h3⟩)
      · exact absurd ⟨rest, h1, h2, h3⟩ h
      · exact h3

/-- The paths of a program in a working directory -/
example : Located.shownPath (Path.parse "/home/me".toList) (Path.parse "/home/me/lib/a.s".toList) = "lib/a.s".toList ∧
    Located.shownPath (Path.parse "/home/me".toList) (Path.parse "/home/melissa/a.s".toList) = "/home/melissa/a.s".toList ∧
    Located.shownPath (Path.parse "/".toList) (Path.parse "/a.s".toList) = "/a.s".toList := by decide

/-- What is printed for the file `main.s` of some files -/
def printed (m : Mode) (files : List (String × String)) : Option (Res (List Text)) :=
  match placeOf files with
  | (sf, .err e) => some (Located.highlighted m plainSeg sf e)
  | _ => none

/-- **C72**: if a file has just one byte, reporting an error in it can panic: here for the file `?`. -/
theorem C72_one_byte : printed .checked [("main.s", "?")] = some .panic := by decide +kernel

/-- In a build without overflow checks it is reported, and so is an error in another file. -/
example : printed .wrapping [("main.s", "?")] = some (.ok ["main.s:1:0\n  ?\n  ^\n".toList]) ∧
    printed .checked [("main.s", " .include asm \"a\"\n ?\n"), ("a", "b")] ≠ some .panic := by decide +kernel

/-- The clusters of `plainSeg` break lines. -/
theorem plain_breaks : BreaksLines plainSeg := by
  refine ⟨?_, fun _ => rfl, fun _ => rfl, ?_, ?_⟩
  · intro t ht
    match t with
    | [] => exact absurd rfl ht
    | [c] => unfold plainSeg; split <;> simp_all
    | c :: d :: t => unfold plainSeg; split <;> simp
  · intro l b h1 h2 h3
    match l with
    | [] => exact absurd rfl h1
    | [c] =>
      have : c ≠ '\r' := by simpa using h3
      unfold plainSeg
      split <;> simp_all
    | c :: d :: l =>
      simp only [List.cons_append]
      unfold plainSeg
      split <;> split <;> simp_all
  · intro l b h1 h2
    match l with
    | [] => exact absurd rfl h1
    | [c] =>
      unfold plainSeg
      split <;> split <;> simp_all
    | c :: d :: l =>
      simp only [List.cons_append]
      unfold plainSeg
      split <;> split <;> simp_all

/-- An error in a macro call: the report with the call. -/
example : printed .checked [("main.s", "%macro two %x\n  mov #%x, $20\n%end\n two 3\n two 300\n nop\n")] =
    some (.ok ["main.s:5:5-8\n   two 300\n       ^^^\n  | \n  | ...expanded from\n  | \n  | main.s:5:1-8\n  |    two 300\n  |    ^^^^^^^\n".toList]) := by
  decide +kernel

/-- Two places in two files. -/
example : printed .checked [("main.s", "a:\n .include asm \"b.s\"\n"), ("b.s", "\n A:\n nop\n")] =
    some (.ok ["b.s:2:1-3\n   A:\n   ^^ Duplicate\n".toList, "main.s:1:0-2\n  a:\n  ^^ Original\n".toList]) := by
  decide +kernel

end Verif.Props
