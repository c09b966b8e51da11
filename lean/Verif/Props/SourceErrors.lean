import Verif.Lemmas.Located.SourceRunsBack
import Verif.Props.Sources
/-
C80: which error reading the source files gives, and where.
`dir` is the working directory; the main file is `dir.join (Path.parse name)`.
-/
namespace Verif.Props
open Verif.Spec

section
variable {seg : Seg} (hs : AsciiSeg seg) {fs : FS} {dir : Path} (hd : dir.abs = true) {name : Text}
  (hA : AllPlain seg fs dir (dir.join (Path.parse name)))
include hs hd hA

/-- **C80**: an error while the files are read is the first reason why the main file, or one that it includes, cannot be
read, at its place.  The files have the numbers in which they were loaded. -/
theorem C80_error {fuel : Nat} {sf x p} (h : Located.readTokens seg fs fuel name (SourceFiles.new dir) = (sf, .err ⟨x, p⟩)) :
    SourceFails fs dir (numberOf sf) (dir.join (Path.parse name)) x p := by
  have ho := Located.readTokens_outcome hs hd hA fuel
  rw [h] at ho
  exact ho.err rfl _ (Located.numbers_of ho.good.ok)

/-- **C80**: when the files have been read, nothing was wrong with any of them. -/
theorem C80_read {fuel : Nat} {sf out} (h : Located.readTokens seg fs fuel name (SourceFiles.new dir) = (sf, .ok out)) :
    SourceReads fs dir (dir.join (Path.parse name)) := by
  have ho := Located.readTokens_outcome hs hd hA fuel
  rw [h] at ho
  exact ho.ok rfl

variable (hN : NamedFiles fs)
include hN

/-- **C80**: if nothing is wrong with the main file and what it includes, they are read. -/
theorem C80_reads (h : SourceReads fs dir (dir.join (Path.parse name))) :
    ∃ n, ∀ fuel ≥ n, ∃ sf out, Located.readTokens seg fs fuel name (SourceFiles.new dir) = (sf, .ok out) :=
  Located.readTokens_reads hs hN hd hA h

/-- **C80**: if there is a first reason why the files cannot be read, then this reason is reported.  It is reported at its
place in the files, which go by the numbers in which they are loaded. -/
theorem C80_fails {id : Path → Nat} {x p} (h : SourceFails fs dir id (dir.join (Path.parse name)) x p) :
    ∃ n, ∀ fuel ≥ n, ∃ sf p', Located.readTokens seg fs fuel name (SourceFiles.new dir) = (sf, .err ⟨x, p'⟩) ∧
      ((∀ f ∈ sf.files, id f.name = f.id) → p' = p) :=
  Located.readTokens_stops hs hN hd hA h

/-- **C80**: whenever reading the files ends, it ends with exactly the errors that the specification allows. -/
theorem C80_iff {fuel : Nat} {sf r} (h : Located.readTokens seg fs fuel name (SourceFiles.new dir) = (sf, r)) (hr : r ≠ .loop) :
    ((∃ out, r = .ok out) ↔ SourceReads fs dir (dir.join (Path.parse name))) ∧
    ∀ x p, r = .err ⟨x, p⟩ ↔ SourceFails fs dir (numberOf sf) (dir.join (Path.parse name)) x p := by
  have ho := Located.readTokens_outcome hs hd hA fuel
  rw [h] at ho
  have hnum := Located.numbers_of ho.good.ok
  refine ⟨⟨fun ⟨out, e⟩ => ho.ok e, fun h' => ?_⟩, fun x p => ⟨fun e => ho.err e _ hnum, fun h' => ?_⟩⟩
  · obtain ⟨n, hn⟩ := C80_reads hs hd hA hN h'
    obtain ⟨sf', out, e⟩ := hn (max n fuel) (Nat.le_max_left _ _)
    rw [Located.readTokens_upper (Nat.le_max_right n fuel) name _ (by rw [h]; exact hr), h] at e
    cases e
    exact ⟨_, rfl⟩
  · obtain ⟨n, hn⟩ := C80_fails hs hd hA hN h'
    obtain ⟨sf', p', e, hp⟩ := hn (max n fuel) (Nat.le_max_left _ _)
    rw [Located.readTokens_upper (Nat.le_max_right n fuel) name _ (by rw [h]; exact hr), h] at e
    cases e
    rw [hp hnum]

/-- **C80**: the specification allows one error only, and none for files that can be read. -/
theorem C80_unique {id id' : Path → Nat} {x x' p p'} (h : SourceFails fs dir id (dir.join (Path.parse name)) x p) :
    ¬ SourceReads fs dir (dir.join (Path.parse name)) ∧
    (SourceFails fs dir id' (dir.join (Path.parse name)) x' p' → x' = x) := by
  obtain ⟨n, hn⟩ := C80_fails hs hd hA hN h
  refine ⟨fun h' => ?_, fun h' => ?_⟩
  · obtain ⟨k, hk⟩ := C80_reads hs hd hA hN h'
    obtain ⟨_, _, e, -⟩ := hn (max n k) (Nat.le_max_left _ _)
    obtain ⟨_, _, e'⟩ := hk (max n k) (Nat.le_max_right _ _)
    rw [e] at e'
    cases e'
  · obtain ⟨k, hk⟩ := C80_fails hs hd hA hN h'
    obtain ⟨_, _, e, -⟩ := hn (max n k) (Nat.le_max_left _ _)
    obtain ⟨_, _, e', -⟩ := hk (max n k) (Nat.le_max_right _ _)
    rw [e] at e'
    cases e'
    rfl

/-- **C80**: then `assemble` gives this error, whatever else is wrong with the program. -/
theorem C80_assemble {m : Mode} {order : List Color → List Color} {load : Text → Res Image} {uuid : Nat → Text}
    {id : Path → Nat} {x p} (h : SourceFails fs dir id (dir.join (Path.parse name)) x p) :
    ∃ n, ∀ fuel ≥ n, ∀ macroFuel,
      assembleFile m seg order load uuid fs fuel macroFuel (SourceFiles.new dir) name = .err x ∧
      ∃ sf p', Located.assembleFile m seg order load uuid fs fuel macroFuel name (SourceFiles.new dir) = (sf, .err ⟨x, p'⟩) ∧
        ((∀ f ∈ sf.files, id f.name = f.id) → p' = p) := by
  obtain ⟨n, hn⟩ := C80_fails hs hd hA hN h
  refine ⟨n, fun fuel hf macroFuel => ?_⟩
  obtain ⟨sf, p', e, hp⟩ := hn fuel hf
  have e' : Located.assembleFile m seg order load uuid fs fuel macroFuel name (SourceFiles.new dir) = (sf, .err ⟨x, p'⟩) := by
    unfold Located.assembleFile
    refine Located.Run.bind_err ?_
    unfold Located.readStatements
    exact Located.Run.bind_err e
  refine ⟨?_, sf, p', e', hp⟩
  rw [← Located.erase_assembleFile, e']
  rfl

end

/-! Files that meet the hypotheses -/

/-- Something after the name of an included file, which comes before a file that is missing. -/
def excessFiles : FS := folder [("main.s", "; two lines\n.include \"a.s\" 5\n.include \"no.s\"\n"), ("a.s", "nop\n.include cpp \"h.h\"\n"),
  ("h.h", "/* one */\n#define one 1\nint x\n")]

theorem excess_ascii : AllPlain plainSeg excessFiles work (work.join (Path.parse "main.s".toList)) :=
  folder_ascii (by unfold Ascii; decide +kernel) _ _

theorem excess_run : Located.readTokens plainSeg excessFiles 3 "main.s".toList (SourceFiles.new work) =
    (⟨work, [⟨0, inWork "main.s", "; two lines\n.include \"a.s\" 5\n.include \"no.s\"\n".toList⟩,
      ⟨1, inWork "a.s", "nop\n.include cpp \"h.h\"\n".toList⟩, ⟨2, inWork "h.h", "/* one */\n#define one 1\nint x\n".toList⟩]⟩,
      .err ⟨.unexpectedToken, .span ⟨⟨0, 27, 2, 15⟩, ⟨0, 28, 2, 16⟩, []⟩⟩) := by decide +kernel

example : ∃ id, SourceFails excessFiles work id (inWork "main.s") .unexpectedToken (.span ⟨⟨0, 27, 2, 15⟩, ⟨0, 28, 2, 16⟩, []⟩) :=
  ⟨_, main_in_work ▸ C80_error plainSeg_ascii rfl excess_ascii excess_run⟩

/-- A wrong definition in a C header that an included file includes. -/
def headerFiles : FS := folder [("main.s", ".include \"a.s\"\n.include \"no.s\"\n"), ("a.s", ".include cpp \"h.h\"\n"),
  ("h.h", "#define one 1\n#define two (1 + )\n")]

theorem header_run : Located.readTokens plainSeg headerFiles 3 "main.s".toList (SourceFiles.new work) =
    (⟨work, [⟨0, inWork "main.s", ".include \"a.s\"\n.include \"no.s\"\n".toList⟩, ⟨1, inWork "a.s", ".include cpp \"h.h\"\n".toList⟩,
      ⟨2, inWork "h.h", "#define one 1\n#define two (1 + )\n".toList⟩]⟩,
      .err ⟨.invalidExpression, .location ⟨2, 31, 2, 17⟩⟩) := by decide +kernel

example : ∃ id, SourceFails headerFiles work id (inWork "main.s") .invalidExpression (.location ⟨2, 31, 2, 17⟩) :=
  ⟨_, main_in_work ▸ C80_error plainSeg_ascii rfl (folder_ascii (by unfold Ascii; decide +kernel) _ _) header_run⟩

/-- The same files without the mistakes -/
example : ∃ fs, SourceReads fs work (inWork "main.s") ∧ IncludesFile fs work (inWork "main.s") (inWork "a.s") := by
  refine ⟨folder [("main.s", ".include \"a.s\"\n"), ("a.s", ".include cpp \"h.h\"\n"), ("h.h", "#define two (1 + 1)\n")], ?_, ?_⟩
  · have h : ∃ sf out, Located.readTokens plainSeg (folder [("main.s", ".include \"a.s\"\n"), ("a.s", ".include cpp \"h.h\"\n"),
        ("h.h", "#define two (1 + 1)\n")]) 3 "main.s".toList (SourceFiles.new work) = (sf, .ok out) := by
      cases e : Located.readTokens plainSeg (folder [("main.s", ".include \"a.s\"\n"), ("a.s", ".include cpp \"h.h\"\n"),
        ("h.h", "#define two (1 + 1)\n")]) 3 "main.s".toList (SourceFiles.new work) with
      | mk sf r =>
      have h : ((Located.readTokens plainSeg (folder [("main.s", ".include \"a.s\"\n"), ("a.s", ".include cpp \"h.h\"\n"),
        ("h.h", "#define two (1 + 1)\n")]) 3 "main.s".toList (SourceFiles.new work)).2.erase fun _ => ()) = .ok () := by decide +kernel
      rw [e] at h
      cases r with
      | ok out => exact ⟨sf, out, rfl⟩
      | _ => cases h
    obtain ⟨sf, out, h⟩ := h
    exact main_in_work ▸ C80_read plainSeg_ascii rfl (folder_ascii (by unfold Ascii; decide +kernel) _ _) h
  · exact ⟨[.name ".include".toList, .string "a.s".toList], "a.s".toList,
      ⟨".include \"a.s\"\n".toList, [[.name ".include".toList, .string "a.s".toList]], by decide +kernel,
        exReadsAs (by decide +kernel) (by decide +kernel), by simp⟩,
      ⟨[], .inl rfl⟩,
      ⟨inWork "a.s", exPath (by decide +kernel), (path_iff (sf := SourceFiles.new work)).mp (by decide +kernel)⟩⟩

/-- A file that is missing: the reason, given directly -/
example : SourceFails (folder [("main.s", "nop\n.include \"a.s\"")]) work (fun _ => 0) (inWork "main.s")
    (.fileLoadFailure "/w/a.s".toList) .nowhere := by
  have hl : Located.lexInput plainSeg (Input.new 0 "nop\n.include \"a.s\"".toList) = .ok ([⟨.name "nop".toList, ⟨0, 0, 1, 0⟩, ⟨0, 3, 1, 3⟩⟩,
      ⟨.name ".include".toList, ⟨0, 4, 2, 0⟩, ⟨0, 12, 2, 8⟩⟩, ⟨.string "a.s".toList, ⟨0, 13, 2, 9⟩, ⟨0, 18, 2, 14⟩⟩,
      ⟨.eof, ⟨0, 18, 2, 14⟩, ⟨0, 18, 2, 14⟩⟩]) := by decide +kernel
  have hf := Located.lex_cases (fs := folder [("main.s", "nop\n.include \"a.s\"")]) (q := inWork "main.s") (n := 0) (seg := plainSeg)
    (t := "nop\n.include \"a.s\"".toList) (by decide +kernel) (plain_plainSeg _)
  rw [hl] at hf
  cases hf with
  | ok hf =>
    refine .source (before := [[⟨.name "nop".toList, ⟨0, 0, 1, 0⟩, ⟨0, 3, 1, 3⟩⟩]]) (after := [])
      (l := [⟨.name ".include".toList, ⟨0, 4, 2, 0⟩, ⟨0, 12, 2, 8⟩⟩, ⟨.string "a.s".toList, ⟨0, 13, 2, 9⟩, ⟨0, 18, 2, 14⟩⟩,
        ⟨.eof, ⟨0, 18, 2, 14⟩, ⟨0, 18, 2, 14⟩⟩]) (name := "a.s".toList) (rest := [⟨.eof, ⟨0, 18, 2, 14⟩, ⟨0, 18, 2, 14⟩⟩])
      hf ?_ ⟨[⟨.name ".include".toList, ⟨0, 4, 2, 0⟩, ⟨0, 12, 2, 8⟩⟩, ⟨.string "a.s".toList, ⟨0, 13, 2, 9⟩, ⟨0, 18, 2, 14⟩⟩], rfl,
        .inl rfl⟩ (q := inWork "a.s") ?_ (.missing (by decide +kernel))
    · intro o ho
      rw [List.mem_singleton.mp ho]
      refine ⟨?_, ?_⟩
      · rintro name rest ⟨w, h, h' | h'⟩ <;> (have := congrArg Syntax.words h; rw [Located.words_append, h'] at this; simp [Syntax.words] at this)
      · rintro name ⟨rest, h⟩
        simp [Syntax.words] at h
    · exact ⟨inWork "a.s", exPath (by decide +kernel), (path_iff (sf := SourceFiles.new work)).mp (by decide +kernel)⟩

end Verif.Props
