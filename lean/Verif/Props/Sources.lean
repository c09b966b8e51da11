import Verif.Lemmas.SourcesMore
import Verif.Props.Pipeline
import Verif.Props.Macros
/-
Properties of reading a program from its files: when it ends (C66) and when it crashes (C67).
`dir` is the working directory; the main file is `dir.join (Path.parse name)`.
-/
namespace Verif.Props
open Verif.Spec

/-! C66: reading ends. -/

/-- **C66**: if no chain of includes goes on for ever, reading the program ends: from some number of steps on, the result
is always the same. -/
theorem C66_terminates {seg : Seg} (hs : AsciiSeg seg) {fs : FS} {dir : Path} (hd : dir.abs = true) {name : Text}
    (hA : AllPlain seg fs dir (dir.join (Path.parse name))) (hE : ¬ Endless fs dir (dir.join (Path.parse name))) :
    ∃ n r, r ≠ .loop ∧ ∀ fuel ≥ n, readProgram seg fs fuel (SourceFiles.new dir) name = r :=
  readProgram_ends hs hd hA hE

/-- **C66**: if a chain of includes goes on for ever, the program is never accepted. -/
theorem C66_endless {seg : Seg} {fs : FS} {dir : Path} (hd : dir.abs = true) {name : Text}
    (hA : AllPlain seg fs dir (dir.join (Path.parse name))) (hE : Endless fs dir (dir.join (Path.parse name))) (fuel : Nat) :
    ∀ x, readProgram seg fs fuel (SourceFiles.new dir) name ≠ .ok x :=
  fun _ h => readProgram_finite hd hA h hE

/-- **C66**: with finitely many files, chains that go on for ever are the same as files that include themselves,
directly or not. -/
theorem C66_cycle {fs : FS} {dir main : Path} {files : List Path} (hf : ∀ p, fs.read p ≠ none → p ∈ files) :
    Endless fs dir main ↔ ∃ p q, IncludeTree fs dir main p ∧ IncludesFile fs dir p q ∧ IncludeTree fs dir q p :=
  ⟨endless_cycle hf, fun ⟨_, _, h1, h2, h3⟩ => endless_of_tree h1 (endless_of_cycle h2 h3)⟩

/-- **C66**: then the statements, with the included data, are read in finite time. -/
theorem C66_statements {m : Mode} {seg : Seg} (hs : AsciiSeg seg) {order : List Color → List Color} (ho : ∀ l, (order l).Perm l)
    {load : Text → Res Image} (hl : LoadsFrames load) {fs : FS} {dir : Path} (hd : dir.abs = true) {name : Text}
    (hA : AllPlain seg fs dir (dir.join (Path.parse name))) (hE : ¬ Endless fs dir (dir.join (Path.parse name))) :
    ∃ n r, r ≠ .loop ∧ ∀ fuel ≥ n, readStatements m seg order load fs fuel (SourceFiles.new dir) name = r := by
  obtain ⟨n, r, h1, h2⟩ := C66_terminates hs hd hA hE
  refine ⟨n, readStatements m seg order load fs n (SourceFiles.new dir) name, ?_, fun fuel hf => ?_⟩
  · unfold readStatements
    rw [h2 n (Nat.le_refl _)]
    intro h
    rcases Res.bind_eq_loop.mp h with h | ⟨⟨p, path, sf⟩, hr, h⟩
    · exact h1 h
    · rcases Res.bind_eq_loop.mp h with h | ⟨ss, _, h⟩
      · obtain ⟨s, hm, h⟩ := replaceData_stop (.inl rfl) h
        refine (includeData_end ho hl fun d e => ?_).1 h
        subst e
        exact readProgram_icon ((h2 n (Nat.le_refl _)).trans hr) d hm
      · cases h
  · unfold readStatements
    rw [h2 fuel hf, h2 n (Nat.le_refl _)]

/-- **C66**: a checked build of `assemble` ends if no chain of includes goes on for ever and no macro calls itself. -/
theorem C66_assemble {seg : Seg} (hs : AsciiSeg seg) {order : List Color → List Color} (ho : ∀ l, (order l).Perm l)
    {load : Text → Res Image} (hl : LoadsFrames load) {uuid : Nat → Text} (hu : Suffixes uuid)
    {fs : FS} {dir : Path} (hd : dir.abs = true) {name : Text}
    (hA : AllPlain seg fs dir (dir.join (Path.parse name))) (hE : ¬ Endless fs dir (dir.join (Path.parse name)))
    (hM : ∀ fuel p, readStatements .checked seg order load fs fuel (SourceFiles.new dir) name = .ok p →
      NonRecursive p.macros ∧ ClosedCalls p.stmts) :
    ∃ n, ∀ fuel ≥ n, ∀ macroFuel ≥ n,
      assembleFile .checked seg order load uuid fs fuel macroFuel (SourceFiles.new dir) name ≠ .loop := by
  obtain ⟨n, r, h1, h2⟩ := C66_statements (m := .checked) hs ho hl hd hA hE
  cases r with
  | loop => exact absurd rfl h1
  | ok p =>
    refine ⟨max n (p.macros.length + 2), fun fuel hf macroFuel hmf h => ?_⟩
    have hr := h2 fuel (by omega)
    rcases C64_terminates hu h with h | ⟨q, hq, h⟩
    · rw [hr] at h; cases h
    · rw [hr] at hq
      cases hq
      obtain ⟨c1, c2⟩ := hM fuel p hr
      rcases C36_terminates uuid p c1 c2 macroFuel (by omega) with ⟨_, e⟩ | ⟨_, e⟩ <;> rw [h] at e <;> cases e
  | _ =>
    refine ⟨n, fun fuel hf macroFuel _ h => ?_⟩
    rcases C64_terminates hu h with h | ⟨q, hq, h⟩
    · rw [h2 fuel hf] at h; cases h
    · rw [h2 fuel hf] at hq; cases hq

/-! C67: what makes the program crash. -/

/-- **C67**: reading a program crashes only on numerals of 2^31 or more. -/
theorem C67_reading {seg : Seg} (hs : AsciiSeg seg) {fs : FS} (hn : NamedFiles fs) {dir : Path} (hd : dir.abs = true) {name : Text}
    (hA : AllPlain seg fs dir (dir.join (Path.parse name))) {fuel : Nat}
    (h : readProgram seg fs fuel (SourceFiles.new dir) name = .panic) : HugeNumeral fs dir (dir.join (Path.parse name)) :=
  readProgram_panic hs hn hd hA h

/-- **C67**: reading the statements crashes only on such numerals, on includes of source files that are still in the
program (as from a C header), and on the speed of an icon that overflows. -/
theorem C67_statements {m : Mode} {seg : Seg} (hs : AsciiSeg seg) {order : List Color → List Color} (ho : ∀ l, (order l).Perm l)
    {load : Text → Res Image} (hl : LoadsFrames load) {fs : FS} (hn : NamedFiles fs) {dir : Path} (hd : dir.abs = true) {name : Text}
    (hA : AllPlain seg fs dir (dir.join (Path.parse name))) {fuel : Nat}
    (h : readStatements m seg order load fs fuel (SourceFiles.new dir) name = .panic) :
    HugeNumeral fs dir (dir.join (Path.parse name)) ∨
    ∃ p path sf, readProgram seg fs fuel (SourceFiles.new dir) name = .ok (p, path, sf) ∧ ∃ s ∈ p.stmts, LeftOver s ∨
      ∃ e eyecatch file, s = .dir (.incl (.icon (some e) eyecatch) file) ∧ Overflows m (fun _ => none) e := by
  unfold readStatements at h
  rcases Res.bind_eq_panic.mp h with h | ⟨⟨p, path, sf⟩, hr, h⟩
  · exact .inl (C67_reading hs hn hd hA h)
  · rcases Res.bind_eq_panic.mp h with h | ⟨ss, _, h⟩
    · obtain ⟨s, hm, h⟩ := replaceData_stop (.inr rfl) h
      refine .inr ⟨p, path, sf, hr, s, hm, ?_⟩
      refine (includeData_end ho hl fun d e => ?_).2 h ?_
      · subst e
        exact readProgram_icon hr d hm
      · exact hn _ (readProgram_path hd hr).2
    · cases h

/-- **C67**: what makes `assemble` crash. -/
theorem C67_assemble {m : Mode} {seg : Seg} (hs : AsciiSeg seg) {order : List Color → List Color} (ho : ∀ l, (order l).Perm l)
    {load : Text → Res Image} (hl : LoadsFrames load) {uuid : Nat → Text} (hu : Suffixes uuid)
    {fs : FS} (hn : NamedFiles fs) {dir : Path} (hd : dir.abs = true) {name : Text}
    (hA : AllPlain seg fs dir (dir.join (Path.parse name))) {fuel macroFuel : Nat}
    (h : assembleFile m seg order load uuid fs fuel macroFuel (SourceFiles.new dir) name = .panic) :
    -- a numeral of 2^31 or more,
    HugeNumeral fs dir (dir.join (Path.parse name)) ∨
    -- an include that was not replaced, or the speed of an icon,
    (∃ p path sf, readProgram seg fs fuel (SourceFiles.new dir) name = .ok (p, path, sf) ∧ ∃ s ∈ p.stmts, LeftOver s ∨
      ∃ e eyecatch file, s = .dir (.incl (.icon (some e) eyecatch) file) ∧ Overflows m (fun _ => none) e) ∨
    -- addresses beyond 2 GiB, or an expression that overflows
    ∃ p q, readStatements m seg order load fs fuel (SourceFiles.new dir) name = .ok p ∧ expandMacros uuid macroFuel p = .ok q ∧
      ((¬ ∃ ps, Laid m q.stmts ps) ∨ ∃ x ∈ q.stmts, ∃ e ∈ exprsOf x, ∃ env, Env32 env ∧ Overflows m env e) := by
  rcases C64_panics hu h with h | h
  · rcases C67_statements hs ho hl hn hd hA h with h | h
    · exact .inl h
    · exact .inr (.inl h)
  · exact .inr (.inr h)

/-! Examples. -/

theorem folder_named (files : List (String × String)) : NamedFiles (folder files) := by
  intro p h e
  apply h
  simp only [folder, Option.map_eq_none_iff, List.find?_eq_none, decide_eq_true_eq]
  intro f _ hp
  rw [hp] at e
  cases e

theorem folder_ascii {files : List (String × String)} (h : ∀ f ∈ files, Ascii f.2.toList) (dir main : Path) :
    AllPlain plainSeg (folder files) dir main := by
  have key : ∀ q t, (folder files).read q = some (utf8 t) → Ascii t := by
    intro q t hr
    simp only [folder, Option.map_eq_some_iff] at hr
    obtain ⟨f, hf, e⟩ := hr
    rw [← utf8_inj e]
    exact h f (List.mem_of_find?_eq_some hf)
  exact ⟨fun _ t _ _ => plain_plainSeg t, fun _ q t _ _ hr => key q t hr⟩

/-- The assembly file that a line includes. -/
def sourceName (l : List Token) : Option Text :=
  match parseDirective (l.map Token.tok) with
  | .ok (some (.dir (.incl .asm name), _)) => some name
  | _ => none

theorem includes_only {fs : FS} {p q : Path} {text : String} {names : List Text} (hr : fs.read p = some (utf8 text.toList))
    (ha : Readable text) (hn : (lines (exToks text ++ [exEnd text])).filterMap sourceName = names) (h : IncludesFile fs work p q) :
    ∃ name ∈ names, FoundAt fs work p name q := by
  obtain ⟨l, name, h1, h2, h3⟩ := h
  obtain ⟨l', hl', hn'⟩ := (lex_hasLine hr (plain_plainSeg _) ha).1.mpr ⟨l, h1, h2⟩
  refine ⟨name, ?_, h3⟩
  rw [← hn]
  obtain ⟨rest, hp⟩ := namesSource_parse hn'
  exact List.mem_filterMap.mpr ⟨l', hl', by unfold sourceName; rw [hp]⟩

/-- The main file of the examples. -/
theorem main_in_work : work.join (Path.parse "main.s".toList) = inWork "main.s" := by decide +kernel

/-- `twoFiles` meets the hypotheses of C66 and C67. -/
theorem twoFiles_files : AllPlain plainSeg twoFiles work (work.join (Path.parse "main.s".toList)) ∧ NamedFiles twoFiles ∧
    ¬ Endless twoFiles work (work.join (Path.parse "main.s".toList)) := by
  refine ⟨folder_ascii (by unfold Ascii; decide +kernel) _ _, folder_named _, ?_⟩
  rw [main_in_work]
  rintro ⟨c, h0, hc⟩
  have h1 := hc 0
  rw [h0] at h1
  obtain ⟨name, hm, r, f1, f2⟩ := includes_only
    (text := ".include \"a.s\"\nStart: twice #5\n.include bytes \"b.bin\"\n.cnop 0, 4\n jmp start\n")
    (by decide +kernel) (by decide +kernel) (names := ["a.s".toList]) (by decide +kernel) h1
  rw [List.mem_singleton] at hm
  subst hm
  have e : c 1 = inWork "a.s" := found_unique ⟨r, f1, f2⟩
    ⟨inWork "a.s", exPath (by decide +kernel), (path_iff (sf := SourceFiles.new work)).mp (by decide +kernel)⟩
  have h2 := hc 1
  rw [e] at h2
  obtain ⟨name, hm, _⟩ := includes_only (text := "%macro twice %x\n add %x\nlp%: bnz lp%\n%end\n")
    (by decide +kernel) (by decide +kernel) (names := []) (by decide +kernel) h2
  cases hm

example : ∃ n r, r ≠ .loop ∧ ∀ fuel ≥ n, readProgram plainSeg twoFiles fuel (SourceFiles.new work) "main.s".toList = r :=
  C66_terminates plainSeg_ascii rfl twoFiles_files.1 twoFiles_files.2.2

/-- A file that includes itself. -/
theorem cycle_endless : Endless cycle work (work.join (Path.parse "main.s".toList)) := by
  rw [main_in_work]
  have h : IncludesFile cycle work (inWork "main.s") (inWork "main.s") :=
    ⟨[.name ".include".toList, .string "main.s".toList], "main.s".toList,
      ⟨".include \"main.s\"".toList, [[.name ".include".toList, .string "main.s".toList]], by decide +kernel,
        exReadsAs (by decide +kernel) (by decide +kernel), by simp⟩,
      ⟨[], .inl rfl⟩,
      ⟨inWork "main.s", exPath (by decide +kernel), (path_iff (sf := SourceFiles.new work)).mp (by decide +kernel)⟩⟩
  exact ⟨fun _ => inWork "main.s", rfl, fun _ => h⟩

example (fuel : Nat) : ∀ x, readProgram plainSeg cycle fuel (SourceFiles.new work) "main.s".toList ≠ .ok x :=
  C66_endless rfl (folder_ascii (by unfold Ascii; decide +kernel) _ _) cycle_endless fuel

example : ∀ p, cycle.read p ≠ none → p ∈ [inWork "main.s"] := by
  intro p h
  by_cases e : p = inWork "main.s"
  · simp [e]
  · refine absurd ?_ h
    simp only [cycle, folder, Option.map_eq_none_iff, List.find?_eq_none]
    intro f hf
    rw [List.mem_singleton.mp hf]
    simpa [inWork] using e

/-- A numeral that is too big, in an included file. -/
example : readProgram plainSeg (folder [("main.s", ".include \"a.s\""), ("a.s", ".word 4000000000")]) 3
    (SourceFiles.new work) "main.s".toList = .panic := by decide +kernel

example : LoadsFrames (fun _ => .ok ⟨[⟨(0, 0), [[⟨0, 0, 0, 255⟩]]⟩]⟩) := fun _ => ⟨nofun, nofun, fun i h => by cases h; nofun⟩

end Verif.Props
