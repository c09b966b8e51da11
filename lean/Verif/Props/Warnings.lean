import Verif.Lemmas.Located.WarningsUnique
import Verif.Lemmas.AssembledFiles
import Verif.Props.Messages
/-
Properties of the warnings about files that are found in the working directory of the process: C84.
-/
namespace Verif.Props
open Verif.Spec Verif.Spec.Places Verif.Spec.Messages
open Verif.Located (Range Span Place Error)

/-! C84: who includes a file that is only found in the working directory is warned. -/

/-- The files that are loaded by `assemble` and `expand` -/
def loaded (h : Host) (fs : FS) (input : Text) : List SourceFile :=
  (Located.readStatements h.mode h.seg h.order h.load fs h.fuel input (SourceFiles.new h.cwd)).1.files

theorem heard_host (h : Host) (hd : h.cwd.abs = true) (fs : FS) (input : Text) :
    (∀ w ∈ Located.warnings h fs input, ∃ g ∈ loaded h fs input, ∃ name c, FallsBack fs g.name name c ∧ w = warned c name) ∧
    (Located.warnings h fs input = [] → ∀ g ∈ loaded h fs input, g.name.abs = true) := by
  have hh := Located.heard_statements (fs := fs) (seg := h.seg) hd h.mode h.order h.load h.fuel input
  have e : (Located.readStatementsLoud h.mode h.seg h.order h.load fs h.fuel input (SourceFiles.new h.cwd)).2.1.files = loaded h fs input := by
    have := congrArg (fun x : SourceFiles × Located.Res Located.Program => x.1.files)
      (congrFun (Located.run_readStatements h.mode h.seg h.order h.load fs h.fuel input) (SourceFiles.new h.cwd))
    exact this
  constructor
  · intro w hw
    obtain ⟨g, hg, h1⟩ := hh.real w hw
    rw [e] at hg
    exact ⟨g, hg, h1⟩
  · intro hw g hg
    rw [← e] at hg
    exact hh.silent hw nofun g hg

/-- **C84**: every warning is about a file that a loaded file names, that is missing next to that file, and that is found in the
working directory. -/
theorem C84_real (h : Host) (hd : h.cwd.abs = true) (fs : FS) (input : Text) :
    ∀ w ∈ Located.warnings h fs input, ∃ g ∈ loaded h fs input, ∃ name c, FallsBack fs g.name name c ∧ w = warned c name :=
  (heard_host h hd fs input).1

/-- **C84**: without a warning no file is loaded from a path that depends on the working directory, other than the main file. -/
theorem C84_silent (h : Host) (hd : h.cwd.abs = true) (fs : FS) (input : Text) (hw : Located.warnings h fs input = []) :
    ∀ g ∈ loaded h fs input, g.name.abs = true :=
  (heard_host h hd fs input).2 hw

/-- **C84**: if all files are in the working directory, there are no warnings. -/
theorem C84_none (h : Host) (hd : h.cwd.abs = true) (fs : FS) (input : Text) (hs : SeenFrom fs h.cwd)
    (hf : ∀ g ∈ loaded h fs input, fs.isDir g.name = false ∧ g.name.parent = some h.cwd) : Located.warnings h fs input = [] := by
  refine List.eq_nil_iff_forall_not_mem.mpr fun w hw => ?_
  obtain ⟨g, hg, name, c, ⟨⟨h1, h2⟩, h3, h4⟩, -⟩ := C84_real h hd fs input w hw
  obtain ⟨k1, k2⟩ := hf g hg
  rcases h2 with ⟨h2, -⟩ | ⟨-, d, h2, rfl⟩
  · rw [k1] at h2; cases h2
  · rw [k2] at h2
    cases h2
    rw [hs name h1, h4] at h3
    cases h3

/-- **C84**: when the input is assembled or expanded, the warnings are one for each lookup that falls back to the working
directory, in this order: first those of the files, in the order of reading; there each included file is looked for twice; then
those of the data that the program includes, looked for from the main file. -/
theorem C84_exactly (h : Host) (hs : AsciiSeg h.seg) (hd : h.cwd.abs = true) (fs : FS) (input output : Text)
    (hA : AllPlain h.seg fs h.cwd (h.cwd.join (Path.parse input)))
    (he : (run h fs (.assemble input output)).exit = .code 0 ∨ (run h fs (.expand input)).exit = .code 0) :
    ∃ p a b, SourceProgram fs h.cwd (h.cwd.join (Path.parse input)) p ∧
      SourceWarns fs h.cwd (h.cwd.join (Path.parse input)) a ∧
      NamesWarn fs (h.cwd.join (Path.parse input)) (p.stmts.flatMap dataNames) b ∧ Located.warnings h fs input = a ++ b := by
  have hok : ∃ sf p, Located.readStatements h.mode h.seg h.order h.load fs h.fuel input (SourceFiles.new h.cwd) = (sf, .ok p) := by
    have hr := Located.erase_readStatements h.mode h.seg h.order h.load fs h.fuel input (SourceFiles.new h.cwd)
    generalize Located.readStatements h.mode h.seg h.order h.load fs h.fuel input (SourceFiles.new h.cwd) = r at hr ⊢
    obtain ⟨sf, r⟩ := r
    cases r with
    | ok p => exact ⟨sf, p, rfl⟩
    | err e =>
      exfalso
      have hr : readStatements h.mode h.seg h.order h.load fs h.fuel (SourceFiles.new h.cwd) input = .err e.err := hr.symm
      rcases he with he | he
      · rw [run, assembleFile, hr] at he; exact absurd he (by change Exit.code 1 ≠ Exit.code 0; decide)
      · rw [run, expandFile, hr] at he; exact absurd he (by change Exit.code 1 ≠ Exit.code 0; decide)
    | panic =>
      exfalso
      have hr : readStatements h.mode h.seg h.order h.load fs h.fuel (SourceFiles.new h.cwd) input = .panic := hr.symm
      rcases he with he | he
      · rw [run, assembleFile, hr] at he; exact absurd he (by change Exit.panic ≠ Exit.code 0; exact nofun)
      · rw [run, expandFile, hr] at he; exact absurd he (by change Exit.panic ≠ Exit.code 0; exact nofun)
    | loop =>
      exfalso
      have hr : readStatements h.mode h.seg h.order h.load fs h.fuel (SourceFiles.new h.cwd) input = .loop := hr.symm
      rcases he with he | he
      · rw [run, assembleFile, hr] at he; exact absurd he (by change Exit.endless ≠ Exit.code 0; exact nofun)
      · rw [run, expandFile, hr] at he; exact absurd he (by change Exit.endless ≠ Exit.code 0; exact nofun)
  obtain ⟨sf, prog, hok⟩ := hok
  rw [← Located.run_readStatements] at hok
  unfold Located.warnings
  cases e : Located.readStatementsLoud h.mode h.seg h.order h.load fs h.fuel input (SourceFiles.new h.cwd) with
  | mk ws r =>
  have e' : (Located.readStatementsLoud h.mode h.seg h.order h.load fs h.fuel input).run (SourceFiles.new h.cwd) = r := congrArg Prod.snd e
  rw [e'] at hok
  subst hok
  unfold Located.readStatementsLoud at e
  obtain ⟨w1, sf1, ⟨toks, path⟩, w2, h1, h2, rfl⟩ := Located.Loud.bind_eq_ok e
  obtain ⟨w3, sf3, program, w4, h3, h4, rfl⟩ := Located.Loud.bind_eq_ok h2
  obtain ⟨rfl, rfl, h5⟩ := Located.Loud.of_ok h3
  obtain ⟨w5, sf5, stmts, w6, h6, h7, rfl⟩ := Located.Loud.bind_eq_ok h4
  obtain ⟨rfl, -, -⟩ := Located.Loud.of_ok h7
  obtain ⟨k1, k2, k3⟩ := Located.readTokens_warns hs hd hA h1
  dsimp only at k3
  subst k3
  have hrun : Located.readTokens h.seg fs h.fuel input (SourceFiles.new h.cwd) = (sf3, .ok (toks, h.cwd.join (Path.parse input))) := by
    rw [← Located.run_readTokens]; exact congrArg Prod.snd h1
  have ho := Located.readTokens_outcome hs hd hA h.fuel
  rw [hrun] at ho
  have hp : parse toks = .ok program.erase := by
    rw [← Located.erase_parse, h5]
    rfl
  refine ⟨program.erase, w1, w5, ⟨_, _, Located.loadedAs_numbering _, (Located.readTokens_tokens hs hd hA hrun).2 _
    (Located.numbered_of ho.good.ok), parse_iff.mp hp⟩, k1, Located.replaceData_warns k2 h6, by simp⟩

/-- **C84**: the files determine these warnings. -/
theorem C84_one {seg : Seg} (hs : AsciiSeg seg) {fs : FS} {dir main : Path} (hA : AllPlain seg fs dir main) {p p' a a' b b'}
    (hp : SourceProgram fs dir main p) (hp' : SourceProgram fs dir main p') (ha : SourceWarns fs dir main a)
    (ha' : SourceWarns fs dir main a') (hb : NamesWarn fs main (p.stmts.flatMap dataNames) b)
    (hb' : NamesWarn fs main (p'.stmts.flatMap dataNames) b') : a ++ b = a' ++ b' := by
  cases sourceProgram_unique hs hA hp hp'
  rw [Located.sourceWarns_unique hA ha ha', Located.namesWarn_unique hb hb']

/-- **C84**: this is all that `assemble` writes to the standard error: the warnings, and then the message (C83). -/
theorem C84_assemble (h : Host) (hs : BreaksLines h.seg) (hl : LoadErrors h.load) (fs : FS) (word why input output : Text) :
    ((run h fs (.assemble input output)).exit = .code 0 → ∃ d bytes, (run h fs (.assemble input output)).disks.getLast? = some d ∧
      d.read (h.cwd.join (Path.parse output)) = some bytes ∧ Located.assembleStderr h fs word why input output =
        .ok ((Located.warnings h fs input).flatten ++ "[OK] Assembled ".toList ++ number bytes.length ++ " bytes to ".toList ++ output ++
          ".\n".toList)) ∧
    ((run h fs (.assemble input output)).exit = .code 1 → ∃ sf e p,
      Located.assembleFile h.mode h.seg h.order h.load h.uuid fs h.fuel h.macroFuel input (SourceFiles.new h.cwd) = (sf, .err ⟨e, p⟩) ∧
      ((∀ r ∈ shownRanges p, ¬ Unshowable h.mode sf r) → ∃ t, MessageAbout h.seg sf word why e p t ∧
        Located.assembleStderr h fs word why input output = .ok ((Located.warnings h fs input).flatten ++
          "[ERROR] Failed to assemble ".toList ++ input ++ "\n\n✘ ".toList ++ t))) := by
  obtain ⟨h1, h2⟩ := C83_assemble h hs hl fs word why input output
  unfold Located.assembleStderr
  refine ⟨fun he => ?_, fun he => ?_⟩
  · obtain ⟨d, bytes, k1, k2, k3⟩ := h1 he
    refine ⟨d, bytes, k1, k2, ?_⟩
    rw [k3, Res.ok_bind]
    simp only [List.append_assoc]
  · obtain ⟨sf, e, p, k1, k2⟩ := h2 he
    refine ⟨sf, e, p, k1, fun hf => ?_⟩
    obtain ⟨t, k3, k4⟩ := k2 hf
    refine ⟨t, k3, ?_⟩
    rw [k4, Res.ok_bind]
    simp only [List.append_assoc]

/-- **C84**: the same for `expand`. -/
theorem C84_expand (h : Host) (hs : BreaksLines h.seg) (hl : LoadErrors h.load) (fs : FS) (word why input : Text) :
    ((run h fs (.expand input)).exit = .code 0 → Located.expandStderr h fs word why input = .ok (Located.warnings h fs input).flatten) ∧
    ((run h fs (.expand input)).exit = .code 1 → ∃ sf e p,
      Located.assembleFile h.mode h.seg h.order h.load h.uuid fs h.fuel h.macroFuel input (SourceFiles.new h.cwd) = (sf, .err ⟨e, p⟩) ∧
      ((∀ r ∈ shownRanges p, ¬ Unshowable h.mode sf r) → ∃ t, MessageAbout h.seg sf word why e p t ∧
        Located.expandStderr h fs word why input = .ok ((Located.warnings h fs input).flatten ++
          "[ERROR] Failed to expand ".toList ++ input ++ "\n\n✘ ".toList ++ t))) := by
  obtain ⟨h1, h2⟩ := C83_expand h hs hl fs word why input
  unfold Located.expandStderr
  refine ⟨fun he => ?_, fun he => ?_⟩
  · rw [h1 he, Res.ok_bind, List.append_nil]
  · obtain ⟨sf, e, p, k1, k2⟩ := h2 he
    refine ⟨sf, e, p, k1, fun hf => ?_⟩
    obtain ⟨t, k3, k4⟩ := k2 hf
    refine ⟨t, k3, ?_⟩
    rw [k4, Res.ok_bind]
    simp only [List.append_assoc]

/-! Files that are found in the working directory -/

/-- Files in the directory `/w`, which is the working directory, with names from there -/
def fromWork (files : List (String × String)) : FS :=
  ⟨fun p => files.any fun f => work.join p = work.join (Path.parse f.1.toList), fun p => work.join p = work,
    fun p => (files.find? fun f => work.join p = work.join (Path.parse f.1.toList)).map fun f => utf8 f.2.toList⟩

/-- What is written when `src/main.s` of some files is assembled to `out.bin` -/
def heard (files : List (String × String)) : Res Text :=
  Located.assembleStderr { host byteByByte with fuel := 9, macroFuel := 9, load := fun _ => .err (.imageParseError []) }
    (fromWork files) "Name".toList [] "src/main.s".toList "out.bin".toList

/-- An included file is looked for twice, and so is data. -/
example : heard [("src/main.s", " .include asm \"b.s\"\n .include bytes \"c.bin\"\n"), ("b.s", " nop\n"), ("c.bin", "xy")] = .ok
    (warned (Path.parse "/w/src/b.s".toList) (Path.parse "b.s".toList) ++ warned (Path.parse "/w/src/b.s".toList) (Path.parse "b.s".toList) ++
      warned (Path.parse "/w/src/c.bin".toList) (Path.parse "c.bin".toList) ++
      warned (Path.parse "/w/src/c.bin".toList) (Path.parse "c.bin".toList) ++ "[OK] Assembled 3 bytes to out.bin.\n".toList) := by
  decide +kernel

example : String.ofList (warned (Path.parse "/w/src/b.s".toList) (Path.parse "b.s".toList)) =
    "WARNING: Path \"/w/src/b.s\" not found. Falling back to \"b.s\"\n" ++
    "         Please change the path to be relative to the source file, instead of relative to your working directory.\n" := by
  decide +kernel

/-- A file next to a file that was found in the working directory is warned about, too, although it is where it should be. -/
example : heard [("src/main.s", " .include asm \"b/b.s\"\n"), ("b/b.s", " .include asm \"c.s\"\n"), ("b/c.s", " nop\n")] = .ok
    (warned (Path.parse "/w/src/b/b.s".toList) (Path.parse "b/b.s".toList) ++
      warned (Path.parse "/w/src/b/b.s".toList) (Path.parse "b/b.s".toList) ++
      warned (Path.parse "b/b/c.s".toList) (Path.parse "b/c.s".toList) ++ "[OK] Assembled 1 bytes to out.bin.\n".toList) := by
  decide +kernel

/-- The warnings come before the message. -/
example : heard [("src/main.s", " .include asm \"b.s\"\n nope\n nop\n"), ("b.s", " nop\n")] = .ok
    (warned (Path.parse "/w/src/b.s".toList) (Path.parse "b.s".toList) ++ warned (Path.parse "/w/src/b.s".toList) (Path.parse "b.s".toList) ++
      "[ERROR] Failed to assemble src/main.s\n\n✘ No macro definition found for name nope.\n\nsrc/main.s:2:1-5\n   nope\n   ^^^^\n".toList) := by
  decide +kernel

/-- The hypotheses of `C84_none` hold for files in the working directory. -/
theorem fromWork_seen (files : List (String × String)) : SeenFrom (fromWork files) work := by
  intro name h
  have : work.join (work.join name) = work.join name := join_absolute (join_abs rfl)
  simp only [fromWork, this]

example : Located.warnings { host byteByByte with fuel := 9 } (fromWork [("main.s", " .include asm \"b.s\"\n"), ("b.s", " nop\n")])
    "main.s".toList = [] := by
  refine C84_none _ rfl _ _ (fromWork_seen _) fun g hg => ?_
  have hl : (loaded { host byteByByte with fuel := 9 } (fromWork [("main.s", " .include asm \"b.s\"\n"), ("b.s", " nop\n")])
      "main.s".toList).map (·.name) = [inWork "main.s", inWork "b.s"] := by decide +kernel
  have := hl ▸ List.mem_map_of_mem (f := fun g : SourceFile => g.name) hg
  simp only [List.mem_cons, List.not_mem_nil, or_false] at this
  rcases this with h | h <;> rw [h] <;> decide +kernel

end Verif.Props
