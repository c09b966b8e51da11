import Verif.Lemmas.AssembledFiles
import Verif.Props.SourceErrors
import Verif.Props.DataIncludes
/-
C81: from the files to the bytes.
-/
namespace Verif.Props
open Spec Syntax

section
variable {seg : Seg} (hs : AsciiSeg seg) {fs : FS} {dir : Path} (hd : dir.abs = true) {name : Text}
  (hA : AllPlain seg fs dir (dir.join (Path.parse name))) (hN : NamedFiles fs)
include hs hd hA hN

/-- **C81**: whenever reading the files ends, the tokens are those of the files, each included file standing in the place of
its include.  The files have the numbers in which they were loaded. -/
theorem C81_tokens {fuel : Nat} {sf r} (h : Located.readTokens seg fs fuel name (SourceFiles.new dir) = (sf, r)) (hr : r ≠ .loop)
    {toks} : r = .ok (toks, dir.join (Path.parse name)) ↔ SourceTokens fs dir (loadedAs sf) (dir.join (Path.parse name)) toks := by
  have ho := Located.readTokens_outcome hs hd hA fuel
  rw [h] at ho
  constructor
  · intro e
    subst e
    exact (Located.readTokens_tokens hs hd hA h).2 _ (Located.numbered_of ho.good.ok)
  · intro ht
    obtain ⟨⟨toks', path⟩, e⟩ := (C80_iff hs hd hA hN h hr).1.mpr (Located.sourceTokens_reads ht)
    subst e
    obtain ⟨rfl, ht'⟩ := Located.readTokens_tokens hs hd hA h
    rw [Located.sourceTokens_unique hs hA ht (ht' _ (Located.numbered_of ho.good.ok))]

/-- **C81**: the program that is read is the one that the files are, and there is one only. -/
theorem C81_program {p : Program} :
    ((∃ n, ∀ fuel ≥ n, ∃ sf, readProgram seg fs fuel (SourceFiles.new dir) name = .ok (p, dir.join (Path.parse name), sf)) ↔
      SourceProgram fs dir (dir.join (Path.parse name)) p) ∧
    ∀ p', SourceProgram fs dir (dir.join (Path.parse name)) p → SourceProgram fs dir (dir.join (Path.parse name)) p' → p = p' := by
  refine ⟨⟨fun ⟨n, h⟩ => ?_, fun h => ?_⟩, fun p' h h' => sourceProgram_unique hs hA h h'⟩
  · obtain ⟨sf, h⟩ := h n (Nat.le_refl _)
    exact readProgram_source hs hd hA h
  · obtain ⟨n, sf, h⟩ := readProgram_complete hs hN hd hA h
    exact ⟨n, fun fuel hf => ⟨sf, h fuel hf⟩⟩

end

/-- **C81**: the bytes that the assembler writes are those that the files stand for: included files and C headers in the place
of their includes, the program parsed, lines of data in the place of includes of data, macro calls expanded, and the
resulting lines assembled (C22).  Files that stand for bytes are assembled.  The bytes are determined by the files, except
for the palettes of icons, which can list their colours in any order. -/
theorem C81_files : ∃ dark : Color → Bool, (∀ c, luma c < 12750 → dark c = true) ∧ (∀ c, 12750 < luma c → dark c = false) ∧
    ∀ {m : Mode} {seg : Seg} (_ : AsciiSeg seg) {order : List Color → List Color} (_ : ∀ l, (order l).Perm l)
      {load : Text → Res Image} (_ : LoadsFrames load) (_ : EvenFrames load) {uuid : Nat → Text} (_ : Suffixes uuid)
      {fs : FS} (_ : NamedFiles fs) {dir : Path} (_ : dir.abs = true) {name : Text}
      (_ : AllPlain seg fs dir (dir.join (Path.parse name))) (_ : CallsClosed fs dir (dir.join (Path.parse name))),
      (∀ fuel macroFuel out, assembleFile m seg order load uuid fs fuel macroFuel (SourceFiles.new dir) name = .ok out →
        ∃ q, FilesMean m fs dir load dark uuid (dir.join (Path.parse name)) q ∧
          (m = .checked ∨ Below2GiB q → Addressable m q ∧ Assembles m q out)) ∧
      ∀ q out, FilesMean m fs dir load dark uuid (dir.join (Path.parse name)) q → Addressable m q → Assembles m q out →
        ∃ n out', (∀ fuel ≥ n, ∀ macroFuel ≥ n,
          assembleFile m seg order load uuid fs fuel macroFuel (SourceFiles.new dir) name = .ok out') ∧
          (NoIcons fs dir (dir.join (Path.parse name)) → out' = out) := by
  refine ⟨darkBit, fun c h => decide_eq_true ((gray_dark c).1 h), fun c h => decide_eq_false ((gray_dark c).2 h), ?_⟩
  intro m seg hs order ho load hl hv uuid hu fs hN dir hd name hA hc
  refine ⟨fun fuel macroFuel out h => ?_, fun q out h ha hb => files_accepted hs hN ho hl hv hd hA hc hu h ha hb⟩
  obtain ⟨q, h1, h2, h3⟩ := assembleFile_means hs ho hl hv hd hA hc hu h
  refine ⟨q, h1, fun hb => ⟨fun ps hps => ?_, assemble_sound h2 hb h3⟩⟩
  obtain ⟨ps', k1, k2, k3⟩ := ok_layout h2 hb h3
  rw [hps] at k1
  cases k1
  exact ⟨k2, k3⟩

/-- **C81**: so a checked build assembles files without icons to exactly the bytes that they stand for. -/
theorem C81_exactly : ∃ dark : Color → Bool, (∀ c, luma c < 12750 → dark c = true) ∧ (∀ c, 12750 < luma c → dark c = false) ∧
    ∀ {seg : Seg} (_ : AsciiSeg seg) {order : List Color → List Color} (_ : ∀ l, (order l).Perm l)
      {load : Text → Res Image} (_ : LoadsFrames load) (_ : EvenFrames load) {uuid : Nat → Text} (_ : Suffixes uuid)
      {fs : FS} (_ : NamedFiles fs) {dir : Path} (_ : dir.abs = true) {name : Text}
      (_ : AllPlain seg fs dir (dir.join (Path.parse name))) (_ : CallsClosed fs dir (dir.join (Path.parse name)))
      (_ : NoIcons fs dir (dir.join (Path.parse name))) {out : List UInt8},
      (∃ n, ∀ fuel ≥ n, ∀ macroFuel ≥ n,
        assembleFile .checked seg order load uuid fs fuel macroFuel (SourceFiles.new dir) name = .ok out) ↔
      ∃ q, FilesMean .checked fs dir load dark uuid (dir.join (Path.parse name)) q ∧ Addressable .checked q ∧
        Assembles .checked q out := by
  obtain ⟨dark, h1, h2, h⟩ := C81_files
  refine ⟨dark, h1, h2, ?_⟩
  intro seg hs order ho load hl hv uuid hu fs hN dir hd name hA hc hi out
  obtain ⟨ha, hb⟩ := h (m := .checked) hs ho hl hv hu hN hd hA hc
  constructor
  · rintro ⟨n, hn⟩
    obtain ⟨q, k1, k2⟩ := ha n n out (hn n (Nat.le_refl _) n (Nat.le_refl _))
    exact ⟨q, k1, k2 (.inl rfl)⟩
  · rintro ⟨q, k1, k2, k3⟩
    obtain ⟨n, out', k4, k5⟩ := hb q out k1 k2 k3
    rw [k5 hi] at k4
    exact ⟨n, k4⟩

/-! Files that meet the hypotheses -/

/-- A program with an included file, a C header, a macro with a label, and bytes. -/
def severalFiles : FS := folder [("main.s", ".include \"a.s\"\nStart: twice #five\n.include bytes \"b.bin\"\n jmp start\n"),
  ("a.s", ".include cpp \"h.h\"\n%macro twice %x\n add %x\nlp%: bnz lp%\n%end\n"), ("b.bin", "AB"), ("h.h", "// a constant\n#define FIVE 5\n")]

theorem several_ascii : AllPlain plainSeg severalFiles work (work.join (Path.parse "main.s".toList)) :=
  folder_ascii (by unfold Ascii; decide +kernel) _ _

def noPictures (_ : Text) : Res Image := .err (.invalidPath [])

theorem noPictures_frames : LoadsFrames noPictures ∧ EvenFrames noPictures := ⟨fun _ => ⟨nofun, nofun, nofun⟩, nofun⟩

/-- The program that the files are. -/
def severalProgram : Program where
  macros := [(("twice".toList, 1), ⟨"twice".toList, ["%x".toList],
    [.instr "add".toList [.macroArg "%x".toList], .macroLabel "lp%".toList, .instr "bnz".toList [.ex (.macroLabel "lp%".toList)]]⟩)]
  stmts := [.alias "five".toList (.number 5 .decimal), .label "start".toList, .macroCall "twice".toList [.imm (.name "five".toList)],
    .dir (.incl .bytes "/w/b.bin".toList), .instr (.Jmp (.name "start".toList))]

theorem several_read : ∃ sf, readProgram plainSeg severalFiles 3 (SourceFiles.new work) "main.s".toList =
    .ok (severalProgram, work.join (Path.parse "main.s".toList), sf) := by
  have h : (readProgram plainSeg severalFiles 3 (SourceFiles.new work) "main.s".toList >>= fun x => .ok (x.1, x.2.1)) =
      .ok (severalProgram, work.join (Path.parse "main.s".toList)) := by decide +kernel
  obtain ⟨⟨p, path, sf⟩, h1, h⟩ := Res.bind_eq_ok.mp h
  cases h
  exact ⟨sf, h1⟩

theorem several_program {p : Program} :
    SourceProgram severalFiles work (work.join (Path.parse "main.s".toList)) p ↔ p = severalProgram := by
  obtain ⟨sf, h⟩ := several_read
  have h := readProgram_source plainSeg_ascii rfl several_ascii h
  exact ⟨fun h' => sourceProgram_unique plainSeg_ascii several_ascii h' h, fun e => e ▸ h⟩

theorem several_calls : CallsClosed severalFiles work (work.join (Path.parse "main.s".toList)) ∧
    NoIcons severalFiles work (work.join (Path.parse "main.s".toList)) := by
  constructor
  · intro p hp
    rw [several_program] at hp
    subst hp
    intro name args hm
    simp only [severalProgram, List.mem_cons, reduceCtorEq, Stmt.macroCall.injEq, false_or, or_false, List.not_mem_nil] at hm
    obtain ⟨-, rfl⟩ := hm
    decide
  · intro p hp
    rw [several_program] at hp
    subst hp
    intro speed eye name hm
    simp [severalProgram] at hm

/-- The files stand for these bytes. -/
example : ∃ dark q, FilesMean .checked severalFiles work noPictures dark suffixes (work.join (Path.parse "main.s".toList)) q ∧
    Addressable .checked q ∧ Assembles .checked q [0x81, 5, 0x90, 0xFE, 0x41, 0x42, 0x28, 0] := by
  obtain ⟨dark, -, -, h⟩ := C81_files
  obtain ⟨q, h1, h2⟩ := (h (m := .checked) (order := id) plainSeg_ascii (fun _ => .refl _) noPictures_frames.1 noPictures_frames.2
    suffixes_plain (folder_named _) rfl several_ascii several_calls.1).1 3 3 [0x81, 5, 0x90, 0xFE, 0x41, 0x42, 0x28, 0] (by decide +kernel)
  exact ⟨dark, q, h1, h2 (.inl rfl)⟩

/-- Each file stands where it is included. -/
example : ∃ id toks, Numbering id ∧ SourceTokens severalFiles work id (work.join (Path.parse "main.s".toList)) toks ∧
    (words toks).take 3 = [.name "five".toList, .name "equ".toList, .number 5 .decimal] := by
  have h : ((Located.readTokens plainSeg severalFiles 3 "main.s".toList (SourceFiles.new work)).2.erase fun x => (words x.1).take 3) =
      .ok [.name "five".toList, .name "equ".toList, .number 5 .decimal] := by decide +kernel
  cases e : Located.readTokens plainSeg severalFiles 3 "main.s".toList (SourceFiles.new work) with
  | mk sf r =>
    rw [e] at h
    cases r with
    | ok x =>
      obtain ⟨toks, path⟩ := x
      have ho := Located.readTokens_outcome plainSeg_ascii rfl several_ascii 3
      rw [e] at ho
      exact ⟨loadedAs sf, toks, Located.loadedAs_numbering sf,
        (Located.readTokens_tokens plainSeg_ascii rfl several_ascii e).2 _ (Located.numbered_of ho.good.ok), Res.ok.inj h⟩
    | err x => cases h
    | panic => cases h
    | loop => cases h

end Verif.Props
