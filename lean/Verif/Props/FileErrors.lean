import Verif.Lemmas.FileErrors
import Verif.Props.AssembledFiles
/-
C82: from the files to the error.
-/
namespace Verif.Props
open Spec Syntax

/-- **C82**: the error that the assembler reports for a file is the first thing that is wrong with it, in the order of `FilesFail`,
and the first thing that is wrong with it is always reported. -/
theorem C82_errors : ∃ dark : Color → Bool, (∀ c, luma c < 12750 → dark c = true) ∧ (∀ c, 12750 < luma c → dark c = false) ∧
    ∀ {m : Mode} {seg : Seg} (_ : AsciiSeg seg) {order : List Color → List Color} (_ : ∀ l, (order l).Perm l)
      {load : Text → Res Image} (_ : LoadsFrames load) (_ : EvenFrames load) {uuid : Nat → Text} (_ : Suffixes uuid)
      {fs : FS} (_ : NamedFiles fs) {dir : Path} (_ : dir.abs = true) {name : Text}
      (_ : AllPlain seg fs dir (dir.join (Path.parse name))) (_ : CallsClosed fs dir (dir.join (Path.parse name)))
      (_ : ∀ q, FilesMean m fs dir load dark uuid (dir.join (Path.parse name)) q → StaysBelow q),
      (∀ fuel macroFuel x, assembleFile m seg order load uuid fs fuel macroFuel (SourceFiles.new dir) name = .err x →
        FilesFail m fs dir load dark uuid (dir.join (Path.parse name)) x) ∧
      ((∀ q, FilesMean m fs dir load dark uuid (dir.join (Path.parse name)) q → MovesForward m q) →
        ∀ x, FilesFail m fs dir load dark uuid (dir.join (Path.parse name)) x →
          ∃ n, ∀ fuel ≥ n, ∀ macroFuel ≥ n,
            assembleFile m seg order load uuid fs fuel macroFuel (SourceFiles.new dir) name = .err x) := by
  refine ⟨darkBit, fun c h => decide_eq_true ((gray_dark c).1 h), fun c h => decide_eq_false ((gray_dark c).2 h), ?_⟩
  intro m seg hs order ho load hl hv uuid hu fs hN dir hd name hA hc hb
  exact ⟨fun fuel macroFuel x h => assembleFile_fails hs ho hl hv hd hA hc hu hb h,
    fun hf x h => fails_assembleFile hs hN ho hl hv hd hA hc hu (fun q hq => ⟨hb q hq, hf q hq⟩) h⟩

/-- **C82**: so at most one error is right for a file, and none is for a file that stands for bytes: what the assembler
answers is decided by the files alone. -/
theorem C82_only : ∃ dark : Color → Bool, (∀ c, luma c < 12750 → dark c = true) ∧ (∀ c, 12750 < luma c → dark c = false) ∧
    ∀ {m : Mode} {seg : Seg} (_ : AsciiSeg seg) {load : Text → Res Image} (_ : LoadsFrames load) (_ : EvenFrames load)
      {uuid : Nat → Text} (_ : Suffixes uuid) {fs : FS} (_ : NamedFiles fs) {dir : Path} (_ : dir.abs = true) {name : Text}
      (_ : AllPlain seg fs dir (dir.join (Path.parse name))) (_ : CallsClosed fs dir (dir.join (Path.parse name)))
      (_ : ∀ q, FilesMean m fs dir load dark uuid (dir.join (Path.parse name)) q → StaysBelow q ∧ MovesForward m q) {x : Err}
      (_ : FilesFail m fs dir load dark uuid (dir.join (Path.parse name)) x),
      (∀ y, FilesFail m fs dir load dark uuid (dir.join (Path.parse name)) y → y = x) ∧
      ∀ q out, FilesMean m fs dir load dark uuid (dir.join (Path.parse name)) q → ¬ Assembles m q out := by
  refine ⟨darkBit, fun c h => decide_eq_true ((gray_dark c).1 h), fun c h => decide_eq_false ((gray_dark c).2 h), ?_⟩
  intro m seg hs load hl hv uuid hu fs hN dir hd name hA hc hb x h
  obtain ⟨n, hn⟩ := fails_assembleFile (order := id) hs hN (fun _ => .refl _) hl hv hd hA hc hu hb h
  constructor
  · intro y hy
    obtain ⟨k, hk⟩ := fails_assembleFile (order := id) hs hN (fun _ => .refl _) hl hv hd hA hc hu hb hy
    have h1 := hn (n + k) (by omega) (n + k) (by omega)
    rw [hk (n + k) (by omega) (n + k) (by omega)] at h1
    exact Res.err.inj h1
  · intro q out hq ha
    obtain ⟨hbel, hfwd⟩ := hb q hq
    obtain ⟨k, out', hk, -⟩ := files_accepted (seg := seg) (order := id) hs hN (fun _ => .refl _) hl hv hd hA hc hu hq
      (fun ps hps => ⟨hbel q [] ps (List.append_nil _).symm hps, hfwd.imp id fun h => h ps hps⟩) ha
    have h1 := hn (n + k) (by omega) (n + k) (by omega)
    rw [hk (n + k) (by omega) (n + k) (by omega)] at h1
    cases h1

/-! Files that meet the hypotheses -/

/-- An included file defines `five`, and the main file uses it, and a name that is defined nowhere. -/
def unknownFiles : FS := folder [("main.s", ".include \"a.s\"\nstart: mov #five, 3\n jmp stat\n"), ("a.s", "five equ 5\n")]

theorem unknown_ascii : AllPlain plainSeg unknownFiles work (work.join (Path.parse "main.s".toList)) :=
  folder_ascii (by unfold Ascii; decide +kernel) _ _

def unknownProgram : Program where
  macros := []
  stmts := [.alias "five".toList (.number 5 .decimal), .label "start".toList,
    .instr (.Mov_d9 (.name "five".toList) (.number 3 .decimal)), .instr (.Jmp (.name "stat".toList))]

theorem unknown_program {p : Program} :
    SourceProgram unknownFiles work (work.join (Path.parse "main.s".toList)) p ↔ p = unknownProgram := by
  have h : (readProgram plainSeg unknownFiles 3 (SourceFiles.new work) "main.s".toList >>= fun x => .ok (x.1, x.2.1)) =
      .ok (unknownProgram, work.join (Path.parse "main.s".toList)) := by decide +kernel
  obtain ⟨⟨p, path, sf⟩, h1, h⟩ := Res.bind_eq_ok.mp h
  cases h
  have h := readProgram_source plainSeg_ascii rfl unknown_ascii h1
  exact ⟨fun h' => sourceProgram_unique plainSeg_ascii unknown_ascii h' h, fun e => e ▸ h⟩

theorem unknown_calls : CallsClosed unknownFiles work (work.join (Path.parse "main.s".toList)) := by
  intro p hp
  rw [unknown_program] at hp
  subst hp
  intro name args hm
  simp [unknownProgram] at hm

theorem unknown_means {m dark q} (h : FilesMean m unknownFiles work noPictures dark suffixes (work.join (Path.parse "main.s".toList)) q) :
    q = unknownProgram.stmts := by
  obtain ⟨p, ss, fresh, h1, h2, h3, -⟩ := h
  rw [unknown_program] at h1
  subst h1
  unfold unknownProgram at h2 h3 ⊢
  dsimp only at h2 h3 ⊢
  have e : ss = unknownProgram.stmts := by
    cases h2 with | other _ h2 => cases h2 with | other _ h2 => cases h2 with | other _ h2 => cases h2 with | other _ h2 =>
    cases h2; rfl
  subst e
  cases h3 with | keep _ h3 => cases h3 with | keep _ h3 => cases h3 with | keep _ h3 => cases h3 with | keep _ h3 =>
  cases h3; rfl

theorem unknown_orderly {m dark q}
    (h : FilesMean m unknownFiles work noPictures dark suffixes (work.join (Path.parse "main.s".toList)) q) :
    StaysBelow q ∧ MovesForward m q := by
  rw [unknown_means h]
  have hl : layout unknownProgram.stmts = some [⟨0, [], .alias "five".toList (.number 5 .decimal)⟩, ⟨0, [], .label "start".toList⟩,
    ⟨0, "start".toList, .instr (.Mov_d9 (.name "five".toList) (.number 3 .decimal))⟩,
    ⟨3, "start".toList, .instr (.Jmp (.name "stat".toList))⟩] := rfl
  constructor
  · intro before after qs e hq
    rw [e] at hl
    obtain ⟨ps1, ps2, _, h1, _, h2, _⟩ := place_append hl
    rw [show layout before = place 0 [] before from rfl, h1] at hq
    cases hq
    have hf : Fits (qs ++ ps2) := by rw [← h2]; unfold Fits; decide
    exact fun q hm => hf q (List.mem_append_left _ hm)
  · right
    intro ps h
    rw [hl] at h
    cases h
    unfold CnopForward
    simp

/-- The name is what is wrong with the files, and nothing else is. -/
example : ∃ dark, FilesFail .checked unknownFiles work noPictures dark suffixes (work.join (Path.parse "main.s".toList))
      (.nameNotFound "stat".toList) ∧
    ∀ x, FilesFail .checked unknownFiles work noPictures dark suffixes (work.join (Path.parse "main.s".toList)) x →
      x = .nameNotFound "stat".toList := by
  obtain ⟨dark, -, -, h⟩ := C82_errors
  obtain ⟨h1, h2⟩ := h (m := .checked) (order := id) plainSeg_ascii (fun _ => .refl _) noPictures_frames.1 noPictures_frames.2
    suffixes_plain (folder_named _) rfl unknown_ascii unknown_calls fun q hq => (unknown_orderly hq).1
  have h3 : assembleFile .checked plainSeg id noPictures suffixes unknownFiles 3 3 (SourceFiles.new work) "main.s".toList =
      .err (.nameNotFound "stat".toList) := by decide +kernel
  refine ⟨dark, h1 3 3 _ h3, fun x hx => ?_⟩
  obtain ⟨n, hn⟩ := h2 (fun q hq => (unknown_orderly hq).2) x hx
  obtain ⟨k, hk⟩ := h2 (fun q hq => (unknown_orderly hq).2) _ (h1 3 3 _ h3)
  have e := hn (n + k) (by omega) (n + k) (by omega)
  rw [hk (n + k) (by omega) (n + k) (by omega)] at e
  exact (Res.err.inj e).symm

end Verif.Props
