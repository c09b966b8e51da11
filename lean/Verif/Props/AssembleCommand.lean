import Verif.Props.AssembledFiles
import Verif.Props.FileErrors
import Verif.Props.Command
/-
C81 and C82 for the command `assemble`: what is in the output file, and what happens if the sources are wrong.
-/
namespace Verif.Props
open Verif.Spec

/-- **C81**: if `assemble` ends with code 0, the output file holds bytes that the files stand for.  If the files stand for bytes,
`assemble` ends with code 0, prints nothing, and the output file then holds these bytes (up to the order of palettes in icons);
no other file is changed. -/
theorem C81_command : ∃ dark : Color → Bool, (∀ c, luma c < 12750 → dark c = true) ∧ (∀ c, 12750 < luma c → dark c = false) ∧
    ∀ (h : Host) (_ : AsciiSeg h.seg) (_ : ∀ l, (h.order l).Perm l) (_ : LoadsFrames h.load) (_ : EvenFrames h.load)
      (_ : Suffixes h.uuid) (_ : h.cwd.abs = true) (fs : FS) (_ : NamedFiles fs) (input output : Text)
      (_ : AllPlain h.seg fs h.cwd (h.cwd.join (Path.parse input))) (_ : CallsClosed fs h.cwd (h.cwd.join (Path.parse input))),
      ((run h fs (.assemble input output)).exit = .code 0 →
        ∃ q d bytes, FilesMean h.mode fs h.cwd h.load dark h.uuid (h.cwd.join (Path.parse input)) q ∧
          (run h fs (.assemble input output)).disks.getLast? = some d ∧ d.read (h.cwd.join (Path.parse output)) = some bytes ∧
          (h.mode = .checked ∨ Below2GiB q → Addressable h.mode q ∧ Assembles h.mode q bytes)) ∧
      ∀ (q : List Stmt) (bytes : List UInt8), FilesMean h.mode fs h.cwd h.load dark h.uuid (h.cwd.join (Path.parse input)) q →
        Addressable h.mode q → Assembles h.mode q bytes → Willing h.os →
        ∃ n, ∀ fuel ≥ n, ∀ macroFuel ≥ n,
          (run { h with fuel, macroFuel } fs (.assemble input output)).exit = .code 0 ∧
          (run { h with fuel, macroFuel } fs (.assemble input output)).out = [] ∧
          ∃ d written, (run { h with fuel, macroFuel } fs (.assemble input output)).disks.getLast? = some d ∧
            d.read (h.cwd.join (Path.parse output)) = some written ∧ SameExcept (h.cwd.join (Path.parse output)) fs d ∧
            (NoIcons fs h.cwd (h.cwd.join (Path.parse input)) → written = bytes) := by
  obtain ⟨dark, h1, h2, hf⟩ := C81_files
  refine ⟨dark, h1, h2, fun h hs ho hl hv hu hd fs hN input output hA hc => ⟨fun hx => ?_, fun q bytes hq ha hb hw => ?_⟩⟩
  · rcases C70_code_0 h fs _ hx with ⟨t, hp, -⟩ | ⟨p, bs, d, hw, -, hd', -, hr⟩
    · cases hp
    · cases hw with
      | assemble hb =>
        obtain ⟨q, k1, k2⟩ := (hf (m := h.mode) hs ho hl hv hu hN hd hA hc).1 _ _ _ hb
        exact ⟨q, d, bs, k1, hd', hr trivial, k2⟩
  · obtain ⟨n, out', k1, k2⟩ := (hf (m := h.mode) hs ho hl hv hu hN hd hA hc).2 q bytes hq ha hb
    refine ⟨n, fun fuel f1 macroFuel f2 => ?_⟩
    have hT : ToWrite { h with fuel, macroFuel } fs (.assemble input output) (h.cwd.join (Path.parse output)) out' :=
      .assemble (k1 fuel f1 macroFuel f2)
    obtain ⟨c1, c2, c3⟩ := C70_writes { h with fuel, macroFuel } fs (.assemble input output) _ _ trivial hT
    obtain ⟨d, d1, d2, -, d3⟩ := c3 (c2 hw)
    exact ⟨c2 hw, c1, d, out', d1, d2, d3, k2⟩

/-- **C82**: if `assemble` ends with code 1, something is wrong with the files.  If something is wrong with them, it ends with code 1
and has neither written nor printed anything. -/
theorem C82_command : ∃ dark : Color → Bool, (∀ c, luma c < 12750 → dark c = true) ∧ (∀ c, 12750 < luma c → dark c = false) ∧
    ∀ (h : Host) (_ : AsciiSeg h.seg) (_ : ∀ l, (h.order l).Perm l) (_ : LoadsFrames h.load) (_ : EvenFrames h.load)
      (_ : Suffixes h.uuid) (_ : h.cwd.abs = true) (fs : FS) (_ : NamedFiles fs) (input output : Text)
      (_ : AllPlain h.seg fs h.cwd (h.cwd.join (Path.parse input))) (_ : CallsClosed fs h.cwd (h.cwd.join (Path.parse input)))
      (_ : ∀ q, FilesMean h.mode fs h.cwd h.load dark h.uuid (h.cwd.join (Path.parse input)) q → StaysBelow q ∧ MovesForward h.mode q),
      ((run h fs (.assemble input output)).exit = .code 1 →
        ∃ x, FilesFail h.mode fs h.cwd h.load dark h.uuid (h.cwd.join (Path.parse input)) x) ∧
      ∀ x, FilesFail h.mode fs h.cwd h.load dark h.uuid (h.cwd.join (Path.parse input)) x →
        ∃ n, ∀ fuel ≥ n, ∀ macroFuel ≥ n, run { h with fuel, macroFuel } fs (.assemble input output) = ⟨[], [], .code 1⟩ := by
  obtain ⟨dark, h1, h2, hf⟩ := C82_errors
  refine ⟨dark, h1, h2, fun h hs ho hl hv hu hd fs hN input output hA hc hb => ?_⟩
  obtain ⟨k1, k2⟩ := hf (m := h.mode) hs ho hl hv hu hN hd hA hc fun q hq => (hb q hq).1
  refine ⟨fun hx => ?_, fun x hx => ?_⟩
  · cases ha : assembleFile h.mode h.seg h.order h.load h.uuid fs h.fuel h.macroFuel (SourceFiles.new h.cwd) input with
    | ok bs =>
      have hw : ToWrite h fs (.assemble input output) (h.cwd.join (Path.parse output)) bs := .assemble ha
      have hc : WritesAll (.assemble input output) := trivial
      rcases (toWrite_saves hc hw).exit with e | e <;> rw [hx] at e <;> cases e
    | err x => exact ⟨x, k1 _ _ x ha⟩
    | panic => simp only [run, ha] at hx; cases hx
    | loop => simp only [run, ha] at hx; cases hx
  · obtain ⟨n, k⟩ := k2 (fun q hq => (hb q hq).2) x hx
    refine ⟨n, fun fuel f1 macroFuel f2 => ?_⟩
    simp only [run, k fuel f1 macroFuel f2]
    rfl

/-! The files of C81 and C82 meet the hypotheses. -/

def assembler : Host := { host byteByByte with load := noPictures, uuid := suffixes, fuel := 3, macroFuel := 3 }

example : ∃ n, ∀ fuel ≥ n, ∀ macroFuel ≥ n,
    ∃ d written, (run { assembler with fuel, macroFuel } severalFiles (.assemble "main.s".toList "out.vms".toList)).disks.getLast? = some d ∧
      d.read (work.join (Path.parse "out.vms".toList)) = some written := by
  obtain ⟨dark, -, -, h⟩ := C81_command
  obtain ⟨h1, h2⟩ := h assembler plainSeg_ascii (fun _ => .refl _) noPictures_frames.1 noPictures_frames.2 suffixes_plain rfl
    severalFiles (folder_named _) "main.s".toList "out.vms".toList several_ascii several_calls.1
  obtain ⟨q, d, bytes, k1, -, -, k2⟩ := h1 (by decide +kernel)
  obtain ⟨k2, k3⟩ := k2 (.inl rfl)
  obtain ⟨n, hn⟩ := h2 q bytes k1 k2 k3 byteByByte_willing
  refine ⟨n, fun fuel f1 macroFuel f2 => ?_⟩
  obtain ⟨-, -, d, w, e1, e2, -⟩ := hn fuel f1 macroFuel f2
  exact ⟨d, w, e1, e2⟩

example : ∃ n, ∀ fuel ≥ n, ∀ macroFuel ≥ n,
    run { assembler with fuel, macroFuel } unknownFiles (.assemble "main.s".toList "out.vms".toList) = ⟨[], [], .code 1⟩ := by
  obtain ⟨dark, -, -, h⟩ := C82_command
  obtain ⟨h1, h2⟩ := h assembler plainSeg_ascii (fun _ => .refl _) noPictures_frames.1 noPictures_frames.2 suffixes_plain rfl
    unknownFiles (folder_named _) "main.s".toList "out.vms".toList unknown_ascii unknown_calls fun q hq => unknown_orderly hq
  obtain ⟨x, hx⟩ := h1 (by decide +kernel)
  exact h2 x hx

end Verif.Props
