import Verif.Lemmas.Ends
import Verif.Props.Stderr
import Verif.Props.Vmi
/-
Properties of how the commands end: C88.  (For `assemble`, see also C66, C67 and C82.)
-/
namespace Verif.Props
open Verif.Spec

/-- **C88**: `expand` succeeds, or it ends just as `assemble` would: it fails only in reading the files and in expanding macros, and
what was read can always be printed. -/
theorem C88_expand (h : Host) (fs : FS) (input output : Text) :
    (run h fs (.expand input)).exit = .code 0 ∨
    (run h fs (.expand input)).exit = (run h fs (.assemble input output)).exit ∧ (run h fs (.assemble input output)).disks = [] := by
  simp only [run, expandFile, assembleFile]
  cases h1 : readStatements h.mode h.seg h.order h.load fs h.fuel (SourceFiles.new h.cwd) input with
  | ok p =>
    simp only [Res.ok_bind]
    cases h2 : expandMacros h.uuid h.macroFuel p with
    | ok q =>
      obtain ⟨t, ht⟩ := expanded_prints h1 h2
      simp only [Res.ok_bind, ht]
      exact .inl rfl
    | err e => exact .inr ⟨rfl, rfl⟩
    | panic => exact .inr ⟨rfl, rfl⟩
    | loop => exact .inr ⟨rfl, rfl⟩
  | err e => exact .inr ⟨rfl, rfl⟩
  | panic => exact .inr ⟨rfl, rfl⟩
  | loop => exact .inr ⟨rfl, rfl⟩

/-- **C88**: what `assemble` assembles, `expand` expands, even if the binary cannot be written. -/
theorem C88_assembles_expands (h : Host) (fs : FS) (input output : Text)
    (ha : (run h fs (.assemble input output)).exit = .code 0 ∨ (run h fs (.assemble input output)).disks ≠ []) :
    (run h fs (.expand input)).exit = .code 0 := by
  rcases C88_expand h fs input output with h1 | ⟨h1, h2⟩
  · exact h1
  · rcases ha with h3 | h3
    · rw [h1, h3]
    · exact absurd h2 h3

/-- **C88**: `disassemble` always ends, and if the system lets it write, it does not crash: it ends with code 0 or 1. -/
theorem C88_disassemble (h : Host) (fs : FS) (positions arrivedFrom : Bool) (fileType : Option Text) (input output : Text) :
    (run h fs (.disassemble positions arrivedFrom fileType input output)).exit ≠ .endless ∧
    (Willing h.os → (run h fs (.disassemble positions arrivedFrom fileType input output)).exit = .code 0 ∨
      (run h fs (.disassemble positions arrivedFrom fileType input output)).exit = .code 1) := by
  rw [run]
  unfold openFile
  cases hr : fs.read (h.cwd.join (Path.parse input)) with
  | none => exact ⟨nofun, fun _ => .inr rfl⟩
  | some bytes =>
    dsimp only [andThen]
    cases he : entriesFor (fileType.getD "raw".toList) with
    | none => exact ⟨nofun, fun _ => .inr rfl⟩
    | some entries =>
      dsimp only
      cases hd : disassemble arrivedFrom entries bytes with
      | ok out =>
        dsimp only
        obtain ⟨text, hp⟩ := disassemble_prints positions hd
        have hs := saveLines_saves h.os fs (h.cwd.join (Path.parse output)) hp
        refine ⟨?_, fun hw => .inl (hs.willing hw)⟩
        rcases hs.exit with hx | hx <;> rw [hx] <;> nofun
      | err e => exact ⟨nofun, fun _ => .inr rfl⟩
      | panic => exact absurd hd (C49_ends arrivedFrom entries bytes).2
      | loop => exact absurd hd (C49_ends arrivedFrom entries bytes).1

/-- **C88**: `vmi` ends; if the system lets it write, it crashes exactly if the file is too short to hold a description (in a game it is
at 0x210), ends with code 1 exactly if the file cannot be read, and with code 0 otherwise. -/
theorem C88_vmi (h : Host) (fs : FS) (hw : Willing h.os) (input : Text) (output copyright : Option Text) (game : Bool) :
    ((run h fs (.vmi input output copyright game)).exit = .panic ↔
      ∃ vms, fs.read (h.cwd.join (Path.parse input)) = some vms ∧ vms.length < (if game then 0x200 else 0) + 0x30) ∧
    ((run h fs (.vmi input output copyright game)).exit = .code 1 ↔ fs.read (h.cwd.join (Path.parse input)) = none) ∧
    ((run h fs (.vmi input output copyright game)).exit = .code 0 ↔
      ∃ vms, fs.read (h.cwd.join (Path.parse input)) = some vms ∧ (if game then 0x200 else 0) + 0x30 ≤ vms.length) := by
  rw [run]
  unfold openFile
  cases hr : fs.read (h.cwd.join (Path.parse input)) with
  | none => exact ⟨⟨nofun, nofun⟩, ⟨fun _ => rfl, fun _ => rfl⟩, nofun, nofun⟩
  | some vms =>
    dsimp only
    rw [Res.ok_bind]
    by_cases hlen : vms.length < (if game then 0x200 else 0) + 0x30
    · rw [C60_short hlen]
      refine ⟨⟨fun _ => ⟨vms, rfl, hlen⟩, fun _ => rfl⟩, ⟨nofun, nofun⟩, nofun, ?_⟩
      rintro ⟨vms', h1, h2⟩
      cases h1
      omega
    · obtain ⟨out, h1⟩ : ∃ out, vmiCommand vms input (copyright.getD []) game h.now = .ok out := by
        rw [vmiCommand, generateVmi, putDescription_ok _ _ _ (by omega)]
        exact ⟨_, rfl⟩
      rw [h1]
      have hx : (save h.os fs (h.cwd.join (Path.parse (vmiOutput input output))) out).exit = .code 0 :=
        (save_saves _ _ _ _).willing hw
      dsimp only [andThen]
      rw [hx]
      refine ⟨⟨nofun, ?_⟩, ⟨nofun, nofun⟩, fun _ => ⟨vms, rfl, by omega⟩, fun _ => rfl⟩
      rintro ⟨vms', h1, h2⟩
      cases h1
      exact absurd h2 hlen

/-- **C88**: `image` ends if loading the image does.  Then it ends with code 0, or it crashes: never with code 1.  If it prints the text, or the system
lets it write, it crashes exactly if the image cannot be loaded. -/
theorem C88_image (h : Host) (fs : FS) (input : Text) (format output : Option Text) (hl : h.load input ≠ .loop) :
    ((run h fs (.image input format output)).exit = .code 0 ∨ (run h fs (.image input format output)).exit = .panic) ∧
    ((output = none ∨ (∀ fs p, h.os.creates fs p = true) ∧ ∀ fs p bs, h.os.accepts fs p bs ≠ none) →
      ((run h fs (.image input format output)).exit = .code 0 ↔ ∃ i, h.load input = .ok i)) := by
  rw [run]
  cases hi : h.load input with
  | err e => exact ⟨.inr rfl, fun _ => ⟨nofun, nofun⟩⟩
  | panic => exact ⟨.inr rfl, fun _ => ⟨nofun, nofun⟩⟩
  | loop => exact absurd hi hl
  | ok i =>
    rw [Res.ok_bind]
    obtain ⟨t, ht⟩ := imageText_fine i (imageFormat (format.getD []))
    rw [ht]
    dsimp only [unwrap, andThen]
    cases output with
    | none => exact ⟨.inl rfl, fun _ => ⟨fun _ => ⟨i, rfl⟩, fun _ => rfl⟩⟩
    | some o =>
      dsimp only
      unfold saveOnce
      split
      · split
        · next h1 => exact ⟨.inr rfl, fun h2 => by
            rcases h2 with h2 | h2
            · cases h2
            · exact absurd h1 (h2.2 _ _ _)⟩
        · exact ⟨.inl rfl, fun _ => ⟨fun _ => ⟨i, rfl⟩, fun _ => rfl⟩⟩
      · next h1 => exact ⟨.inr rfl, fun h2 => by
          rcases h2 with h2 | h2
          · cases h2
          · exact absurd (h2.1 _ _) h1⟩

/-- **C88**: `icon` ends if loading the images does.  It crashes exactly if the speed is not a number below 65536, or if the
eyecatch is needed and is an image without frames. -/
theorem C88_icon (h : Host) (fs : FS) (ho : ∀ l, (h.order l).Perm l) (hl : ∀ path, h.load path ≠ .loop ∧ h.load path ≠ .panic)
    (args : List Text) (input : Text) (speed eyecatch : Option Text) :
    (run h fs (.icon args input speed eyecatch)).exit ≠ .endless ∧
    ((run h fs (.icon args input speed eyecatch)).exit = .panic ↔ (¬ ∃ v, SpeedArg speed v) ∨
      ∃ i p j, h.load input = .ok i ∧ ColoursAtMost 16 (pixels i) ∧ (∀ f ∈ i.frames, HasSize 32 32 f) ∧
        eyecatch = some p ∧ h.load p = .ok j ∧ j.frames = []) := by
  rw [run]
  cases hv : parseSpeed speed with
  | ok v =>
    have hsp := speedArg_iff.mpr hv
    rw [Res.ok_bind]
    obtain ⟨h1, h2⟩ := toIcon_stops ho hl input v eyecatch
    have h3 : ¬ ¬ ∃ v, SpeedArg speed v := fun h3 => h3 ⟨v, hsp⟩
    rw [or_iff_right h3, ← h2]
    cases hi : toIcon h.order h.load input v eyecatch with
    | ok ss =>
      have hss : ∀ s ∈ ss, Prints s := fun s hs => dataStmt_prints (toIcon_data (fun w hw => by
        subst hw
        cases hsp <;> assumption) hi s hs)
      obtain ⟨t, ht⟩ := printStatements_fine hss
      obtain ⟨u, hu⟩ := comment_prints "NOTE: This file was generated by the waterbear assembler:".toList
      obtain ⟨u', hu'⟩ := comment_prints (joinWith " ".toList args)
      rw [Res.ok_bind, iconText, hu, Res.ok_bind, hu', Res.ok_bind, ht, Res.ok_bind]
      exact ⟨nofun, nofun, nofun⟩
    | err e => exact ⟨nofun, nofun, nofun⟩
    | panic => exact ⟨nofun, fun _ => rfl, fun _ => rfl⟩
    | loop => exact absurd hi h1
  | panic =>
    refine ⟨nofun, fun _ => .inl ?_, fun _ => rfl⟩
    rintro ⟨v, h1⟩
    rw [speedArg_iff.mp h1] at hv
    cases hv
  | err e => unfold parseSpeed at hv; split at hv <;> (try split at hv) <;> cases hv
  | loop => unfold parseSpeed at hv; split at hv <;> (try split at hv) <;> cases hv

/-! ### Examples -/

/-- `.byte "é\a"` can be printed: `expand` writes the escape, and ends with code 0. -/
example : ∃ t, Stmt.print (.dir (.byte [.str (utf8 "é\x07".toList)])) = .ok t ∧ t = "  .byte \"é\\a\"".toList :=
  ⟨_, by decide +kernel, rfl⟩

/-- A file of 0x2F bytes is too short, and one of 0x30 bytes only for a game. -/
example : (run (host byteByByte) (binary (List.replicate 0x2F 0)) (.vmi "a.vms".toList none none false)).exit = .panic :=
  (C88_vmi _ _ byteByByte_willing _ _ _ _).1.mpr ⟨_, rfl, by decide +kernel⟩
example : (run (host byteByByte) (binary (List.replicate 0x30 0)) (.vmi "a.vms".toList none none true)).exit = .panic :=
  (C88_vmi _ _ byteByByte_willing _ _ _ _).1.mpr ⟨_, rfl, by decide +kernel⟩
example : (run (host byteByByte) (binary (List.replicate 0x30 0)) (.vmi "a.vms".toList none none false)).exit = .code 0 :=
  (C88_vmi _ _ byteByByte_willing _ _ _ _).2.2.mpr ⟨_, rfl, by decide +kernel⟩

/-- A speed of 65536 crashes `icon`. -/
example : (run (host byteByByte) (binary []) (.icon [] "a.png".toList (some "65536".toList) none)).exit = .panic := by decide +kernel

end Verif.Props
