import Verif.Lemmas.Stderr
import Verif.Props.Command
import Verif.Props.Disassembly
import Verif.Props.Images
import Verif.Props.LoadImage
/-
Properties of the messages of `disassemble`, `icon` and `vmi`: C85.
-/
namespace Verif.Props
open Verif.Spec

/-- **C85**: if the listing is made, `disassemble` names positions beyond the end of the binary, and nothing else: entry points, and
positions where control can go from a listed instruction.  It names all of them, except for jumps into another memory. -/
theorem C85_positions (h : Host) (fs : FS) (quoted : Text → Text) (why : Text) (fileType : Option Text) (input : Text)
    (bytes : List UInt8) (hr : fs.read (h.cwd.join (Path.parse input)) = some bytes) (hlen : bytes.length < 2147483644)
    (entries : List Nat) (ht : FileType fileType entries) (flag : Bool) (out : List DStmt)
    (hd : disassemble flag entries bytes = .ok out) :
    ∃ qs, disassembleStderr h fs quoted why fileType input = positionLines qs ∧
      (∀ q ∈ qs, (q ∈ entries ∧ bytes.length < q) ∨ Strays bytes (ListedAt out) q) ∧
      (∀ q ∈ entries, bytes.length < q → q ∈ qs) ∧
      ∀ q, StraysHere bytes (ListedAt out) q → q ∈ qs := by
  obtain ⟨g, body, h1, rfl, h2⟩ := disassemble_ok hd
  have htr := trace_ok h1
  have hl := listed_iff (size := bytes.length) htr.sound h2
  have hto := traceNotes_told h1
  refine ⟨(traceNotes entries bytes).1, ?_, fun q hq => ?_, fun q hq hlt => (hto.entries q hq hlt).resolve_right (by simp),
    fun q hq => ?_⟩
  · unfold disassembleStderr openFile
    rw [hr]
    dsimp only
    rw [fileType_iff.mp ht]
    dsimp only
    rw [traceNotes_eq, h1]
    dsimp only
    rw [List.append_nil]
    rfl
  · obtain ⟨b1, -⟩ := traceNotes_pointed hlen hq
    rcases traceNotes_from hlen h1 hq with h3 | ⟨p, i, t, h3, h4, h5, h6⟩
    · exact .inl ⟨h3, b1⟩
    · exact .inr ⟨b1, p, i, t, (hl p).mpr h3, h4, h5, h6⟩
  · obtain ⟨b1, p, i, t, b2, b3, b4, b5, b6⟩ := hq
    obtain ⟨j, hj⟩ := Option.isSome_iff_exists.mp ((hl p).mp b2)
    have hji : j = i := by
      have := (htr.sound p j hj).2
      rw [b3.2] at this
      simp only [Res.ok.injEq, Option.some.injEq] at this
      exact this.symm
    subst hji
    refine (hto.closed p j hj q ?_ b1).resolve_right (by simp)
    rw [mem_targets_all (decode_inRange b3.2) (flows_instr b3 hlen)]
    refine ⟨⟨t, b4, b5⟩, fun ⟨e1, e2⟩ => ?_⟩
    obtain ⟨g1, g2, _⟩ := toFlash_iff.mp e2
    exact b6 g1 _ ((hl _).mpr (by simp [Graph.contains, g2])) (htr.sound _ _ g2) ⟨rfl, e1⟩

/-- **C85**: `disassemble` ends with code 1 exactly if it says why: the file cannot be read, the type of file is unknown, or
control can reach an instruction that is cut off by the end of the binary. -/
theorem C85_disassemble (h : Host) (fs : FS) (quoted : Text → Text) (why : Text) (positions arrivedFrom : Bool)
    (fileType : Option Text) (input output : Text) (hlen : ∀ bytes, fs.read (h.cwd.join (Path.parse input)) = some bytes → bytes.length < 2147483644) :
    (run h fs (.disassemble positions arrivedFrom fileType input output)).exit = .code 1 ↔
      (fs.read (h.cwd.join (Path.parse input)) = none ∧
        disassembleStderr h fs quoted why fileType input = "ERROR: NoSuchFile(".toList ++ quoted input ++ ", ".toList ++ why ++ ")\n".toList) ∨
      ∃ bytes, fs.read (h.cwd.join (Path.parse input)) = some bytes ∧
        ((∃ t, fileType = some t ∧ (¬ ∃ entries, FileType fileType entries) ∧
            disassembleStderr h fs quoted why fileType input = "ERROR: UnknownFileType(".toList ++ quoted t ++ ")\n".toList) ∨
          ∃ entries qs p b, FileType fileType entries ∧ disassemble arrivedFrom entries bytes = .err (.noInstruction p b.toNat) ∧
            Reached entries bytes p ∧ bytes[p]? = some b ∧ (∃ f, (row f).selects b = true ∧ bytes.length < p + (row f).size) ∧
            (∀ q ∈ qs, (q ∈ entries ∧ bytes.length < q) ∨ Strays bytes (Reached entries bytes) q) ∧
            disassembleStderr h fs quoted why fileType input = positionLines qs ++
              ("ERROR: NoInstruction(".toList ++ digitsOf 10 p ++ ", ".toList ++ digitsOf 10 b.toNat ++ ")\n".toList)) := by
  rw [run]
  unfold disassembleStderr openFile
  cases hr : fs.read (h.cwd.join (Path.parse input)) with
  | none =>
    dsimp only [andThen]
    exact ⟨fun _ => .inl ⟨rfl, rfl⟩, fun _ => rfl⟩
  | some bytes =>
    dsimp only [andThen]
    cases he : entriesFor (fileType.getD "raw".toList) with
    | none =>
      dsimp only
      have hno : ¬ ∃ entries, FileType fileType entries := by
        rintro ⟨entries, h1⟩
        rw [fileType_iff.mp h1] at he
        cases he
      refine ⟨fun _ => .inr ⟨bytes, rfl, .inl ?_⟩, fun _ => rfl⟩
      cases fileType with
      | none => exact absurd ⟨_, .default⟩ hno
      | some t => exact ⟨t, rfl, hno, rfl⟩
    | some entries =>
      dsimp only
      have hft := fileType_iff.mpr he
      have hone : ∀ entries', FileType fileType entries' → entries' = entries := by
        intro entries' h1
        have := fileType_iff.mp h1
        rw [he] at this
        cases this
        rfl
      cases hd : disassemble arrivedFrom entries bytes with
      | ok out =>
        dsimp only
        have hx : (saveLines h.os fs (h.cwd.join (Path.parse output)) positions out).exit ≠ .code 1 := by
          obtain ⟨text, hp⟩ := disassemble_prints positions hd
          rcases (saveLines_saves h.os fs (h.cwd.join (Path.parse output)) hp).exit with hx | hx <;> rw [hx] <;> decide
        refine ⟨fun h1 => absurd h1 hx, ?_⟩
        rintro (⟨h1, -⟩ | ⟨bytes', h1, ⟨t, -, h2, -⟩ | ⟨entries', qs, p, b, h2, h3, -⟩⟩)
        · cases h1
        · exact absurd ⟨entries, hft⟩ h2
        · cases h1
          rw [hone _ h2, hd] at h3
          cases h3
      | err e =>
        dsimp only
        refine ⟨fun _ => .inr ⟨bytes, rfl, .inr ?_⟩, fun _ => rfl⟩
        obtain ⟨p, b, h1, h2, rfl, h3⟩ := C49_errors arrivedFrom entries bytes (hlen bytes hr) e hd
        have ht : trace entries bytes = .err (.noInstruction p b.toNat) := by
          rcases Res.bind_eq_err.mp hd with h4 | ⟨g, hg, h4⟩
          · exact h4
          · exfalso
            obtain ⟨out, ho⟩ := emitLoop_fine (flag := arrivedFrom) (entries := entries) (names := buildNames g) (trace_ok hg).sound
              bytes.length 0 (fun _ => false) (by omega)
            simp only [ho, Res.ok_bind] at h4
            cases h4
        refine ⟨entries, (traceNotes entries bytes).1, p, b, hft, hd, h1, h2, h3, fun q hq => ?_, ?_⟩
        · obtain ⟨b1, b2⟩ := traceNotes_pointed (hlen bytes hr) hq
          rcases b2 with b2 | ⟨p', i, t, b2⟩
          · exact .inl ⟨b2, b1⟩
          · exact .inr ⟨b1, p', i, t, b2⟩
        · rw [traceNotes_eq, ht]
          rfl
      | panic => exact absurd hd (C49_ends arrivedFrom entries bytes).2
      | loop => exact absurd hd (C49_ends arrivedFrom entries bytes).1

/-- **C85**: `icon` ends with code 1 exactly if there is no icon, and it says the first reason for this. -/
theorem C85_icon (h : Host) (fs : FS) (ho : ∀ l, (h.order l).Perm l) (hl : LoadErrors h.load) (why : Text) (args : List Text)
    (input : Text) (speed eyecatch : Option Text) (v : Option Nat) (hv : SpeedArg speed v) :
    ((run h fs (.icon args input speed eyecatch)).exit = .code 1 ↔ ∃ t, IconSays h.load why input eyecatch t) ∧
    ∀ t, IconSays h.load why input eyecatch t → iconStderr h why input speed eyecatch = t := by
  have hcode : (run h fs (.icon args input speed eyecatch)).exit = .code 1 ↔
      ∃ x, toIcon h.order h.load input v eyecatch = .err x := by
    rw [run, speedArg_iff.mp hv, Res.ok_bind]
    cases hi : toIcon h.order h.load input v eyecatch with
    | ok ss =>
      rw [Res.ok_bind]
      cases ht : iconText args ss with
      | ok t => simp [andThen]
      | err e =>
        exact absurd ht (iconText_no_err _ _ _)
      | panic => simp [andThen]
      | loop => simp [andThen]
    | err e => simp [andThen]
    | panic => simp [andThen]
    | loop => simp [andThen]
  have hsays : ∀ t, IconSays h.load why input eyecatch t →
      ∃ x, toIcon h.order h.load input v eyecatch = .err x ∧ iconErrorText why x = t := by
    intro t ht
    cases ht with
    | load h1 h2 => exact ⟨_, by rw [toIcon, h1]; rfl, load_text h2⟩
    | colours h4 h5 h6 =>
      obtain ⟨n, c1, c2, c3⟩ := (icon_errors ho h4 v eyecatch).1 fun h' => by have := h5.2 _ h'; omega
      have a := h5.2 n c1
      have : n = _ := Nat.le_antisymm (Nat.le_of_not_lt fun hlt => c2 ?_) a
      · subst this
        exact ⟨_, c3, colours_text _ _ _⟩
      · obtain ⟨⟨l, l1, l2⟩, -⟩ := h5
        exact ⟨l, by omega, l2⟩
    | size h4 h5 h6 =>
      exact ⟨_, (icon_errors ho h4 v eyecatch).2.1 h5 h6, size_text _ _⟩
    | @eyecatch p i x t h4 h5 h6 h7 h8 =>
      refine ⟨x, ?_, load_text h8⟩
      have hp := (palette_count i 16).mpr h5
      rw [toIcon, h4, Res.ok_bind]
      dsimp only
      rw [if_neg (by omega), if_neg (by rw [(imageSize_iff i 32 32).mpr h6]; decide), loadEyecatch]
      rw [h7]
      rfl
    | eyecatchSize h4 h5 h6 h7 h8 =>
      obtain ⟨p, hp, h9⟩ := (icon_errors ho h4 v _).2.2 _ h5 h6 h7 h8
      cases hp
      exact ⟨_, h9, eyecatch_text _ _⟩
  refine ⟨hcode.trans ⟨fun ⟨x, h1⟩ => ?_, fun ⟨t, ht⟩ => (hsays t ht).imp fun _ h => h.1⟩, fun t ht => ?_⟩
  · have hload : ∀ p x, h.load p = .err x → ∃ t, LoadSays why x t := by
      intro p x h2
      rcases hl p x h2 with ⟨f, rfl⟩ | ⟨f, rfl⟩
      · exact ⟨_, .file⟩
      · exact ⟨_, .image⟩
    rcases toIcon_err ho h1 with h2 | ⟨i, h3, ⟨n, h4, h5, rfl⟩ | ⟨h4, ⟨h5, rfl⟩ | ⟨h5, ⟨p, rfl, h6⟩ | ⟨p, f, rfl, h6, h7, rfl⟩⟩⟩⟩
    · obtain ⟨t, ht⟩ := hload _ _ h2
      exact ⟨t, .load h2 ht⟩
    · exact ⟨_, .colours h3 h4 h5⟩
    · exact ⟨_, .size h3 h4 h5⟩
    · obtain ⟨t, ht⟩ := hload _ _ h6
      exact ⟨t, .eyecatch h3 h4 h5 h6 ht⟩
    · exact ⟨_, .eyecatchSize h3 h4 h5 h6 h7⟩
  · obtain ⟨x, h1, h2⟩ := hsays t ht
    unfold iconStderr
    rw [speedArg_iff.mp hv]
    dsimp only
    rw [h1]
    exact h2

/-- **C85**: if `icon` or `vmi` do not end with code 1, they say nothing (apart from the message of a panic). -/
theorem C85_silent (h : Host) (fs : FS) (why : Text) :
    (∀ args input speed eyecatch, (run h fs (.icon args input speed eyecatch)).exit ≠ .code 1 → iconStderr h why input speed eyecatch = []) ∧
    ∀ input output copyright game, (run h fs (.vmi input output copyright game)).exit ≠ .code 1 → vmiStderr h fs input = [] := by
  refine ⟨fun args input speed eyecatch hx => ?_, fun input output copyright game hx => ?_⟩
  · unfold iconStderr
    rw [run] at hx
    cases hv : parseSpeed speed with
    | ok v =>
      dsimp only
      cases hi : toIcon h.order h.load input v eyecatch with
      | err e =>
        rw [hv, Res.ok_bind, hi] at hx
        exact absurd rfl hx
      | _ => rfl
    | _ => rfl
  · unfold vmiStderr
    rw [run] at hx
    cases hv : openFile fs (h.cwd.join (Path.parse input)) with
    | err e =>
      rw [hv] at hx
      exact absurd rfl hx
    | _ => rfl

/-- **C85**: `vmi` ends with code 1 exactly if its file cannot be read; it names the file, but not the reason. -/
theorem C85_vmi (h : Host) (fs : FS) (input : Text) (output copyright : Option Text) (game : Bool) :
    ((run h fs (.vmi input output copyright game)).exit = .code 1 ↔ fs.read (h.cwd.join (Path.parse input)) = none) ∧
    (fs.read (h.cwd.join (Path.parse input)) = none →
      vmiStderr h fs input = "[ERROR] Failed to generate VMI from ".toList ++ input ++ "\n\n✘ ".toList) := by
  have h1 : "[ERROR] Failed to generate VMI from ".toList = "[ERROR]".toList ++ " ".toList ++ "Failed to generate VMI from ".toList := by
    decide +kernel
  have h2 : "\n\n✘ ".toList = "\n".toList ++ "\n".toList ++ "✘ ".toList := by decide +kernel
  rw [run]
  unfold vmiStderr openFile
  cases hr : fs.read (h.cwd.join (Path.parse input)) with
  | none =>
    dsimp only
    refine ⟨⟨fun _ => rfl, fun _ => rfl⟩, fun _ => ?_⟩
    rw [h1, h2]
    simp only [List.append_assoc]
  | some vms =>
    dsimp only
    rw [Res.ok_bind]
    refine ⟨⟨fun hx => ?_, nofun⟩, nofun⟩
    exfalso
    cases hv : vmiCommand vms input (copyright.getD []) game h.now with
    | ok bytes =>
      rw [hv] at hx
      rcases (save_saves h.os fs (h.cwd.join (Path.parse (vmiOutput input output))) bytes).exit with h3 | h3 <;>
        · rw [andThen, h3] at hx; cases hx
    | err e => exact vmiCommand_no_err _ _ _ _ _ _ hv
    | panic => rw [hv] at hx; cases hx
    | loop => rw [hv] at hx; cases hx

/-- C85: the images that are loaded from files give such errors. -/
theorem C85_load (d : Decoders) (fs : FS) (cwd : Path) : LoadErrors (loadImage d fs cwd) := by
  intro path x h
  unfold loadImage at h
  dsimp only at h
  split at h
  · unfold loadPng at h
    split at h
    · cases h; exact .inl ⟨_, rfl⟩
    · split at h <;> cases h <;> exact .inr ⟨_, rfl⟩
  · split at h
    · unfold loadGif at h
      split at h
      · cases h; exact .inl ⟨_, rfl⟩
      · split at h <;> cases h
        exact .inr ⟨_, rfl⟩
    · split at h <;> cases h
      exact .inr ⟨_, rfl⟩

/-! ### Examples -/

/-- A disk with one binary. -/
def binary (bytes : List UInt8) : FS := ⟨fun q => decide (q = inWork "a.vms"), fun _ => false, fun q => if q = inWork "a.vms" then some bytes else none⟩

/-- What `disassemble` says about a binary, where strings are quoted without escapes. -/
def saysOf (bytes : List UInt8) (fileType : Option Text) (input : String) : Text :=
  disassembleStderr (host byteByByte) (binary bytes) (fun t => '"' :: t ++ ['"']) "Os { .. }".toList fileType input.toList

/-- A branch to before the start. -/
example : ∃ out, disassemble false [0] [0x01, 0xF0] = .ok out ∧
    StraysHere [0x01, 0xF0] (ListedAt out) 18446744073709551602 := by
  refine ⟨_, rfl, by decide, 0, .Br (-16), -14, ⟨⟨some 0, .instr (.Br (.name "label_FFFFFFFFFFFFFFF2".toList)), none⟩, ?_, rfl, _, rfl⟩, ⟨by decide, by decide +kernel⟩,
    .inr (.short (d := -16) rfl rfl), by decide, fun h => absurd h (by decide)⟩
  decide +kernel

/-- Also a jump into another memory may be reported: here the `jmpf` is found before the `not1 ext, 0` in front of it. -/
example : (traceNotes [2, 0] [0xB8, 0x0D, 0x21, 0x12, 0x34]).1 = [0x1234] := by decide +kernel

example : saysOf [] (some "rom".toList) "a.vms" = "ERROR: UnknownFileType(\"rom\")\n".toList := by decide +kernel
example : saysOf [] none "b.vms" = "ERROR: NoSuchFile(\"b.vms\", Os { .. })\n".toList := by decide +kernel

/-- The icon of `host` is one pixel. -/
example : IconSays (host byteByByte).load [] "a.png".toList none
    ("[ERROR] Image ".toList ++ "a.png".toList ++ " is the wrong size. It should be 32x32.\n".toList) :=
  .size rfl ⟨[0xF000], by decide, by decide +kernel⟩ (by unfold HasSize; decide +kernel)
example : iconStderr (host byteByByte) [] "a.png".toList (some "5".toList) none =
    "[ERROR] Image a.png is the wrong size. It should be 32x32.\n".toList := by decide +kernel
example : vmiStderr (host byteByByte) (binary []) "b.vms".toList = "[ERROR] Failed to generate VMI from b.vms\n\n✘ ".toList := by decide +kernel

end Verif.Props
