import Verif.Lemmas.Command
import Verif.Props.Reassembly
import Verif.Props.Include
/-
C70: what the commands do to the disk.
-/
namespace Verif.Props
open Verif Spec

/-- **C70**: at every moment of a run, the disk is as before, except for the one file that is to be written, which holds a beginning
of what it is to hold.  So when the program is stopped at any point, no other file is changed. -/
theorem C70_crash (h : Host) (fs : FS) (c : Command) : ∀ d ∈ (run h fs c).disks,
    ∃ p bs pre, ToWrite h fs c p bs ∧ pre <+: bs ∧ d.isFile p = true ∧ d.read p = some pre ∧ SameExcept p fs d := by
  intro d hd
  rcases Classical.em (∃ p bs, ToWrite h fs c p bs) with ⟨p, bs, hw⟩ | hw
  · rcases Classical.em (WritesAll c) with hc | hc
    · obtain ⟨h1, h2, pre, h3, h4⟩ := (toWrite_saves hc hw).disks d hd
      exact ⟨p, bs, pre, hw, h3, h2, h4, h1⟩
    · rw [toWrite_once hc hw] at hd
      obtain ⟨h1, h2, pre, h3, h4⟩ := (saveOnce_disks _ _ _ _).1 d hd
      exact ⟨p, bs, pre, hw, h3, h2, h4, h1⟩
  · rcases Classical.em (∃ t, ToPrint h fs c t) with ⟨t, hp⟩ | hp
    · rw [toPrint_run hp] at hd
      cases hd
    · rw [(run_fails (fun p bs h => hw ⟨p, bs, h⟩) fun t h => hp ⟨t, h⟩).1] at hd
      cases hd

/-- **C70**: a command with nothing to write and nothing to print, as its input is wrong, touches no file, prints nothing
and does not end with code 0. -/
theorem C70_fails (h : Host) (fs : FS) (c : Command) (hw : ¬ ∃ p bs, ToWrite h fs c p bs) (hp : ¬ ∃ t, ToPrint h fs c t) :
    (run h fs c).disks = [] ∧ (run h fs c).out = [] ∧ (run h fs c).exit ≠ .code 0 := by
  obtain ⟨h1, h2, h3⟩ := run_fails (fun p bs h => hw ⟨p, bs, h⟩) fun t h => hp ⟨t, h⟩
  refine ⟨h1, h2, fun h4 => ?_⟩
  rw [h4] at h3
  revert h3
  decide

/-- **C70**: what a command is to print it prints, and it touches no file. -/
theorem C70_prints (h : Host) (fs : FS) (c : Command) (t : Text) (hp : ToPrint h fs c t) :
    (run h fs c).disks = [] ∧ (run h fs c).out = t ∧ (run h fs c).exit = .code 0 := by
  rw [toPrint_run hp]
  exact ⟨rfl, rfl, rfl⟩

/-- **C70**: what a command is to write it writes, if the system lets it: with code 0 at the end, the file holds all of it. -/
theorem C70_writes (h : Host) (fs : FS) (c : Command) (p : Path) (bs : List UInt8) (hc : WritesAll c) (hw : ToWrite h fs c p bs) :
    (run h fs c).out = [] ∧ (Willing h.os → (run h fs c).exit = .code 0) ∧
      ((run h fs c).exit = .code 0 → ∃ d, (run h fs c).disks.getLast? = some d ∧ d.read p = some bs ∧ d.isFile p = true ∧ SameExcept p fs d) := by
  have hs := toWrite_saves hc hw
  refine ⟨hs.out, hs.willing, fun he => ?_⟩
  obtain ⟨d, h1, h2⟩ := hs.done he
  have := hs.disks d (List.mem_of_mem_getLast? h1)
  exact ⟨d, h1, h2, this.2.1, this.1⟩

/-- **C70**: code 0 means that everything was printed, or that everything was written; only `image` may have written less. -/
theorem C70_code_0 (h : Host) (fs : FS) (c : Command) (he : (run h fs c).exit = .code 0) :
    (∃ t, ToPrint h fs c t ∧ (run h fs c).disks = [] ∧ (run h fs c).out = t) ∨
    ∃ p bs d, ToWrite h fs c p bs ∧ (run h fs c).out = [] ∧ (run h fs c).disks.getLast? = some d ∧ SameExcept p fs d ∧
      (WritesAll c → d.read p = some bs) := by
  rcases Classical.em (∃ p bs, ToWrite h fs c p bs) with ⟨p, bs, hw⟩ | hw
  · refine .inr ⟨p, bs, ?_⟩
    rcases Classical.em (WritesAll c) with hc | hc
    · obtain ⟨h1, -, h2⟩ := C70_writes h fs c p bs hc hw
      obtain ⟨d, h3, h4, -, h5⟩ := h2 he
      exact ⟨d, hw, h1, h3, h5, fun _ => h4⟩
    · rw [toWrite_once hc hw] at he ⊢
      obtain ⟨h1, -, h2⟩ := saveOnce_disks h.os fs p bs
      have : ∃ d, (saveOnce h.os fs p bs).disks.getLast? = some d := by
        unfold saveOnce at he ⊢
        split
        · split
          · exact ⟨_, rfl⟩
          · exact ⟨_, rfl⟩
        next hn => rw [if_neg hn] at he; cases he
      obtain ⟨d, hd⟩ := this
      exact ⟨d, hw, h2, hd, (h1 d (List.mem_of_mem_getLast? hd)).1, fun h => absurd h hc⟩
  · rcases Classical.em (∃ t, ToPrint h fs c t) with ⟨t, hp⟩ | hp
    · obtain ⟨h1, h2, -⟩ := C70_prints h fs c t hp
      exact .inl ⟨t, hp, h1, h2⟩
    · exact absurd he (C70_fails h fs c hw hp).2.2

/-- **C70**: the only codes are 0 and 1, and after 1 nothing was changed or printed. -/
theorem C70_codes (h : Host) (fs : FS) (c : Command) (n : Nat) (he : (run h fs c).exit = .code n) :
    n = 0 ∨ (n = 1 ∧ (run h fs c).disks = [] ∧ (run h fs c).out = []) := by
  rcases Classical.em (∃ p bs, ToWrite h fs c p bs) with ⟨p, bs, hw⟩ | hw
  · left
    rcases Classical.em (WritesAll c) with hc | hc
    · rcases (toWrite_saves hc hw).exit with hx | hx
      · rw [he] at hx; cases hx; rfl
      · rw [he] at hx; cases hx
    · rw [toWrite_once hc hw] at he
      rcases (saveOnce_disks h.os fs p bs).2.1 with hx | hx
      · rw [he] at hx; cases hx; rfl
      · rw [he] at hx; cases hx
  · rcases Classical.em (∃ t, ToPrint h fs c t) with ⟨t, hp⟩ | hp
    · rw [toPrint_run hp] at he
      cases he
      exact .inl rfl
    · obtain ⟨h1, h2, h3⟩ := run_fails (fun p bs h => hw ⟨p, bs, h⟩) fun t h => hp ⟨t, h⟩
      rw [he] at h3
      simp only [List.mem_cons, Exit.code.injEq, reduceCtorEq, List.not_mem_nil, or_false] at h3
      exact .inr ⟨h3, h1, h2⟩

/-- **C70**: `image` writes all of its output if the system takes it at once. -/
theorem C70_image (h : Host) (fs : FS) (c : Command) (p : Path) (bs : List UInt8) (hc : ¬ WritesAll c) (hw : ToWrite h fs c p bs)
    (ho : h.os.creates fs p = true) (k : Nat) (ha : h.os.accepts (fs.create p) p bs = some k) (hk : bs.length ≤ k) :
    (run h fs c).exit = .code 0 ∧ ∃ d, (run h fs c).disks.getLast? = some d ∧ d.read p = some bs ∧ SameExcept p fs d := by
  rw [toWrite_once hc hw]
  have e : saveOnce h.os fs p bs = ⟨[fs.create p, (fs.create p).append p bs], [], .code 0⟩ := by
    unfold saveOnce
    simp only [if_pos ho, ha, List.take_of_length_le hk]
  rw [e]
  exact ⟨rfl, _, rfl, by simp [FS.append, FS.create], (create_same fs p).trans (append_same _ p bs)⟩

/-- A system that takes one byte at a time. -/
def byteByByte : OS := ⟨fun _ _ => true, fun _ _ _ => some 1⟩

theorem byteByByte_willing : Willing byteByByte := ⟨fun _ _ => rfl, fun _ _ _ _ => ⟨0, rfl⟩⟩

/-- An image with one black pixel, in whatever file. -/
def dot : Image := ⟨[⟨(0, 0), [[⟨0, 0, 0, 255⟩]]⟩]⟩

/-- The surroundings of the examples. -/
def host (os : OS) : Host where
  os := os
  mode := .checked
  seg := plainSeg
  order := id
  load := fun _ => .ok dot
  uuid := fun _ => []
  now := ⟨2024, 2, 29, 23, 59, 59, .thu⟩
  cwd := work
  fuel := 1000
  macroFuel := 1000

/-- **C70** is not true of `image`: on a system that takes some bytes each time, as all systems may, it ends with code 0 although the
file is cut. -/
theorem C70_image_cut : ∃ h fs c p bs d pre, Willing h.os ∧ ToWrite h fs c p bs ∧ (run h fs c).exit = .code 0 ∧
    (run h fs c).disks.getLast? = some d ∧ d.read p = some pre ∧ pre ≠ bs := by
  obtain ⟨t, ht, hl⟩ : ∃ t, printStatements (dot.to1BitAsm false true) = .ok t ∧ 1 < (utf8 t).length := by
    refine ⟨_, rfl, ?_⟩
    decide
  have hw : ToWrite (host byteByByte) (folder []) (.image "dot.png".toList none (some "dot.s".toList))
      (work.join (Path.parse "dot.s".toList)) (utf8 t) := .image rfl (.plain nofun ht)
  have hc : ¬ WritesAll (.image "dot.png".toList none (some "dot.s".toList)) := fun h => h
  refine ⟨host byteByByte, folder [], _, _, _, ((folder []).create (work.join (Path.parse "dot.s".toList))).append
      (work.join (Path.parse "dot.s".toList)) ((utf8 t).take 1),
    (utf8 t).take 1, byteByByte_willing, hw, ?_, ?_, ?_, ?_⟩
  · rw [toWrite_once hc hw]
    rfl
  · rw [toWrite_once hc hw]
    rfl
  · simp [FS.append, FS.create]
  · intro he
    have := congrArg List.length he
    rw [List.length_take] at this
    omega

/-- **C70**, with C54: disassembling a binary to a file and assembling the file gives the binary again. -/
theorem C70_round_trip (h : Host) (hs : AsciiSeg h.seg) (hos : Willing h.os) (habs : h.cwd.abs = true) (fs : FS) (flag : Bool)
    (fileType : Option Text) (binary source output : Text) (entries : List Nat) (bytes : List UInt8) (out : List DStmt)
    (hr : fs.read (h.cwd.join (Path.parse binary)) = some bytes) (hlen : bytes.length ≤ 65536) (hf : FileType fileType entries)
    (hd : disassemble flag entries bytes = .ok out) (hov : NoOverlap bytes out) (ht : TargetsListed bytes out)
    (h512 : bytes.length % 512 = 0) (hu : bytes = [] ∨ LastBlockUsed bytes out) :
    ∃ d, (run h fs (.disassemble false flag fileType binary source)).exit = .code 0 ∧
      (run h fs (.disassemble false flag fileType binary source)).disks.getLast? = some d ∧
      ∃ n, ∀ fuel ≥ n, ∃ d', (run { h with fuel } d (.assemble source output)).exit = .code 0 ∧
        (run { h with fuel } d (.assemble source output)).disks.getLast? = some d' ∧
        d'.read (h.cwd.join (Path.parse output)) = some bytes := by
  obtain ⟨text, h1, h2⟩ := C54_file hs flag entries bytes out hlen hd hov ht h512 hu
  have hw : ToWrite h fs (.disassemble false flag fileType binary source) (h.cwd.join (Path.parse source)) (utf8 text) :=
    .disassemble hr hf hd h1
  obtain ⟨-, a1, a2⟩ := C70_writes h fs (.disassemble false flag fileType binary source) _ _ trivial hw
  obtain ⟨d, b1, b2, -⟩ := a2 (a1 hos)
  obtain ⟨n, hn⟩ := h2 d h.cwd source habs b2 h.mode h.order h.load
  refine ⟨d, a1 hos, b1, n, fun fuel hfu => ?_⟩
  have hw2 : ToWrite { h with fuel } d (.assemble source output) (h.cwd.join (Path.parse output)) bytes :=
    .assemble (hn fuel hfu h.uuid h.macroFuel)
  obtain ⟨-, c1, c2⟩ := C70_writes { h with fuel } d (.assemble source output) _ _ trivial hw2
  obtain ⟨d', e1, e2, -⟩ := c2 (c1 hos)
  exact ⟨d', c1 hos, e1, e2⟩

/-! ### Examples -/

/-- A system that takes at most one byte each time, until the file holds `n` bytes. -/
def fullAfter (n : Nat) : OS := ⟨fun _ _ => true, fun fs p _ => if ((fs.read p).getD []).length < n then some 1 else none⟩

/-- The contents of `out.vms` after each step, and the end. -/
def traceOf (os : OS) (main : String) : List (Option (List UInt8)) × Exit :=
  let r := run (host os) (folder [("main.s", main), ("out.vms", "old")]) (.assemble "main.s".toList "out.vms".toList)
  (r.disks.map fun d => d.read (inWork "out.vms"), r.exit)

example : traceOf byteByByte "  .byte 1, 2, 3
" = ([some [], some [1], some [1, 2], some [1, 2, 3]], .code 0) := by decide +kernel
example : traceOf (fullAfter 2) "  .byte 1, 2, 3
" = ([some [], some [1], some [1, 2]], .panic) := by decide +kernel
example : traceOf byteByByte "  .byte 1, 2,
" = ([], .code 1) := by decide +kernel

end Verif.Props
