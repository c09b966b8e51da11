import Verif.Lemmas.Vmi
/-
Properties of VMI files: C60.
-/
namespace Verif.Props
open Verif.Spec

/-- **C60**: the VMI file has 108 bytes, and every one of them is as in the table `VmiFile`. -/
theorem C60_layout {vms : List UInt8} {path name base copyright : Text} {game : Bool} {now : ClockTime}
    (hname : FileName path name) (hbase : BaseName name base) (hnow : ClockTime.Valid now)
    (hlen : (if game then 0x200 else 0) + 0x30 ≤ vms.length) :
    ∃ out, vmiCommand vms path copyright game now = .ok out ∧ VmiFile vms name base copyright game now out := by
  obtain ⟨out, h1, hl, h2⟩ := generateVmi_holds (path := path) (copyright := copyright) (now := now) hlen
  rw [vmsFilename_eq hname, vmsBasename_eq hbase] at h2
  refine ⟨out, h1, ?_⟩
  dsimp only at h2
  have hmode : (if (if game then 0x200 else 0) > 0 then (2 : UInt8) else 0) = if game then 2 else 0 := by
    cases game <;> rfl
  have small : ∀ n : Nat, n < 256 → (n.toUInt8).toNat = n := by
    intro n hn
    have := byte_toNat n
    rwa [Nat.mod_eq_of_lt hn] at this
  have hy := hnow.year
  have hm := hnow.month
  have hd := hnow.day
  have hh := hnow.hour
  have hmi := hnow.minute
  have hs := hnow.second
  generalize ho : (if game then 0x200 else 0) = offset at *
  constructor
  case length => exact hl
  case checksum => intro j hj; rw [h2 j (by omega), if_pos hj]
  case description =>
    intro j hj
    have hlt : offset + 0x10 + j < vms.length := by omega
    rw [ho]
    refine ⟨_, List.getElem?_eq_getElem hlt, ?_⟩
    rw [h2 _ (by omega), if_neg (by omega), if_pos (by omega), Nat.add_sub_cancel_left, List.getD_eq_getElem?_getD,
      List.getElem?_drop, List.getElem?_eq_getElem hlt]
    rfl
  case copyright =>
    intro j hj
    rw [h2 _ (by omega), if_neg (by omega), if_neg (by omega), if_pos (by omega), Nat.add_sub_cancel_left]
  case year =>
    refine ⟨_, _, h2 0x44 (by decide), h2 0x45 (by decide), ?_⟩
    simp only [Nat.reduceLT, Nat.reduceSub, if_true, if_false]
    rw [leBytes_getD _ _ _ (by omega), leBytes_getD _ _ _ (by omega), byte_toNat, byte_toNat]
    omega
  case month => exact ⟨_, h2 0x46 (by decide), small _ (by omega)⟩
  case day => exact ⟨_, h2 0x47 (by decide), small _ (by omega)⟩
  case hour => exact ⟨_, h2 0x48 (by decide), small _ (by omega)⟩
  case minute => exact ⟨_, h2 0x49 (by decide), small _ (by omega)⟩
  case second => exact ⟨_, h2 0x4A (by decide), small _ (by omega)⟩
  case weekday => exact ⟨_, h2 0x4B (by decide), by cases now.weekday <;> rfl⟩
  case version => exact ⟨h2 0x4C (by decide), h2 0x4D (by decide)⟩
  case number => exact ⟨h2 0x4E (by decide), h2 0x4F (by decide)⟩
  case resource =>
    intro j hj
    rw [h2 _ (by omega)]
    iterate 13 rw [if_neg (by omega)]
    rw [if_pos (by omega), Nat.add_sub_cancel_left]
  case filename =>
    intro j hj
    rw [h2 _ (by omega)]
    iterate 14 rw [if_neg (by omega)]
    rw [if_pos (by omega), Nat.add_sub_cancel_left]
  case mode =>
    refine ⟨?_, h2 0x65 (by decide)⟩
    rw [← hmode]
    exact h2 0x64 (by decide)
  case reserved => exact ⟨h2 0x66 (by decide), h2 0x67 (by decide)⟩
  case size =>
    refine ⟨_, _, _, _, h2 0x68 (by decide), h2 0x69 (by decide), h2 0x6A (by decide), h2 0x6B (by decide), ?_⟩
    simp only [Nat.reduceLT, Nat.reduceSub, Nat.reduceEqDiff, if_true, if_false]
    rw [leBytes_getD _ _ _ (by omega), leBytes_getD _ _ _ (by omega), leBytes_getD _ _ _ (by omega),
      leBytes_getD _ _ _ (by omega), byte_toNat, byte_toNat, byte_toNat, byte_toNat]
    omega

/-- **C60**: every path has one file name and every file name one base name, so the theorem above is about all paths. -/
theorem C60_names (path : Text) : ∃ name base, FileName path name ∧ BaseName name base := by
  have h1 : ∃ name, FileName path name := by
    induction path with
    | nil => exact ⟨[], [], rfl, by simp, .inl rfl⟩
    | cons c t ih =>
      obtain ⟨name, dir, rfl, hn, hd⟩ := ih
      by_cases he : dir = []
      · subst he
        by_cases hc : c = '/'
        · subst hc; exact ⟨name, ['/'], rfl, hn, .inr rfl⟩
        · exact ⟨c :: name, [], rfl, by simp [hn, Ne.symm hc], .inl rfl⟩
      · refine ⟨name, c :: dir, rfl, hn, .inr ?_⟩
        rcases hd with rfl | hd
        · exact absurd rfl he
        · cases dir with
          | nil => cases hd
          | cons d dir => rwa [List.getLast?_cons_cons]
  obtain ⟨name, h1⟩ := h1
  by_cases h : ∃ b, name = b ++ ".vms".toList
  · obtain ⟨b, hb⟩ := h; exact ⟨name, b, h1, .inl hb⟩
  · exact ⟨name, name, h1, .inr ⟨rfl, h⟩⟩

/-- **C60**: a VMS file that ends before the end of its description makes the command panic. -/
theorem C60_short {vms : List UInt8} {path copyright : Text} {game : Bool} {now : ClockTime}
    (hlen : vms.length < (if game then 0x200 else 0) + 0x30) : vmiCommand vms path copyright game now = .panic := by
  rw [vmiCommand, generateVmi, putDescription_panic _ _ _ hlen]
  rfl

/-- A game at `games/Tetris.vms` with 1 KiB of zeros meets the conditions of `C60_layout`. -/
example : FileName "games/Tetris.vms".toList "Tetris.vms".toList ∧ BaseName "Tetris.vms".toList "Tetris".toList ∧
    ClockTime.Valid ⟨2024, 2, 29, 23, 59, 59, .thu⟩ ∧
    (if true then 0x200 else 0) + 0x30 ≤ (List.replicate 1024 (0 : UInt8)).length := by
  refine ⟨⟨"games/".toList, by decide, by decide, .inr (by decide)⟩, .inl (by decide), ?_, ?_⟩
  · constructor <;> decide
  · rw [List.length_replicate]; decide

end Verif.Props
