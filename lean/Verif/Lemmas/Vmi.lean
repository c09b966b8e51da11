import Verif.Spec.Vmi
/-
Lemmas about VMI files.
-/
namespace Verif
open Spec

theorem putField_length (bytes : List UInt8) (pos len : Nat) (src : List UInt8) :
    (putField bytes pos len src).length = bytes.length := by
  unfold putField
  induction List.range len generalizing bytes with
  | nil => rfl
  | cons i l ih => rw [List.foldl_cons, ih, List.length_set]

theorem putField_get (bytes : List UInt8) (pos len : Nat) (src : List UInt8) (k : Nat) (hk : k < bytes.length) :
    (putField bytes pos len src)[k]? = if pos ≤ k ∧ k < pos + len then some (src.getD (k - pos) 0) else bytes[k]? := by
  induction len with
  | zero => rw [if_neg (by omega)]; rfl
  | succ len ih =>
    have hl : (putField bytes pos len src).length = bytes.length := putField_length ..
    have e : putField bytes pos (len + 1) src =
        (putField bytes pos len src).set (pos + len) (if len < src.length then src.getD len 0 else 0) := by
      simp only [putField, List.range_succ, List.foldl_append, List.foldl_cons, List.foldl_nil]
    rw [e, List.getElem?_set]
    by_cases h : pos + len = k
    · subst h
      rw [if_pos rfl, if_pos (show pos + len < _ by omega),
        if_pos (show pos ≤ pos + len ∧ pos + len < pos + (len + 1) by omega), Nat.add_sub_cancel_left]
      congr 1
      split
      · rfl
      · rename_i h
        rw [List.getD_eq_getElem?_getD, List.getElem?_eq_none (by omega)]
        rfl
    · rw [if_neg h, ih]
      by_cases h1 : pos ≤ k ∧ k < pos + len
      · rw [if_pos h1, if_pos (by omega)]
      · rw [if_neg h1, if_neg (by omega)]

theorem putDescription_ok (bytes vms : List UInt8) (offset : Nat) (h : offset + 0x30 ≤ vms.length) :
    putDescription bytes vms offset = .ok (putField bytes 4 32 (vms.drop (offset + 0x10))) := by
  have key : ∀ n ≤ 32, (List.range n).foldl (fun r idx => do
      let bs ← r
      match vms[offset + 0x10 + idx]? with
      | some b => .ok (bs.set (0x4 + idx) b)
      | none => .panic) (Res.ok bytes) = .ok (putField bytes 4 n (vms.drop (offset + 0x10))) := by
    intro n
    induction n with
    | zero => intro _; rfl
    | succ n ih =>
      intro hn
      simp only [putField, List.range_succ, List.foldl_append, List.foldl_cons, List.foldl_nil] at ih ⊢
      rw [ih (by omega), Res.ok_bind]
      have hlt : offset + 0x10 + n < vms.length := by omega
      rw [List.getElem?_eq_getElem hlt, if_pos (by rw [List.length_drop]; omega), List.getD_eq_getElem?_getD,
        List.getElem?_drop, List.getElem?_eq_getElem hlt]
      rfl
  exact key 32 (Nat.le_refl _)

theorem putDescription_panic (bytes vms : List UInt8) (offset : Nat) (h : vms.length < offset + 0x30) :
    putDescription bytes vms offset = .panic := by
  have key : ∀ n, (∃ bs, (List.range n).foldl (fun r idx => do
      let bs ← r
      match vms[offset + 0x10 + idx]? with
      | some b => .ok (bs.set (0x4 + idx) b)
      | none => .panic) (Res.ok bytes) = .ok bs ∧ (n = 0 ∨ offset + 0x10 + n ≤ vms.length)) ∨ (List.range n).foldl (fun r idx => do
      let bs ← r
      match vms[offset + 0x10 + idx]? with
      | some b => .ok (bs.set (0x4 + idx) b)
      | none => .panic) (Res.ok bytes) = .panic := by
    intro n
    induction n with
    | zero => exact .inl ⟨_, rfl, .inl rfl⟩
    | succ n ih =>
      simp only [List.range_succ, List.foldl_append, List.foldl_cons, List.foldl_nil]
      rcases ih with ⟨bs, h1, h2⟩ | h1
      · rw [h1, Res.ok_bind]
        by_cases hlt : offset + 0x10 + n < vms.length
        · rw [List.getElem?_eq_getElem hlt]
          exact .inl ⟨_, rfl, .inr (by omega)⟩
        · rw [List.getElem?_eq_none (by omega)]
          exact .inr rfl
      · rw [h1]; exact .inr rfl
  rcases key 32 with ⟨bs, _, h2⟩ | h1
  · omega
  · exact h1

theorem splitSlash_ne (t : Text) : splitSlash t ≠ [] := by
  cases t with
  | nil => simp [splitSlash]
  | cons c t =>
    unfold splitSlash
    split
    · simp
    · split <;> simp

theorem vmsFilename_eq {path name : Text} (h : FileName path name) : vmsFilename path = name := by
  obtain ⟨dir, rfl, hn, hd⟩ := h
  have base : ∀ n : Text, '/' ∉ n → splitSlash n = [n] := by
    intro n
    induction n with
    | nil => intro _; rfl
    | cons c n ih =>
      intro h
      rw [List.mem_cons, not_or] at h
      rw [splitSlash, ih h.2]
      dsimp only
      rw [if_neg (Ne.symm h.1)]
  have key : ∀ dir : Text, dir = [] ∨ dir.getLast? = some '/' →
      ((splitSlash (dir ++ name)).getLastD [] = name) ∧ (dir ≠ [] → 2 ≤ (splitSlash (dir ++ name)).length) := by
    intro dir
    induction dir with
    | nil => intro _; rw [List.nil_append, base _ hn]; exact ⟨rfl, fun h => absurd rfl h⟩
    | cons c dir ih =>
      intro h
      have h : (c :: dir).getLast? = some '/' := by simpa using h
      have hlast : dir = [] ∨ dir.getLast? = some '/' := by
        cases dir with
        | nil => exact .inl rfl
        | cons d dir => right; rwa [List.getLast?_cons_cons] at h
      obtain ⟨h1, h2⟩ := ih hlast
      have hne := splitSlash_ne (dir ++ name)
      rw [List.cons_append, splitSlash]
      generalize hs : splitSlash (dir ++ name) = s at *
      cases s with
      | nil => exact absurd rfl hne
      | cons p ps =>
        dsimp only
        by_cases hc : c = '/'
        · rw [if_pos hc]
          refine ⟨?_, fun _ => by simp⟩
          simpa using h1
        · rw [if_neg hc]
          have hdne : dir ≠ [] := by
            rintro rfl
            simp at h
            exact hc h
          have h2 := h2 hdne
          cases ps with
          | nil => simp at h2
          | cons q ps => exact ⟨by simpa using h1, fun _ => by simp⟩
  exact (key dir hd).1

theorem vmsBasename_eq {name base : Text} (h : BaseName name base) : vmsBasename name = base := by
  unfold vmsBasename
  rcases h with rfl | ⟨rfl, h⟩
  · rw [if_pos (by rw [List.isSuffixOf_iff_suffix]; exact ⟨_, rfl⟩)]
    have : (base ++ ".vms".toList).length - 4 = base.length := by
      rw [List.length_append, show ".vms".toList.length = 4 from by decide]; omega
    rw [this, List.take_left]
  · rw [if_neg]
    rw [List.isSuffixOf_iff_suffix]
    rintro ⟨b, hb⟩
    exact h ⟨b, hb.symm⟩

theorem leBytes_getD (n v j : Nat) (hj : j < n) : (leBytes n v).getD j 0 = (v / 256 ^ j % 256).toUInt8 := by
  induction n generalizing v j with
  | zero => omega
  | succ n ih =>
    cases j with
    | zero => simp [leBytes]
    | succ j =>
      rw [leBytes, List.getD_cons_succ, ih _ _ (by omega), Nat.div_div_eq_div_mul, Nat.pow_succ, Nat.mul_comm]

theorem byte_toNat (v : Nat) : ((v % 256).toUInt8).toNat = v % 256 := by
  rw [Nat.toUInt8, UInt8.toNat_ofNat']
  omega

/-- What is in 108 bytes. -/
def Holds (bs : List UInt8) (f : Nat → UInt8) : Prop := bs.length = 108 ∧ ∀ k < 108, bs[k]? = some (f k)

theorem Holds.set {bs f} (h : Holds bs f) {p : Nat} (hp : p < 108) (v : UInt8) :
    Holds (bs.set p v) (fun k => if k = p then v else f k) := by
  refine ⟨by rw [List.length_set, h.1], fun k hk => ?_⟩
  rw [List.getElem?_set]
  dsimp only
  by_cases e : p = k
  · rw [if_pos e, if_pos (by rw [h.1]; omega), if_pos e.symm]
  · rw [if_neg e, if_neg (fun h : k = p => e h.symm), h.2 k hk]

theorem Holds.mask {bs f} (h : Holds bs f) {p q : Nat} (hp : p < 108) (hq : q < 108) (v : UInt8) :
    Holds (bs.set p (bs.getD q 0 &&& v)) (fun k => if k = p then f q &&& v else f k) := by
  have : bs.getD q 0 = f q := by rw [List.getD_eq_getElem?_getD, h.2 q hq]; rfl
  rw [this]
  exact h.set hp _

theorem Holds.put {bs f} (h : Holds bs f) (pos len : Nat) (src : List UInt8) :
    Holds (putField bs pos len src) (fun k => if pos ≤ k ∧ k < pos + len then src.getD (k - pos) 0 else f k) := by
  refine ⟨by rw [putField_length, h.1], fun k hk => ?_⟩
  rw [putField_get _ _ _ _ _ (by rw [h.1]; exact hk), h.2 k hk]
  dsimp only
  split <;> rfl

theorem Holds.congr {bs f g} (h : Holds bs f) (e : ∀ k < 108, f k = g k) : Holds bs g :=
  ⟨h.1, fun k hk => by rw [h.2 k hk, e k hk]⟩

theorem Holds.names {bs f} (h : Holds bs f) (path copyright : Text) (offset : Nat) :
    Holds (putNames bs path copyright offset) (fun k =>
      if k = 0x64 then (if offset > 0 then 2 else f 0x64)
      else if 0x58 ≤ k ∧ k < 0x58 + 12 then (utf8 (vmsFilename path)).getD (k - 0x58) 0
      else if 0x50 ≤ k ∧ k < 0x50 + 8 then (utf8 (vmsBasename (vmsFilename path))).getD (k - 0x50) 0
      else if k = 0x4F then 0
      else if k = 0x4E then 1
      else if 0x24 ≤ k ∧ k < 0x24 + 32 then (utf8 copyright).getD (k - 0x24) 0
      else f k) := by
  have h2 := ((h.put 0x24 32 (utf8 copyright)).set (p := 0x4E) (by decide) 1).set (p := 0x4E + 1) (by decide) 0
  have h3 := (h2.put 0x50 8 (utf8 (vmsBasename (vmsFilename path)))).put 0x58 12 (utf8 (vmsFilename path))
  unfold putNames
  dsimp only
  split
  · exact h3.set (p := 0x64) (by decide) 2
  · refine h3.congr fun k hk => ?_
    by_cases hk : k = 0x64
    · subst hk; rfl
    · rw [if_neg hk]

theorem Holds.checksum {bs f} (h : Holds bs f) : Holds (putChecksum bs) (fun k =>
    if k < 4 then f (0x50 + k) &&& [0x53, 0x45, 0x47, 0x41].getD k 0 else f k) := by
  have h4 := (((h.mask (p := 0) (q := 0x50) (by decide) (by decide) 'S'.toNat.toUInt8).mask
    (p := 1) (q := 0x50 + 1) (by decide) (by decide) 'E'.toNat.toUInt8).mask
    (p := 2) (q := 0x50 + 2) (by decide) (by decide) 'G'.toNat.toUInt8).mask
    (p := 3) (q := 0x50 + 3) (by decide) (by decide) 'A'.toNat.toUInt8
  refine Holds.congr (bs := putChecksum bs) h4 fun k hk => ?_
  match k with
  | 0 => rfl
  | 1 => rfl
  | 2 => rfl
  | 3 => rfl
  | k + 4 => rw [if_neg (by omega), if_neg (by omega), if_neg (by omega), if_neg (by omega), if_neg (by omega)]

theorem Holds.time {bs f} (h : Holds bs f) (now : ClockTime) : Holds (putTime bs now) (fun k =>
    if k = 0x4B then now.weekday.number
    else if k = 0x4A then now.second.toUInt8
    else if k = 0x49 then now.minute.toUInt8
    else if k = 0x48 then now.hour.toUInt8
    else if k = 0x47 then now.day.toUInt8
    else if k = 0x46 then now.month.toUInt8
    else if 0x44 ≤ k ∧ k < 0x44 + 2 then (leBytes 2 (now.year % 65536).toNat).getD (k - 0x44) 0
    else f k) :=
  ((((((h.put 0x44 2 _).set (p := 0x46) (by decide) _).set (p := 0x47) (by decide) _).set (p := 0x48) (by decide) _).set
    (p := 0x49) (by decide) _).set (p := 0x4A) (by decide) _).set (p := 0x4B) (by decide) _

/-- All bytes of a VMI file. -/
theorem generateVmi_holds {vms : List UInt8} {path copyright : Text} {offset : Nat} {now : ClockTime}
    (h : offset + 0x30 ≤ vms.length) : ∃ out, generateVmi vms path copyright offset now = .ok out ∧ Holds out (fun k =>
      if k < 4 then (utf8 (vmsBasename (vmsFilename path))).getD k 0 &&& [0x53, 0x45, 0x47, 0x41].getD k 0
      else if k < 0x24 then (vms.drop (offset + 0x10)).getD (k - 4) 0
      else if k < 0x44 then (utf8 copyright).getD (k - 0x24) 0
      else if k < 0x46 then (leBytes 2 (now.year % 65536).toNat).getD (k - 0x44) 0
      else if k = 0x46 then now.month.toUInt8
      else if k = 0x47 then now.day.toUInt8
      else if k = 0x48 then now.hour.toUInt8
      else if k = 0x49 then now.minute.toUInt8
      else if k = 0x4A then now.second.toUInt8
      else if k = 0x4B then now.weekday.number
      else if k < 0x4E then 0
      else if k = 0x4E then 1
      else if k < 0x50 then 0
      else if k < 0x58 then (utf8 (vmsBasename (vmsFilename path))).getD (k - 0x50) 0
      else if k < 0x64 then (utf8 (vmsFilename path)).getD (k - 0x58) 0
      else if k = 0x64 then (if offset > 0 then 2 else 0)
      else if k < 0x68 then 0
      else (leBytes 8 vms.length).getD (k - 0x68) 0) := by
  have h0 : Holds (List.replicate 108 0) (fun _ => 0) :=
    ⟨List.length_replicate .., fun k hk => by rw [List.getElem?_replicate, if_pos hk]⟩
  refine ⟨_, by rw [generateVmi, putDescription_ok _ _ _ h, Res.ok_bind], ?_⟩
  refine ((((h0.put 4 32 _).names path copyright offset).checksum.put 0x68 4 _).time now).congr fun k hk => ?_
  by_cases h4 : k < 4
  · iterate 8 rw [if_neg (by omega)]
    rw [if_pos h4, if_pos h4, if_neg (by omega), if_neg (by omega), if_pos (by omega), Nat.add_sub_cancel_left]
  · rw [if_neg h4, if_neg h4]
    have hr : k < 0x24 ∨ (0x24 ≤ k ∧ k < 0x44) ∨ (0x44 ≤ k ∧ k < 0x46) ∨ k = 0x46 ∨ k = 0x47 ∨ k = 0x48 ∨ k = 0x49 ∨
        k = 0x4A ∨ k = 0x4B ∨ (0x4C ≤ k ∧ k < 0x4E) ∨ k = 0x4E ∨ k = 0x4F ∨ (0x50 ≤ k ∧ k < 0x58) ∨
        (0x58 ≤ k ∧ k < 0x64) ∨ k = 0x64 ∨ (0x65 ≤ k ∧ k < 0x68) ∨ 0x68 ≤ k := by omega
    rcases hr with h | h | h | h | h | h | h | h | h | h | h | h | h | h | h | h | h <;>
      repeat (first | rw [if_neg (by omega)] | rw [if_pos (by omega)])
    subst h
    rfl

end Verif
