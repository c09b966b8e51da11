import Verif.Spec.Img
import Verif.Spec.Data
import Verif.Lemmas.Float
import Verif.Lemmas.Data
/-
Sprites and palettes.
-/
namespace Verif
open Verif.Spec

/-! Rows of bits -/

theorem bit_ofNat {P : UInt8 → Prop} (h : ∀ n, n < 256 → P (UInt8.ofNat n)) (b : UInt8) : P b := by
  have := h b.toNat b.toNat_lt
  rwa [UInt8.ofNat_toNat] at this

/-- 0 or 1. -/
def bitOf (v : Bool) : UInt8 := if v then 1 else 0

theorem bits_first : ∀ v : Bool, ∀ q < 8,
    ((0b01111111 : UInt8) ||| bitOf v <<< 7).toNat.testBit (7 - q) = (if q = 0 then v else true) ∧
    (bitOf v <<< 7).toNat.testBit (7 - q) = (if q = 0 then v else false) := by decide +kernel

theorem bits_set_check : ∀ n < 256, ∀ p < 8, ∀ q < 8, ∀ v : Bool,
    (((UInt8.ofNat n) &&& ~~~ (1 <<< UInt8.ofNat (7 - p))) ||| (bitOf v <<< UInt8.ofNat (7 - p))).toNat.testBit (7 - q) =
      (if q = p then v else (UInt8.ofNat n).toNat.testBit (7 - q)) := by decide +kernel

theorem bits_or_check : ∀ n < 256, ∀ p < 8, ∀ q < 8, ∀ v : Bool,
    ((UInt8.ofNat n) ||| (bitOf v <<< UInt8.ofNat (7 - p))).toNat.testBit (7 - q) =
      (if q = p then (v || (UInt8.ofNat n).toNat.testBit (7 - q)) else (UInt8.ofNat n).toNat.testBit (7 - q)) := by
  decide +kernel

theorem setLast_getElem? (f : UInt8 → UInt8) (l : List UInt8) (i : Nat) :
    (setLast f l)[i]? = if i + 1 = l.length then l[i]?.map f else l[i]? := by
  unfold setLast
  rcases List.eq_nil_or_concat l with rfl | ⟨l, b, rfl⟩
  · simp
  · simp only [List.concat_eq_append, List.getLast?_append, List.getLast?_singleton, Option.some_or, List.dropLast_concat,
      List.length_append, List.length_singleton]
    by_cases h : i = l.length
    · subst h; simp
    · rw [if_neg (by omega), List.getElem?_append, List.getElem?_append]
      split
      · rfl
      · rw [List.getElem?_eq_none (by simp; omega), List.getElem?_eq_none (by simp; omega)]

theorem setLast_length (f : UInt8 → UInt8) (l : List UInt8) : (setLast f l).length = l.length := by
  unfold setLast
  rcases List.eq_nil_or_concat l with rfl | ⟨l, b, rfl⟩ <;> simp

theorem packed_new {bits : List Bool} {pad : Bool} {bs : List UInt8} (h : PackedBits bits pad bs)
    (h8 : bits.length % 8 = 0) (v : Bool) (b : UInt8)
    (hb : ∀ q < 8, b.toNat.testBit (7 - q) = (if q = 0 then v else pad)) : PackedBits (bits ++ [v]) pad (bs ++ [b]) := by
  have hl := h.length
  refine ⟨by simp; omega, fun x byte hx => ?_⟩
  rw [List.getElem?_append] at hx
  split at hx
  · next hlt => rw [h.bit x byte hx, List.getElem?_append_left (by omega)]
  · have hx8 : x / 8 = bs.length := by
      have : x / 8 - bs.length < 1 := by
        have := (List.getElem?_eq_some_iff.mp hx).1
        simpa using this
      omega
    rw [hx8, Nat.sub_self] at hx
    have hx : b = byte := by simpa using hx
    subst hx
    rw [hb (x % 8) (by omega)]
    by_cases h0 : x = bits.length
    · subst h0; simp [h8]
    · rw [if_neg (by omega), List.getElem?_eq_none (by simp; omega)]; rfl

theorem packed_more {bits : List Bool} {pad : Bool} {bs : List UInt8} (h : PackedBits bits pad bs)
    (h8 : bits.length % 8 ≠ 0) (v : Bool) (f : UInt8 → UInt8)
    (hf : ∀ b : UInt8, b.toNat.testBit (7 - bits.length % 8) = pad → ∀ q < 8,
      (f b).toNat.testBit (7 - q) = (if q = bits.length % 8 then v else b.toNat.testBit (7 - q))) :
    PackedBits (bits ++ [v]) pad (setLast f bs) := by
  have hl := h.length
  refine ⟨by rw [setLast_length]; simp; omega, fun x byte hx => ?_⟩
  rw [setLast_getElem?] at hx
  split at hx
  · next heq =>
    obtain ⟨b, hb, rfl⟩ := Option.map_eq_some_iff.mp hx
    have hp : b.toNat.testBit (7 - bits.length % 8) = pad := by
      rw [h.bit bits.length b (by rw [← hb]; congr 1; omega)]; simp
    rw [hf b hp (x % 8) (by omega)]
    split
    · have : x = bits.length := by omega
      subst this; simp
    · rw [h.bit x b hb]
      have : x ≠ bits.length := by intro h; subst h; omega
      by_cases hx : x < bits.length
      · rw [List.getElem?_append_left hx]
      · rw [List.getElem?_eq_none (by omega), List.getElem?_eq_none (by simp; omega)]
  · have := (List.getElem?_eq_some_iff.mp hx).1
    rw [h.bit x byte hx, List.getElem?_append_left (by omega)]

/-- The image's bit for a pixel. -/
def darkBit (c : Color) : Bool := decide (c.grayscale.red ≤ 127)
/-- The mask's bit for a pixel. -/
def clearBit (c : Color) : Bool := decide (c.alpha ≤ 127)

theorem imageStep_packed {s : List UInt8 × Nat} {done : List Color} (c : Color) (hi : s.2 = done.length)
    (h : PackedBits (done.map darkBit) false s.1) :
    (imageStep s c).2 = done.length + 1 ∧ PackedBits ((done ++ [c]).map darkBit) false (imageStep s c).1 := by
  have e : (if c.grayscale.red ≤ 127 then (1 : UInt8) else 0) = bitOf (darkBit c) := by
    unfold bitOf darkBit; by_cases h : c.grayscale.red ≤ 127 <;> simp [h]
  unfold imageStep
  simp only [e, hi]
  rw [List.map_append]
  split
  · next h8 =>
    exact ⟨rfl, packed_new h (by simpa using h8) _ _ fun q hq => (bits_first (darkBit c) q hq).2⟩
  · next h8 =>
    refine ⟨rfl, packed_more h (by simpa using h8) _ _ ?_⟩
    simp only [List.length_map]
    refine fun b hb q hq => ?_
    have := bits_or_check b.toNat b.toNat_lt (done.length % 8) (by omega) q hq (darkBit c)
    rw [UInt8.ofNat_toNat] at this
    rw [this]
    split
    · next h => subst h; rw [hb, Bool.or_false]
    · rfl

theorem maskStep_packed {s : List UInt8 × Nat} {done : List Color} (c : Color) (hi : s.2 = done.length)
    (h : PackedBits (done.map clearBit) true s.1) :
    (maskStep s c).2 = done.length + 1 ∧ PackedBits ((done ++ [c]).map clearBit) true (maskStep s c).1 := by
  have e : c.transparency = bitOf (clearBit c) := by
    unfold bitOf clearBit Color.transparency; by_cases h : c.alpha ≤ 127 <;> simp [h]
  unfold maskStep
  simp only [e, hi]
  rw [List.map_append]
  split
  · next h8 =>
    exact ⟨rfl, packed_new h (by simpa using h8) _ _ fun q hq => (bits_first (clearBit c) q hq).1⟩
  · next h8 =>
    refine ⟨rfl, packed_more h (by simpa using h8) _ _ ?_⟩
    simp only [List.length_map]
    refine fun b hb q hq => ?_
    have := bits_set_check b.toNat b.toNat_lt (done.length % 8) (by omega) q hq (clearBit c)
    rw [UInt8.ofNat_toNat] at this
    exact this

theorem foldl_packed {step : List UInt8 × Nat → Color → List UInt8 × Nat} {g : Color → Bool} {pad : Bool}
    (hs : ∀ {s : List UInt8 × Nat} {done : List Color} (c : Color), s.2 = done.length →
      PackedBits (done.map g) pad s.1 →
      (step s c).2 = done.length + 1 ∧ PackedBits ((done ++ [c]).map g) pad (step s c).1) :
    ∀ (row done : List Color) (s : List UInt8 × Nat), s.2 = done.length → PackedBits (done.map g) pad s.1 →
      PackedBits ((done ++ row).map g) pad (row.foldl step s).1
  | [], done, s, _, h => by rw [List.append_nil]; exact h
  | c :: row, done, s, hi, h => by
    obtain ⟨h1, h2⟩ := hs c hi h
    have := foldl_packed hs row (done ++ [c]) (step s c) (by simp [h1]) h2
    rw [List.append_assoc] at this
    exact this

theorem packed_nil (pad : Bool) : PackedBits [] pad [] := ⟨rfl, fun x byte h => by simp at h⟩

/-- The bytes of a row of the image. -/
def imageRowBytes (row : List Color) : List UInt8 := (row.foldl imageStep ([], 0)).1
/-- The bytes of a row of the mask. -/
def maskRowBytes (row : List Color) : List UInt8 := (row.foldl maskStep ([], 0)).1

theorem imageRow_packed (row : List Color) : PackedBits (row.map darkBit) false (imageRowBytes row) :=
  foldl_packed imageStep_packed row [] _ rfl (packed_nil _)

theorem maskRow_packed (row : List Color) : PackedBits (row.map clearBit) true (maskRowBytes row) :=
  foldl_packed maskStep_packed row [] _ rfl (packed_nil _)

theorem imageRow_data (row : List Color) : Data [imageRow row] (imageRowBytes row) := by
  have := Data.byte (r := .binary) (imageRowBytes row) .nil
  rw [List.append_nil] at this
  exact this

theorem maskRow_data (row : List Color) : Data [maskRow row] (maskRowBytes row) := by
  have := Data.byte (r := .binary) (maskRowBytes row) .nil
  rw [List.append_nil] at this
  exact this

theorem rows_data {g : List Color → Stmt} {h : List Color → List UInt8} (hd : ∀ row, Data [g row] (h row)) :
    ∀ rows : List (List Color), Data (rows.map g) (rows.map h).flatten
  | [] => .nil
  | row :: rows => (hd row).append (rows_data hd rows)

theorem wrap32_small {n : Nat} (h : n < 2147483648) : wrap32 (n : Int) = n := by unfold wrap32; omega

theorem spriteHead_data (f : Frame) (header : Bool) (h : header = true → f.width ≤ 255 ∧ f.height ≤ 255) :
    Data (spriteHead f header) (if header then [UInt8.ofNat f.width, UInt8.ofNat f.height] else []) := by
  unfold spriteHead
  refine .comment ?_
  cases header with
  | false => exact .nil
  | true =>
    obtain ⟨h1, h2⟩ := h rfl
    have := Data.byte (r := .decimal) [UInt8.ofNat f.width, UInt8.ofNat f.height] .nil
    simp only [List.map_cons, List.map_nil, UInt8.toNat_ofNat', List.append_nil] at this
    rw [Nat.mod_eq_of_lt (by omega), Nat.mod_eq_of_lt (by omega)] at this
    simp only [if_true, wrap32_small (n := f.width) (by omega), wrap32_small (n := f.height) (by omega)]
    exact this

theorem sprite_data (f : Frame) (masked header : Bool) (h : header = true → f.width ≤ 255 ∧ f.height ≤ 255) :
    Data (f.to1BitAsm masked header) ((if header then [UInt8.ofNat f.width, UInt8.ofNat f.height] else []) ++
      (if masked then (f.rows.map maskRowBytes).flatten else []) ++ (f.rows.map imageRowBytes).flatten) := by
  unfold Frame.to1BitAsm
  refine ((spriteHead_data f header h).append ?_).append (rows_data imageRow_data f.rows)
  cases masked with
  | false => exact .nil
  | true => exact rows_data maskRow_data f.rows

theorem width_eq (f : Frame) : f.width = width f := by
  unfold Frame.width width
  cases f.rows <;> rfl

theorem sprite_frame (masked header : Bool) (f : Frame) : SpriteFrame darkBit masked header f
    (if header then [UInt8.ofNat f.width, UInt8.ofNat f.height] else [])
    (if masked then f.rows.map maskRowBytes else []) (f.rows.map imageRowBytes) := by
  refine ⟨by rw [width_eq]; rfl, by cases masked <;> simp, by simp, fun y row bs h1 h2 => ?_, fun y row bs h1 h2 => ?_⟩
  · cases masked with
    | false => simp at h2
    | true =>
      rw [if_pos rfl, List.getElem?_map, h1] at h2
      cases h2
      have e : (fun c : Color => decide (c.alpha.toNat ≤ 127)) = clearBit := by
        funext c; unfold clearBit; simp only [UInt8.le_iff_toNat_le]; rfl
      rw [e]
      exact maskRow_packed row
  · rw [List.getElem?_map, h1] at h2
    cases h2
    exact imageRow_packed row

/-! Palettes -/

/-- What is known after visiting `seen`. -/
structure Seen (seen : List Color) (p : Palette) (keys : List Color) : Prop where
  eq : p = keys.zipIdx
  nodup : keys.Nodup
  mem : ∀ c, c ∈ keys ↔ c ∈ seen
  order : ∀ (j k : Nat) (c d : Color), keys[j]? = some c → keys[k]? = some d → j < k → seen.idxOf c < seen.idxOf d

theorem lookup_zipIdx (c : Color) (k : Nat) : ∀ (keys : List Color) (n : Nat), keys.Nodup →
    ((keys.zipIdx n).lookup c = some k ↔ n ≤ k ∧ keys[k - n]? = some c)
  | [], n, _ => by simp
  | d :: keys, n, h => by
    obtain ⟨h1, h2⟩ := List.nodup_cons.mp h
    rw [List.zipIdx_cons, List.lookup_cons]
    by_cases hc : c = d
    · subst hc
      simp only [beq_self_eq_true, Option.some.injEq]
      constructor
      · rintro rfl; simp
      · rintro ⟨h3, h4⟩
        by_cases hk : k = n
        · exact hk.symm
        · obtain ⟨j, hj⟩ : ∃ j, k - n = j + 1 := ⟨k - n - 1, by omega⟩
          rw [hj, List.getElem?_cons_succ] at h4
          exact absurd (List.mem_of_getElem? h4) h1
    · have : (c == d) = false := by simp [hc]
      simp only [this, lookup_zipIdx c k keys (n + 1) h2]
      constructor
      · rintro ⟨h3, h4⟩
        obtain ⟨j, hj⟩ : ∃ j, k - n = j + 1 := ⟨k - n - 1, by omega⟩
        refine ⟨by omega, ?_⟩
        rw [hj, List.getElem?_cons_succ, ← h4]; congr 1; omega
      · rintro ⟨h3, h4⟩
        have hk : k ≠ n := by rintro rfl; simp at h4; exact hc h4.symm
        obtain ⟨j, hj⟩ : ∃ j, k - n = j + 1 := ⟨k - n - 1, by omega⟩
        rw [hj, List.getElem?_cons_succ] at h4
        refine ⟨by omega, ?_⟩
        rw [← h4]; congr 1; omega

theorem Seen.lookup {seen : List Color} {p : Palette} {keys : List Color} (h : Seen seen p keys) (c : Color) (k : Nat) :
    p.lookup c = some k ↔ keys[k]? = some c := by
  rw [h.eq, lookup_zipIdx c k keys 0 h.nodup]; simp

theorem Seen.length {seen : List Color} {p : Palette} {keys : List Color} (h : Seen seen p keys) :
    p.length = keys.length := by rw [h.eq, List.length_zipIdx]

theorem Seen.step {seen : List Color} {p : Palette} {keys : List Color} (h : Seen seen p keys) (c : Color) :
    ∃ keys', Seen (seen ++ [c]) (paletteStep p c) keys' := by
  unfold paletteStep
  cases hl : p.lookup c with
  | some k =>
    have hk := (h.lookup c k).mp hl
    have hc : c ∈ seen := (h.mem c).mp (List.mem_of_getElem? hk)
    refine ⟨keys, h.eq, h.nodup, fun d => ?_, fun i j d e hd he hij => ?_⟩
    · rw [h.mem d, List.mem_append, List.mem_singleton]
      exact ⟨.inl, fun h => h.elim id (fun h => h ▸ hc)⟩
    · rw [List.idxOf_append, List.idxOf_append, if_pos ((h.mem d).mp (List.mem_of_getElem? hd)),
        if_pos ((h.mem e).mp (List.mem_of_getElem? he))]
      exact h.order i j d e hd he hij
  | none =>
    have hc : c ∉ keys := by
      intro hc
      obtain ⟨k, hk⟩ := List.getElem?_of_mem hc
      rw [(h.lookup c k).mpr hk] at hl
      cases hl
    refine ⟨keys ++ [c], ?_, ?_, fun d => ?_, fun i j d e hd he hij => ?_⟩
    · rw [h.length, h.eq, List.zipIdx_append]; simp
    · rw [List.nodup_append]
      refine ⟨h.nodup, by simp, ?_⟩
      rintro a ha b hb rfl
      rw [List.mem_singleton] at hb
      exact hc (hb ▸ ha)
    · simp only [List.mem_append, h.mem d]
    · have hj : j < (keys ++ [c]).length := (List.getElem?_eq_some_iff.mp he).1
      rw [List.length_append, List.length_singleton] at hj
      rw [List.getElem?_append_left (by omega)] at hd
      have hds := (h.mem d).mp (List.mem_of_getElem? hd)
      rw [List.idxOf_append, if_pos hds]
      by_cases hj' : j < keys.length
      · rw [List.getElem?_append_left hj'] at he
        rw [List.idxOf_append, if_pos ((h.mem e).mp (List.mem_of_getElem? he))]
        exact h.order i j d e hd he hij
      · have : j = keys.length := by omega
        subst this
        have : c = e := by simpa using he
        subst this
        rw [List.idxOf_append, if_neg (fun h' => hc ((h.mem c).mpr h'))]
        have := List.idxOf_lt_length_of_mem hds
        omega

theorem Seen.foldl : ∀ (cs : List Color) {seen : List Color} {p : Palette} {keys : List Color}, Seen seen p keys →
    ∃ keys', Seen (seen ++ cs) (cs.foldl paletteStep p) keys'
  | [], seen, p, keys, h => ⟨keys, by rw [List.append_nil]; exact h⟩
  | c :: cs, seen, p, keys, h => by
    obtain ⟨k', h'⟩ := h.step c
    obtain ⟨k2, h2⟩ := Seen.foldl cs h'
    rw [List.append_assoc] at h2
    exact ⟨k2, h2⟩

theorem getPalette_eq (i : Image) : i.getPalette = (pixels i).foldl paletteStep [] := by
  unfold Image.getPalette pixels framePixels
  rw [List.foldl_flatMap]
  simp only [List.foldl_flatten]

/-- The palette of an image. -/
theorem getPalette_seen (i : Image) : ∃ keys, Seen (pixels i) i.getPalette keys := by
  rw [getPalette_eq]
  have h0 : Seen [] [] [] := ⟨rfl, List.nodup_nil, fun c => Iff.rfl, nofun⟩
  exact Seen.foldl (pixels i) h0

end Verif
