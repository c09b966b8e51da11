import Verif.Lemmas.Icon
/-
Whole icons.
-/
namespace Verif
open Verif.Spec

theorem fill_order {keys : List Color} (hn : keys.Nodup) {order : List Color → List Color}
    (ho : ∀ l, (order l).Perm l) {size : Nat} (hl : keys.length ≤ size) :
    ∃ v, fillPalette keys.zipIdx (List.replicate size .default) (order (keys.zipIdx.map (·.1))) = .ok v ∧
      v.length = size ∧ ∀ (k : Nat) (c : Color), keys[k]? = some c → v[k]? = some c := by
  have hm : keys.zipIdx.map (·.1) = keys := List.zipIdx_map_fst 0 keys
  rw [hm]
  have hp := ho keys
  obtain ⟨v, h1, h2, h3, _⟩ := fillPalette_ok hn (order keys) (List.replicate size .default)
    (fun c hc => hp.mem_iff.mp hc) (by rw [List.length_replicate]; exact hl)
  refine ⟨v, h1, by rw [h2, List.length_replicate], fun k c hk => h3 k c hk (hp.mem_iff.mpr (List.mem_of_getElem? hk))⟩

/-- The order does not matter. -/
theorem fill_same {keys : List Color} (hn : keys.Nodup) {order order' : List Color → List Color}
    (ho : ∀ l, (order l).Perm l) (ho' : ∀ l, (order' l).Perm l) {size : Nat} (hl : keys.length ≤ size) :
    fillPalette keys.zipIdx (List.replicate size .default) (order (keys.zipIdx.map (·.1))) =
      fillPalette keys.zipIdx (List.replicate size .default) (order' (keys.zipIdx.map (·.1))) := by
  have hm : keys.zipIdx.map (·.1) = keys := List.zipIdx_map_fst 0 keys
  rw [hm]
  have hp := ho keys
  have hp' := ho' keys
  obtain ⟨v, h1, h2, h3, h4⟩ := fillPalette_ok hn (order keys) (List.replicate size .default)
    (fun c hc => hp.mem_iff.mp hc) (by rw [List.length_replicate]; exact hl)
  obtain ⟨v', g1, g2, g3, g4⟩ := fillPalette_ok hn (order' keys) (List.replicate size .default)
    (fun c hc => hp'.mem_iff.mp hc) (by rw [List.length_replicate]; exact hl)
  rw [h1, g1]
  congr 1
  apply List.ext_getElem?
  intro k
  cases hk : keys[k]? with
  | none => rw [h4 k (by rw [hk]; nofun), g4 k (by rw [hk]; nofun)]
  | some c =>
    have hc := List.mem_of_getElem? hk
    rw [h3 k c hk (hp.mem_iff.mpr hc), g3 k c hk (hp'.mem_iff.mpr hc)]

theorem toIcon_order {order order' : List Color → List Color} (ho : ∀ l, (order l).Perm l) (ho' : ∀ l, (order' l).Perm l)
    (i : Image) (name : Text) : i.toIcon order i.getPalette name = i.toIcon order' i.getPalette name := by
  obtain ⟨keys, hs⟩ := getPalette_seen i
  unfold Image.toIcon
  split
  · next h =>
    have hl : keys.length ≤ paletteSize i.getPalette := by
      have := hs.length
      unfold paletteSize at h ⊢
      by_cases h1 : i.getPalette.length ≤ 16
      · rw [if_pos h1]; omega
      · rw [if_neg h1] at h ⊢
        by_cases h2 : i.getPalette.length ≤ 256
        · rw [if_pos h2]; omega
        · rw [if_neg h2] at h; omega
    rw [hs.eq] at hl ⊢
    rw [fill_same hs.nodup ho ho' hl]
  · rfl

theorem icon_order {order order' : List Color → List Color} (ho : ∀ l, (order l).Perm l) (ho' : ∀ l, (order' l).Perm l)
    (load : Text → Res Image) (path : Text) (speed : Option Nat) (eyecatch : Option Text) :
    toIcon order load path speed eyecatch = toIcon order' load path speed eyecatch := by
  unfold toIcon
  have he : ∀ e p, eyecatchPart order e p = eyecatchPart order' e p := by
    intro e p
    cases e with
    | none => rfl
    | some e => unfold eyecatchPart; dsimp only; rw [toIcon_order ho ho']
  simp only [toIcon_order ho ho', he]

theorem scaled_size {w h : Nat} {f : Frame} (hf : HasSize w h f) :
    HasSize w h ⟨f.delay, f.rows.map fun row => row.map (Color.scaleChannels 15)⟩ := by
  refine ⟨by simp [hf.1], fun row hr => ?_⟩
  obtain ⟨r, h1, rfl⟩ := List.mem_map.mp hr
  rw [List.length_map]
  exact hf.2 r h1

/-- A frame with its channels scaled. -/
def Frame.scaled (f : Frame) : Frame := ⟨f.delay, f.rows.map fun row => row.map (Color.scaleChannels 15)⟩

theorem scaled_frames (i : Image) : (i.scaleChannels 15).frames = i.frames.map Frame.scaled := rfl

theorem scaled_sizes {i : Image} {w h : Nat} (hi : ∀ f ∈ i.frames, HasSize w h f) :
    ∀ f ∈ (i.scaleChannels 15).frames, HasSize w h f := by
  intro f hf
  rw [scaled_frames] at hf
  obtain ⟨g, hg, rfl⟩ := List.mem_map.mp hf
  exact scaled_size (hi g hg)

theorem row_of_pixel {f : Frame} {x y : Nat} {c : Color} (h : pixelAt f x y = some c) :
    ∃ row, f.rows[y]? = some row ∧ row[x]? = some c ∧
      f.scaled.rows[y]? = some (row.map (Color.scaleChannels 15)) ∧
      (row.map (Color.scaleChannels 15))[x]? = some (c.scaleChannels 15) := by
  obtain ⟨row, h1, h2⟩ := Option.bind_eq_some_iff.mp h
  refine ⟨row, h1, h2, ?_, ?_⟩
  · unfold Frame.scaled; rw [List.getElem?_map, h1]; rfl
  · rw [List.getElem?_map, h2]; rfl

theorem mem_pixels {i : Image} {f : Frame} (hf : f ∈ i.frames) {row : List Color} (hr : row ∈ f.rows) {c : Color}
    (hc : c ∈ row) : c ∈ pixels i :=
  List.mem_flatMap.mpr ⟨f, hf, List.mem_flatten.mpr ⟨row, hr, hc⟩⟩

section
variable {order : List Color → List Color} (ho : ∀ l, (order l).Perm l) {i : Image} {w h : Nat}
  (hi : ∀ f ∈ i.frames, HasSize w h f) (name : Text)
include ho hi

/-- The 16-colour format. -/
theorem toIcon_16 (hw : w % 2 = 0) (hp : (i.scaleChannels 15).getPalette.length ≤ 16) :
    ∃ stmts pal px, (i.scaleChannels 15).toIcon order (i.scaleChannels 15).getPalette name = .ok stmts ∧
      Data stmts (pal ++ px) ∧ pal.length = 32 ∧ px.length = w / 2 * h * i.frames.length ∧
      ∀ (n : Nat) (f : Frame) (x y : Nat) (c : Color), i.frames[n]? = some f → pixelAt f x y = some c →
        ∃ k, k < 16 ∧ nibbleAt px (w / 2 * h * n + w / 2 * y) x = some k ∧
          ∀ j < 2, pal[2 * k + j]? = (le16 (argb c))[j]? := by
  obtain ⟨keys, hs⟩ := getPalette_seen (i.scaleChannels 15)
  have hkl : keys.length ≤ 16 := by rw [← hs.length]; exact hp
  have hpe : paletteSize (i.scaleChannels 15).getPalette = 16 := by unfold paletteSize; rw [if_pos hp]
  obtain ⟨v, f1, f2, f3⟩ := fill_order hs.nodup ho (size := 16) hkl
  have hin : ∀ f ∈ (i.scaleChannels 15).frames, ∀ row ∈ f.rows, ∀ c ∈ row, c ∈ keys :=
    fun f hf row hr c hc => (hs.mem c).mpr (mem_pixels hf hr hc)
  have hev : ∀ f ∈ (i.scaleChannels 15).frames, ∀ row ∈ f.rows, row.length = w :=
    fun f hf row hr => (scaled_sizes hi f hf).2 row hr
  obtain ⟨s, g1, g2⟩ := packFrames16_data (map := keys.zipIdx) (many := decide ((i.scaleChannels 15).frames.length > 1))
    (g := rowBytes16 keys) 1 (fs := (i.scaleChannels 15).frames) fun f hf row hr =>
      packRow16_ok hs.nodup hkl (by rw [hev f hf row hr]; exact hw) (hin f hf row hr)
  have hg : ∀ row : List Color, row.length = w → (rowBytes16 keys row).length = w / 2 := fun row hr => by
    rw [rowBytes16_length, hr]
  refine ⟨.comment ("\nPalette for \"".toList ++ name ++ "\"".toList) ::
      (List.range (v.length / 8)).map (paletteLine v) ++
      .comment ("\nPixel data for \"".toList ++ name ++ "\"".toList) :: s, paletteBytes v, pixelBytes (rowBytes16 keys) (i.scaleChannels 15).frames, ?_, ?_, ?_, ?_, ?_⟩
  · unfold Image.toIcon
    rw [hpe, if_pos (by decide), hs.eq, f1, Res.ok_bind, if_pos f2, g1, Res.ok_bind]
  · exact .comment ((paletteBytes_data v).append (.comment g2))
  · rw [paletteBytes_length, f2]
  · rw [pixelBytes_length hg (scaled_sizes hi), scaled_frames, List.length_map]
  · intro n f x y c hn hc
    obtain ⟨row, r1, r2, r3, r4⟩ := row_of_pixel hc
    have hn' : (i.scaleChannels 15).frames[n]? = some f.scaled := by
      rw [scaled_frames, List.getElem?_map, hn]; rfl
    have hf' := List.mem_of_getElem? hn'
    have hr' := List.mem_of_getElem? r3
    have hrl := hev _ hf' _ hr'
    have hck := hin _ hf' _ hr' _ (List.mem_of_getElem? r4)
    have hx : x < w := hrl ▸ (List.getElem?_eq_some_iff.mp r4).1
    obtain ⟨_, k2, k3⟩ := idxOf_index hs.nodup hck
    refine ⟨keys.idxOf (c.scaleChannels 15), by omega, ?_, ?_⟩
    · unfold nibbleAt
      rw [Nat.add_assoc, pixelBytes_getElem? hg (scaled_sizes hi) hn' r3 (by omega)]
      exact rowBytes16_get hkl x (hin _ hf' _ hr') (by rw [hrl]; exact hw) r4
    · rw [← argb_eq]
      exact paletteBytes_get (f3 _ _ k2) (by rw [f2])

/-- The 256-colour format. -/
theorem toIcon_256 (hp : 16 < (i.scaleChannels 15).getPalette.length) (hp' : (i.scaleChannels 15).getPalette.length ≤ 256) :
    ∃ stmts pal px, (i.scaleChannels 15).toIcon order (i.scaleChannels 15).getPalette name = .ok stmts ∧
      Data stmts (pal ++ px) ∧ pal.length = 512 ∧ px.length = w * h * i.frames.length ∧
      ∀ (n : Nat) (f : Frame) (x y : Nat) (c : Color), i.frames[n]? = some f → pixelAt f x y = some c →
        ∃ k : UInt8, px[w * h * n + (w * y + x)]? = some k ∧
          ∀ j < 2, pal[2 * k.toNat + j]? = (le16 (argb c))[j]? := by
  obtain ⟨keys, hs⟩ := getPalette_seen (i.scaleChannels 15)
  have hkl : keys.length ≤ 256 := by rw [← hs.length]; exact hp'
  have hpe : paletteSize (i.scaleChannels 15).getPalette = 256 := by
    unfold paletteSize; rw [if_neg (by omega), if_pos hp']
  obtain ⟨v, f1, f2, f3⟩ := fill_order hs.nodup ho (size := 256) hkl
  have hin : ∀ f ∈ (i.scaleChannels 15).frames, ∀ row ∈ f.rows, ∀ c ∈ row, c ∈ keys :=
    fun f hf row hr c hc => (hs.mem c).mpr (mem_pixels hf hr hc)
  have hev : ∀ f ∈ (i.scaleChannels 15).frames, ∀ row ∈ f.rows, row.length = w :=
    fun f hf row hr => (scaled_sizes hi f hf).2 row hr
  obtain ⟨s, g1, g2⟩ := packFrames256_data (map := keys.zipIdx)
    (g := rowBytes256 keys) (fs := (i.scaleChannels 15).frames) fun f hf row hr =>
      packRow256_ok hs.nodup hkl (hin f hf row hr)
  have hg : ∀ row : List Color, row.length = w → (rowBytes256 keys row).length = w := fun row hr => by
    rw [rowBytes256, List.length_map, hr]
  refine ⟨.comment ("\nPalette for \"".toList ++ name ++ "\"".toList) ::
      (List.range (v.length / 8)).map (paletteLine v) ++
      .comment ("\nPixel data for \"".toList ++ name ++ "\"".toList) :: s, paletteBytes v, pixelBytes (rowBytes256 keys) (i.scaleChannels 15).frames, ?_, ?_, ?_, ?_, ?_⟩
  · unfold Image.toIcon
    rw [hpe, if_pos (by decide), hs.eq, f1, Res.ok_bind, if_neg (by rw [f2]; decide), g1, Res.ok_bind]
  · exact .comment ((paletteBytes_data v).append (.comment g2))
  · rw [paletteBytes_length, f2]
  · rw [pixelBytes_length hg (scaled_sizes hi), scaled_frames, List.length_map]
  · intro n f x y c hn hc
    obtain ⟨row, r1, r2, r3, r4⟩ := row_of_pixel hc
    have hn' : (i.scaleChannels 15).frames[n]? = some f.scaled := by
      rw [scaled_frames, List.getElem?_map, hn]; rfl
    have hf' := List.mem_of_getElem? hn'
    have hr' := List.mem_of_getElem? r3
    have hrl := hev _ hf' _ hr'
    have hck := hin _ hf' _ hr' _ (List.mem_of_getElem? r4)
    have hx : x < w := hrl ▸ (List.getElem?_eq_some_iff.mp r4).1
    obtain ⟨_, k2, k3⟩ := idxOf_index hs.nodup hck
    refine ⟨UInt8.ofNat (keys.idxOf (c.scaleChannels 15)), ?_, ?_⟩
    · rw [pixelBytes_getElem? hg (scaled_sizes hi) hn' r3 hx, rowBytes256, List.getElem?_map, r4]
      rfl
    · rw [← argb_eq, UInt8.toNat_ofNat', Nat.mod_eq_of_lt (by omega)]
      exact paletteBytes_get (f3 _ _ k2) (by rw [f2])

omit ho in
/-- The true colour format. -/
theorem toIcon_true (hp : 256 < (i.scaleChannels 15).getPalette.length) :
    ∃ stmts px, (i.scaleChannels 15).toIcon order (i.scaleChannels 15).getPalette name = .ok stmts ∧
      Data stmts px ∧ px.length = 2 * w * h * i.frames.length ∧
      ∀ (n : Nat) (f : Frame) (x y : Nat) (c : Color), i.frames[n]? = some f → pixelAt f x y = some c →
        ∀ j < 2, px[2 * w * h * n + (2 * w * y + (2 * x + j))]? = (le16 (argb c))[j]? := by
  have hpe : paletteSize (i.scaleChannels 15).getPalette = 0 := by
    unfold paletteSize; rw [if_neg (by omega), if_neg (by omega)]
  have hg : ∀ row : List Color, row.length = w → (rowBytesTrue row).length = 2 * w := fun row hr => by
    rw [rowBytesTrue, chunk_length fun c _ => le16_length _, hr]
  refine ⟨(i.scaleChannels 15).frames.flatMap fun f => f.rows.map packRowTrue, pixelBytes rowBytesTrue (i.scaleChannels 15).frames, ?_, ?_, ?_, ?_⟩
  · unfold Image.toIcon
    rw [hpe, if_neg (by decide)]
  · refine Data.flatMap fun f _ => ?_
    have := Data.flatMap (l := f.rows) (f := fun row => [packRowTrue row]) fun row _ => packRowTrue_data row
    rw [← List.map_eq_flatMap] at this
    exact this
  · rw [pixelBytes_length hg (scaled_sizes hi), scaled_frames, List.length_map]
  · intro n f x y c hn hc j hj
    obtain ⟨row, r1, r2, r3, r4⟩ := row_of_pixel hc
    have hn' : (i.scaleChannels 15).frames[n]? = some f.scaled := by
      rw [scaled_frames, List.getElem?_map, hn]; rfl
    have hrl := (scaled_sizes hi _ (List.mem_of_getElem? hn')).2 _ (List.mem_of_getElem? r3)
    have hx : x < w := hrl ▸ (List.getElem?_eq_some_iff.mp r4).1
    rw [pixelBytes_getElem? hg (scaled_sizes hi) hn' r3 (by omega), rowBytesTrue,
      chunk_getElem? hj x fun c _ => le16_length _, r4, Option.bind_some, argb_eq]

end

theorem isSize_iff (f : Frame) (w h : Nat) : f.isSize w h = true ↔ HasSize w h f := by
  unfold Frame.isSize HasSize
  simp only [Bool.and_eq_true, beq_iff_eq, List.all_eq_true]
  constructor
  · rintro ⟨h1, h2⟩; exact ⟨h1.symm, h2⟩
  · rintro ⟨h1, h2⟩; exact ⟨h1.symm, h2⟩

theorem scaled_size_iff {w h : Nat} (f : Frame) : HasSize w h f.scaled ↔ HasSize w h f := by
  constructor
  · rintro ⟨h1, h2⟩
    refine ⟨by simpa [Frame.scaled] using h1, fun row hr => ?_⟩
    have := h2 (row.map (Color.scaleChannels 15)) (List.mem_map_of_mem hr)
    rwa [List.length_map] at this
  · exact scaled_size

theorem imageSize_iff (i : Image) (w h : Nat) : (i.scaleChannels 15).isSize w h = true ↔ ∀ f ∈ i.frames, HasSize w h f := by
  unfold Image.isSize
  rw [List.all_eq_true, scaled_frames]
  constructor
  · intro hh f hf
    exact (scaled_size_iff f).mp ((isSize_iff _ _ _).mp (hh _ (List.mem_map_of_mem hf)))
  · intro hh f hf
    obtain ⟨g, hg, rfl⟩ := List.mem_map.mp hf
    exact (isSize_iff _ _ _).mpr (scaled_size (hh g hg))

theorem head_data (i : Image) (name : Text) (speed etype : Nat) (hf : i.frames.length < 65536) (hs : speed < 65536)
    (he : etype < 65536) :
    Data (i.toFrameCountAndSpeed name speed ++ iconHead etype) (le16 i.frames.length ++ le16 speed ++ (le16 etype ++
      (le16 0 ++ (le16 0 ++ le16 0 ++ (List.replicate 10 0 ++ (List.replicate 10 0 ++ [])))))) := by
  have e : wrap32 (i.frames.length : Int) = (i.frames.length : Int) := wrap32_small (by omega)
  refine Data.append ?_ ?_
  · unfold Image.toFrameCountAndSpeed
    rw [e]
    have := words_data (r := .hex) [i.frames.length, speed] (by simp [hf, hs])
    exact .comment (by simpa [Expr.num] using this)
  · unfold iconHead
    refine .comment ?_
    have w1 := Data.word (r := .hex) [etype] (by simpa using he) (xs := (iconHead etype).drop 2)
      (bs := le16 0 ++ (le16 0 ++ le16 0 ++ (List.replicate 10 0 ++ (List.replicate 10 0 ++ [])))) (by
        refine .comment ?_
        have w2 := Data.word (r := .hex) [0] (by simp) (xs := (iconHead etype).drop 4)
          (bs := le16 0 ++ le16 0 ++ (List.replicate 10 0 ++ (List.replicate 10 0 ++ []))) (by
            refine .comment ?_
            have w3 := Data.word (r := .hex) [0, 0] (by simp) (xs := (iconHead etype).drop 6)
              (bs := List.replicate 10 0 ++ (List.replicate 10 0 ++ [])) (by
                refine .comment ?_
                exact .byte (r := .hex) (List.replicate 10 0) (.byte (r := .hex) (List.replicate 10 0) .nil))
            exact w3)
        exact w2)
    exact w1

/-- The head's bytes. -/
theorem head_bytes (n speed etype : Nat) (rest : List UInt8) (hn : n < 65536) (hs : speed < 65536) (he : etype < 65536)
    {bs : List UInt8} (h : bs = (le16 n ++ le16 speed ++ (le16 etype ++
      (le16 0 ++ (le16 0 ++ le16 0 ++ (List.replicate 10 0 ++ (List.replicate 10 0 ++ [])))))) ++ rest) :
    wordAt bs 0 = some n ∧ wordAt bs 2 = some speed ∧ wordAt bs 4 = some etype ∧
      (∀ i, 6 ≤ i → i < 32 → bs[i]? = some 0) ∧ ∃ hd, bs = hd ++ rest ∧ hd.length = 32 := by
  refine ⟨?_, ?_, ?_, ?_, _, h, rfl⟩
  · apply wordAt_le16 _ hn
    intro j hj
    subst h
    rcases (by omega : j = 0 ∨ j = 1) with rfl | rfl <;> rfl
  · apply wordAt_le16 _ hs
    intro j hj
    subst h
    rcases (by omega : j = 0 ∨ j = 1) with rfl | rfl <;> rfl
  · apply wordAt_le16 _ he
    intro j hj
    subst h
    rcases (by omega : j = 0 ∨ j = 1) with rfl | rfl <;> rfl
  · intro i h6 h32
    obtain ⟨j, rfl⟩ : ∃ j, i = j + 6 := ⟨i - 6, by omega⟩
    have : bs = [UInt8.ofNat (n % 256), UInt8.ofNat (n / 256), UInt8.ofNat (speed % 256), UInt8.ofNat (speed / 256),
        UInt8.ofNat (etype % 256), UInt8.ofNat (etype / 256)] ++ (List.replicate 26 0 ++ rest) := h
    rw [this, List.getElem?_append_right (by simp), List.getElem?_append_left (by simp; omega),
      List.getElem?_eq_getElem (by simp; omega), List.getElem_replicate]

theorem getElem?_mid {a b c : List UInt8} {i : Nat} (hi : i < b.length) : (a ++ (b ++ c))[a.length + i]? = b[i]? := by
  rw [List.getElem?_append_right (by omega), Nat.add_sub_cancel_left, List.getElem?_append_left hi]


/-- The words of a palette in the middle of a file. -/
theorem wordAt_mid {a b c : List UInt8} {i w : Nat} (hi : i + 1 < b.length) (h : ∀ j < 2, b[i + j]? = (le16 w)[j]?)
    (hw : w < 65536) : wordAt (a ++ (b ++ c)) (a.length + i) = some w := by
  refine wordAt_le16 (fun j hj => ?_) hw
  rw [Nat.add_assoc, getElem?_mid (by omega)]
  exact h j hj

theorem nibbleAt_mid {a b c : List UInt8} {i x k : Nat} (h : nibbleAt b i x = some k) :
    nibbleAt (a ++ (b ++ c)) (a.length + i) x = some k := by
  unfold nibbleAt at h ⊢
  obtain ⟨v, h1, h2⟩ := Option.map_eq_some_iff.mp h
  rw [Nat.add_assoc, getElem?_mid (List.getElem?_eq_some_iff.mp h1).1, h1, ← h2]
  rfl

theorem pixels_still (f : Frame) : pixels ⟨[f]⟩ = framePixels f := by
  unfold pixels; simp

/-- The eyecatch after `a`. -/
theorem eyecatch_part {order : List Color → List Color} (ho : ∀ l, (order l).Perm l) {f : Frame} (hf : HasSize 72 56 f)
    (name : Text) :
    ∃ stmts bs, eyecatchPart order (some ((⟨[f]⟩ : Image).scaleChannels 15)) name = .ok stmts ∧ Data stmts bs ∧
      ∀ a : List UInt8, Eyecatch (a ++ bs) a.length (some f)
        (eyecatchType (some ((⟨[f]⟩ : Image).scaleChannels 15).getPalette)) := by
  have hi : ∀ g ∈ (⟨[f]⟩ : Image).frames, HasSize 72 56 g := by
    intro g hg
    rw [List.mem_singleton.mp hg]; exact hf
  have hsz := (imageSize_iff ⟨[f]⟩ 72 56).mpr hi
  have hf0 : (⟨[f]⟩ : Image).frames[0]? = some f := rfl
  have hp := fun n => palette_count ⟨[f]⟩ n
  rw [pixels_still] at hp
  unfold eyecatchPart
  dsimp only
  rw [if_pos hsz]
  unfold eyecatchType
  dsimp only
  by_cases h16 : ((⟨[f]⟩ : Image).scaleChannels 15).getPalette.length ≤ 16
  · rw [if_pos h16]
    obtain ⟨stmts, pal, px, e1, e2, e3, e4, e5⟩ := toIcon_16 ho hi name (by decide) h16
    refine ⟨stmts, _, e1, e2, fun a => .palette16 ((hp 16).mp h16) (by simp [e3, e4]; try omega) ?_⟩
    intro x y c hc
    obtain ⟨k, k0, k1, k2⟩ := e5 0 f x y c hf0 hc
    refine ⟨k, ?_, wordAt_mid (by omega) k2 (argb_lt c)⟩
    have := nibbleAt_mid (a := a ++ pal) (c := []) k1
    rw [List.append_nil, List.append_assoc, List.length_append, e3] at this
    rw [← this]
    congr 1
    omega
  · rw [if_neg h16]
    by_cases h256 : ((⟨[f]⟩ : Image).scaleChannels 15).getPalette.length ≤ 256
    · rw [if_pos h256]
      obtain ⟨stmts, pal, px, e1, e2, e3, e4, e5⟩ := toIcon_256 ho hi name (by omega) h256
      refine ⟨stmts, _, e1, e2, fun a => .palette256 (fun h => h16 ((hp 16).mpr h)) ((hp 256).mp h256)
        (by simp [e3, e4]; try omega) ?_⟩
      intro x y c hc
      obtain ⟨k, k1, k2⟩ := e5 0 f x y c hf0 hc
      have := k.toNat_lt
      refine ⟨k, ?_, wordAt_mid (by omega) k2 (argb_lt c)⟩
      have := getElem?_mid (a := a ++ pal) (c := []) (List.getElem?_eq_some_iff.mp k1).1
      rw [List.append_nil, List.append_assoc, List.length_append, e3, k1] at this
      rw [← this]
      congr 1
      omega
    · rw [if_neg h256]
      obtain ⟨stmts, px, e1, e2, e3, e4⟩ := toIcon_true (order := order) hi name (by omega)
      refine ⟨stmts, _, e1, e2, fun a => .trueColour (fun h => h256 ((hp 256).mpr h)) (by simp [e3]) ?_⟩
      intro x y c hc
      have k := e4 0 f x y c hf0 hc
      have hb : 2 * (72 * y + x) + 1 < px.length := by
        have := k 1 (by omega)
        have h1 : (le16 (argb c))[1]? = some (UInt8.ofNat (argb c / 256)) := rfl
        rw [h1] at this
        have := (List.getElem?_eq_some_iff.mp this).1
        omega
      have := wordAt_mid (a := a) (b := px) (c := []) (i := 2 * (72 * y + x)) (w := argb c) hb (fun j hj => by
        rw [← k j hj]; congr 1; omega) (argb_lt c)
      rw [List.append_nil] at this
      exact this

theorem icon_ok {order : List Color → List Color} (ho : ∀ l, (order l).Perm l) {load : Text → Res Image} {path : Text}
    {i : Image} (hl : load path = .ok i) (hn : i.frames.length < 65536) {speed : Option Nat} (hs : speed.getD 10 < 65536)
    (hsz : ∀ f ∈ i.frames, HasSize 32 32 f) (hc : ColoursAtMost 16 (pixels i)) {epath : Option Text} {e : Option Frame}
    (he : EyecatchFrame load epath e) (hesz : ∀ f, e = some f → HasSize 72 56 f) :
    ∃ stmts bs, toIcon order load path speed epath = .ok stmts ∧ Data stmts bs ∧ Icon bs i.frames (speed.getD 10) e := by
  have hp := (palette_count i 16).mpr hc
  obtain ⟨s1, pal, px, e1, e2, e3, e4, e5⟩ := toIcon_16 ho hsz path (by decide) hp
  obtain ⟨ei, s2, b2, g1, g2, g3, g4⟩ : ∃ ei s2 b2, loadEyecatch load epath = .ok ei ∧
      eyecatchPart order ei (epath.getD []) = .ok s2 ∧ Data s2 b2 ∧
      ∀ a : List UInt8, Eyecatch (a ++ b2) a.length e (eyecatchType (ei.map Image.getPalette)) := by
    cases he with
    | none => exact ⟨none, [], [], rfl, rfl, .nil, fun a => .none (by simp)⟩
    | @some p j f rest h1 h2 =>
      obtain ⟨s, b, q1, q2, q3⟩ := eyecatch_part ho (hesz f rfl) p
      refine ⟨some ((⟨[f]⟩ : Image).scaleChannels 15), s, b, ?_, q1, q2, q3⟩
      simp only [loadEyecatch, h1, Image.asStill, h2, Res.ok_bind]
  have het : eyecatchType (ei.map Image.getPalette) < 65536 := by
    unfold eyecatchType
    cases ei <;> simp only [Option.map_none, Option.map_some]
    · omega
    · repeat' split
      all_goals omega
  have hd := head_data (i.scaleChannels 15) path (speed.getD 10) (eyecatchType (ei.map Image.getPalette))
    (by rw [scaled_frames, List.length_map]; exact hn) hs het
  have hlen : (i.scaleChannels 15).frames.length = i.frames.length := by rw [scaled_frames, List.length_map]
  rw [hlen] at hd
  obtain ⟨w1, w2, w3, w4, hdb, w5, w6⟩ := head_bytes i.frames.length (speed.getD 10) _ ((pal ++ px) ++ b2) hn hs het rfl
  rw [← List.append_assoc] at w1 w2 w3 w4 w5
  refine ⟨_, _, ?_, (hd.append e2).append g3, w1, w2, w4, ?_, _, w3, ?_⟩
  · unfold toIcon
    rw [hl, Res.ok_bind]
    dsimp only
    rw [if_neg (by omega), if_neg (by rw [(imageSize_iff i 32 32).mpr hsz]; decide), g1, Res.ok_bind, e1, Res.ok_bind, g2,
      Res.ok_bind]
  · rw [w5]
    intro n f hf x y c hc
    obtain ⟨k, k0, k1, k2⟩ := e5 n f x y c hf hc
    refine ⟨k, ?_, ?_⟩
    · have := nibbleAt_mid (a := hdb ++ pal) (c := b2) k1
      rw [List.length_append, w6, e3] at this
      simp only [List.append_assoc] at this ⊢
      rw [← this]
      congr 1
      omega
    · have := wordAt_mid (a := hdb) (b := pal) (c := px ++ b2) (i := 2 * k) (by omega) k2 (argb_lt c)
      rw [w6] at this
      simp only [List.append_assoc]
      exact this
  · rw [w5]
    have := g4 (hdb ++ (pal ++ px))
    rw [List.length_append, List.length_append, w6, e3, e4] at this
    rw [List.append_assoc] at this
    have e : 32 + (32 + 32 / 2 * 32 * i.frames.length) = 64 + 512 * i.frames.length := by omega
    rw [e] at this
    exact this

theorem icon_only {order : List Color → List Color} {load : Text → Res Image} {path : Text} {speed : Option Nat}
    {epath : Option Text} {stmts : List Stmt} (h : toIcon order load path speed epath = .ok stmts) :
    ∃ i e, load path = .ok i ∧ (∀ f ∈ i.frames, HasSize 32 32 f) ∧ ColoursAtMost 16 (pixels i) ∧
      EyecatchFrame load epath e ∧ ∀ f, e = some f → HasSize 72 56 f := by
  unfold toIcon at h
  obtain ⟨i, h1, h⟩ := Res.bind_eq_ok.mp h
  dsimp only at h
  split at h
  · cases h
  · next hp =>
    split at h
    · cases h
    · next hsz =>
      obtain ⟨ei, h2, h⟩ := Res.bind_eq_ok.mp h
      obtain ⟨s1, h3, h⟩ := Res.bind_eq_ok.mp h
      obtain ⟨s2, h4, h⟩ := Res.bind_eq_ok.mp h
      have hsz' : ∀ f ∈ i.frames, HasSize 32 32 f := (imageSize_iff i 32 32).mp (by simpa using hsz)
      have hc := (palette_count i 16).mp (by omega)
      cases epath with
      | none => exact ⟨i, none, h1, hsz', hc, .none, nofun⟩
      | some p =>
        unfold loadEyecatch at h2
        obtain ⟨j, h5, h2⟩ := Res.bind_eq_ok.mp h2
        unfold Image.asStill at h2
        cases hj : j.frames with
        | nil => rw [hj] at h2; cases h2
        | cons f rest =>
          rw [hj] at h2
          simp only [Res.ok_bind, Res.ok.injEq] at h2
          subst h2
          refine ⟨i, some f, h1, hsz', hc, .some h5 hj, fun g hg => ?_⟩
          cases hg
          unfold eyecatchPart at h4
          dsimp only at h4
          split at h4
          · next hz => exact (imageSize_iff ⟨[f]⟩ 72 56).mp hz f (by simp)
          · cases h4

theorem icon_errors {order : List Color → List Color} (ho : ∀ l, (order l).Perm l) {load : Text → Res Image} {path : Text}
    {i : Image} (hl : load path = .ok i) (speed : Option Nat) (epath : Option Text) :
    (¬ ColoursAtMost 16 (pixels i) → ∃ n, ColoursAtMost n (pixels i) ∧ ¬ ColoursAtMost (n - 1) (pixels i) ∧
      toIcon order load path speed epath = .err (.invalidPaletteSize path n 16)) ∧
    (ColoursAtMost 16 (pixels i) → ¬ (∀ f ∈ i.frames, HasSize 32 32 f) →
      toIcon order load path speed epath = .err (.invalidIconSize path 32 32)) ∧
    (∀ f, ColoursAtMost 16 (pixels i) → (∀ f ∈ i.frames, HasSize 32 32 f) → EyecatchFrame load epath (some f) →
      ¬ HasSize 72 56 f → ∃ p, epath = some p ∧ toIcon order load path speed epath = .err (.invalidIconSize p 72 56)) := by
  refine ⟨fun h => ?_, fun h1 h2 => ?_, fun f h1 h2 h3 h4 => ?_⟩
  · have hn : ¬ (i.scaleChannels 15).getPalette.length ≤ 16 := fun h' => h ((palette_count i 16).mp h')
    refine ⟨(i.scaleChannels 15).getPalette.length, (palette_count i _).mp (Nat.le_refl _), fun h' => ?_, ?_⟩
    · have := (palette_count i _).mpr h'; omega
    · unfold toIcon
      rw [hl, Res.ok_bind]
      dsimp only
      rw [if_pos (by omega)]
  · have hp := (palette_count i 16).mpr h1
    unfold toIcon
    rw [hl, Res.ok_bind]
    dsimp only
    rw [if_neg (by omega), if_pos (by
      cases hb : (i.scaleChannels 15).isSize 32 32 with
      | false => rfl
      | true => exact absurd ((imageSize_iff i 32 32).mp hb) h2)]
  · have hp := (palette_count i 16).mpr h1
    obtain ⟨s1, pal, px, e1, -⟩ := toIcon_16 ho h2 path (by decide) hp
    cases h3 with
    | @some p j _ rest h5 h6 =>
      have hle : loadEyecatch load (some p) = .ok (some ((⟨[f]⟩ : Image).scaleChannels 15)) := by
        simp only [loadEyecatch, h5, Image.asStill, h6, Res.ok_bind]
      refine ⟨p, rfl, ?_⟩
      unfold toIcon
      rw [hl, Res.ok_bind]
      dsimp only
      rw [if_neg (by omega), if_neg (by rw [(imageSize_iff i 32 32).mpr h2]; decide), hle, Res.ok_bind, e1, Res.ok_bind]
      unfold eyecatchPart
      dsimp only
      rw [if_neg (by
        intro hb
        exact h4 ((imageSize_iff ⟨[f]⟩ 72 56).mp hb f (by simp))), Res.err_bind]
      rfl

end Verif
