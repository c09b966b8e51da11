import Verif.Lemmas.Img
/-
Icons.
-/
namespace Verif
open Verif.Spec

/-! Chunks of equal length -/

theorem chunk_length {α : Type} {g : α → List UInt8} {w : Nat} : ∀ {l : List α}, (∀ a ∈ l, (g a).length = w) →
    (l.flatMap g).length = w * l.length
  | [], _ => by simp
  | a :: l, h => by
    rw [List.flatMap_cons, List.length_append, h a List.mem_cons_self,
      chunk_length fun b hb => h b (List.mem_cons_of_mem _ hb), List.length_cons, Nat.mul_succ]
    omega

theorem chunk_getElem? {α : Type} {g : α → List UInt8} {w j : Nat} (hj : j < w) : ∀ {l : List α} (n : Nat),
    (∀ a ∈ l, (g a).length = w) → (l.flatMap g)[w * n + j]? = l[n]?.bind fun a => (g a)[j]?
  | [], n, _ => by simp
  | a :: l, 0, h => by
    rw [List.flatMap_cons, List.getElem?_append_left (by rw [h a List.mem_cons_self]; omega)]
    simp
  | a :: l, n + 1, h => by
    rw [List.flatMap_cons, List.getElem?_append_right (by rw [h a List.mem_cons_self, Nat.mul_succ]; omega),
      h a List.mem_cons_self, List.getElem?_cons_succ,
      ← chunk_getElem? hj n fun b hb => h b (List.mem_cons_of_mem _ hb)]
    congr 1
    rw [Nat.mul_succ]; omega

/-- The bytes of the pixels of a list of frames, each row packed by `g`. -/
def pixelBytes (g : List Color → List UInt8) (fs : List Frame) : List UInt8 := fs.flatMap fun f => f.rows.flatMap g

theorem frame_length {g : List Color → List UInt8} {w W h : Nat} (hg : ∀ row, row.length = w → (g row).length = W)
    {f : Frame} (hf : HasSize w h f) : (f.rows.flatMap g).length = W * h := by
  rw [chunk_length fun row hr => hg row (hf.2 row hr), hf.1]

theorem pixelBytes_length {g : List Color → List UInt8} {w W h : Nat} (hg : ∀ row, row.length = w → (g row).length = W)
    {fs : List Frame} (hf : ∀ f ∈ fs, HasSize w h f) : (pixelBytes g fs).length = W * h * fs.length :=
  chunk_length fun f hm => frame_length hg (hf f hm)

theorem pixelBytes_getElem? {g : List Color → List UInt8} {w W h : Nat}
    (hg : ∀ row, row.length = w → (g row).length = W) {fs : List Frame} (hf : ∀ f ∈ fs, HasSize w h f) {n : Nat} {f : Frame}
    (hn : fs[n]? = some f) {y : Nat} {row : List Color} (hy : f.rows[y]? = some row) {j : Nat} (hj : j < W) :
    (pixelBytes g fs)[W * h * n + (W * y + j)]? = (g row)[j]? := by
  have hs := hf f (List.mem_of_getElem? hn)
  have hyl : y < h := hs.1 ▸ (List.getElem?_eq_some_iff.mp hy).1
  unfold pixelBytes
  rw [chunk_getElem? (w := W * h) (by
      have : W * y + W ≤ W * h := by rw [← Nat.mul_succ]; exact Nat.mul_le_mul_left _ hyl
      omega) n fun f hm => frame_length hg (hf f hm), hn, Option.bind_some,
    chunk_getElem? hj y fun row hr => hg row (hs.2 row hr), hy, Option.bind_some]

/-! Colours -/

theorem level_eq (c : UInt8) : (scaleChannel 15 c).toNat = level c := by
  rw [scaleChannel_toNat]
  have := c.toNat_lt
  have e : (15 : UInt8).toNat = 15 := rfl
  rw [e]
  unfold level
  omega

theorem level_lt (c : UInt8) : level c < 16 := by unfold level; have := c.toNat_lt; omega

theorem paletteColor_check : ∀ a < 16, ∀ r < 16, ∀ g < 16, ∀ b < 16,
    ((a &&& 0xF) <<< 12) ||| ((r &&& 0xF) <<< 8) ||| ((g &&& 0xF) <<< 4) ||| (b &&& 0xF) =
      4096 * a + 256 * r + 16 * g + b := by
  intro a ha r hr g hg b hb
  have e : ∀ n, n < 16 → n &&& 0xF = n := fun n hn => by rw [Nat.and_two_pow_sub_one_eq_mod n 4]; omega
  rw [e a ha, e r hr, e g hg, e b hb, Nat.shiftLeft_eq, Nat.shiftLeft_eq, Nat.shiftLeft_eq]
  have h1 : a * 2 ^ 12 ||| r * 2 ^ 8 = a * 2 ^ 12 + r * 2 ^ 8 := by
    rw [Nat.mul_comm a]
    exact (Nat.two_pow_add_eq_or_of_lt (by omega) a).symm
  have h2 : (a * 2 ^ 12 + r * 2 ^ 8) ||| g * 2 ^ 4 = a * 2 ^ 12 + r * 2 ^ 8 + g * 2 ^ 4 := by
    have : a * 2 ^ 12 + r * 2 ^ 8 = 2 ^ 8 * (a * 16 + r) := by omega
    rw [this]
    exact (Nat.two_pow_add_eq_or_of_lt (by omega) _).symm
  have h3 : (a * 2 ^ 12 + r * 2 ^ 8 + g * 2 ^ 4) ||| b = a * 2 ^ 12 + r * 2 ^ 8 + g * 2 ^ 4 + b := by
    have : a * 2 ^ 12 + r * 2 ^ 8 + g * 2 ^ 4 = 2 ^ 4 * (a * 256 + r * 16 + g) := by omega
    rw [this]
    exact (Nat.two_pow_add_eq_or_of_lt (by omega) _).symm
  rw [h1, h2, h3]
  omega

theorem argb_eq (c : Color) : (c.scaleChannels 15).toPaletteColor = argb c := by
  unfold Color.toPaletteColor Color.scaleChannels argb
  simp only [level_eq]
  exact paletteColor_check _ (level_lt _) _ (level_lt _) _ (level_lt _) _ (level_lt _)

theorem argb_lt (c : Color) : argb c < 65536 := by
  have h1 := level_lt c.alpha
  have h2 := level_lt c.red
  have h3 := level_lt c.green
  have h4 := level_lt c.blue
  unfold argb; omega

theorem argb_inj {c d : Color} (h : argb c = argb d) : c.scaleChannels 15 = d.scaleChannels 15 := by
  have h1 := level_lt c.alpha
  have h2 := level_lt c.red
  have h3 := level_lt c.green
  have h4 := level_lt c.blue
  have g1 := level_lt d.alpha
  have g2 := level_lt d.red
  have g3 := level_lt d.green
  have g4 := level_lt d.blue
  unfold argb at h
  unfold Color.scaleChannels
  have e : ∀ x y : UInt8, level x = level y → scaleChannel 15 x = scaleChannel 15 y := by
    intro x y hxy
    apply UInt8.toNat_inj.mp
    rw [level_eq, level_eq, hxy]
  rw [e c.red d.red (by omega), e c.green d.green (by omega), e c.blue d.blue (by omega), e c.alpha d.alpha (by omega)]

theorem pixels_scale (i : Image) : pixels (i.scaleChannels 15) = (pixels i).map (Color.scaleChannels 15) := by
  unfold pixels framePixels Image.scaleChannels
  rw [List.map_flatMap, List.flatMap_map]
  congr 1
  funext f
  dsimp only
  rw [List.map_flatten]

theorem length_le_of_subset {α : Type} [DecidableEq α] : ∀ {l l' : List α}, l.Nodup → (∀ a ∈ l, a ∈ l') →
    l.length ≤ l'.length
  | [], _, _, _ => by simp
  | a :: l, l', hn, hs => by
    obtain ⟨h1, h2⟩ := List.nodup_cons.mp hn
    have ha := hs a List.mem_cons_self
    have := length_le_of_subset (l := l) (l' := l'.erase a) h2 fun b hb => by
      have hne : b ≠ a := fun h => h1 (h ▸ hb)
      exact (List.mem_erase_of_ne hne).mpr (hs b (List.mem_cons_of_mem _ hb))
    rw [List.length_erase_of_mem ha] at this
    have := List.length_pos_of_mem ha
    rw [List.length_cons]; omega

/-- The size of the palette counts the colours. -/
theorem palette_count (i : Image) (n : Nat) : (i.scaleChannels 15).getPalette.length ≤ n ↔ ColoursAtMost n (pixels i) := by
  obtain ⟨keys, hs⟩ := getPalette_seen (i.scaleChannels 15)
  rw [hs.length]
  have hmem : ∀ c, c ∈ keys ↔ ∃ d ∈ pixels i, d.scaleChannels 15 = c := by
    intro c; rw [hs.mem c, pixels_scale, List.mem_map]
  constructor
  · intro h
    refine ⟨keys.map Color.toPaletteColor, by rw [List.length_map]; exact h, fun c hc => ?_⟩
    rw [← argb_eq]
    exact List.mem_map_of_mem ((hmem _).mpr ⟨c, hc, rfl⟩)
  · rintro ⟨l, hl, h⟩
    have hn : (keys.map Color.toPaletteColor).Nodup := by
      rw [List.Nodup, List.pairwise_map]
      refine List.Pairwise.imp_of_mem (R := (· ≠ ·)) ?_ hs.nodup
      intro a b ha hb hab h
      obtain ⟨a', _, rfl⟩ := (hmem a).mp ha
      obtain ⟨b', _, rfl⟩ := (hmem b).mp hb
      rw [argb_eq, argb_eq] at h
      exact hab (argb_inj h)
    have := length_le_of_subset hn (l' := l) fun a ha => by
      obtain ⟨c, hc, rfl⟩ := List.mem_map.mp ha
      obtain ⟨d, hd, rfl⟩ := (hmem c).mp hc
      rw [argb_eq]
      exact h d hd
    rw [List.length_map] at this
    omega

/-! The palette's lines -/

theorem index_of {keys : List Color} (hn : keys.Nodup) {c : Color} (hc : c ∈ keys) :
    ∃ k, Palette.index keys.zipIdx c = .ok k ∧ keys[k]? = some c ∧ k < keys.length := by
  obtain ⟨k, hk⟩ := List.getElem?_of_mem hc
  refine ⟨k, ?_, hk, (List.getElem?_eq_some_iff.mp hk).1⟩
  unfold Palette.index
  rw [(lookup_zipIdx c k keys 0 hn).mpr ⟨Nat.zero_le _, by simpa using hk⟩]

theorem nodup_index {keys : List Color} (hn : keys.Nodup) {c : Color} {j k : Nat} (hj : keys[j]? = some c)
    (hk : keys[k]? = some c) : j = k := by
  have h1 := (lookup_zipIdx c j keys 0 hn).mpr ⟨Nat.zero_le _, by simpa using hj⟩
  rw [(lookup_zipIdx c k keys 0 hn).mpr ⟨Nat.zero_le _, by simpa using hk⟩] at h1
  exact (Option.some.inj h1).symm

theorem fillPalette_ok {keys : List Color} (hn : keys.Nodup) : ∀ (ks v : List Color), (∀ c ∈ ks, c ∈ keys) →
    keys.length ≤ v.length → ∃ v', fillPalette keys.zipIdx v ks = .ok v' ∧ v'.length = v.length ∧
      (∀ (k : Nat) (c : Color), keys[k]? = some c → c ∈ ks → v'[k]? = some c) ∧
      (∀ k : Nat, (∀ c, keys[k]? = some c → c ∉ ks) → v'[k]? = v[k]?)
  | [], v, _, _ => ⟨v, rfl, rfl, nofun, fun _ _ => rfl⟩
  | key :: ks, v, hks, hl => by
    obtain ⟨k, h1, h2, h3⟩ := index_of hn (hks key List.mem_cons_self)
    obtain ⟨v', f1, f2, f3, f4⟩ := fillPalette_ok hn ks (v.set k key) (fun c hc => hks c (List.mem_cons_of_mem _ hc))
      (by rw [List.length_set]; exact hl)
    refine ⟨v', ?_, by rw [f2, List.length_set], fun j c hj hc => ?_, fun j hj => ?_⟩
    · simp only [fillPalette, h1, Res.ok_bind, setColor]
      rw [if_pos (by omega), Res.ok_bind, f1]
    · by_cases hck : c ∈ ks
      · exact f3 j c hj hck
      · have hc' : c = key := by
          rcases List.mem_cons.mp hc with h | h
          · exact h
          · exact absurd h hck
        subst hc'
        have := nodup_index hn hj h2
        subst this
        rw [f4 j fun d hd => by
          rw [hj] at hd
          cases hd
          exact hck]
        rw [List.getElem?_set_self (by omega)]
    · rw [f4 j fun c hc h => hj c hc (List.mem_cons_of_mem _ h), List.getElem?_set_ne]
      rintro rfl
      exact hj key h2 List.mem_cons_self

theorem wordAt_le16 {bs : List UInt8} {i w : Nat} (h : ∀ j < 2, bs[i + j]? = (le16 w)[j]?) (hw : w < 65536) :
    wordAt bs i = some w := by
  have h0 := h 0 (by omega)
  have h1 := h 1 (by omega)
  unfold wordAt
  rw [Nat.add_zero] at h0
  rw [h0, h1]
  simp only [le16, List.getElem?_cons_zero, List.getElem?_cons_succ, Option.bind_some, UInt8.toNat_ofNat']
  congr 1
  omega

theorem words_data {r : Radix} (ws : List Nat) (h : ∀ w ∈ ws, w < 65536) :
    Data [.dir (.word (ws.map fun w : Nat => .number (w : Int) r))] (ws.flatMap le16) := by
  have := Data.word (r := r) ws h .nil
  rw [List.append_nil] at this
  exact this

/-- The words of a palette line. -/
def lineWords (palette : List Color) (y : Nat) : List Nat :=
  (List.range 8).map fun x => (palette.getD (y * 8 + x) .default).toPaletteColor

theorem toPaletteColor_lt (c : Color) : c.toPaletteColor < 65536 := by
  unfold Color.toPaletteColor
  have e : ∀ n : Nat, n &&& 0xF = n % 16 := fun n => Nat.and_two_pow_sub_one_eq_mod n 4
  have := paletteColor_check (c.alpha.toNat % 16) (by omega) (c.red.toNat % 16) (by omega) (c.green.toNat % 16) (by omega)
    (c.blue.toNat % 16) (by omega)
  simp only [e, Nat.mod_mod] at this ⊢
  omega

theorem paletteLine_data (palette : List Color) (y : Nat) :
    Data [paletteLine palette y] ((lineWords palette y).flatMap le16) := by
  have h := words_data (r := .hex) (lineWords palette y) (by
    intro w hw
    obtain ⟨x, _, rfl⟩ := List.mem_map.mp hw
    exact toPaletteColor_lt _)
  unfold lineWords at h
  rw [List.map_map] at h
  exact h

/-- The bytes of a palette. -/
def paletteBytes (palette : List Color) : List UInt8 :=
  (List.range (palette.length / 8)).flatMap fun y => (lineWords palette y).flatMap le16

theorem paletteBytes_data (palette : List Color) :
    Data ((List.range (palette.length / 8)).map (paletteLine palette)) (paletteBytes palette) := by
  have := Data.flatMap (l := List.range (palette.length / 8)) (f := fun y => [paletteLine palette y])
    (g := fun y => (lineWords palette y).flatMap le16) fun y _ => paletteLine_data palette y
  rw [← List.map_eq_flatMap] at this
  exact this

theorem lineBytes_length (palette : List Color) (y : Nat) : ((lineWords palette y).flatMap le16).length = 16 := by
  rw [flatMap_le16_length]; simp [lineWords]

theorem paletteBytes_length (palette : List Color) : (paletteBytes palette).length = 16 * (palette.length / 8) := by
  unfold paletteBytes
  rw [chunk_length (w := 16) fun y _ => lineBytes_length palette y, List.length_range]

theorem paletteBytes_get {palette : List Color} {k : Nat} {c : Color} (hk : palette[k]? = some c)
    (h8 : palette.length % 8 = 0) (j : Nat) (hj : j < 2) :
    (paletteBytes palette)[2 * k + j]? = (le16 c.toPaletteColor)[j]? := by
  have hkl := (List.getElem?_eq_some_iff.mp hk).1
  unfold paletteBytes
  have e : 2 * k + j = 16 * (k / 8) + (2 * (k % 8) + j) := by omega
  rw [e, chunk_getElem? (by omega) _ fun y _ => lineBytes_length palette y,
    List.getElem?_eq_getElem (by rw [List.length_range]; omega), List.getElem_range, Option.bind_some,
    chunk_getElem? hj _ fun w _ => le16_length w]
  unfold lineWords
  rw [List.getElem?_map, List.getElem?_eq_getElem (by rw [List.length_range]; omega), List.getElem_range]
  simp only [Option.map_some, Option.bind_some]
  have : k / 8 * 8 + k % 8 = k := by omega
  rw [this, List.getD_eq_getElem?_getD, hk, Option.getD_some]

/-! Packed rows -/

/-- The bytes of a row of a 16-colour image. -/
def rowBytes16 (keys : List Color) : List Color → List UInt8
  | c1 :: c2 :: row => UInt8.ofNat (16 * keys.idxOf c1 + keys.idxOf c2) :: rowBytes16 keys row
  | _ => []

theorem nibbles_or : ∀ a < 16, ∀ b < 16, ((a &&& 0xF) <<< 4) ||| (b &&& 0xF) = 16 * a + b := by decide +kernel

theorem idxOf_index {keys : List Color} (hn : keys.Nodup) {c : Color} (hc : c ∈ keys) :
    Palette.index keys.zipIdx c = .ok (keys.idxOf c) ∧ keys[keys.idxOf c]? = some c ∧ keys.idxOf c < keys.length := by
  obtain ⟨k, h1, h2, h3⟩ := index_of hn hc
  have h4 := List.idxOf_lt_length_of_mem hc
  have h5 : keys[keys.idxOf c]? = some c := by
    rw [List.getElem?_eq_getElem h4, List.getElem_idxOf]
  rw [nodup_index hn h5 h2]
  exact ⟨h1, h2, h3⟩

theorem packRow16_ok {keys : List Color} (hn : keys.Nodup) (hl : keys.length ≤ 16) : ∀ {row : List Color},
    row.length % 2 = 0 → (∀ c ∈ row, c ∈ keys) →
    packRow16 keys.zipIdx row = .ok ((rowBytes16 keys row).map fun x => .expr (.number x.toNat .hex))
  | [], _, _ => rfl
  | [_], h, _ => by simp at h
  | c1 :: c2 :: row, h, hc => by
    obtain ⟨a1, a2, a3⟩ := idxOf_index hn (hc c1 (by simp))
    obtain ⟨b1, b2, b3⟩ := idxOf_index hn (hc c2 (by simp))
    have ih := packRow16_ok hn hl (row := row) (by simp only [List.length_cons] at h; omega) fun c hm => hc c (by simp [hm])
    simp only [packRow16, a1, b1, ih, Res.ok_bind, rowBytes16, List.map_cons]
    rw [nibbles_or _ (by omega) _ (by omega), UInt8.toNat_ofNat', Nat.mod_eq_of_lt (by omega)]
    rfl

theorem rowBytes16_length (keys : List Color) : ∀ row : List Color, (rowBytes16 keys row).length = row.length / 2
  | [] => rfl
  | [_] => by simp [rowBytes16]
  | c1 :: c2 :: row => by simp only [rowBytes16, List.length_cons, rowBytes16_length keys row]; omega

theorem rowBytes16_get {keys : List Color} (hl : keys.length ≤ 16) : ∀ {row : List Color} (x : Nat) {c : Color},
    (∀ c ∈ row, c ∈ keys) → row.length % 2 = 0 → row[x]? = some c →
    (rowBytes16 keys row)[x / 2]?.map (fun b : UInt8 => if x % 2 = 0 then b.toNat / 16 else b.toNat % 16) =
      some (keys.idxOf c)
  | [], x, c, _, _, hx => by simp at hx
  | [_], _, _, _, h, _ => by simp at h
  | c1 :: c2 :: row, x, c, hc, h, hx => by
    have h1 := List.idxOf_lt_length_of_mem (hc c1 (by simp))
    have h2 := List.idxOf_lt_length_of_mem (hc c2 (by simp))
    match x with
    | 0 =>
      have : c1 = c := by simpa using hx
      subst this
      simp only [rowBytes16, Nat.zero_div, List.getElem?_cons_zero, Option.map_some, UInt8.toNat_ofNat', Option.some.injEq]
      rw [if_pos trivial]; omega
    | 1 =>
      have : c2 = c := by simpa using hx
      subst this
      have e : 1 / 2 = 0 := rfl
      simp only [rowBytes16, e, List.getElem?_cons_zero, Option.map_some, UInt8.toNat_ofNat', Option.some.injEq]
      rw [if_neg (by decide)]; omega
    | x + 2 =>
      have e1 : (x + 2) / 2 = x / 2 + 1 := by omega
      have e2 : (x + 2) % 2 = x % 2 := by omega
      rw [List.getElem?_cons_succ, List.getElem?_cons_succ] at hx
      simp only [rowBytes16, e1, e2, List.getElem?_cons_succ]
      exact rowBytes16_get hl x (fun c hm => hc c (by simp [hm])) (by simp only [List.length_cons] at h; omega) hx

/-- The bytes of a row of a 256-colour image. -/
def rowBytes256 (keys row : List Color) : List UInt8 := row.map fun c => UInt8.ofNat (keys.idxOf c)

theorem packRow256_ok {keys : List Color} (hn : keys.Nodup) (hl : keys.length ≤ 256) : ∀ {row : List Color},
    (∀ c ∈ row, c ∈ keys) →
    packRow256 keys.zipIdx row = .ok ((rowBytes256 keys row).map fun x => .expr (.number x.toNat .hex))
  | [], _ => rfl
  | c :: row, hc => by
    obtain ⟨a1, a2, a3⟩ := idxOf_index hn (hc c (by simp))
    have ih := packRow256_ok hn hl (row := row) fun c hm => hc c (by simp [hm])
    simp only [packRow256, a1, ih, Res.ok_bind, rowBytes256, List.map_cons]
    have e : keys.idxOf c &&& 0xFF = keys.idxOf c := by rw [Nat.and_two_pow_sub_one_eq_mod _ 8]; omega
    rw [e, UInt8.toNat_ofNat', Nat.mod_eq_of_lt (by omega)]
    rfl

/-- The bytes of a row of a true colour image. -/
def rowBytesTrue (row : List Color) : List UInt8 := row.flatMap fun c => le16 c.toPaletteColor

theorem packRowTrue_data (row : List Color) : Data [packRowTrue row] (rowBytesTrue row) := by
  have h := words_data (r := .hex) (row.map Color.toPaletteColor) (by
    intro w hw
    obtain ⟨x, _, rfl⟩ := List.mem_map.mp hw
    exact toPaletteColor_lt _)
  rw [List.map_map, List.flatMap_map] at h
  unfold packRowTrue rowBytesTrue
  have e : (fun c : Color => Expr.num ((c.toPaletteColor &&& 0xFFFF : Nat) : Int)) =
      (fun w : Nat => Expr.number (w : Int) .hex) ∘ Color.toPaletteColor := by
    funext c
    have : c.toPaletteColor &&& 0xFFFF = c.toPaletteColor := by
      rw [Nat.and_two_pow_sub_one_eq_mod _ 16]
      exact Nat.mod_eq_of_lt (toPaletteColor_lt c)
    rw [this]
    rfl
  rw [e]
  exact h

theorem packRows_data {pack : List Color → Res (List ByteValue)} {g : List Color → List UInt8} :
    ∀ {rows : List (List Color)}, (∀ row ∈ rows, pack row = .ok ((g row).map fun x => .expr (.number x.toNat .hex))) →
    ∃ stmts, packRows pack rows = .ok stmts ∧ Data stmts (rows.flatMap g)
  | [], _ => ⟨[], rfl, .nil⟩
  | row :: rows, h => by
    obtain ⟨stmts, h1, h2⟩ := packRows_data fun r hr => h r (List.mem_cons_of_mem _ hr)
    refine ⟨_, by simp only [packRows, h row List.mem_cons_self, Res.ok_bind, h1]; rfl, ?_⟩
    rw [List.flatMap_cons]
    exact .byte (g row) h2

theorem frameComment_data (many : Bool) (n : Nat) : Data (frameComment many n) [] := by
  unfold frameComment
  cases many
  · exact .nil
  · exact .comment .nil

theorem packFrames16_data {map : Palette} {many : Bool} {g : List Color → List UInt8} : ∀ {fs : List Frame} (n : Nat),
    (∀ f ∈ fs, ∀ row ∈ f.rows, packRow16 map row = .ok ((g row).map fun x => .expr (.number x.toNat .hex))) →
    ∃ stmts, packFrames16 map many n fs = .ok stmts ∧ Data stmts (pixelBytes g fs)
  | [], _, _ => ⟨[], rfl, .nil⟩
  | f :: fs, n, h => by
    obtain ⟨s1, h1, h2⟩ := packRows_data (h f List.mem_cons_self)
    obtain ⟨s2, h3, h4⟩ := packFrames16_data (many := many) (n + 1) fun f hf => h f (List.mem_cons_of_mem _ hf)
    exact ⟨_, by simp only [packFrames16, h1, h3, Res.ok_bind], ((frameComment_data many n).append h2).append h4⟩

theorem packFrames256_data {map : Palette} {g : List Color → List UInt8} : ∀ {fs : List Frame},
    (∀ f ∈ fs, ∀ row ∈ f.rows, packRow256 map row = .ok ((g row).map fun x => .expr (.number x.toNat .hex))) →
    ∃ stmts, packFrames256 map fs = .ok stmts ∧ Data stmts (pixelBytes g fs)
  | [], _ => ⟨[], rfl, .nil⟩
  | f :: fs, h => by
    obtain ⟨s1, h1, h2⟩ := packRows_data (h f List.mem_cons_self)
    obtain ⟨s2, h3, h4⟩ := packFrames256_data fun f hf => h f (List.mem_cons_of_mem _ hf)
    exact ⟨_, by simp only [packFrames256, h1, h3, Res.ok_bind], h2.append h4⟩

end Verif
