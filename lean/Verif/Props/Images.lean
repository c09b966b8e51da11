import Verif.Lemmas.IconFile
/-
Properties of sprites and icons: C55–C59.
-/
namespace Verif.Props
open Verif.Spec

/-! C55: sprites. -/

/-- There is one notion of dark pixels, below half brightness, by which every sprite is packed. -/
theorem C55_sprite_rows : ∃ dark : Color → Bool, (∀ c, luma c < 12750 → dark c = true) ∧
    (∀ c, 12750 < luma c → dark c = false) ∧
    ∀ (f : Frame) (masked header : Bool), (header = true → width f ≤ 255 ∧ f.rows.length ≤ 255) →
      ∃ size mask image, SpriteFrame dark masked header f size mask image ∧
        Data (f.to1BitAsm masked header) (size ++ mask.flatten ++ image.flatten) := by
  refine ⟨darkBit, fun c h => ?_, fun c h => ?_, fun f masked header h => ⟨_, _, _, sprite_frame masked header f, ?_⟩⟩
  · exact decide_eq_true ((gray_dark c).1 h)
  · exact decide_eq_false ((gray_dark c).2 h)
  · have := sprite_data f masked header (by rw [width_eq]; exact h)
    cases masked <;> exact this

/-- An image with several frames is packed frame after frame. -/
theorem C55_frames (i : Image) (masked header : Bool) :
    i.to1BitAsm masked header = (i.frames.map fun f => f.to1BitAsm masked header).flatten := by
  unfold Image.to1BitAsm
  rw [List.flatMap_def]

/-- Exactly at half brightness the result depends on the rounding of floating point numbers. -/
theorem C55_tie : luma ⟨0, 201, 81, 255⟩ = 12750 ∧ luma ⟨0, 179, 199, 255⟩ = 12750 ∧
    imageRow [⟨0, 201, 81, 255⟩] = .dir (.byte [.expr (.number 128 .binary)]) ∧
    imageRow [⟨0, 179, 199, 255⟩] = .dir (.byte [.expr (.number 0 .binary)]) := by decide +kernel

/-- A sprite three pixels wide: black, transparent white, black. -/
def sampleSprite : Frame := ⟨(0, 0), [[⟨0, 0, 0, 255⟩, ⟨255, 255, 255, 0⟩, ⟨0, 0, 0, 255⟩], [⟨255, 255, 255, 255⟩, ⟨9, 9, 9, 255⟩, ⟨0, 0, 0, 1⟩]]⟩

example : width sampleSprite ≤ 255 ∧ sampleSprite.rows.length ≤ 255 := by decide
example : sampleSprite.to1BitAsm true true = [.comment "Width: 3, Height: 2".toList,
    .dir (.byte [.expr (.number 3 .decimal), .expr (.number 2 .decimal)]),
    .dir (.byte [.expr (.number 0b01011111 .binary)]), .dir (.byte [.expr (.number 0b00111111 .binary)]),
    .dir (.byte [.expr (.number 0b10100000 .binary)]), .dir (.byte [.expr (.number 0b01100000 .binary)])] := by
  decide +kernel
example : imageRow (List.replicate 11 ⟨0, 0, 0, 255⟩) =
    .dir (.byte [.expr (.number 255 .binary), .expr (.number 0b11100000 .binary)]) := by decide +kernel

/-! C56: palettes. -/

/-- The palette's entries: each colour of the image exactly once, numbered from 0 in the order of first occurrence. -/
theorem C56_palette (i : Image) :
    (∀ c, (∃ k, i.getPalette.lookup c = some k) ↔ c ∈ pixels i) ∧
    (∀ k, (∃ c, i.getPalette.lookup c = some k) ↔ k < i.getPalette.length) ∧
    (∀ c d k, i.getPalette.lookup c = some k → i.getPalette.lookup d = some k → c = d) ∧
    (∀ c d j k, i.getPalette.lookup c = some j → i.getPalette.lookup d = some k →
      (j < k ↔ (pixels i).idxOf c < (pixels i).idxOf d)) := by
  obtain ⟨keys, hs⟩ := getPalette_seen i
  simp only [hs.lookup, hs.length]
  refine ⟨fun c => ?_, fun k => ?_, fun c d k h1 h2 => ?_, fun c d j k h1 h2 => ⟨hs.order j k c d h1 h2, fun h => ?_⟩⟩
  · rw [← hs.mem c, List.mem_iff_getElem?]
  · constructor
    · rintro ⟨c, hc⟩; exact (List.getElem?_eq_some_iff.mp hc).1
    · intro h; exact ⟨_, List.getElem?_eq_getElem h⟩
  · rw [h1] at h2; exact Option.some.inj h2
  · rcases Nat.lt_trichotomy j k with h' | h' | h'
    · exact h'
    · subst h'
      rw [h1] at h2
      cases h2
      omega
    · have := hs.order k j d c h2 h1 h'
      omega

/-- Every pixel's colour is in the palette. -/
theorem C56_pixels {i : Image} {f : Frame} (hf : f ∈ i.frames) {x y : Nat} {c : Color} (hc : pixelAt f x y = some c) :
    ∃ k, i.getPalette.lookup c = some k ∧ k < i.getPalette.length := by
  obtain ⟨row, h1, h2⟩ := Option.bind_eq_some_iff.mp hc
  obtain ⟨k, hk⟩ := ((C56_palette i).1 c).mpr (mem_pixels hf (List.mem_of_getElem? h1) (List.mem_of_getElem? h2))
  exact ⟨k, hk, ((C56_palette i).2.1 k).mp ⟨c, hk⟩⟩

example : (⟨[sampleSprite]⟩ : Image).getPalette = [(⟨0, 0, 0, 255⟩, 0), (⟨255, 255, 255, 0⟩, 1), (⟨255, 255, 255, 255⟩, 2),
    (⟨9, 9, 9, 255⟩, 3), (⟨0, 0, 0, 1⟩, 4)] := by decide +kernel

/-! C57, C58: icons. -/

/-- An icon keeps every pixel's colour, in every frame and in the eyecatch. -/
theorem C57_icon {order : List Color → List Color} (ho : ∀ l, (order l).Perm l) {load : Text → Res Image} {path : Text}
    {speed : Option Nat} (hs : speed.getD 10 < 65536) {eyecatch : Option Text} {stmts : List Stmt} {i : Image}
    (hi : load path = .ok i) (hn : i.frames.length < 65536) (h : toIcon order load path speed eyecatch = .ok stmts) :
    ∃ bs e, EyecatchFrame load eyecatch e ∧ Data stmts bs ∧ Icon bs i.frames (speed.getD 10) e := by
  obtain ⟨j, e, h1, h2, h3, h4, h5⟩ := icon_only h
  rw [hi] at h1
  cases h1
  obtain ⟨s, bs, g1, g2, g3⟩ := icon_ok ho hi hn hs h2 h3 h4 h5
  rw [h] at g1
  cases g1
  exact ⟨bs, e, h4, g2, g3⟩

/-- The order in which a hash map is visited does not matter. -/
theorem C57_order {order order' : List Color → List Color} (ho : ∀ l, (order l).Perm l) (ho' : ∀ l, (order' l).Perm l)
    (load : Text → Res Image) (path : Text) (speed : Option Nat) (eyecatch : Option Text) :
    toIcon order load path speed eyecatch = toIcon order' load path speed eyecatch :=
  icon_order ho ho' load path speed eyecatch

/-- An icon is produced exactly for 32×32 frames with at most 16 colours and a 72×56 eyecatch. -/
theorem C58_limits {order : List Color → List Color} (ho : ∀ l, (order l).Perm l) {load : Text → Res Image} {path : Text}
    {speed : Option Nat} (hs : speed.getD 10 < 65536) {eyecatch : Option Text}
    {i : Image} (hi : load path = .ok i) (hn : i.frames.length < 65536) :
    (∃ stmts, toIcon order load path speed eyecatch = .ok stmts) ↔
      (∀ f ∈ i.frames, HasSize 32 32 f) ∧ ColoursAtMost 16 (pixels i) ∧
        ∃ e, EyecatchFrame load eyecatch e ∧ ∀ f, e = some f → HasSize 72 56 f := by
  constructor
  · rintro ⟨stmts, h⟩
    obtain ⟨j, e, h1, h2, h3, h4, h5⟩ := icon_only h
    rw [hi] at h1
    cases h1
    exact ⟨h2, h3, e, h4, h5⟩
  · rintro ⟨h2, h3, e, h4, h5⟩
    obtain ⟨s, bs, g1, -⟩ := icon_ok ho hi hn hs h2 h3 h4 h5
    exact ⟨s, g1⟩

/-- The errors say what is wrong. -/
theorem C58_errors {order : List Color → List Color} (ho : ∀ l, (order l).Perm l) {load : Text → Res Image} {path : Text}
    {i : Image} (hi : load path = .ok i) (speed : Option Nat) (eyecatch : Option Text) :
    (¬ ColoursAtMost 16 (pixels i) → ∃ n, ColoursAtMost n (pixels i) ∧ ¬ ColoursAtMost (n - 1) (pixels i) ∧
      toIcon order load path speed eyecatch = .err (.invalidPaletteSize path n 16)) ∧
    (ColoursAtMost 16 (pixels i) → ¬ (∀ f ∈ i.frames, HasSize 32 32 f) →
      toIcon order load path speed eyecatch = .err (.invalidIconSize path 32 32)) ∧
    (∀ f, ColoursAtMost 16 (pixels i) → (∀ f ∈ i.frames, HasSize 32 32 f) → EyecatchFrame load eyecatch (some f) →
      ¬ HasSize 72 56 f → ∃ p, eyecatch = some p ∧ toIcon order load path speed eyecatch = .err (.invalidIconSize p 72 56)) :=
  icon_errors ho hi speed eyecatch

/-- The length of an icon: its frames, and one of three sizes of eyecatch. -/
theorem C58_length {bs : List UInt8} {fs : List Frame} {speed : Nat} {e : Option Frame} (h : Icon bs fs speed e) :
    (e = none → bs.length = 64 + 512 * fs.length) ∧
    (e ≠ none → bs.length = 64 + 512 * fs.length + 2048 ∨ bs.length = 64 + 512 * fs.length + 4544 ∨
      bs.length = 64 + 512 * fs.length + 8064) := by
  obtain ⟨t, -, ht⟩ := h.eyecatch
  cases ht with
  | none h1 => exact ⟨fun _ => h1, fun h => absurd rfl h⟩
  | trueColour _ h1 _ => exact ⟨nofun, fun _ => by omega⟩
  | palette256 _ _ h1 _ => exact ⟨nofun, fun _ => by omega⟩
  | palette16 _ h1 _ => exact ⟨nofun, fun _ => by omega⟩

/-- A two-coloured image, with a diagonal. -/
def diagonal (w h : Nat) : Image :=
  ⟨[⟨(0, 0), (List.range h).map fun y => (List.range w).map fun x => if x < y then ⟨255, 0, 0, 255⟩ else ⟨0, 0, 200, 255⟩⟩]⟩

/-- One file holds an icon, another an eyecatch. -/
def sampleLoad (p : Text) : Res Image := if p = "a.png".toList then .ok (diagonal 32 32)
  else if p = "b.png".toList then .ok (diagonal 72 56) else .ok ⟨[sampleSprite]⟩

example : (∀ f ∈ (diagonal 32 32).frames, HasSize 32 32 f) ∧ ColoursAtMost 16 (pixels (diagonal 32 32)) ∧
    ∃ e, EyecatchFrame sampleLoad (some "b.png".toList) e ∧ ∀ f, e = some f → HasSize 72 56 f := by
  refine ⟨by unfold HasSize; decide +kernel, ⟨[0xFF00, 0xF00C], by decide, by decide +kernel⟩, _, .some (i := diagonal 72 56) (by decide +kernel) rfl, ?_⟩
  intro f hf
  cases hf
  unfold HasSize
  decide +kernel
example : toIcon id sampleLoad "c.png".toList none none = .err (.invalidIconSize "c.png".toList 32 32) := by decide +kernel

/-! C59: colour levels. -/

/-- The 4-bit level of a channel is the one nearest to `15 c / 255`; there are no ties. -/
theorem C59_nearest (c : UInt8) (k : Nat) :
    (Color.scaleChannels 15 ⟨c, 0, 0, 0⟩).red.toNat = k ↔ k < 16 ∧ 2 * 255 * k < 2 * 15 * c.toNat + 255 ∧
      2 * 15 * c.toNat < 2 * 255 * k + 255 := by
  have : (Color.scaleChannels 15 ⟨c, 0, 0, 0⟩).red = scaleChannel 15 c := rfl
  rw [this, scaleChannel_toNat]
  have e : (15 : UInt8).toNat = 15 := rfl
  have := c.toNat_lt
  rw [e]
  omega

/-- All channels are scaled the same way, each from itself. -/
theorem C59_channels (c : Color) (m : UInt8) :
    (c.scaleChannels m).red = (Color.scaleChannels m ⟨c.red, 0, 0, 0⟩).red ∧
    (c.scaleChannels m).green = (Color.scaleChannels m ⟨c.green, 0, 0, 0⟩).red ∧
    (c.scaleChannels m).blue = (Color.scaleChannels m ⟨c.blue, 0, 0, 0⟩).red ∧
    (c.scaleChannels m).alpha = (Color.scaleChannels m ⟨c.alpha, 0, 0, 0⟩).red := ⟨rfl, rfl, rfl, rfl⟩

/-- Scaling is monotone, keeps the ends, and reaches every level: `17 k` goes to `k`. -/
theorem C59_levels :
    (∀ c d : UInt8, c ≤ d → (Color.scaleChannels 15 ⟨c, 0, 0, 0⟩).red ≤ (Color.scaleChannels 15 ⟨d, 0, 0, 0⟩).red) ∧
    (Color.scaleChannels 15 ⟨0, 0, 0, 0⟩).red = 0 ∧ (Color.scaleChannels 15 ⟨255, 0, 0, 0⟩).red = 15 ∧
    ∀ k : Nat, k < 16 → (Color.scaleChannels 15 ⟨UInt8.ofNat (17 * k), 0, 0, 0⟩).red = UInt8.ofNat k := by
  refine ⟨fun c d h => ?_, by decide +kernel, by decide +kernel, fun k hk => ?_⟩
  · have h1 := (C59_nearest c _).mp rfl
    have h2 := (C59_nearest d _).mp rfl
    rw [UInt8.le_iff_toNat_le] at h ⊢
    omega
  · apply UInt8.toNat_inj.mp
    rw [C59_nearest, UInt8.toNat_ofNat', UInt8.toNat_ofNat', Nat.mod_eq_of_lt (by omega), Nat.mod_eq_of_lt (by omega)]
    omega

example : (Color.scaleChannels 15 ⟨127, 128, 8, 9⟩) = ⟨7, 8, 0, 1⟩ := by decide +kernel

end Verif.Props
