import Verif.Model.Img
/-
Specification of sprites and icons (docs/directives.md, `.include sprite` and `.include icon`).
-/
namespace Verif.Spec

/-- Brightness as 30% red, 59% green, 11% blue, in hundredths of a level 0–255. -/
def luma (c : Color) : Nat := 30 * c.red.toNat + 59 * c.green.toNat + 11 * c.blue.toNat

/-- Bits packed into bytes, the first in the highest bit of the first byte, the last byte filled up with `pad`. -/
structure PackedBits (bits : List Bool) (pad : Bool) (bs : List UInt8) : Prop where
  length : bs.length = (bits.length + 7) / 8
  bit : ∀ x byte, bs[x / 8]? = some byte → byte.toNat.testBit (7 - x % 8) = (bits[x]?).getD pad

/-- The width of a frame: the length of its first row. -/
def width (f : Frame) : Nat := (f.rows.head?.map List.length).getD 0

/-- A frame of a sprite: the size if `header`, the rows of the mask if `masked`, the rows of the image. -/
structure SpriteFrame (dark : Color → Bool) (masked header : Bool) (f : Frame) (head : List UInt8)
    (maskRows imageRows : List (List UInt8)) : Prop where
  size : head = if header then [UInt8.ofNat (width f), UInt8.ofNat f.rows.length] else []
  maskLength : maskRows.length = if masked then f.rows.length else 0
  imageLength : imageRows.length = f.rows.length
  mask : ∀ (y : Nat) row bs, f.rows[y]? = some row → maskRows[y]? = some bs →
    PackedBits (row.map fun c => decide (c.alpha.toNat ≤ 127)) true bs
  image : ∀ (y : Nat) row bs, f.rows[y]? = some row → imageRows[y]? = some bs → PackedBits (row.map dark) false bs

/-- The pixels of a frame, row by row. -/
def framePixels (f : Frame) : List Color := f.rows.flatten

/-- All pixels of an image in reading order. -/
def pixels (i : Image) : List Color := i.frames.flatMap framePixels

/-- The frame has `h` rows of `w` pixels. -/
def HasSize (w h : Nat) (f : Frame) : Prop := f.rows.length = h ∧ ∀ row ∈ f.rows, row.length = w

/-- The pixel at a place. -/
def pixelAt (f : Frame) (x y : Nat) : Option Color := f.rows[y]?.bind fun row => row[x]?

/-- The 4-bit level of a channel: the multiple of 17 nearest to it. -/
def level (c : UInt8) : Nat := (c.toNat + 8) / 17

/-- The 16-bit colour the console uses: alpha, red, green, blue, four bits each. -/
def argb (c : Color) : Nat := 4096 * level c.alpha + 256 * level c.red + 16 * level c.green + level c.blue

/-- The little-endian word at an offset. -/
def wordAt (bs : List UInt8) (i : Nat) : Option Nat :=
  bs[i]?.bind fun lo => bs[i + 1]?.bind fun hi => some (lo.toNat + 256 * hi.toNat)

/-- The `x`th half byte from an offset, high halves first. -/
def nibbleAt (bs : List UInt8) (i x : Nat) : Option Nat :=
  bs[i + x / 2]?.map fun b => if x % 2 = 0 then b.toNat / 16 else b.toNat % 16

/-- The pixels use at most `n` console colours. -/
def ColoursAtMost (n : Nat) (cs : List Color) : Prop := ∃ l : List Nat, l.length ≤ n ∧ ∀ c ∈ cs, argb c ∈ l

/-- A frame stored at `off` with half a byte per pixel, indexing the palette at `pal`. -/
def Stored16 (bs : List UInt8) (pal off w : Nat) (f : Frame) : Prop :=
  ∀ x y c, pixelAt f x y = some c → ∃ k, nibbleAt bs (off + w / 2 * y) x = some k ∧ wordAt bs (pal + 2 * k) = some (argb c)

/-- A frame stored with a byte per pixel. -/
def Stored256 (bs : List UInt8) (pal off w : Nat) (f : Frame) : Prop :=
  ∀ x y c, pixelAt f x y = some c →
    ∃ k : UInt8, bs[off + w * y + x]? = some k ∧ wordAt bs (pal + 2 * k.toNat) = some (argb c)

/-- A frame stored with a word per pixel. -/
def StoredTrue (bs : List UInt8) (off w : Nat) (f : Frame) : Prop :=
  ∀ x y c, pixelAt f x y = some c → wordAt bs (off + 2 * (w * y + x)) = some (argb c)

/-- An eyecatch stored from `off` to the end, in the format `type`. -/
inductive Eyecatch (bs : List UInt8) (off : Nat) : Option Frame → Nat → Prop where
  | none : bs.length = off → Eyecatch bs off none 0
  | trueColour {f} : ¬ ColoursAtMost 256 (framePixels f) → bs.length = off + 8064 → StoredTrue bs off 72 f →
      Eyecatch bs off (some f) 1
  | palette256 {f} : ¬ ColoursAtMost 16 (framePixels f) → ColoursAtMost 256 (framePixels f) →
      bs.length = off + 512 + 4032 → Stored256 bs off (off + 512) 72 f → Eyecatch bs off (some f) 2
  | palette16 {f} : ColoursAtMost 16 (framePixels f) → bs.length = off + 32 + 2016 →
      Stored16 bs off (off + 32) 72 f → Eyecatch bs off (some f) 3

/-- An icon file: a 32-byte head, a palette of 16 colours, 32×32 frames, and the eyecatch. -/
structure Icon (bs : List UInt8) (fs : List Frame) (speed : Nat) (eye : Option Frame) : Prop where
  count : wordAt bs 0 = some fs.length
  rate : wordAt bs 2 = some speed
  zeros : ∀ i, 6 ≤ i → i < 32 → bs[i]? = some 0
  frames : ∀ n f, fs[n]? = some f → Stored16 bs 32 (64 + 512 * n) 32 f
  eyecatch : ∃ t, wordAt bs 4 = some t ∧ Eyecatch bs (64 + 512 * fs.length) eye t

/-- The frame of the eyecatch: the first one of the image. -/
inductive EyecatchFrame (load : Text → Res Image) : Option Text → Option Frame → Prop where
  | none : EyecatchFrame load none none
  | some {path i f rest} : load path = .ok i → i.frames = f :: rest → EyecatchFrame load (some path) (some f)

end Verif.Spec
