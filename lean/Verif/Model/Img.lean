import Verif.Model.Ast
import Verif.Model.Print
/-
Sprites and icons (src/img.rs).  Decoding image files (449–536) is not modelled: an image is what the decoder returns.
Only the JSON text (`Model/Json.lean`) has the delays of frames.
-/
namespace Verif

/-- The nearest integer to `n / d`, ties to even. -/
def halfEven (n d : Nat) : Nat :=
  if 2 * (n % d) > d ∨ (2 * (n % d) = d ∧ n / d % 2 = 1) then n / d + 1 else n / d

/-- An operation on `f64` whose exact result is `n / d`: rounding to 53 significant bits, ties to even (IEEE 754).
Numbers are counted in units so small that all numbers involved are whole. -/
def f64 (n d : Nat) : Nat :=
  let s := (n / d).log2 - 52
  halfEven n (d * 2 ^ s) * 2 ^ s

/-- `x.round() as u8` for `x = n / unit`: ties away from zero, saturating. -/
def roundU8 (n unit : Nat) : UInt8 := UInt8.ofNat (min 255 ((n + unit / 2) / unit))

/-- Color, src/img.rs 67–72 -/
structure Color where
  red : UInt8
  green : UInt8
  blue : UInt8
  alpha : UInt8
  deriving DecidableEq, Repr

/-- Color::default, src/img.rs 74–83 -/
def Color.default : Color := ⟨0, 0, 0, 0⟩

/-- `((maxf * (channel as f64)) / 255.0f64).round() as u8`; the product is exact.  The unit is 2^-60. -/
def scaleChannel (max c : UInt8) : UInt8 := roundU8 (f64 (max.toNat * c.toNat * 2 ^ 60) 255) (2 ^ 60)

/-- Color::scale_channels, src/img.rs 86–94 -/
def Color.scaleChannels (max : UInt8) (c : Color) : Color :=
  ⟨scaleChannel max c.red, scaleChannel max c.green, scaleChannel max c.blue, scaleChannel max c.alpha⟩

/-- Color::to_palette_color, src/img.rs 96–101; the result is not negative. -/
def Color.toPaletteColor (c : Color) : Nat :=
  ((c.alpha.toNat &&& 0xF) <<< 12) ||| ((c.red.toNat &&& 0xF) <<< 8) ||| ((c.green.toNat &&& 0xF) <<< 4) |||
    (c.blue.toNat &&& 0xF)

/-- `(0.3f64 * r) + (0.59f64 * g) + (0.11f64 * b)`, src/img.rs 104–106, in units of 2^-56. -/
def grayLevel (r g b : UInt8) : Nat :=
  let k1 := f64 (30 * 2 ^ 56) 100
  let k2 := f64 (59 * 2 ^ 56) 100
  let k3 := f64 (11 * 2 ^ 56) 100
  f64 (f64 (f64 (k1 * r.toNat) 1 + f64 (k2 * g.toNat) 1) 1 + f64 (k3 * b.toNat) 1) 1

/-- Color::grayscale, src/img.rs 103–114 -/
def Color.grayscale (c : Color) : Color :=
  let gray := roundU8 (grayLevel c.red c.green c.blue) (2 ^ 56)
  ⟨gray, gray, gray, c.alpha⟩

/-- Color::transparency, src/img.rs 117–123 -/
def Color.transparency (c : Color) : UInt8 := if c.alpha ≤ 127 then 1 else 0

/-- Frame, src/img.rs 127–130 -/
structure Frame where
  delay : UInt32 × UInt32
  rows : List (List Color)
  deriving DecidableEq, Repr

/-- Frame::width, src/img.rs 148–154 -/
def Frame.width (f : Frame) : Nat :=
  match f.rows with
  | [] => 0
  | row :: _ => row.length

/-- Frame::height, src/img.rs 144–146 -/
def Frame.height (f : Frame) : Nat := f.rows.length

/-- `bytes[bytes.len() - 1] = f(bytes[bytes.len() - 1])`; the vector is not empty where this is used. -/
def setLast (f : UInt8 → UInt8) (bytes : List UInt8) : List UInt8 :=
  match bytes.getLast? with
  | none => bytes
  | some b => bytes.dropLast ++ [f b]

/-- The loop body for a row of the mask, src/img.rs 194–204; the state is `bytes` and `idx`. -/
def maskStep (s : List UInt8 × Nat) (c : Color) : List UInt8 × Nat :=
  let bit := c.transparency
  if s.2 % 8 = 0 then (s.1 ++ [(0b01111111 : UInt8) ||| bit <<< 7], s.2 + 1)
  else
    let bitPos := UInt8.ofNat (7 - s.2 % 8)
    (setLast (fun byte => (byte &&& ~~~ (1 <<< bitPos)) ||| (bit <<< bitPos)) s.1, s.2 + 1)

/-- The loop body for a row of the image, src/img.rs 217–227. -/
def imageStep (s : List UInt8 × Nat) (c : Color) : List UInt8 × Nat :=
  let bit : UInt8 := if c.grayscale.red ≤ 127 then 1 else 0
  if s.2 % 8 = 0 then (s.1 ++ [bit <<< 7], s.2 + 1)
  else (setLast (fun byte => byte ||| (bit <<< UInt8.ofNat (7 - s.2 % 8))) s.1, s.2 + 1)

/-- `Statement::byte` of `Expr::binary`, src/img.rs 206–210 and 229–233 -/
def binaryBytes (bytes : List UInt8) : Stmt := .dir (.byte (bytes.map fun b => .expr (.number b.toNat .binary)))

/-- A row of the mask, src/img.rs 191–210 -/
def maskRow (row : List Color) : Stmt := binaryBytes (row.foldl maskStep ([], 0)).1

/-- A row of the image, src/img.rs 214–233 -/
def imageRow (row : List Color) : Stmt := binaryBytes (row.foldl imageStep ([], 0)).1

/-- The comment and the header, src/img.rs 177–187.  `as i32` is exact below 2^31. -/
def spriteHead (f : Frame) (header : Bool) : List Stmt :=
  .comment ("Width: ".toList ++ digitsOf 10 f.width ++ ", Height: ".toList ++ digitsOf 10 f.height) ::
  if header then [.dir (.byte [.expr (.number (wrap32 f.width) .decimal), .expr (.number (wrap32 f.height) .decimal)])]
  else []

/-- Frame::to_1bit_asm, src/img.rs 169–236 -/
def Frame.to1BitAsm (f : Frame) (masked header : Bool) : List Stmt :=
  spriteHead f header ++ (if masked then f.rows.map maskRow else []) ++ f.rows.map imageRow

/-- Frame::is_size, src/img.rs 238–248 -/
def Frame.isSize (f : Frame) (width height : Nat) : Bool :=
  height == f.rows.length && f.rows.all fun row => row.length == width

/-- Image, src/img.rs 252–254 -/
structure Image where
  frames : List Frame
  deriving DecidableEq, Repr

/-- Image::width, src/img.rs 257–259: indexing no frames panics. -/
def Image.width (i : Image) : Res Nat :=
  match i.frames with
  | [] => .panic
  | f :: _ => .ok f.width

/-- Image::height, src/img.rs 261–263 -/
def Image.height (i : Image) : Res Nat :=
  match i.frames with
  | [] => .panic
  | f :: _ => .ok f.height

/-- Image::as_still, src/img.rs 269–273 -/
def Image.asStill (i : Image) : Res Image :=
  match i.frames with
  | [] => .panic
  | f :: _ => .ok ⟨[f]⟩

/-- Image::scale_channels, src/img.rs 275–292 -/
def Image.scaleChannels (i : Image) (max : UInt8) : Image :=
  ⟨i.frames.map fun f => ⟨f.delay, f.rows.map fun row => row.map (Color.scaleChannels max)⟩⟩

/-- `HashMap<Color, usize>` as a list in the order of insertion. -/
abbrev Palette := List (Color × Nat)

/-- The body of the loops of get_palette, src/img.rs 300–303; `index` is the number of entries. -/
def paletteStep (p : Palette) (c : Color) : Palette :=
  match p.lookup c with
  | none => p ++ [(c, p.length)]
  | some _ => p

/-- Image::get_palette, src/img.rs 294–308 -/
def Image.getPalette (i : Image) : Palette :=
  i.frames.foldl (fun p f => f.rows.foldl (fun p row => row.foldl paletteStep p) p) []

/-- Image::to_frame_count_and_speed, src/img.rs 310–328 -/
def Image.toFrameCountAndSpeed (i : Image) (name : Text) (speed : Nat) : List Stmt :=
  [.comment ("\n\"".toList ++ name ++ "\" Frames: ".toList ++ digitsOf 10 i.frames.length ++ ", Speed: ".toList ++
      digitsOf 10 speed),
   .dir (.word [.num (wrap32 i.frames.length), .num speed])]

/-- Image::to_1bit_asm, src/img.rs 330–342 -/
def Image.to1BitAsm (i : Image) (masked header : Bool) : List Stmt :=
  i.frames.flatMap fun f => f.to1BitAsm masked header

/-- `palette_map[color]`: a missing key panics. -/
def Palette.index (p : Palette) (c : Color) : Res Nat :=
  match p.lookup c with
  | none => .panic
  | some i => .ok i

/-- `palette[idx] = key`: indexing outside the vector panics. -/
def setColor (v : List Color) (idx : Nat) (c : Color) : Res (List Color) :=
  if idx < v.length then .ok (v.set idx c) else .panic

/-- Building the palette, src/img.rs 364–367, visiting the keys in the order `keys`. -/
def fillPalette (map : Palette) : List Color → List Color → Res (List Color)
  | v, [] => .ok v
  | v, key :: keys => do
    let idx ← map.index key
    let v' ← setColor v idx key
    fillPalette map v' keys

/-- A line of the palette, src/img.rs 372–379 -/
def paletteLine (palette : List Color) (y : Nat) : Stmt :=
  .dir (.word ((List.range 8).map fun x => .num ((palette.getD (y * 8 + x) .default).toPaletteColor : Nat)))

/-- A row of a 16-colour image, src/img.rs 398–407: an odd number of pixels is indexed out of bounds. -/
def packRow16 (map : Palette) : List Color → Res (List ByteValue)
  | [] => .ok []
  | [_] => .panic
  | c1 :: c2 :: row => do
    let i1 ← map.index c1
    let i2 ← map.index c2
    let rest ← packRow16 map row
    .ok (.expr (.num (((i1 &&& 0xF) <<< 4) ||| (i2 &&& 0xF) : Nat)) :: rest)

/-- A row of a 256-colour image, src/img.rs 414–419 -/
def packRow256 (map : Palette) : List Color → Res (List ByteValue)
  | [] => .ok []
  | c :: row => do
    let i ← map.index c
    let rest ← packRow256 map row
    .ok (.expr (.num (i &&& 0xFF : Nat)) :: rest)

/-- A row of a true colour image, src/img.rs 426–431 -/
def packRowTrue (row : List Color) : Stmt := .dir (.word (row.map fun c => .num (c.toPaletteColor &&& 0xFFFF : Nat)))

/-- The rows of a frame, one `.byte` line each, src/img.rs 397–408 and 413–420. -/
def packRows (pack : List Color → Res (List ByteValue)) : List (List Color) → Res (List Stmt)
  | [] => .ok []
  | row :: rows => do
    let bytes ← pack row
    let rest ← packRows pack rows
    .ok (.dir (.byte bytes) :: rest)

/-- The comment for a frame, src/img.rs 390–396 -/
def frameComment (many : Bool) (idx : Nat) : List Stmt :=
  if many then
    [.comment ((if idx = 1 then "Frame ".toList else "\nFrame ".toList) ++ digitsOf 10 idx)]
  else []

/-- The frames of a 16-colour image, src/img.rs 388–410 -/
def packFrames16 (map : Palette) (many : Bool) : Nat → List Frame → Res (List Stmt)
  | _, [] => .ok []
  | idx, f :: fs => do
    let rows ← packRows (packRow16 map) f.rows
    let rest ← packFrames16 map many (idx + 1) fs
    .ok (frameComment many idx ++ rows ++ rest)

/-- The frames of a 256-colour image, src/img.rs 411–421 -/
def packFrames256 (map : Palette) : List Frame → Res (List Stmt)
  | [] => .ok []
  | f :: fs => do
    let rows ← packRows (packRow256 map) f.rows
    let rest ← packFrames256 map fs
    .ok (rows ++ rest)

/-- The size of the palette vector, src/img.rs 354–360 -/
def paletteSize (map : Palette) : Nat := if map.length ≤ 16 then 16 else if map.length ≤ 256 then 256 else 0

/-- Image::to_icon, src/img.rs 344–437.  `order` is the order in which the hash map's keys are visited. -/
def Image.toIcon (order : List Color → List Color) (i : Image) (map : Palette) (name : Text) : Res (List Stmt) :=
  if paletteSize map > 0 then do
    let palette ← fillPalette map (List.replicate (paletteSize map) .default) (order (map.map (·.1)))
    let pixels ← if palette.length = 16 then packFrames16 map (decide (i.frames.length > 1)) 1 i.frames
      else packFrames256 map i.frames
    .ok (.comment ("\nPalette for \"".toList ++ name ++ "\"".toList) ::
      (List.range (palette.length / 8)).map (paletteLine palette) ++
      .comment ("\nPixel data for \"".toList ++ name ++ "\"".toList) :: pixels)
  else .ok (i.frames.flatMap fun f => f.rows.map packRowTrue)

/-- Image::is_size, src/img.rs 439–446 -/
def Image.isSize (i : Image) (width height : Nat) : Bool := i.frames.all fun f => f.isSize width height

/-- eyecatch_type, src/img.rs 538–551 -/
def eyecatchType : Option Palette → Nat
  | none => 0
  | some p => if p.length ≤ 16 then 3 else if p.length ≤ 256 then 2 else 1

/-- The comment about the eyecatch, src/img.rs 595–601; other types do not exist. -/
def eyecatchComment : Nat → Text
  | 0 => "\nEyecatch type is 0: there is no eyecatch image.".toList
  | 1 => "\nEyecatch type is 1: the eyecatch is stored as a 16-bit true color image.".toList
  | 2 => "\nEyecatch type is 2: the eyecatch image has a 256-color palette.".toList
  | _ => "\nEyecatch type is 3: the eyecatch image has a 16-color palette.".toList

/-- The lines between the frame count and the palette, src/img.rs 603–614 -/
def iconHead (etype : Nat) : List Stmt :=
  [.comment (eyecatchComment etype), .dir (.word [.num etype]),
   .comment "\nPlaceholder for CRC checksum.".toList, .dir (.word [.num 0]),
   .comment "\nPlaceholder for file data size.".toList, .dir (.word [.num 0, .num 0]),
   .comment "\nReserved bytes.".toList, .dir (.byte (List.replicate 10 (.expr (.num 0)))),
   .dir (.byte (List.replicate 10 (.expr (.num 0))))]

/-- The eyecatch image, src/img.rs 579–588 -/
def loadEyecatch (load : Text → Res Image) : Option Text → Res (Option Image)
  | none => .ok none
  | some path => do
    let i ← load path
    let still ← i.asStill
    .ok (some (still.scaleChannels 15))

/-- The eyecatch at the end, src/img.rs 618–633 -/
def eyecatchPart (order : List Color → List Color) : Option Image → Text → Res (List Stmt)
  | none, _ => .ok []
  | some e, path => if e.isSize 72 56 then e.toIcon order e.getPalette path else .err (.invalidIconSize path 72 56)

/-- to_icon, src/img.rs 553–635.  `load` is load_image (449–460). -/
def toIcon (order : List Color → List Color) (load : Text → Res Image) (path : Text) (speed : Option Nat)
    (eyecatch : Option Text) : Res (List Stmt) := do
  let loaded ← load path
  let image := loaded.scaleChannels 15
  let palette := image.getPalette
  if palette.length > 16 then .err (.invalidPaletteSize path palette.length 16)
  else if image.isSize 32 32 = false then .err (.invalidIconSize path 32 32)
  else do
    let e ← loadEyecatch load eyecatch
    let pixels ← image.toIcon order palette path
    let rest ← eyecatchPart order e (eyecatch.getD [])
    .ok (image.toFrameCountAndSpeed path (speed.getD 10) ++ iconHead (eyecatchType (e.map Image.getPalette)) ++
      pixels ++ rest)

end Verif
