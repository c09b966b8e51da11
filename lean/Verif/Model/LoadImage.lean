import Verif.Model.Files
import Verif.Model.Img
/-
Loading of image files (src/img.rs 449–536).  The decoders of the crate `image` are a parameter.
-/
namespace Verif

/-- What a decoder returns (`GenericImageView`): a size, and a colour for each place. -/
structure Raster where
  width : Nat
  height : Nat
  pixel : Nat → Nat → Color

/-- to_frame, src/img.rs 509–530; `get_pixel` panics outside of the picture, which does not happen here. -/
def toFrame (delay : UInt32 × UInt32) (r : Raster) : Frame :=
  ⟨delay, (List.range r.height).map fun y => (List.range r.width).map fun x => r.pixel x y⟩

/-- to_image, src/img.rs 532–536 -/
def toImage (r : Raster) : Image := ⟨[toFrame (0, 0) r]⟩

/-- A PNG file: with an animation or without one.  `none` is an error in what follows the start of the file. -/
inductive PngFile where
  | animated (frames : Option (List ((UInt32 × UInt32) × Raster)))
  | still (image : Option Raster)

/-- The decoders: `GifDecoder` with its frames, `PngDecoder`, and `image::open`, which opens the file by itself. -/
structure Decoders where
  gif : List UInt8 → Option (List ((UInt32 × UInt32) × Raster))
  png : List UInt8 → Option PngFile
  other : Text → Option Raster

/-- The text before the last dot, and the text after it -/
def splitLastDot (t : Text) : Option (Text × Text) :=
  match t.reverse.dropWhile (· ≠ '.') with
  | [] => none
  | _ :: before => some (before.reverse, (t.reverse.takeWhile (· ≠ '.')).reverse)

/-- `Path::extension` of the standard library -/
def Path.extension (p : Path) : Option Text :=
  match p.comps.getLast? with
  | none => none
  | some name => if name = "..".toList then none else
    match splitLastDot name with
    | none => none
    | some (before, after) => if before = [] then none else some after

/-- load_gif, src/img.rs 462–480 -/
def loadGif (d : Decoders) (fs : FS) (cwd : Path) (path : Text) : Res Image :=
  match fs.read (cwd.join (Path.parse path)) with
  | none => .err (.fileLoadFailure path)
  | some bytes =>
    match d.gif bytes with
    | none => .err (.imageParseError path)
    | some frames => .ok ⟨frames.map fun f => toFrame f.1 f.2⟩

/-- load_png, src/img.rs 482–507 -/
def loadPng (d : Decoders) (fs : FS) (cwd : Path) (path : Text) : Res Image :=
  match fs.read (cwd.join (Path.parse path)) with
  | none => .err (.fileLoadFailure path)
  | some bytes =>
    match d.png bytes with
    | none | some (.animated none) | some (.still none) => .err (.imageParseError path)
    | some (.animated (some frames)) => .ok ⟨frames.map fun f => toFrame f.1 f.2⟩
    | some (.still (some r)) => .ok (toImage r)

/-- load_image, src/img.rs 449–460 -/
def loadImage (d : Decoders) (fs : FS) (cwd : Path) (path : Text) : Res Image :=
  let ext := (Path.parse path).extension
  if ext = some "png".toList then loadPng d fs cwd path
  else if ext = some "gif".toList then loadGif d fs cwd path
  else
    match d.other path with
    | none => .err (.imageParseError path)
    | some r => .ok (toImage r)

end Verif
