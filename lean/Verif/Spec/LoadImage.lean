import Verif.Model.LoadImage
import Verif.Spec.Img
import Verif.Spec.CHeader
/-
Specification: the image in an image file.
-/
namespace Verif.Spec

/-- The name of the file has an extension: something, a dot, and the extension. -/
def HasExtension (path ext : Text) : Prop :=
  ∃ dirs stem, (Path.parse path).comps = dirs ++ [stem ++ ".".toList ++ ext] ∧ stem ≠ []

/-- What is decoded from a file that is not animated: one frame without a delay. -/
def Still (decoded : Option Raster) (frames : List ((UInt32 × UInt32) × Raster)) : Prop :=
  ∃ r, decoded = some r ∧ frames = [((0, 0), r)]

/-- The frames that the decoder for the kind of file reads: GIF files and PNG files are known by the extension. -/
def Decodes (d : Decoders) (fs : FS) (cwd : Path) (path : Text) (frames : List ((UInt32 × UInt32) × Raster)) : Prop :=
  (HasExtension path "gif".toList ∧ ∃ bytes, fs.read (cwd.join (Path.parse path)) = some bytes ∧ d.gif bytes = some frames) ∨
  (HasExtension path "png".toList ∧ ∃ bytes, fs.read (cwd.join (Path.parse path)) = some bytes ∧
    (d.png bytes = some (.animated (some frames)) ∨ ∃ r, d.png bytes = some (.still r) ∧ Still r frames)) ∨
  (¬ HasExtension path "gif".toList ∧ ¬ HasExtension path "png".toList ∧ Still (d.other path) frames)

/-- The frame has the delay, the size and the pixels of the picture. -/
def Shows (picture : (UInt32 × UInt32) × Raster) (f : Frame) : Prop :=
  f.delay = picture.1 ∧ HasSize picture.2.width picture.2.height f ∧
  ∀ x y, x < picture.2.width → y < picture.2.height → pixelAt f x y = some (picture.2.pixel x y)

end Verif.Spec
