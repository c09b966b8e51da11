import Verif.Spec.Command
import Verif.Spec.Img
import Verif.Spec.CHeader
import Verif.Spec.Include
/-
Specification of the files made from images and icons.
-/
namespace Verif.Spec

/-- The bytes of a sprite in a file: its frames one after the other, each with its size, its mask and its pixels. -/
def SpriteBytes (dark : Color → Bool) (masked : Bool) (i : Image) (bs : List UInt8) : Prop :=
  ∃ parts, bs = parts.flatten ∧ EachLine (fun f part => ∃ size mask image, SpriteFrame dark masked true f size mask image ∧
    part = size ++ mask.flatten ++ image.flatten) i.frames parts

/-- The formats of `image` in assembly language, with a mask or not. -/
def AsmFormat (format : Option Text) (masked : Bool) : Prop :=
  (masked = true ↔ format = some "1bit-asm-masked".toList) ∧ format ≠ some "json".toList ∧ format ≠ some "json-pretty".toList

/-- Assembling the file `source` writes `bytes` to the file `output`. -/
def AssemblesTo (h : Host) (fs : FS) (source output : Text) (bytes : List UInt8) : Prop :=
  ∃ n, ∀ fuel ≥ n, (run { h with fuel } fs (.assemble source output)).exit = .code 0 ∧
    ∃ d, (run { h with fuel } fs (.assemble source output)).disks.getLast? = some d ∧
      d.read (h.cwd.join (Path.parse output)) = some bytes ∧ SameExcept (h.cwd.join (Path.parse output)) fs d

end Verif.Spec
