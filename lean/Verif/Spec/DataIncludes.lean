import Verif.Spec.Data
import Verif.Spec.Expressions
import Verif.Spec.Files
import Verif.Spec.Img
/-
Specification of the includes of data (docs/directives.md, `.include bytes`, `.include icon` and `.include sprite`): the
bytes they stand for, or what is wrong with them.  `load` reads image files.
-/
namespace Verif.Spec

/-- The speed of an icon: 10 if none is given, otherwise the low 16 bits of its value.  No names are defined. -/
inductive IconSpeed (m : Mode) : Option Expr → Nat → Prop where
  | default : IconSpeed m none 10
  | given {e v} {k : Nat} : Value m (fun _ => none) e v → (k : Int) = v % 65536 → IconSpeed m (some e) k

/-- The path of the eyecatch of an icon. -/
inductive EyecatchPath (fs : FS) (dir file : Path) : Option ByteValue → Option Text → Prop where
  | none : EyecatchPath fs dir file none none
  | some {t q} : Resolves fs dir (some file) (Path.parse t) q → EyecatchPath fs dir file (some (.str (utf8 t))) (some q.render)

/-- The frames of a sprite, one after the other. -/
inductive FramesBytes (dark : Color → Bool) (masked header : Bool) : List Frame → List UInt8 → Prop where
  | nil : FramesBytes dark masked header [] []
  | cons {f fs size mask image bs} : SpriteFrame dark masked header f size mask image →
      FramesBytes dark masked header fs bs →
      FramesBytes dark masked header (f :: fs) (size ++ mask.flatten ++ image.flatten ++ bs)

/-- The least number of colours that is enough for the pixels. -/
def ColourCount (n : Nat) (cs : List Color) : Prop := ColoursAtMost n cs ∧ ∀ k, ColoursAtMost k cs → n ≤ k

/-- `IncludedData m fs dir load dark file t name bs`: in the program `file`, the include of the type `t` of the file
`name` stands for the bytes `bs`. -/
inductive IncludedData (m : Mode) (fs : FS) (dir : Path) (load : Text → Res Image) (dark : Color → Bool) (file : Path) :
    IncludeType → Text → List UInt8 → Prop where
  | bytes {name q bs} : Resolves fs dir (some file) (Path.parse name) q → fs.read q = some bs →
      IncludedData m fs dir load dark file .bytes name bs
  | icon {speed k eye path name q i e bs} : IconSpeed m speed k → EyecatchPath fs dir file eye path →
      Resolves fs dir (some file) (Path.parse name) q → load q.render = .ok i →
      ColoursAtMost 16 (pixels i) → (∀ f ∈ i.frames, HasSize 32 32 f) →
      EyecatchFrame load path e → (∀ f, e = some f → HasSize 72 56 f) →
      Icon bs i.frames k e → IncludedData m fs dir load dark file (.icon speed eye) name bs
  | sprite {t header name q i bs} : Resolves fs dir (some file) (Path.parse name) q → load q.render = .ok i →
      (header = true → ∀ f ∈ i.frames, width f ≤ 255 ∧ f.rows.length ≤ 255) →
      FramesBytes dark (decide (t = .masked)) header i.frames bs →
      IncludedData m fs dir load dark file (.sprite t header) name bs

/-- `DataFault m fs dir load file t name x`: the include stands for no bytes, and the first reason for this is `x`. -/
inductive DataFault (m : Mode) (fs : FS) (dir : Path) (load : Text → Res Image) (file : Path) :
    IncludeType → Text → Err → Prop where
  /-- There is no such file. -/
  | bytes {name q} : Resolves fs dir (some file) (Path.parse name) q → fs.read q = none →
      DataFault m fs dir load file .bytes name (.fileLoadFailure q.render)
  /-- The speed has no value. -/
  | speed {e eye name x} : Fails m (fun _ => none) e x → DataFault m fs dir load file (.icon (some e) eye) name x
  /-- The eyecatch is not a path. -/
  | eyecatch {speed k e name} : IconSpeed m speed k → DataFault m fs dir load file (.icon speed (some (.expr e))) name (.invalidPath e.print)
  /-- The icon cannot be loaded. -/
  | icon {speed k eye path name q x} : IconSpeed m speed k → EyecatchPath fs dir file eye path →
      Resolves fs dir (some file) (Path.parse name) q → load q.render = .err x →
      DataFault m fs dir load file (.icon speed eye) name x
  /-- It has too many colours. -/
  | colours {speed k eye path name q i n} : IconSpeed m speed k → EyecatchPath fs dir file eye path →
      Resolves fs dir (some file) (Path.parse name) q → load q.render = .ok i →
      ColourCount n (pixels i) → 16 < n → DataFault m fs dir load file (.icon speed eye) name (.invalidPaletteSize q.render n 16)
  /-- It is not 32×32. -/
  | size {speed k eye path name q i} : IconSpeed m speed k → EyecatchPath fs dir file eye path →
      Resolves fs dir (some file) (Path.parse name) q → load q.render = .ok i →
      ColoursAtMost 16 (pixels i) → ¬ (∀ f ∈ i.frames, HasSize 32 32 f) →
      DataFault m fs dir load file (.icon speed eye) name (.invalidIconSize q.render 32 32)
  /-- The eyecatch cannot be loaded. -/
  | eyecatchFile {speed k eye path name q i x} : IconSpeed m speed k → EyecatchPath fs dir file eye (some path) →
      Resolves fs dir (some file) (Path.parse name) q → load q.render = .ok i →
      ColoursAtMost 16 (pixels i) → (∀ f ∈ i.frames, HasSize 32 32 f) → load path = .err x →
      DataFault m fs dir load file (.icon speed eye) name x
  /-- The eyecatch is not 72×56. -/
  | eyecatchSize {speed k eye path name q i f} : IconSpeed m speed k → EyecatchPath fs dir file eye (some path) →
      Resolves fs dir (some file) (Path.parse name) q → load q.render = .ok i →
      ColoursAtMost 16 (pixels i) → (∀ f ∈ i.frames, HasSize 32 32 f) → EyecatchFrame load (some path) (some f) →
      ¬ HasSize 72 56 f → DataFault m fs dir load file (.icon speed eye) name (.invalidIconSize path 72 56)
  /-- The sprite cannot be loaded. -/
  | sprite {t header name q x} : Resolves fs dir (some file) (Path.parse name) q → load q.render = .err x →
      DataFault m fs dir load file (.sprite t header) name x
  /-- The size of the sprite, of its first frame, does not fit into the header. -/
  | wide {t name q i f rest} : Resolves fs dir (some file) (Path.parse name) q → load q.render = .ok i →
      i.frames = f :: rest → 255 < width f → DataFault m fs dir load file (.sprite t true) name (.spriteTooWide (width f) 255)
  | tall {t name q i f rest} : Resolves fs dir (some file) (Path.parse name) q → load q.render = .ok i →
      i.frames = f :: rest → width f ≤ 255 → 255 < f.rows.length →
      DataFault m fs dir load file (.sprite t true) name (.spriteTooTall f.rows.length 255)

/-- All frames of the images are as wide and as high as the first one, and there are fewer than 65536 of them, as in
the images that the decoders return. -/
def EvenFrames (load : Text → Res Image) : Prop :=
  ∀ path i, load path = .ok i → i.frames.length < 65536 ∧
    ∀ f ∈ i.frames, ∀ g ∈ i.frames, width f = width g ∧ f.rows.length = g.rows.length

/-- `AfterIncludes m fs dir load dark file ss out`: the statements `ss` with lines of data in the place of the
includes. -/
inductive AfterIncludes (m : Mode) (fs : FS) (dir : Path) (load : Text → Res Image) (dark : Color → Bool) (file : Path) :
    List Stmt → List Stmt → Prop where
  | nil : AfterIncludes m fs dir load dark file [] []
  | other {s ss out} : (∀ t name, s ≠ .dir (.incl t name)) → AfterIncludes m fs dir load dark file ss out →
      AfterIncludes m fs dir load dark file (s :: ss) (s :: out)
  | data {t name bs lines ss out} : IncludedData m fs dir load dark file t name bs → Data lines bs →
      AfterIncludes m fs dir load dark file ss out →
      AfterIncludes m fs dir load dark file (.dir (.incl t name) :: ss) (lines ++ out)

end Verif.Spec
