import Verif.Model.Img
import Verif.Spec.Img
import Verif.Spec.Highlight
import Verif.Spec.Messages
import Verif.Spec.CHeader
import Verif.Spec.DataIncludes
/-
Specification of the comments in the assembly listings of images and icons, and of how number literals are written.
-/
namespace Verif.Spec
open Verif.Spec.Places (number)

/-- A line of a listing: a comment, or a line of data -/
def commentOf : Stmt → Option Text
  | .comment t => some t
  | _ => none

/-- The lines of a listing -/
def outline (ss : List Stmt) : List (Option Text) := ss.map commentOf

/-- Lines of data -/
def dataLines (n : Nat) : List (Option Text) := List.replicate n none

/-- The listing of a sprite: each frame has its size in a comment, a line for the size if asked for, a line for each row of the
mask if asked for, and a line for each row of the picture. -/
def spriteOutline (masked header : Bool) (frames : List Frame) : List (Option Text) :=
  frames.flatMap fun f =>
    some ("Width: ".toList ++ number (width f) ++ ", Height: ".toList ++ number f.rows.length) ::
      dataLines ((if header then 1 else 0) + (if masked then f.rows.length else 0) + f.rows.length)

/-- The picture of the eyecatch: a palette of 16 colours takes two lines and one of 256 colours 32 lines; there are 56 rows. -/
inductive EyecatchOutline (path : Text) : Option Frame → Nat → List (Option Text) → Prop where
  | none : EyecatchOutline path none 0 []
  | trueColour {f} : ¬ ColoursAtMost 256 (framePixels f) → EyecatchOutline path (some f) 1 (dataLines 56)
  | palette256 {f} : ¬ ColoursAtMost 16 (framePixels f) → ColoursAtMost 256 (framePixels f) →
      EyecatchOutline path (some f) 2 (some ("\nPalette for \"".toList ++ path ++ "\"".toList) :: dataLines 32 ++
        some ("\nPixel data for \"".toList ++ path ++ "\"".toList) :: dataLines 56)
  | palette16 {f} : ColoursAtMost 16 (framePixels f) →
      EyecatchOutline path (some f) 3 (some ("\nPalette for \"".toList ++ path ++ "\"".toList) :: dataLines 2 ++
        some ("\nPixel data for \"".toList ++ path ++ "\"".toList) :: dataLines 56)

/-- What is said about the eyecatch -/
def eyecatchNote (type : Nat) : Text :=
  ["\nEyecatch type is 0: there is no eyecatch image.".toList,
   "\nEyecatch type is 1: the eyecatch is stored as a 16-bit true color image.".toList,
   "\nEyecatch type is 2: the eyecatch image has a 256-color palette.".toList,
   "\nEyecatch type is 3: the eyecatch image has a 16-color palette.".toList].getD type []

/-- The frames of an icon, numbered from 1 if there are several, with an empty line between them -/
def framesOutline (n : Nat) : List (Option Text) :=
  if n = 1 then dataLines 32
  else (List.range n).flatMap fun k =>
    some ((if k = 0 then [] else ['\n']) ++ "Frame ".toList ++ number (k + 1)) :: dataLines 32

/-- The listing of an icon -/
inductive IconOutline (path : Text) (frames : List Frame) (speed : Nat) (eyePath : Text) (eye : Option Frame) :
    List (Option Text) → Prop where
  | icon {type rest} : EyecatchOutline eyePath eye type rest →
    IconOutline path frames speed eyePath eye
      ([some ("\n\"".toList ++ path ++ "\" Frames: ".toList ++ number frames.length ++ ", Speed: ".toList ++ number speed), none,
        some (eyecatchNote type), none,
        some "\nPlaceholder for CRC checksum.".toList, none,
        some "\nPlaceholder for file data size.".toList, none,
        some "\nReserved bytes.".toList, none, none,
        some ("\nPalette for \"".toList ++ path ++ "\"".toList), none, none,
        some ("\nPixel data for \"".toList ++ path ++ "\"".toList)] ++ framesOutline frames.length ++ rest)

/-- How a line of a listing is written: a comment after two semicolons, with an empty line before it if it starts with a line
break; a comment of white space as it is; and data as bytes or words. -/
inductive ShownLine : Option Text → Text → Prop where
  | comment {t} : t.head? ≠ some '\n' → (∃ c ∈ t, isSpace c = false) → ShownLine (some t) ("  ;; ".toList ++ t)
  | apart {t} : (∃ c ∈ t, isSpace c = false) → ShownLine (some ('\n' :: t)) ("\n  ;; ".toList ++ t)
  | blank {t} : (∀ c ∈ t, isSpace c = true) → ShownLine (some t) t
  | byte {t} : ShownLine none ("  .byte ".toList ++ t)
  | word {t} : ShownLine none ("  .word ".toList ++ t)

/-- The text consists of these lines. -/
def ShownAs (o : List (Option Text)) (text : Text) : Prop := ∃ ls, text = ['\n'].intercalate ls ∧ EachLine ShownLine o ls

/-- The listing of an include of data.  Bytes are one line without a comment; sprites have a comment with their path and options. -/
inductive IncludeOutline (m : Mode) (fs : FS) (dir : Path) (load : Text → Res Image) (file : Path) :
    IncludeType → Text → List (Option Text) → Prop where
  | bytes {name} : IncludeOutline m fs dir load file .bytes name [none]
  | icon {speed k eye path name q i e o} : IconSpeed m speed k → EyecatchPath fs dir file eye path →
      Resolves fs dir (some file) (Path.parse name) q → load q.render = .ok i → EyecatchFrame load path e →
      IconOutline q.render i.frames k (path.getD []) e o → IncludeOutline m fs dir load file (.icon speed eye) name o
  | simple {header name q i} : Resolves fs dir (some file) (Path.parse name) q → load q.render = .ok i →
      IncludeOutline m fs dir load file (.sprite .simple header) name
        (some ("\nSprite \"".toList ++ q.render ++ (if header then "\" (simple, include header)" else "\" (simple, exclude header)").toList) ::
          spriteOutline false header i.frames)
  | masked {header name q i} : Resolves fs dir (some file) (Path.parse name) q → load q.render = .ok i →
      IncludeOutline m fs dir load file (.sprite .masked header) name
        (some ("\nSprite \"".toList ++ q.render ++ (if header then "\" (masked, include header)" else "\" (masked, exclude header)").toList) ::
          spriteOutline true header i.frames)

/-- `Annotated m fs dir load file ss out`: `out` are the statements `ss` with listings in the place of the includes of data. -/
inductive Annotated (m : Mode) (fs : FS) (dir : Path) (load : Text → Res Image) (file : Path) : List Stmt → List Stmt → Prop where
  | nil : Annotated m fs dir load file [] []
  | other {s ss out} : (∀ t name, s ≠ .dir (.incl t name)) → Annotated m fs dir load file ss out →
      Annotated m fs dir load file (s :: ss) (s :: out)
  | data {t name lines ss out} : IncludeOutline m fs dir load file t name (outline lines) →
      Annotated m fs dir load file ss out → Annotated m fs dir load file (.dir (.incl t name) :: ss) (lines ++ out)

end Verif.Spec
