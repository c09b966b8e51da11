import Verif.Model.Stderr
import Verif.Spec.Command
import Verif.Spec.DataIncludes
import Verif.Spec.Disasm
/-
Specification of what `disassemble`, `icon` and `vmi` say on the standard error.
-/
namespace Verif.Spec

/-- A position as an unsigned 64-bit number: positions before the start of the memory become huge ones. -/
def asPosition (t : Int) : Nat := (t % 18446744073709551616).toNat

/-- `Strays bytes ps q`: control can leave the binary for `q`, which is beyond its end, from an instruction at one of the
positions `ps`. -/
def Strays (bytes : List UInt8) (ps : Nat → Prop) (q : Nat) : Prop :=
  bytes.length < q ∧ ∃ p i t, ps p ∧ InstrAt bytes p i ∧ Flows p i t ∧ q = asPosition t

/-- The same, except for a jump into another memory. -/
def StraysHere (bytes : List UInt8) (ps : Nat → Prop) (q : Nat) : Prop :=
  bytes.length < q ∧ ∃ p i t, ps p ∧ InstrAt bytes p i ∧ Flows p i t ∧ q = asPosition t ∧
    (2 ≤ p → ∀ j, ps (p - 2) → InstrAt bytes (p - 2) j → ¬ toOtherMemory j i)

/-- The lines about positions beyond the end. -/
def positionLines (qs : List Nat) : Text :=
  (qs.map fun q => "Invalid instruction position found: ".toList ++ digitsOf 10 q ++ "\n".toList).flatten

/-- What is said about an image that cannot be loaded. -/
inductive LoadSays (why : Text) : Err → Text → Prop where
  | file {f} : LoadSays why (.fileLoadFailure f) ("Error loading file ".toList ++ f ++ ": ".toList ++ why ++ "\n\n".toList)
  | image {f} : LoadSays why (.imageParseError f) ("Error parsing image ".toList ++ f ++ ": ".toList ++ why ++ "\n\n".toList)

/-- `IconSays load why input eyecatch t`: there is no icon, and the first reason is given in the message `t`. -/
inductive IconSays (load : Text → Res Image) (why input : Text) : Option Text → Text → Prop where
  | load {eye x t} : load input = .err x → LoadSays why x t → IconSays load why input eye t
  | colours {eye i n} : load input = .ok i → ColourCount n (pixels i) → 16 < n →
      IconSays load why input eye
        ("[ERROR] Too many colors in ".toList ++ input ++ ": ".toList ++ digitsOf 10 n ++ ". Must be 16 or less.\n".toList)
  | size {eye i} : load input = .ok i → ColoursAtMost 16 (pixels i) → ¬ (∀ f ∈ i.frames, HasSize 32 32 f) →
      IconSays load why input eye
        ("[ERROR] Image ".toList ++ input ++ " is the wrong size. It should be 32x32.\n".toList)
  | eyecatch {p i x t} : load input = .ok i → ColoursAtMost 16 (pixels i) → (∀ f ∈ i.frames, HasSize 32 32 f) →
      load p = .err x → LoadSays why x t → IconSays load why input (some p) t
  | eyecatchSize {p i f} : load input = .ok i → ColoursAtMost 16 (pixels i) → (∀ f ∈ i.frames, HasSize 32 32 f) →
      EyecatchFrame load (some p) (some f) → ¬ HasSize 72 56 f →
      IconSays load why input (some p)
        ("[ERROR] Image ".toList ++ p ++ " is the wrong size. It should be 72x56.\n".toList)

/-- Images that cannot be loaded give errors about the file or its format. -/
def LoadErrors (load : Text → Res Image) : Prop :=
  ∀ path x, load path = .err x → (∃ f, x = .fileLoadFailure f) ∨ ∃ f, x = .imageParseError f

end Verif.Spec
