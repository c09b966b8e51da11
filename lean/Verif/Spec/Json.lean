import Verif.Spec.Command
/-
Specification: JSON texts (RFC 8259) as far as they are needed, and the JSON value of an image.
-/
namespace Verif.Spec.Json

/-- JSON values.  Texts, truth values, `null` and numbers other than 0, 1, 2, … do not occur. -/
inductive Value where
  | number (n : Nat)
  | array (items : List Value)
  | object (fields : List (Text × Value))

/-- White space -/
def White (t : Text) : Prop := ∀ c ∈ t, c = ' ' ∨ c = '\t' ∨ c = '\n' ∨ c = '\r'

/-- A name in which nothing is to be escaped -/
def PlainName (k : Text) : Prop := ∀ c ∈ k, c ≠ '"' ∧ c ≠ '\\' ∧ 32 ≤ c.toNat

/-- A name and the colon after it -/
def Key (t k : Text) : Prop :=
  PlainName k ∧ ∃ w w', White w ∧ White w' ∧ t = "\"".toList ++ k ++ "\"".toList ++ w ++ ":".toList ++ w'

mutual
/-- `Json t v`: the text `t` is a JSON text of the value `v`, without white space around it. -/
inductive Json : Text → Value → Prop where
  | number {ds n} : Decimal ds n → (ds.head? = some '0' → ds = "0".toList) → Json ds (.number n)
  | nothing {w} : White w → Json ("[".toList ++ w ++ "]".toList) (.array [])
  | array {t vs} : Items t vs → Json ("[".toList ++ t ++ "]".toList) (.array vs)
  | noFields {w} : White w → Json ("{".toList ++ w ++ "}".toList) (.object [])
  | object {t fs} : Fields t fs → Json ("{".toList ++ t ++ "}".toList) (.object fs)
/-- One value or more, with commas between them -/
inductive Items : Text → List Value → Prop where
  | last {w t w' v} : White w → Json t v → White w' → Items (w ++ t ++ w') [v]
  | more {w t w' v ts vs} : White w → Json t v → White w' → Items ts vs → Items (w ++ t ++ w' ++ ",".toList ++ ts) (v :: vs)
/-- One named value or more, with commas between them -/
inductive Fields : Text → List (Text × Value) → Prop where
  | last {w key k t w' v} : White w → Key key k → Json t v → White w' → Fields (w ++ key ++ t ++ w') [(k, v)]
  | more {w key k t w' v ts fs} : White w → Key key k → Json t v → White w' → Fields ts fs →
      Fields (w ++ key ++ t ++ w' ++ ",".toList ++ ts) ((k, v) :: fs)
end

/-- A JSON document: a value with white space around it -/
def Document (t : Text) (v : Value) : Prop := ∃ w t' w', White w ∧ Json t' v ∧ White w' ∧ t = w ++ t' ++ w'

/-- The JSON value of a colour -/
def colorValue (c : Color) : Value :=
  .object [("red".toList, .number c.red.toNat), ("green".toList, .number c.green.toNat),
    ("blue".toList, .number c.blue.toNat), ("alpha".toList, .number c.alpha.toNat)]

/-- The JSON value of a frame: its delay, and its rows of colours -/
def frameValue (f : Frame) : Value :=
  .object [("delay".toList, .array [.number f.delay.1.toNat, .number f.delay.2.toNat]),
    ("rows".toList, .array (f.rows.map fun row => .array (row.map colorValue)))]

/-- The JSON value of an image: its frames -/
def imageValue (i : Image) : Value := .object [("frames".toList, .array (i.frames.map frameValue))]

end Verif.Spec.Json
