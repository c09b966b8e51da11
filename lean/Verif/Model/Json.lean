import Verif.Model.Img
/-
The JSON text of an image: `serde_json::to_string` and `to_string_pretty` (src/lib.rs 232–233) on the derived
implementations of `Serialize` (src/img.rs 66–72, 126–130, 251–254).  The library is modelled as it is documented: the
fields of a structure in their order, a pair as an array of two, and the two formatters of serde_json.
-/
namespace Verif

/-- A part of a JSON text, for a depth of indentation. -/
abbrev JsonPart := Nat → Text

/-- A number without sign -/
def jsonNumber (n : Nat) : JsonPart := fun _ => digitsOf 10 n

/-- What a formatter writes before an item (`begin_array_value`, `begin_object_key`): nothing in a compact text, and a new
line in a pretty one. -/
def jsonBreak (pretty : Bool) (depth : Nat) : Text :=
  if pretty then '\n' :: List.replicate (2 * depth) ' ' else []

/-- `serialize_seq`, with `begin_array` and `end_array` of the formatters: no line break in an empty array. -/
def jsonItems (pretty : Bool) (items : List JsonPart) : JsonPart := fun depth =>
  joinWith ",".toList (items.map fun item => jsonBreak pretty (depth + 1) ++ item (depth + 1)) ++
    (if items = [] then [] else jsonBreak pretty depth)

/-- `serialize_seq` and `serialize_tuple` -/
def jsonArray (pretty : Bool) (items : List JsonPart) : JsonPart := fun depth =>
  '[' :: jsonItems pretty items depth ++ "]".toList

/-- A field of a structure; the names have no characters to escape. -/
def jsonField (pretty : Bool) (name : Text) (value : JsonPart) : JsonPart := fun depth =>
  '"' :: name ++ (if pretty then "\": ".toList else "\":".toList) ++ value depth

/-- `serialize_struct` -/
def jsonObject (pretty : Bool) (fields : List (Text × JsonPart)) : JsonPart := fun depth =>
  '{' :: jsonItems pretty (fields.map fun f => jsonField pretty f.1 f.2) depth ++ "}".toList

/-- Color, src/img.rs 66–72 -/
def Color.json (pretty : Bool) (c : Color) : JsonPart :=
  jsonObject pretty [("red".toList, jsonNumber c.red.toNat), ("green".toList, jsonNumber c.green.toNat),
    ("blue".toList, jsonNumber c.blue.toNat), ("alpha".toList, jsonNumber c.alpha.toNat)]

/-- Frame, src/img.rs 126–130 -/
def Frame.json (pretty : Bool) (f : Frame) : JsonPart :=
  jsonObject pretty [("delay".toList, jsonArray pretty [jsonNumber f.delay.1.toNat, jsonNumber f.delay.2.toNat]),
    ("rows".toList, jsonArray pretty (f.rows.map fun row => jsonArray pretty (row.map (Color.json pretty))))]

/-- Image, src/img.rs 251–254 -/
def Image.json (pretty : Bool) (i : Image) : JsonPart :=
  jsonObject pretty [("frames".toList, jsonArray pretty (i.frames.map (Frame.json pretty)))]

/-- `serde_json::to_string(&image)` and `serde_json::to_string_pretty(&image)`, src/lib.rs 232–233 -/
def jsonText (pretty : Bool) (i : Image) : Text := i.json pretty 0

end Verif
