import Verif.Model.Parser
/-
Excerpts in error messages (src/lib.rs 1124–1193).  The text is the list of its bytes.  Slicing a `str` also checks
that both ends are character boundaries; this check is not modelled, the ends are next to a newline or an end of the
text.  Colours and the stream they are written to are not modelled.
-/
namespace Verif

/-- start_of_line, src/lib.rs 1174–1181; an index out of bounds panics. -/
def excerptStart (bytes : List UInt8) : Nat → Res Nat
  | 0 => .ok 0
  | loc + 1 =>
    match bytes[loc]? with
    | none => .panic
    | some b => if b ≠ 10 then excerptStart bytes loc else .ok (loc + 1)

/-- `loc < bytes.len() - 2 && bytes[loc] == b'\r' && bytes[loc + 1] == b'\n'`, src/lib.rs 1188.  The subtraction
overflows for a text of one byte. -/
def atCrLf (m : Mode) (bytes : List UInt8) (loc : Nat) : Res Bool :=
  if bytes.length < 2 then
    match m with
    | .checked => .panic
    | .wrapping =>
      if bytes[loc]? = some 13 then (if loc + 1 < bytes.length then .ok (bytes[loc + 1]? = some 10) else .panic)
      else .ok false
  else .ok (decide (loc < bytes.length - 2) && decide (bytes[loc]? = some 13) && decide (bytes[loc + 1]? = some 10))

/-- end_of_line, src/lib.rs 1183–1193.  The fuel is the number of bytes from `loc` to the end. -/
def excerptEnd (m : Mode) (bytes : List UInt8) : Nat → Nat → Res Nat
  | 0, loc => .ok loc
  | fuel + 1, loc =>
    if loc < bytes.length - 1 ∧ bytes[loc]? = some 10 then .ok loc
    else do
      if ← atCrLf m bytes loc then .ok loc
      else excerptEnd m bytes fuel (loc + 1)

/-- line_for_pos, src/lib.rs 1170–1172 -/
def lineForPos (m : Mode) (pos : Nat) (text : Text) : Res (List UInt8) := do
  let bytes := utf8 text
  let start ← excerptStart bytes pos
  let stop ← excerptEnd m bytes (bytes.length - pos) pos
  if stop < start then .panic else .ok ((bytes.take stop).drop start)

/-- What caret writes before the span, src/lib.rs 1135–1139: `^\s$` matches a single white space character. -/
def caretBlank : Text → Text
  | [c] => if isSpace c then [c] else [' ']
  | _ => [' ']

/-- The loop over the graphemes of the line in caret, src/lib.rs 1133–1147: what is written, and the last column. -/
def caretLoop (start stop : Nat) : List Text → Nat → Text × Nat
  | [], col => ([], col)
  | g :: gs, col =>
    if col < start then
      let (r, col) := caretLoop start stop gs (col + 1)
      (caretBlank g ++ r, col)
    else if col = start then
      let (r, col) := caretLoop start stop gs (col + 1)
      ('^' :: r, col)
    else if col > start ∧ col < stop then
      let (r, col) := caretLoop start stop gs (col + 1)
      ('^' :: r, col)
    else ([], col)

/-- caret, src/lib.rs 1124–1168, for a span from column `start` to column `stop`; `graphemes` are those of the line. -/
def caret (start stop : Nat) (graphemes : List Text) (msg : Text) : Text :=
  let (result, col) := caretLoop start stop graphemes 0
  let more :=
    if col ≤ start then
      List.replicate (start - col) ' ' ++
        (if start = stop then ['^'] else List.replicate (stop - start) '^')
    else []
  result ++ more ++ (if msg.isEmpty then [] else ' ' :: msg)

end Verif
