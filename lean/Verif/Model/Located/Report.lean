import Verif.Model.Located.Read
import Verif.Model.Report
import Verif.Model.Print
/-
What is printed about the place of an error (src/lib.rs 562–1122).  Colours are not modelled.  The sentences that
print_error writes before, between and after the highlighted places are in Model/Located/Messages.lean.
-/
namespace Verif.Located

/-- `UnicodeSegmentation::graphemes(text, true)`: the clusters of a text.  Every cluster has at least one character; the
fuel is the length of the text. -/
def graphemesLoop (seg : Seg) : Nat → Text → List Text
  | 0, _ => []
  | fuel + 1, text => if text = [] then [] else
    text.take (max 1 (seg text)) :: graphemesLoop seg fuel (text.drop (max 1 (seg text)))

/-- See `graphemesLoop`. -/
def graphemes (seg : Seg) (text : Text) : List Text := graphemesLoop seg text.length text

/-- The path of a file as it is printed, src/lib.rs 1057–1065 -/
def shownPath (workingDir file : Path) : Text :=
  let working := workingDir.render ++ ['/']
  if working.isPrefixOf file.render then file.render.drop working.length else file.render

/-- line_for_pos, src/lib.rs 1170–1172, with the check of slicing that the bytes are text -/
def excerpt (m : Mode) (pos : Nat) (text : Text) : Verif.Res Text := do
  let bytes ← lineForPos m pos text
  match decodeUtf8 bytes with
  | some line => .ok line
  | none => .panic

/-- The first part of highlight_line_indented, src/lib.rs 1056–1093: the place, the excerpt and the carets. -/
def showRange (m : Mode) (seg : Seg) (sf : SourceFiles) (indent : Text) (r : Range) (msg : Text) : Verif.Res Text :=
  match sf.forId r.start.file with
  | none => .panic
  | some file => do
    let line ← excerpt m r.start.pos file.contents
    .ok (indent ++ shownPath sf.workingDir file.name ++ ':' :: digitsOf 10 r.start.line ++
        ':' :: digitsOf 10 r.start.column ++
        (if r.start.column ≠ r.stop.column then '-' :: digitsOf 10 r.stop.column else []) ++ '\n' ::
      (indent ++ ' ' :: ' ' :: line ++ '\n' ::
      (indent ++ ' ' :: ' ' :: caret r.start.column r.stop.column (graphemes seg line) msg ++ ['\n'])))

/-- The indentation of what a place was expanded from, src/lib.rs 1095–1104 -/
def newIndent (indent : Text) : Text :=
  if byteLen indent ≥ 4 then indent else List.replicate (byteLen indent) ' ' ++ "  | ".toList

/-- highlight_line_indented, src/lib.rs 1049–1122, for a range and its chain of parents -/
def highlightChain (m : Mode) (seg : Seg) (sf : SourceFiles) (indent : Text) (r : Range) (msg : Text) :
    List Range → Verif.Res Text
  | [] => showRange m seg sf indent r msg
  | parent :: parents => do
    let first ← showRange m seg sf indent r msg
    let rest ← highlightChain m seg sf (newIndent indent) parent [] parents
    .ok (first ++ (newIndent indent ++ '\n' :: newIndent indent ++ "...expanded from".toList ++ '\n' ::
      newIndent indent ++ ['\n'] ++ rest))

/-- highlight_line, src/lib.rs 1045–1047 -/
def highlightLine (m : Mode) (seg : Seg) (sf : SourceFiles) (s : Span) (msg : Text) : Verif.Res Text :=
  highlightChain m seg sf [] s.range msg s.parents

/-- The text next to the carets, where print_error (src/lib.rs 562–1043) highlights one place -/
def captionOf : Err → Text
  | .nameNotFound _ => "Unknown name".toList
  | .spriteTooWide width max => "width ".toList ++ digitsOf 10 width ++ " > ".toList ++ digitsOf 10 max ++ " max".toList
  | .spriteTooTall height max => "height ".toList ++ digitsOf 10 height ++ " > ".toList ++ digitsOf 10 max ++ " max".toList
  | .invalidSpriteHeader _ => "Should be \"yes\" or \"no\"".toList
  | _ => []

/-- The same, where it highlights two places.  WrongNumberOfMacroArgs has the numbers of arguments in its captions; that
error never occurs (a macro is looked up by its name and its number of arguments), and `Err` has no such numbers. -/
def captionsOf : Err → Text × Text
  | .nameAlreadyExists _ => ("Duplicate".toList, "Original".toList)
  | .macroAlreadyExists _ _ => ([], "Existing definition".toList)
  | _ => ([], [])

/-- What print_error (src/lib.rs 562–1043) highlights: the text of each highlighted place. -/
def highlighted (m : Mode) (seg : Seg) (sf : SourceFiles) (e : Error) : Verif.Res (List Text) :=
  match e.place with
  | .nowhere => .ok []
  | .location l => do
    let t ← highlightLine m seg sf ⟨l, l, []⟩ []
    .ok [t]
  | .span s => do
    let t ← highlightLine m seg sf s (captionOf e.err)
    .ok [t]
  | .spans s earlier => do
    let t ← highlightLine m seg sf s (captionsOf e.err).1
    let t' ← highlightLine m seg sf earlier (captionsOf e.err).2
    .ok [t, t']

end Verif.Located
