import Verif.Spec.Places
import Verif.Spec.Report
import Verif.Spec.CHeader
import Verif.Model.Located.Report
/-
Specification: what is printed about the place of an error.
-/
namespace Verif.Spec.Places
open Verif.Located (Range Span Place)

/-- What Unicode says about line breaks (UAX #29): a line break is a cluster, and what the clusters of a line are does not
depend on the line break after it. -/
structure BreaksLines (seg : Seg) : Prop where
  some : ∀ t, t ≠ [] → 1 ≤ seg t ∧ seg t ≤ t.length
  lf : ∀ b, seg ('\n' :: b) = 1
  crlf : ∀ b, seg ('\r' :: '\n' :: b) = 2
  before_lf : ∀ l b, l ≠ [] → '\n' ∉ l → l.getLast? ≠ .some '\r' → seg (l ++ '\n' :: b) = seg l
  before_crlf : ∀ l b, l ≠ [] → '\n' ∉ l → seg (l ++ '\r' :: '\n' :: b) = seg l

/-- A number in decimal -/
def number (n : Nat) : Text := n.repr.toList

/-- A path is shown relative to the working directory, if it starts with it. -/
def PathText (workingDir file : Path) (t : Text) : Prop :=
  file.render = workingDir.render ++ '/' :: t ∨
  (∀ t', file.render ≠ workingDir.render ++ '/' :: t') ∧ t = file.render

/-- The line and its line break, as they are shown: the last line is shown with its line break. -/
def shownLine (l e b : Text) : Text := if b = [] then l ++ e else l

/-- The line below the excerpt: blank up to column `start`, then a caret for each column up to `stop`, and at least one
caret, then the caption.  A range that starts in the line has only as many carets as the line has columns after its start.
A range that starts at the end of the line and stops left of it has no caret (it would have to stop in another line). -/
def caretLine (start stop : Nat) (gs : List Text) (caption : Text) : Text :=
  (List.range start).map (blankAt gs) ++
    List.replicate (if start < gs.length then max 1 (min stop gs.length - start) else if start = stop then 1 else stop - start) '^' ++
    (if caption = [] then [] else ' ' :: caption)

/-- `t` shows the range: the file, the number of the line and the columns; the line of the file in which the range starts;
and carets below it. -/
def Entry (seg : Seg) (sf : SourceFiles) (indent : Text) (r : Range) (caption t : Text) : Prop :=
  ∃ f path a x y e b gs gs',
    sf.files[r.start.file]? = some f ∧ PathText sf.workingDir f.name path ∧
    f.contents = a ++ (x ++ y) ++ e ++ b ∧ SourceLine a (x ++ y) e b ∧ r.start.pos = byteLen (a ++ x) ∧
    r.start.line = 1 + a.count '\n' ∧
    Clusters seg (shownLine (x ++ y) e b) (gs ++ gs') [] ∧ gs.flatten = x ∧ r.start.column = gs.length ∧
    t = indent ++ path ++ ":".toList ++ number r.start.line ++ ":".toList ++ number r.start.column ++
        (if r.start.column = r.stop.column then [] else "-".toList ++ number r.stop.column) ++ "\n".toList ++
      indent ++ "  ".toList ++ shownLine (x ++ y) e b ++ "\n".toList ++
      indent ++ "  ".toList ++ caretLine r.start.column r.stop.column (gs ++ gs') caption ++ "\n".toList

/-- What is in front of the lines about a macro call that the place was expanded from -/
def bar : Text := "  | ".toList

/-- `t` shows the span: its range, and then the calls it was expanded from. -/
def Report (seg : Seg) (sf : SourceFiles) (s : Span) (caption t : Text) : Prop :=
  ∃ first more, Entry seg sf [] s.range caption first ∧ EachLine (fun r t => Entry seg sf bar r [] t) s.parents more ∧
    t = first ++ more.flatMap fun t => bar ++ "\n".toList ++ bar ++ "...expanded from\n".toList ++ bar ++ "\n".toList ++ t

/-- The ranges that are shown for a place -/
def shownRanges : Place → List Range
  | .nowhere => []
  | .location l => [⟨l, l⟩]
  | .span s => s.range :: s.parents
  | .spans s s' => (s.range :: s.parents) ++ (s'.range :: s'.parents)

/-- The range cannot be shown: it starts at the beginning of a file with one byte, and the build is one with overflow checks, or
the byte is a carriage return. -/
def Unshowable (m : Mode) (sf : SourceFiles) (r : Range) : Prop :=
  r.start.pos = 0 ∧ ∃ f, sf.files[r.start.file]? = some f ∧ byteLen f.contents = 1 ∧ (m = .checked ∨ f.contents = ['\r'])

/-- The captions of what is shown for an error -/
inductive Captions : Err → Place → List (Span × Text) → Prop where
  | nowhere {e} : Captions e .nowhere []
  | location {e l} : Captions e (.location l) [(⟨l, l, []⟩, [])]
  | name {n s} : Captions (.nameNotFound n) (.span s) [(s, "Unknown name".toList)]
  | wide {w k s} : Captions (.spriteTooWide w k) (.span s)
      [(s, "width ".toList ++ number w ++ " > ".toList ++ number k ++ " max".toList)]
  | tall {h k s} : Captions (.spriteTooTall h k) (.span s)
      [(s, "height ".toList ++ number h ++ " > ".toList ++ number k ++ " max".toList)]
  | header {x s} : Captions (.invalidSpriteHeader x) (.span s) [(s, "Should be \"yes\" or \"no\"".toList)]
  | other {e s} : (∀ n, e ≠ .nameNotFound n) → (∀ w k, e ≠ .spriteTooWide w k) → (∀ w k, e ≠ .spriteTooTall w k) →
      (∀ x, e ≠ .invalidSpriteHeader x) → Captions e (.span s) [(s, [])]
  | names {n s s'} : Captions (.nameAlreadyExists n) (.spans s s') [(s, "Duplicate".toList), (s', "Original".toList)]
  | macros {n k s s'} : Captions (.macroAlreadyExists n k) (.spans s s') [(s, []), (s', "Existing definition".toList)]

end Verif.Spec.Places
