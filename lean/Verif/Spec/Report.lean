import Verif.Spec.Lexing
import Verif.Model.Report
/-
Specification of excerpts in error messages.
-/
namespace Verif.Spec

/-- `SourceLine a l e b`: in the text `a ++ l ++ e ++ b`, `l` is a line and `e` the line break after it. -/
structure SourceLine (a l e b : Text) : Prop where
  start : a = [] ∨ a.getLast? = some '\n'
  inside : '\n' ∉ l
  stop : (e = [] ∧ b = []) ∨ (e = ['\n'] ∧ l.getLast? ≠ some '\r') ∨ e = ['\r', '\n']

/-- What stands above column `i` in front of the carets: white space of the line, or a space. -/
def blankAt (graphemes : List Text) (i : Nat) : Char :=
  match graphemes[i]? with
  | some [c] => if isSpace c then c else ' '
  | _ => ' '

end Verif.Spec
