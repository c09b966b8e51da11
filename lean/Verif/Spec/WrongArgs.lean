import Verif.Spec.Macros
import Verif.Spec.CHeader
/-
Specification: the forms of an instruction, as a message about wrong arguments lists them.
-/
namespace Verif.Spec

/-- The manual's name for each kind of operand -/
def Kind.text : Kind → Text
  | .i8 => "#i8".toList
  | .d9 => "d9".toList
  | .ri => "@Ri".toList
  | .b3 => "b3".toList
  | .r8 => "r8".toList
  | .a12 => "a12".toList
  | .a16 => "a16".toList
  | .r16 => "r16".toList

/-- The operands of all forms of an instruction, in the order of the manual -/
def docForms (name : Text) : List (List Kind) := (Form.all.filter fun f => (row f).name.toList = name).map kinds

/-- The argument can be an operand of this kind: `#e` for immediates, `@Rn` for indirection modes, a plain expression
otherwise. -/
inductive OfKind : Kind → Arg → Prop where
  | immediate {e} : OfKind .i8 (.imm e)
  | mode {r} : OfKind .ri (.im r)
  | plain {k e} : k ≠ .i8 → k ≠ .ri → OfKind k (.ex e)

/-- Texts with commas between them -/
def commas (ts : List Text) : Text := (ts.intersperse ", ".toList).flatten

/-- What the message says about the forms of an instruction -/
def formsMessage (name : Text) : Text :=
  if docForms name = [[]] then name ++ " expects 0 arguments.\n\n\n".toList
  else
    (if (docForms name).length = 1 then "Allowed form".toList else "Allowed forms".toList) ++ " for instruction ".toList ++
      name ++ ":\n".toList ++
      ((docForms name).map fun ks => "  ".toList ++ name ++ " ".toList ++ commas (ks.map Kind.text) ++ "\n".toList).flatten ++
      "\n".toList

end Verif.Spec
