import Verif.Model.Ast
/-
Printing of expressions and numbers.
-/
namespace Verif

/-- A digit, upper case above 9: as `{:X}`, `{:o}`, `{:b}` and `{}` write it. -/
def digitChar (d : Nat) : Char := "0123456789ABCDEF".toList.getD d '0'

/-- The digits of a number, most significant first; the number of steps is bounded by the number itself. -/
def digitsLoop (base : Nat) : Nat → Nat → Text
  | 0, n => [digitChar (n % base)]
  | fuel + 1, n => if n < base then [digitChar n] else digitsLoop base fuel (n / base) ++ [digitChar (n % base)]

/-- A number in a base, as Rust formats it -/
def digitsOf (base n : Nat) : Text := digitsLoop base n n

/-- `{:0w}`: zeros in front up to this width -/
def zeroPad (width : Nat) (t : Text) : Text := List.replicate (width - t.length) '0' ++ t

/-- `{}` of an `i32` -/
def decimalText (v : Int) : Text := if v < 0 then '-' :: digitsOf 10 v.natAbs else digitsOf 10 v.toNat

/-- Numbers, Display for Expr, src/expression.rs 402–413.  Negative numbers in other bases than ten are
written in two's complement. -/
def numberText (v : Int) : Radix → Text
  | .decimal => decimalText v
  | .hex => if v ≤ 0xFF then '$' :: zeroPad 2 (digitsOf 16 (toU32 v)) else '$' :: zeroPad 4 (digitsOf 16 (toU32 v))
  | .octal => '$' :: zeroPad 4 (digitsOf 8 (toU32 v))
  | .binary => '%' :: zeroPad 8 (digitsOf 2 (toU32 v))

/-- Parentheses, if the flag is set -/
def parenIf (b : Bool) (t : Text) : Text := if b then '(' :: (t ++ [')']) else t

/-- Display for Expr, src/expression.rs 232–442 -/
def Expr.print : Expr → Text
  | .bxor l r => parenIf l.complex l.print ++ " ^ ".toList ++ parenIf r.complex r.print
  | .band l r => parenIf l.complex l.print ++ " & ".toList ++ parenIf r.complex r.print
  | .bor l r => parenIf l.complex l.print ++ " | ".toList ++ parenIf r.complex r.print
  | .name n => n
  | .plus l r => parenIf l.complex l.print ++ " + ".toList ++ parenIf r.complex r.print
  | .minus l r => parenIf l.complex l.print ++ " - ".toList ++ parenIf r.complex r.print
  | .uminus e => '-' :: parenIf e.complex e.print
  | .times l r => parenIf l.complex l.print ++ " * ".toList ++ parenIf r.complex r.print
  | .divide l r => parenIf l.complex l.print ++ " / ".toList ++ parenIf r.complex r.print
  | .number v radix => numberText v radix
  | .upperByte e => '>' :: parenIf e.complex e.print
  | .lowerByte e => '<' :: parenIf e.complex e.print
  | .macroLabel n => n
  | .macroArg n => n

end Verif
