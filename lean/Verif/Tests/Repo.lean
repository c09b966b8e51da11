import Verif.Model.Parser
import Verif.Model.Print
import Verif.Model.Asm
import Verif.Model.Instr
import Verif.Spec.Lexing
/-
The unit tests of the repository, run on the model.  They prove nothing about the program, but show that the model computes what the
authors of the program expect of it.  The end-to-end tests (tests/end_to_end.rs) are run on the model by tools/end_to_end.sh.
-/
namespace Verif.Tests
open Verif Verif.Spec

/-! src/input.rs 119–156 -/

def someCool : Input := Input.new 43 "some cool\n input \r\n and \n stuff".toList

example : (someCool.update plainSeg 20).pos = 20 ∧ (someCool.update plainSeg 20).line = 3 ∧ (someCool.update plainSeg 20).column = 1 ∧
    (someCool.update plainSeg 20).rest = "and \n stuff".toList := by decide +kernel
example : (someCool.update plainSeg 33).pos = 31 ∧ (someCool.update plainSeg 33).line = 4 ∧ (someCool.update plainSeg 33).column = 6 ∧
    (someCool.update plainSeg 33).rest = [] := by decide +kernel

def someBlank : Input := (Input.new 43 "   \n \r\n \r  \t some stuff".toList).skipWhitespace plainSeg

example : someBlank.pos = 13 ∧ someBlank.line = 3 ∧ someBlank.column = 6 ∧ someBlank.rest = "some stuff".toList := by decide +kernel

/-! src/lexer.rs 524–606 -/

example : cleanStr "\"foo \\n bar \\r \\b \\t \\ \\\\ \\\"".toList =
    "foo \n bar \r ".toList ++ [Char.ofNat 8] ++ " \t  \\ \\".toList := by decide +kernel

example : (match readToken plainSeg (asmSkip plainSeg) (Input.new 7 "@R3".toList) with
    | .ok (some (_, token)) => some token
    | _ => none) = some ⟨.r3, ⟨7, 0, 1, 0⟩, ⟨7, 3, 1, 3⟩⟩ := by decide +kernel

/-- The tokens of a text, or the place of the first character that begins none. -/
def lexed (text : String) : Option (List Tok) ⊕ Option (Nat × Nat × Nat) :=
  match lexInput plainSeg (Input.new 7 text.toList) with
  | .ok ts => .inl (some (ts.map Token.tok))
  | .err (.unexpectedChar p l c) => .inr (some (p, l, c))
  | _ => .inr none

example : lexed "@R3@R0,+:" = .inl (some [.r3, .r0, .comma, .plus, .colon, .eof]) := by decide +kernel
example : lexed "@R3@R0,+:!-" = .inr (some (9, 1, 9)) := by decide +kernel
example : (skipComment plainSeg (Input.new 7 ";fred is cool\nbob".toList)).rest = "\nbob".toList := by decide +kernel
/- test_end_of_line (581–588): the ends of lines are at 11 and at the end. -/
example : (toEol "@R3@R0,+:!-\nfoo".toList).length = 11 ∧ (toEol "foo".toList).length = 3 := by decide +kernel

/-! src/parser.rs 1453–1581 -/

def tokensOf (text : Text) : Option Toks :=
  match lexInput plainSeg (Input.new 7 text) with
  | .ok ts => some (ts.map Token.tok)
  | _ => none

def exprOf (text : Text) : Option Expr :=
  (tokensOf text).bind fun ts => match parseExpr ts with
    | .ok (e, _) => some e
    | _ => none

/-- Parse an expression and print it. -/
def reprinted (text : Text) : Option Text := (exprOf text).map Expr.print

def check (text expected : String) : Bool :=
  reprinted text.toList = some expected.toList && reprinted expected.toList = some expected.toList

example : check "fred + 2 * 7 - 21 * (6 + 7)" "(fred + (2 * 7)) - (21 * (6 + 7))" = true := by decide +kernel
example : check "bob + sam + -12 * 7" "(bob + sam) + ((-12) * 7)" = true := by decide +kernel
example : check "bob + sam + -12 * 7 + ->fred - <sam" "(((bob + sam) + ((-12) * 7)) + (-(>fred))) - (<sam)" = true := by decide +kernel

def valueOf (text : String) : Option Int :=
  match (exprOf text.toList).map (Expr.eval .checked (mapEnv [])) with
  | some (.ok v) => some v
  | _ => none

example : valueOf "3 + 7 * -4" = some (-25) := by decide +kernel

/-- Without white space at both ends. -/
def trim (t : Text) : Text := ((t.dropWhile isSpace).reverse.dropWhile isSpace).reverse

def stmtOf (text : String) : Option Text :=
  (tokensOf text.toList).bind fun ts => match parseStatement ts with
    | .ok (s, _) => match s.print with
      | .ok t => some (trim t)
      | _ => none
    | _ => none

example : stmtOf ".org $44" = some ".org $0044".toList := by decide +kernel
example : stmtOf ".byte $44, $65, 0x32, 0b10110" = some ".byte $44,$65,$32,%00010110".toList := by decide +kernel
example : stmtOf ".word $4478, $6543, 0x3221, 0b1011100001100100" = some ".word $4478, $6543, $3221, %1011100001100100".toList := by
  decide +kernel
example : stmtOf ".cnop $40, $22" = some ".cnop $40, $22".toList := by decide +kernel
example : stmtOf ".include \"sfr.i\"" = some ".include \"sfr.i\"".toList := by decide +kernel
example : stmtOf ".byte \"foo bar baz\"" = some ".byte \"foo bar baz\"".toList := by decide +kernel
example : stmtOf ".loop" = some ".loop:".toList := by decide +kernel
example : stmtOf ".include:" = some ".include:".toList := by decide +kernel

/-! src/instruction.rs 654–688 -/

example : Instr.encode (.Add_i8 0xf3) = [0x81, 0xf3] ∧ Instr.encode (.Add_d9 0x1F4) = [0x83, 0xf4] := by decide +kernel
example : (match decode [0x81, 0xf3] with
    | .ok i => i
    | _ => none) = some (.Add_i8 0xf3) := by decide +kernel
example : (match decode [0b00101000, 0b11111111] with
    | .ok i => i
    | _ => none) = some (.Jmp 0b000011111111) := by decide +kernel

/-! waterbear-instruction-derive/src/lib.rs 631–762 -/

open Derive in
example : tokenize "10000001 [a7][a6][a5][a4][a3][a2][a1][a0]".toList = some [.lit 1, .lit 0, .lit 0, .lit 0, .lit 0, .lit 0, .lit 0, .lit 1,
    .ref 'a' 7, .ref 'a' 6, .ref 'a' 5, .ref 'a' 4, .ref 'a' 3, .ref 'a' 2, .ref 'a' 1, .ref 'a' 0] := by decide +kernel
open Derive in
example : parseBitPattern "10000001 [a7][a6][a5][a4][a3][a2][a1][a0]".toList =
    some [[.lit 0b10000001 8], [.ref 'a' 7 0]] := by decide +kernel
open Derive in
example : parseBitPattern "1000001[a8] [a7][a6][a5][a4][a3][a2][a1][a0]".toList =
    some [[.lit 0b1000001 7, .ref 'a' 8 8], [.ref 'a' 7 0]] := by decide +kernel
open Derive in
example : bitCombinations 4 = [0b1111, 0b0111, 0b1011, 0b0011, 0b1101, 0b0101, 0b1001, 0b0001, 0b1110, 0b0110, 0b1010, 0b0010,
    0b1100, 0b0100, 0b1000, 0b0000] := by decide +kernel
open Derive in
example : ((parseBitPattern "000[a11]1[a10][a9][a8] [a7][a6][a5][a4][a3][a2][a1][a0]".toList).map fun rs =>
    rs.head?.map fun r => (allPossibleOpcodes r).isPerm [0b00011111, 0b00001111, 0b00011011, 0b00001011, 0b00011101, 0b00001101,
      0b00011001, 0b00001001, 0b00011110, 0b00001110, 0b00011010, 0b00001010, 0b00011100, 0b00001100, 0b00011000, 0b00001000]) =
    some (some true) := by decide +kernel

end Verif.Tests
