import Verif.Model.Parser
/-
Printing: the Display instances of expressions, instructions and statements.
-/
namespace Verif

/-- Display for IndirectionMode, src/expression.rs 544–554 -/
def IM.print : IM → Text
  | .R0 => "@R0".toList
  | .R1 => "@R1".toList
  | .R2 => "@R2".toList
  | .R3 => "@R3".toList

/-- Display for Arg, src/expression.rs 564–573 -/
def Arg.print : Arg → Text
  | .imm e => '#' :: e.print
  | .ex e => e.print
  | .im m => m.print
  | .macroArg n => n

/-- Display for Instr with expressions, src/instruction.rs 244–344 -/
def Instr.print (i : Instr Expr IM) : Text := i.display Expr.print IM.print

/-- escape_string, src/ast.rs 606–668: the bytes after escaping -/
def escapeBytes : List UInt8 → List UInt8
  | [] => []
  | b :: bs =>
    (if b = 0x07 then [0x5C, 0x61]
     else if b = 0x08 then [0x5C, 0x62]
     else if b = 0x0C then [0x5C, 0x66]
     else if b = 0x0A then [0x5C, 0x6E]
     else if b = 0x0D then [0x5C, 0x72]
     else if b = 0x09 then [0x5C, 0x74]
     else if b = 0x0B then [0x5C, 0x76]
     else if b = 0x00 then [0x5C, 0x30]
     else [b]) ++ escapeBytes bs

/-- `String::from_utf8(escaped).unwrap()`, src/ast.rs 667 -/
def escapeString (bytes : List UInt8) : Res Text :=
  match String.fromUTF8? ⟨(escapeBytes bytes).toArray⟩ with
  | some s => .ok s.toList
  | none => .panic

/-- Display for ByteValue, src/ast.rs 335–344 -/
def ByteValue.print : ByteValue → Res Text
  | .expr e => .ok e.print
  | .str bytes => do
    let t ← escapeString bytes
    .ok ('"' :: (t ++ ['"']))

/-- Items with a separator between them -/
def joinWith (sep : Text) : List Text → Text
  | [] => []
  | [t] => t
  | t :: u :: ts => t ++ sep ++ joinWith sep (u :: ts)

/-- The items of a `.byte` directive, src/ast.rs 356–366 -/
def printBytes : List ByteValue → Res (List Text)
  | [] => .ok []
  | v :: vs => do
    let t ← v.print
    let ts ← printBytes vs
    .ok (t :: ts)

/-- Display for SpriteType, src/ast.rs 171–178 -/
def SpriteType.print : SpriteType → Text
  | .simple => "simple".toList
  | .masked => "masked".toList

/-- The options of an icon, src/ast.rs 396–411 -/
def printIconOptions : Option Expr → Option ByteValue → Res Text
  | none, none => .ok []
  | some speed, none => .ok (" speed = ".toList ++ speed.print)
  | none, some eyecatch => do
    let t ← eyecatch.print
    .ok (" eyecatch = ".toList ++ t)
  | some speed, some eyecatch => do
    let t ← eyecatch.print
    .ok (" speed = ".toList ++ speed.print ++ ", eyecatch = ".toList ++ t)

/-- Display for `.include`, src/ast.rs 393–413, with Display for IncludeType, 198–226, and IncludeHeader, 180–187 -/
def printInclude (path : Text) : IncludeType → Res Text
  | .asm => .ok ("  .include \"".toList ++ path ++ "\"".toList)
  | .icon speed eyecatch => do
    let t ← printIconOptions speed eyecatch
    .ok ("  .include icon \"".toList ++ path ++ "\"".toList ++ t)
  | .bytes => .ok ("  .include bytes \"".toList ++ path ++ "\"".toList)
  | .cHeader => .ok ("  .include cpp \"".toList ++ path ++ "\"".toList)
  | .sprite t header => .ok ("  .include sprite type = \"".toList ++ t.print ++ "\", header = \"".toList ++
      (if header then "yes".toList else "no".toList) ++ "\" \"".toList ++ path ++ "\"".toList)

/-- Display for Directive, src/ast.rs 346–416 -/
def Directive.print : Directive → Res Text
  | .cnop add multiple => .ok ("  .cnop ".toList ++ add.print ++ ", ".toList ++ multiple.print)
  | .byte vs => do
    let ts ← printBytes vs
    .ok ("  .byte ".toList ++ joinWith ",".toList ts)
  | .text size bytes => do
    let t ← escapeString bytes
    .ok ("  .text ".toList ++ digitsOf 10 size ++ " ".toList ++ t)
  | .string size bytes => do
    let t ← escapeString bytes
    .ok ("  .string ".toList ++ digitsOf 10 size ++ " ".toList ++ t)
  | .org n => .ok (if n = 0 then "  .org ".toList ++ digitsOf 10 n else "  .org $".toList ++ zeroPad 4 (digitsOf 16 n))
  | .word es => .ok ("  .word ".toList ++ joinWith ", ".toList (es.map Expr.print))
  | .incl t path => printInclude path t

/-- Display for Statement, src/ast.rs 493–528.  Comments are trimmed of white space for the test. -/
def Stmt.print : Stmt → Res Text
  | .dir d => d.print
  | .label n => .ok (n ++ ":".toList)
  | .instr i => .ok ("  ".toList ++ i.print)
  | .variable n e => .ok (n ++ " = ".toList ++ e.print)
  | .alias n e => .ok (n ++ " EQU ".toList ++ e.print)
  | .comment t =>
    if t.all isSpace then .ok t
    else match t with
      | '\n' :: u => .ok ("\n  ;; ".toList ++ u)
      | _ => .ok ("  ;; ".toList ++ t)
  | .macroCall n args => .ok (n ++ args.flatMap fun a => ' ' :: a.print)

/-- The lines of the statements, src/ast.rs 592–604 -/
def printEach : List Stmt → Res (List Text)
  | [] => .ok []
  | s :: ss => do
    let t ← s.print
    let ts ← printEach ss
    .ok (t :: ts)

/-- Display for Statements, src/ast.rs 592–604 -/
def printStatements (ss : List Stmt) : Res Text := do
  let ts ← printEach ss
  .ok (joinWith "\n".toList ts)

end Verif
