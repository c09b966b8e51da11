import Verif.Spec.Printing
/-
Specification for printing statements: which statements can be read back, and as what.
-/
namespace Verif.Spec

/-- The names in an expression. -/
def namesIn : Expr → List Text
  | .name n | .macroLabel n | .macroArg n => [n]
  | .number _ _ => []
  | .uminus e | .upperByte e | .lowerByte e => namesIn e
  | .plus l r | .minus l r | .times l r | .divide l r | .bxor l r | .band l r | .bor l r => namesIn l ++ namesIn r

/-- The expression with all names in lower case. -/
def lowerExpr : Expr → Expr
  | .name n => .name (lower n)
  | .macroLabel n => .macroLabel (lower n)
  | .macroArg n => .macroArg (lower n)
  | .number v radix => .number v radix
  | .uminus e => .uminus (lowerExpr e)
  | .upperByte e => .upperByte (lowerExpr e)
  | .lowerByte e => .lowerByte (lowerExpr e)
  | .plus l r => .plus (lowerExpr l) (lowerExpr r)
  | .minus l r => .minus (lowerExpr l) (lowerExpr r)
  | .times l r => .times (lowerExpr l) (lowerExpr r)
  | .divide l r => .divide (lowerExpr l) (lowerExpr r)
  | .bxor l r => .bxor (lowerExpr l) (lowerExpr r)
  | .band l r => .band (lowerExpr l) (lowerExpr r)
  | .bor l r => .bor (lowerExpr l) (lowerExpr r)

/-- No number is negative. -/
def Natural : Expr → Prop
  | .name _ | .macroLabel _ | .macroArg _ => True
  | .number v _ => 0 ≤ v
  | .uminus e | .upperByte e | .lowerByte e => Natural e
  | .plus l r | .minus l r | .times l r | .divide l r | .bxor l r | .band l r | .bor l r => Natural l ∧ Natural r

/-- The operand with all names in lower case. -/
def lowerOperand : Sum Expr IM → Sum Expr IM
  | .inl e => .inl (lowerExpr e)
  | .inr r => .inr r

/-- The `.byte` item with all names in lower case. -/
def lowerItem : ByteValue → ByteValue
  | .expr e => .expr (lowerExpr e)
  | .str bs => .str bs

/-- The statement with all names in lower case. -/
inductive Lowers : Stmt → Stmt → Prop where
  | label {n} : Lowers (.label n) (.label (lower n))
  | instr {i i'} : i'.form = i.form → operands i' = (operands i).map lowerOperand → Lowers (.instr i) (.instr i')
  | byte {vs} : Lowers (.dir (.byte vs)) (.dir (.byte (vs.map lowerItem)))
  | word {es} : Lowers (.dir (.word es)) (.dir (.word (es.map lowerExpr)))
  | org {n} : Lowers (.dir (.org n)) (.dir (.org n))
  | cnop {a k} : Lowers (.dir (.cnop a k)) (.dir (.cnop (lowerExpr a) (lowerExpr k)))
  | variable {n e} : Lowers (.variable n e) (.variable (lower n) (lowerExpr e))
  | alias {n e} : Lowers (.alias n e) (.alias (lower n) (lowerExpr e))

/-- The expression can be printed and read back. -/
def Clean (e : Expr) : Prop := Printable e ∧ Natural e

/-- A text whose characters `.byte` can print between quotes and read back: all but the quote, backslash, bell, form feed
and vertical tab. -/
def Quotable (s : Text) : Prop := ∀ c ∈ s, c ∉ "\"\\\x07\x0B\x0C".toList

/-- The items of `.byte` that can be printed and read back. -/
inductive CleanItem : ByteValue → Prop where
  | expr {e} : Clean e → CleanItem (.expr e)
  | str {s} : Quotable s → CleanItem (.str (utf8 s))

/-- The statements that can be printed and read back.  What is missing: operands that are parameters of macros or
named `equ`, `.text` and `.string` (printed without quotes), includes and macro calls. -/
inductive CleanStmt : Stmt → Prop where
  | blank {t} : (∀ c ∈ t, isSpace c = true) → CleanStmt (.comment t)
  | comment {t u} : '\n' ∉ u → t = u ∨ t = '\n' :: u → CleanStmt (.comment t)
  | label {n} : Ident n → lower n ≠ ".include".toList → CleanStmt (.label n)
  | instr {i} : (∀ e, .inl e ∈ operands i → Clean e ∧ closed e = true ∧ ∀ n ∈ namesIn e, lower n ≠ "equ".toList) →
      CleanStmt (.instr i)
  | byte {vs} : vs ≠ [] → (∀ v ∈ vs, CleanItem v) → CleanStmt (.dir (.byte vs))
  | word {es} : es ≠ [] → (∀ e ∈ es, Clean e) → CleanStmt (.dir (.word es))
  | org {n} : n < 2 ^ 31 → CleanStmt (.dir (.org n))
  | cnop {a k} : Clean a → Clean k → CleanStmt (.dir (.cnop a k))
  | variable {n e} : Ident n → lower n ∉ directives.map String.toList → Clean e → CleanStmt (.variable n e)
  | alias {n e} : Ident n → lower n ∉ directives.map String.toList → Clean e → CleanStmt (.alias n e)

/-- The item of `.byte` has no string with characters outside ASCII. -/
def AsciiItem : ByteValue → Prop
  | .expr _ => True
  | .str bs => ∀ b ∈ bs, b.toNat < 128

/-- The statement has no comment and no string with characters outside ASCII. -/
def AsciiStmt : Stmt → Prop
  | .comment t => ∀ c ∈ t, c.toNat < 128
  | .dir (.byte vs) => ∀ v ∈ vs, AsciiItem v
  | _ => True

/-- The statements without the comments, with all names in lower case. -/
inductive Reread : List Stmt → List Stmt → Prop where
  | nil : Reread [] []
  | comment {t ss ss'} : Reread ss ss' → Reread (.comment t :: ss) ss'
  | cons {s s' ss ss'} : Lowers s s' → Reread ss ss' → Reread (s :: ss) (s' :: ss')

/-- No number of the expression is in octal. -/
def NoOctal : Expr → Prop
  | .name _ | .macroLabel _ | .macroArg _ => True
  | .number _ radix => radix ≠ .octal
  | .uminus e | .upperByte e | .lowerByte e => NoOctal e
  | .plus l r | .minus l r | .times l r | .divide l r | .bxor l r | .band l r | .bor l r => NoOctal l ∧ NoOctal r

/-- What a statement of a program that was read and expanded has to be like to be written out as source text and read
again.  (Names are identifiers and numbers are small in all programs that were read.)  Negative numbers and a `.byte` or
`.word` with nothing in it come only from included images and files. -/
inductive Rewritable : Stmt → Prop where
  | blank {t} : (∀ c ∈ t, isSpace c = true) → Rewritable (.comment t)
  | comment {t u} : '\n' ∉ u → t = u ∨ t = '\n' :: u → Rewritable (.comment t)
  | label {n} : n ≠ ".include".toList → Rewritable (.label n)
  | instr {i} : (∀ e, .inl e ∈ operands i → NoOctal e ∧ closed e = true ∧ "equ".toList ∉ namesIn e) → Rewritable (.instr i)
  | byte {vs} : vs ≠ [] →
      (∀ v ∈ vs, (∃ e, v = .expr e ∧ NoOctal e ∧ Natural e) ∨ ∃ s, v = .str (utf8 s) ∧ Quotable s) →
      Rewritable (.dir (.byte vs))
  | word {es} : es ≠ [] → (∀ e ∈ es, NoOctal e ∧ Natural e) → Rewritable (.dir (.word es))
  | org {n} : Rewritable (.dir (.org n))
  | cnop {a k} : NoOctal a → NoOctal k → Rewritable (.dir (.cnop a k))
  | variable {n e} : NoOctal e → Rewritable (.variable n e)
  | alias {n e} : NoOctal e → Rewritable (.alias n e)

end Verif.Spec
