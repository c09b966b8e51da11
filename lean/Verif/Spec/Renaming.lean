import Verif.Spec.Reread
import Verif.Spec.Include
import Verif.Spec.Assembly
/-
Specification for renaming: the same program with other names.
-/
namespace Verif.Spec

/-- A way to rename labels, variables and aliases: names in lower case stay in lower case, different names stay different,
local names stay local and global ones global.  (The empty text is no name.) -/
structure Renaming (f : Text → Text) : Prop where
  low : ∀ n, lower n = n → lower (f n) = f n
  distinct : ∀ n n', lower n = n → lower n' = n' → f n = f n' → n = n'
  locality : ∀ n, lower n = n → dotted (f n) = dotted n
  empty : f [] = []

/-- The expression with the names replaced.  (The case of letters in names has no meaning.) -/
def renameExpr (f : Text → Text) : Expr → Expr
  | .name n => .name (f (lower n))
  | .macroLabel n => .macroLabel n
  | .macroArg n => .macroArg n
  | .number v radix => .number v radix
  | .uminus e => .uminus (renameExpr f e)
  | .upperByte e => .upperByte (renameExpr f e)
  | .lowerByte e => .lowerByte (renameExpr f e)
  | .plus l r => .plus (renameExpr f l) (renameExpr f r)
  | .minus l r => .minus (renameExpr f l) (renameExpr f r)
  | .times l r => .times (renameExpr f l) (renameExpr f r)
  | .divide l r => .divide (renameExpr f l) (renameExpr f r)
  | .bxor l r => .bxor (renameExpr f l) (renameExpr f r)
  | .band l r => .band (renameExpr f l) (renameExpr f r)
  | .bor l r => .bor (renameExpr f l) (renameExpr f r)

/-- The operand with the names replaced. -/
def renameOperand (f : Text → Text) : Sum Expr IM → Sum Expr IM
  | .inl e => .inl (renameExpr f e)
  | .inr r => .inr r

/-- The `.byte` item with the names replaced. -/
def renameItem (f : Text → Text) : ByteValue → ByteValue
  | .expr e => .expr (renameExpr f e)
  | .str bs => .str bs

/-- The statement with the names replaced.  (Includes and macro calls are gone when a program is assembled.) -/
inductive Renamed (f : Text → Text) : Stmt → Stmt → Prop where
  | label {n} : Renamed f (.label n) (.label (f (lower n)))
  | instr {i i'} : i'.form = i.form → operands i' = (operands i).map (renameOperand f) → Renamed f (.instr i) (.instr i')
  | byte {vs} : Renamed f (.dir (.byte vs)) (.dir (.byte (vs.map (renameItem f))))
  | word {es} : Renamed f (.dir (.word es)) (.dir (.word (es.map (renameExpr f))))
  | org {n} : Renamed f (.dir (.org n)) (.dir (.org n))
  | text {n bs} : Renamed f (.dir (.text n bs)) (.dir (.text n bs))
  | string {n bs} : Renamed f (.dir (.string n bs)) (.dir (.string n bs))
  | cnop {a k} : Renamed f (.dir (.cnop a k)) (.dir (.cnop (renameExpr f a) (renameExpr f k)))
  | variable {n e} : Renamed f (.variable n e) (.variable (f (lower n)) (renameExpr f e))
  | alias {n e} : Renamed f (.alias n e) (.alias (f (lower n)) (renameExpr f e))
  | comment {t t'} : Renamed f (.comment t) (.comment t')

/-- The program with the names replaced. -/
inductive RenamedProgram (f : Text → Text) : List Stmt → List Stmt → Prop where
  | nil : RenamedProgram f [] []
  | cons {s s' ss ss'} : Renamed f s s' → RenamedProgram f ss ss' → RenamedProgram f (s :: ss) (s' :: ss')

/-- The error with the name it is about replaced. -/
def renameError (f : Text → Text) : Err → Err
  | .nameNotFound n => .nameNotFound (f (lower n))
  | .nameAlreadyExists n => .nameAlreadyExists (f n)
  | e => e

/-- The same outcome, but for the name in the error. -/
def renameOutcome (f : Text → Text) {α : Type} : Res α → Res α
  | .err e => .err (renameError f e)
  | r => r

/-- The names that a statement defines or uses. -/
def namesOf : Stmt → List Text
  | .label n => [lower n]
  | .variable n e => lower n :: (namesIn e).map lower
  | .alias n e => lower n :: (namesIn e).map lower
  | .dir (.cnop a k) => (namesIn a ++ namesIn k).map lower
  | s => (exprsOf s).flatMap fun e => (namesIn e).map lower

/-- Another name for one thing. -/
def insteadOf (old new : Text) (n : Text) : Text := if n = old then new else n

/-- The words with a meaning of their own, which cannot be replaced. -/
def Reserved (n : Text) : Prop := n ∈ directives.map String.toList ∨ Mnemonic n ∨ n = "equ".toList

/-- The token with the name replaced. -/
def renameTok (f : Text → Text) : Tok → Tok
  | .name n => .name (f n)
  | k => k

/-- The text consists of lines of tokens that stand for these statements; no file is included and no macro is called. -/
def OneFile (t : Text) (K : List (List Tok)) (ss : List Stmt) : Prop :=
  ∃ sss, ReadsAs t K ∧ EachLine LineSyntax K sss ∧ ss = sss.flatten ∧ (∀ k path, Stmt.dir (.incl k path) ∉ ss) ∧
    (∀ n args, Stmt.macroCall n args ∉ ss) ∧ Stmt.label ".include".toList ∉ ss

end Verif.Spec
