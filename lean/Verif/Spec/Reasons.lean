import Verif.Spec.Places
import Verif.Spec.Assembly
/-
Specification: what is wrong with a program that the assembler rejects, and where; of several things, which one is
reported.  The program has no includes and no macro calls left.
-/
namespace Verif.Spec.Reasons
open Verif.Spec.Places
open Verif.Located (Span Place)

/-- The statements without the places. -/
abbrev bare (stmts : List Located.Stmt) : List Stmt := stmts.map Located.Stmt.erase

/-- The statement defines a variable or an alias. -/
inductive Defines : Located.Stmt → Span → Text → Located.Expr → Prop where
  | «variable» {s n e} : Defines (.variable s n e) s n e
  | alias {s n e} : Defines (.alias s n e) s n e

/-- The expression is a number. -/
def IsNumber (e : Located.Expr) : Prop := ∃ s v radix, e = .number s v radix

/-- Of two labels with the statements `between` in between, the second one is in the scope of the first one. -/
def SameScope (n : Text) (between : List Located.Stmt) (n' : Text) : Prop :=
  (dotted n = false ∧ dotted n' = false) ∨
  (dotted n = true ∧ dotted n' = true ∧ ∀ s g, Located.Stmt.label s g ∈ between → dotted g = true)

/-- The statements can be laid out, and no label is defined twice. -/
def LaidOut (stmts : List Located.Stmt) (ps : List Placed) : Prop := layout (bare stmts) = some ps ∧ LabelsDistinct ps

/-- The definitions among the statements have the values `vars`, and no name is defined twice. -/
def Valued (m : Mode) (ps : List Placed) (stmts : List Located.Stmt) (vars : List (Text × Int)) : Prop :=
  Vars m (globalLabels ps) (definitions (bare stmts)) vars ∧ ((globalLabels ps ++ vars).map (·.1)).Nodup

/-- The value is none for `.byte`, or none for `.word`. -/
inductive UnfitByte (v : Int) : Err → Prop where
  | mk : ¬ (-128 ≤ v ∧ v ≤ 255) → UnfitByte v (.byteOutOfRange v)

@[inherit_doc UnfitByte] inductive UnfitWord (v : Int) : Err → Prop where
  | mk : ¬ (-32768 ≤ v ∧ v ≤ 65535) → UnfitWord v (.wordOutOfRange v)

/-- The statement at the address `p` has no bytes, where names mean what `env` says.  Of the values of a `.byte` or
`.word` and of the operands of an instruction, the first wrong one is reported. -/
inductive Unemittable (m : Mode) (env : Env) (p : Nat) : Located.Stmt → Err → Place → Prop where
  | byte {s before e after bs x q} : ByteItems m env (before.map Located.ByteValue.erase) bs →
      InExpr m env UnfitByte e x q → Unemittable m env p (.dir (.byte s (before ++ .expr e :: after))) x q
  | word {s before e after bs x q} : WordItems m env (before.map Located.Expr.erase) bs →
      InExpr m env UnfitWord e x q → Unemittable m env p (.dir (.word s (before ++ e :: after))) x q
  | text {s n bs} : n < bs.length → Unemittable m env p (.dir (.text s n bs)) (.bytesLongerThanLength n bs.length) (.span s)
  | string {s n bs} : n < bs.length → Unemittable m env p (.dir (.string s n bs)) (.bytesLongerThanLength n bs.length) (.span s)
  | org {s n} : 65535 < n → Unemittable m env p (.dir (.org s n)) (.invalidCodeLocation (wrap32 n)) (.span s)
  | instr {s i x q} : InOperands m env (p + (row i.form).size) (kinds i.form) (operands i) x q →
      Unemittable m env p (.instr s i) x q

/-- `Wrong m stmts x p`: the first thing that is wrong with the program is `x`, at the place `p`.  The layout and the
labels come first, then the variables, then the bytes, each in the order of the statements. -/
inductive Wrong (m : Mode) (stmts : List Located.Stmt) : Err → Place → Prop where
  /-- An operand of a `.cnop` is not a number. -/
  | cnop {before s a k after e ps} : stmts = before ++ .dir (.cnop s a k) :: after → LaidOut before ps →
      e = a ∨ (IsNumber a ∧ e = k) → ¬ IsNumber e → Wrong m stmts .mustBeLiteralNumber (.span e.span)
  /-- A label is defined twice in a scope; the first place is that of the second definition. -/
  | label {before s n between s' n' after ps} :
      stmts = before ++ .label s n :: (between ++ .label s' n' :: after) → LaidOut (before ++ .label s n :: between) ps →
      lower n = lower n' → SameScope n between n' → Wrong m stmts (.nameAlreadyExists (lower n')) (.spans s' s)
  /-- The value of a variable is at fault.  It sees all the global labels, and the definitions before it. -/
  | value {before d after s n e ps vars x p} : stmts = before ++ d :: after → Defines d s n e →
      LaidOut stmts ps → Valued m ps before vars →
      Fault m (fun y => (globalLabels ps ++ vars).lookup y) e x p → Wrong m stmts x p
  /-- The name of a variable is that of a global label or of a definition before it; the first place is that of the
  variable. -/
  | taken {before d after s n e ps vars v s'} : stmts = before ++ d :: after → Defines d s n e →
      LaidOut stmts ps → Valued m ps before vars →
      e.erase.eval m (fun y => (globalLabels ps ++ vars).lookup y) = .ok v →
      (∃ n', .label s' n' ∈ stmts ∧ dotted n' = false ∧ lower n' = lower n) ∨
        (∃ d' n' e', d' ∈ before ∧ Defines d' s' n' e' ∧ lower n' = lower n) →
      Wrong m stmts (.nameAlreadyExists (lower n)) (.spans s s')
  /-- A statement has no bytes. -/
  | bytes {before d after ps vars qs q rest ws x p} : stmts = before ++ d :: after →
      LaidOut stmts ps → Valued m ps stmts vars →
      ps = qs ++ q :: rest → qs.map (·.stmt) = bare before → q.stmt = d.erase →
      EmitsAll m (globalLabels ps ++ vars) ps qs ws →
      Unemittable m (meaning (globalLabels ps ++ vars) (localLabels q.scope ps)) q.addr d x p → Wrong m stmts x p

/-- No includes and macro calls are left. -/
def Plain (stmts : List Located.Stmt) : Prop :=
  (∀ s t path, Located.Stmt.dir (.incl s t path) ∉ stmts) ∧ ∀ s n args, Located.Stmt.macroCall s n args ∉ stmts

/-- As far as the program can be laid out, it stays below 2 GiB. -/
def Below (stmts : List Located.Stmt) : Prop :=
  ∀ before after ps, stmts = before ++ after → layout (bare before) = some ps → Fits ps

/-- In a checked build, no `.cnop` moves backwards. -/
def Forward (m : Mode) (stmts : List Located.Stmt) : Prop :=
  m = .wrapping ∨ ∀ ps, layout (bare stmts) = some ps → CnopForward ps

end Verif.Spec.Reasons
