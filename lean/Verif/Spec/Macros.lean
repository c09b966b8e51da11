import Verif.Model.Macro
import Verif.Spec.Assembly
/-
Specification of instruction lines and of macro expansion (docs/instructions.md, docs/macros.md),
independent of the recursion in src/asm.rs.
-/
namespace Verif.Spec

/-- How the manual writes an operand of each kind: `#e` for immediates, `@Rn` for indirection modes,
a plain expression otherwise. -/
def writtenAs : Kind → Sum Expr IM → Arg
  | .i8, .inl e => .imm e
  | _, .inl e => .ex e
  | _, .inr r => .im r

/-- `name args` is how the manual writes the instruction `i`. -/
def Writes (name : Text) (args : List Arg) (i : Instr Expr IM) : Prop :=
  name = (row i.form).name.toList ∧ args = List.zipWith writtenAs (kinds i.form) (operands i)

/-- A macro table, by name and number of arguments. -/
abbrev MacroTable := Text → Nat → Option MacroDef

/-- The table of a program. -/
def table (macros : Macros) : MacroTable := fun name n => macros.lookup (name, n)

/-- The macros as the parser makes them: stored under their name and parameter count, with distinct
parameters. -/
def WellFormed (macros : Macros) : Prop :=
  ∀ key d, macros.lookup key = some d → key = (d.name, d.args.length) ∧ d.args.Nodup

/-- Simultaneous substitution in an expression: parameters by (expression) arguments, hygienic labels
by their names. -/
def subst (σ : Text → Option Arg) (ρ : Text → Option Text) : Expr → Option Expr
  | .name n => some (.name n)
  | .number v r => some (.number v r)
  | .plus l r => do some (.plus (← subst σ ρ l) (← subst σ ρ r))
  | .minus l r => do some (.minus (← subst σ ρ l) (← subst σ ρ r))
  | .times l r => do some (.times (← subst σ ρ l) (← subst σ ρ r))
  | .divide l r => do some (.divide (← subst σ ρ l) (← subst σ ρ r))
  | .bxor l r => do some (.bxor (← subst σ ρ l) (← subst σ ρ r))
  | .band l r => do some (.band (← subst σ ρ l) (← subst σ ρ r))
  | .bor l r => do some (.bor (← subst σ ρ l) (← subst σ ρ r))
  | .uminus e => do some (.uminus (← subst σ ρ e))
  | .upperByte e => do some (.upperByte (← subst σ ρ e))
  | .lowerByte e => do some (.lowerByte (← subst σ ρ e))
  | .macroLabel n => (ρ n).map .name
  | .macroArg n =>
    match σ n with
    | some (.ex e) => some e
    | _ => none

/-- Substitution in an instruction argument: an argument that is just a parameter may be replaced by
an argument of any kind. -/
def substArg (σ : Text → Option Arg) (ρ : Text → Option Text) : Arg → Option Arg
  | .macroArg n => σ n
  | .imm e => (subst σ ρ e).map .imm
  | .ex e => (subst σ ρ e).map .ex
  | .im r => some (.im r)

/-- Substitution in an argument list. -/
def substArgs (σ : Text → Option Arg) (ρ : Text → Option Text) : List Arg → Option (List Arg)
  | [] => some []
  | a :: as => do some ((← substArg σ ρ a) :: (← substArgs σ ρ as))

/-- No parameter and no hygienic label occurs in the expression. -/
def closed : Expr → Bool
  | .name _ | .number _ _ => true
  | .plus l r | .minus l r | .times l r | .divide l r | .bxor l r | .band l r | .bor l r =>
    closed l && closed r
  | .uminus e | .upperByte e | .lowerByte e => closed e
  | .macroLabel _ | .macroArg _ => false

/-- No parameter and no hygienic label occurs in the argument. -/
def closedArg : Arg → Bool
  | .imm e | .ex e => closed e
  | .im _ => true
  | .macroArg _ => false

/-- No parameter and no hygienic label occurs in the statement's expressions. -/
def stmtClosed (x : Stmt) : Prop := ∀ e ∈ exprsOf x, closed e = true

/-- The hygienic labels defined in a macro body, in order. -/
def hygienic : List MacroStmt → List Text
  | [] => []
  | .macroLabel n :: rest => n :: hygienic rest
  | _ :: rest => hygienic rest

/-- `BodyExpands M σ ρ body out fresh`: with the parameters bound by `σ` and the hygienic labels named
by `ρ`, the macro body means the statements `out`; `fresh` lists the names given to the hygienic
labels of the macros called from the body, in order of the calls. -/
inductive BodyExpands (M : MacroTable) : (Text → Option Arg) → (Text → Option Text) →
    List MacroStmt → List Stmt → List (Text × Text) → Prop where
  | nil {σ ρ} : BodyExpands M σ ρ [] [] []
  | label {σ ρ n rest out fresh} : BodyExpands M σ ρ rest out fresh →
      BodyExpands M σ ρ (.label n :: rest) (.label n :: out) fresh
  | hygienic {σ ρ n l rest out fresh} : ρ n = some l → BodyExpands M σ ρ rest out fresh →
      BodyExpands M σ ρ (.macroLabel n :: rest) (.label l :: out) fresh
  | instr {σ ρ name args args' i rest out fresh} : M name args.length = none →
      substArgs σ ρ args = some args' → Writes name args' i → BodyExpands M σ ρ rest out fresh →
      BodyExpands M σ ρ (.instr name args :: rest) (.instr i :: out) fresh
  | call {σ ρ name args args' d names inner fresh' rest out fresh} :
      M name args.length = some d → substArgs σ ρ args = some args' →
      names.map (·.1) = hygienic d.body → (hygienic d.body).Nodup →
      BodyExpands M (fun x => (d.args.zip args').lookup x) (fun x => names.lookup x) d.body inner fresh' →
      BodyExpands M σ ρ rest out fresh →
      BodyExpands M σ ρ (.instr name args :: rest) (inner ++ out) (names ++ fresh' ++ fresh)

/-- `ProgramExpands M stmts out fresh`: replacing every macro call by its meaning gives `out`. -/
inductive ProgramExpands (M : MacroTable) : List Stmt → List Stmt → List (Text × Text) → Prop where
  | nil : ProgramExpands M [] [] []
  | keep {x rest out fresh} : (∀ name args, x ≠ .macroCall name args) →
      ProgramExpands M rest out fresh → ProgramExpands M (x :: rest) (x :: out) fresh
  | call {name args d names inner fresh' rest out fresh} :
      M name args.length = some d → names.map (·.1) = hygienic d.body → (hygienic d.body).Nodup →
      BodyExpands M (fun x => (d.args.zip args).lookup x) (fun x => names.lookup x) d.body inner fresh' →
      ProgramExpands M rest out fresh →
      ProgramExpands M (.macroCall name args :: rest) (inner ++ out) (names ++ fresh' ++ fresh)

/-- The `j`-th hygienic label of the expansion is named after the `j`-th UUID. -/
def NamedBy (uuid : Nat → Text) (k : Nat) (fresh : List (Text × Text)) : Prop :=
  ∀ j x, fresh[j]? = some x → x.2 = x.1.filter (· ≠ '%') ++ '_' :: uuid (k + j)

/-- Macro calls outside macros have no parameters or hygienic labels in their arguments. -/
def ClosedCalls (stmts : List Stmt) : Prop :=
  ∀ name args, Stmt.macroCall name args ∈ stmts → ∀ a ∈ args, closedArg a = true

/-- The first `n` UUIDs are distinct and of equal length. -/
structure Supply (uuid : Nat → Text) (n : Nat) : Prop where
  distinct : ∀ i j, i < n → j < n → uuid i = uuid j → i = j
  length : ∀ i, i < n → (uuid i).length = 32

/-- `l` ends with an underscore and one of the first `n` UUIDs. -/
def looksGenerated (uuid : Nat → Text) (n : Nat) (l : Text) : Prop := ∃ x j, j < n ∧ l = x ++ '_' :: uuid j

/-- The labels written out in the program and its macros. -/
def writtenLabels (p : Program) : List Text :=
  (p.stmts.filterMap fun | .label n => some n | _ => none) ++
  p.macros.flatMap fun d => d.2.body.filterMap fun | .label n => some n | _ => none

/-- The program contains the line `name args` (outside or inside macros) with this many arguments. -/
def Mentions (p : Program) (name : Text) (n : Nat) : Prop :=
  (∃ args, Stmt.macroCall name args ∈ p.stmts ∧ args.length = n) ∨
  ∃ key d args, (key, d) ∈ p.macros ∧ MacroStmt.instr name args ∈ d.body ∧ args.length = n

/-- Macro `a` calls macro `b` in its body. -/
def Calls (macros : Macros) (a b : Text × Nat) : Prop :=
  ∃ d args, macros.lookup a = some d ∧ MacroStmt.instr b.1 args ∈ d.body ∧ args.length = b.2 ∧
    (macros.lookup b).isSome

/-- A chain of one or more calls from `a` to `b`. -/
inductive Reaches (macros : Macros) : Text × Nat → Text × Nat → Prop where
  | step {a b} : Calls macros a b → Reaches macros a b
  | trans {a b c} : Calls macros a b → Reaches macros b c → Reaches macros a c

/-- No macro reaches itself. -/
def NonRecursive (macros : Macros) : Prop := ∀ a, ¬ Reaches macros a a

/-- The suffixes given to macro labels are made of lower-case letters and digits (as the 32 hexadecimal digits of a UUID
are). -/
def Suffixes (uuid : Nat → Text) : Prop := ∀ k, ∀ c ∈ uuid k, c.isLower = true ∨ c.isDigit = true

end Verif.Spec
