import Verif.Model.Located.Asm
import Verif.Spec.Macros
import Verif.Spec.Grammar
/-
Specification: what is wrong with a program whose macro calls cannot be expanded, and where; of several things, which
one is reported.  Calls are expanded in the order of the program, a call in a macro's body where it stands in the body.
The arguments of the calls outside of macros are supposed to have no parameters and hygienic labels (`ClosedCalls`).
-/
namespace Verif.Spec.Expansion
open Verif.Located (Span)

/-- The macros without the places. -/
def bareMacros (macros : Located.Macros) : MacroTable :=
  fun name n => (macros.lookup (name, n)).map Located.MacroDef.erase

/-- The lines of a macro without the places. -/
abbrev bareLines (body : List Located.MacroStmt) : List MacroStmt := body.map Located.MacroStmt.erase

/-! ### Where an argument is -/

/-- The expression, all of it as part of the call at `call`. -/
def moved (call : Span) : Located.Expr → Located.Expr
  | .name s n => .name (s.withParent call) n
  | .number s v r => .number (s.withParent call) v r
  | .macroLabel s n => .macroLabel (s.withParent call) n
  | .macroArg s n => .macroArg (s.withParent call) n
  | .plus s l r => .plus (s.withParent call) (moved call l) (moved call r)
  | .minus s l r => .minus (s.withParent call) (moved call l) (moved call r)
  | .times s l r => .times (s.withParent call) (moved call l) (moved call r)
  | .divide s l r => .divide (s.withParent call) (moved call l) (moved call r)
  | .bxor s l r => .bxor (s.withParent call) (moved call l) (moved call r)
  | .band s l r => .band (s.withParent call) (moved call l) (moved call r)
  | .bor s l r => .bor (s.withParent call) (moved call l) (moved call r)
  | .uminus s e => .uminus (s.withParent call) (moved call e)
  | .upperByte s e => .upperByte (s.withParent call) (moved call e)
  | .lowerByte s e => .lowerByte (s.withParent call) (moved call e)

/-- `subst` with places: an expression of the body becomes part of the call, and so does an argument in it. -/
def substAt (call : Span) (σ : Text → Option Located.Arg) (ρ : Text → Option Text) :
    Located.Expr → Option Located.Expr
  | .name s n => some (.name (s.withParent call) n)
  | .number s v r => some (.number (s.withParent call) v r)
  | .plus s l r => do some (.plus (s.withParent call) (← substAt call σ ρ l) (← substAt call σ ρ r))
  | .minus s l r => do some (.minus (s.withParent call) (← substAt call σ ρ l) (← substAt call σ ρ r))
  | .times s l r => do some (.times (s.withParent call) (← substAt call σ ρ l) (← substAt call σ ρ r))
  | .divide s l r => do some (.divide (s.withParent call) (← substAt call σ ρ l) (← substAt call σ ρ r))
  | .bxor s l r => do some (.bxor (s.withParent call) (← substAt call σ ρ l) (← substAt call σ ρ r))
  | .band s l r => do some (.band (s.withParent call) (← substAt call σ ρ l) (← substAt call σ ρ r))
  | .bor s l r => do some (.bor (s.withParent call) (← substAt call σ ρ l) (← substAt call σ ρ r))
  | .uminus s e => do some (.uminus (s.withParent call) (← substAt call σ ρ e))
  | .upperByte s e => do some (.upperByte (s.withParent call) (← substAt call σ ρ e))
  | .lowerByte s e => do some (.lowerByte (s.withParent call) (← substAt call σ ρ e))
  | .macroLabel s n => (ρ n).map (.name (s.withParent call))
  | .macroArg _ n =>
    match σ n with
    | some (.ex e) => some (moved call e)
    | _ => none

/-- `substArg` with places: an argument that is passed on as it is keeps its place. -/
def substArgAt (call : Span) (σ : Text → Option Located.Arg) (ρ : Text → Option Text) :
    Located.Arg → Option Located.Arg
  | .macroArg _ n => σ n
  | .imm e => (substAt call σ ρ e).map .imm
  | .ex e => (substAt call σ ρ e).map .ex
  | .im s r => some (.im s r)

/-- `substArgs` with places. -/
def substArgsAt (call : Span) (σ : Text → Option Located.Arg) (ρ : Text → Option Text) :
    List Located.Arg → Option (List Located.Arg)
  | [] => some []
  | a :: as => do some ((← substArgAt call σ ρ a) :: (← substArgsAt call σ ρ as))

/-! ### What is wrong with an argument -/

/-- The first thing in the expression, from left to right, that has no meaning in a macro with the parameters `σ` and
the labels `ρ`, and its place. -/
def fault (σ : Text → Option Located.Arg) (ρ : Text → Option Text) : Located.Expr → Option (Err × Span)
  | .name _ _ | .number _ _ _ => none
  | .plus _ l r | .minus _ l r | .times _ l r | .divide _ l r | .bxor _ l r | .band _ l r | .bor _ l r =>
    (fault σ ρ l).or (fault σ ρ r)
  | .uminus _ e | .upperByte _ e | .lowerByte _ e => fault σ ρ e
  | .macroLabel s n =>
    match ρ n with
    | none => some (.macroLabelOutsideOfMacro n, s)
    | some _ => none
  | .macroArg s n =>
    match σ n with
    | none => some (.invalidMacroArg n, s)
    -- the place of the parameter in the body, as part of the argument
    | some (.imm e) => some (.immediateNotAllowed, s.withParent e.span)
    | some (.im t _) => some (.indirectionNotAllowed, s.withParent t)
    | some (.ex _) | some (.macroArg _ _) => none

/-- The same for an argument of an instruction or call. -/
def argFault (σ : Text → Option Located.Arg) (ρ : Text → Option Text) : Located.Arg → Option (Err × Span)
  | .macroArg s n =>
    match σ n with
    | none => some (.invalidMacroArg n, s)
    | some _ => none
  | .imm e | .ex e => fault σ ρ e
  | .im _ _ => none

/-! ### What is wrong with a call -/

/-- The arguments of the call. -/
abbrev bound (d : Located.MacroDef) (args : List Located.Arg) : Text → Option Located.Arg :=
  fun x => ((d.args.map Prod.snd).zip args).lookup x

/-- In the expansion of the call `name args`, which is that of the macro `d`, the lines before `line` are expanded.
`names` are the names of the macro's hygienic labels, and `k'` labels are named before the line. -/
structure Reached (uuid : Nat → Text) (macros : Located.Macros) (k : Nat) (name : Text) (args : List Located.Arg)
    (d : Located.MacroDef) (names : List (Text × Text)) (line : Located.MacroStmt) (k' : Nat) : Prop where
  found : macros.lookup (name, args.length) = some d
  labels : names.map (·.1) = hygienic (bareLines d.body)
  distinct : (hygienic (bareLines d.body)).Nodup
  line : ∃ before after out fresh, d.body = before ++ line :: after ∧
    BodyExpands (bareMacros macros)
      (fun x => ((d.args.map Prod.snd).zip (args.map Located.Arg.erase)).lookup x) (fun x => names.lookup x)
      (bareLines before) out fresh ∧
    NamedBy uuid k (names ++ fresh) ∧ k' = k + (names ++ fresh).length

/-- `CallFails uuid macros k call name args x p`: the first thing wrong with the call `name args` at the place `call`
is `x`, at the place `p`, where `k` labels have been named before. -/
inductive CallFails (uuid : Nat → Text) (macros : Located.Macros) :
    Nat → Span → Text → List Located.Arg → Err → Span → Prop where
  /-- There is no macro of that name with so many parameters. -/
  | missing {k call name args} : macros.lookup (name, args.length) = none →
      CallFails uuid macros k call name args (.noSuchMacro name) call
  /-- A hygienic label is defined twice; the place is that of the second definition. -/
  | duplicate {k call name args d before p n after} : macros.lookup (name, args.length) = some d →
      d.body = before ++ .macroLabel p n :: after → (hygienic (bareLines before)).Nodup →
      n ∈ hygienic (bareLines before) → CallFails uuid macros k call name args (.duplicateLabel n) p
  /-- An argument in a line of the body is wrong. -/
  | argument {k call name args d names s lname largs k' x p} :
      Reached uuid macros k name args d names (.instr s lname largs) k' →
      largs.findSome? (argFault (bound d args) (fun y => names.lookup y)) = some (x, p) →
      CallFails uuid macros k call name args x p
  /-- A line of the body is no call, and there is no such instruction. -/
  | unknown {k call name args d names s lname largs largs' k'} :
      Reached uuid macros k name args d names (.instr s lname largs) k' → macros.lookup (lname, largs.length) = none →
      substArgsAt call (bound d args) (fun y => names.lookup y) largs = some largs' → ¬ Mnemonic lname →
      CallFails uuid macros k call name args (.unknownInstruction lname) (s.withParent call)
  /-- A line of the body is no call, and the instruction has no such arguments. -/
  | wrong {k call name args d names s lname largs largs' k'} :
      Reached uuid macros k name args d names (.instr s lname largs) k' → macros.lookup (lname, largs.length) = none →
      substArgsAt call (bound d args) (fun y => names.lookup y) largs = some largs' → Mnemonic lname →
      (∀ i, ¬ Writes lname (largs'.map Located.Arg.erase) i) →
      CallFails uuid macros k call name args (.wrongInstructionArgs lname) (s.withParent call)
  /-- Something is wrong with a call in the body. -/
  | inner {k call name args d names s lname largs largs' k' d' x p} :
      Reached uuid macros k name args d names (.instr s lname largs) k' →
      macros.lookup (lname, largs.length) = some d' →
      substArgsAt call (bound d args) (fun y => names.lookup y) largs = some largs' →
      CallFails uuid macros k' (s.withParent call) lname largs' x p → CallFails uuid macros k call name args x p

/-- The first thing wrong with the calls of the program is `x`, at the place `p`. -/
inductive Fails (uuid : Nat → Text) (program : Located.Program) : Err → Span → Prop where
  | mk {before call name args after out fresh x p} : program.stmts = before ++ .macroCall call name args :: after →
      ProgramExpands (bareMacros program.macros) (before.map Located.Stmt.erase) out fresh → NamedBy uuid 0 fresh →
      CallFails uuid program.macros fresh.length call name args x p → Fails uuid program x p

end Verif.Spec.Expansion
