import Verif.Model.MakeInstr
/-
Macro definitions (src/ast.rs 8–66, 530–604) and their expansion (src/asm.rs 700–852).
-/
namespace Verif

/-- src/ast.rs 22–27, without spans -/
inductive MacroStmt where
  | instr (name : Text) (args : List Arg)
  | label (name : Text)
  | macroLabel (name : Text)
  deriving DecidableEq, Repr

/-- MacroDefinition, src/ast.rs 29–66, without spans -/
structure MacroDef where
  name : Text
  args : List Text
  body : List MacroStmt
  deriving DecidableEq, Repr

/-- `HashMap<MacroIdentifier, MacroDefinition>`; a key is a name and an arity, src/ast.rs 9–20. -/
abbrev Macros := List ((Text × Nat) × MacroDef)

/-- Statements, src/ast.rs 530–534 -/
structure Program where
  macros : Macros
  stmts : List Stmt
  deriving DecidableEq, Repr

/-- The loop body of replace_args, src/asm.rs 723–746; the fuel bounds Expr::replace_macro_args. -/
def replaceArg (fuel : Nat) (labels : List (Text × Text)) (argmap : List (Text × Arg)) : Arg → Res Arg
  | .macroArg n =>
    match argmap.lookup n with
    | some a => .ok a
    | none => .err (.invalidMacroArg n)
  | .imm e => do
    let x ← e.replaceMacroArgs fuel labels argmap
    .ok (.imm x)
  | .ex e => do
    let x ← e.replaceMacroArgs fuel labels argmap
    .ok (.ex x)
  | .im r => .ok (.im r)

/-- replace_args, src/asm.rs 716–749 -/
def replaceArgs (fuel : Nat) (labels : List (Text × Text)) (argmap : List (Text × Arg)) :
    List Arg → Res (List Arg)
  | [] => .ok []
  | arg :: rest => do
    let a ← replaceArg fuel labels argmap arg
    let as ← replaceArgs fuel labels argmap rest
    .ok (a :: as)

/-- The label name made for a macro label, src/asm.rs 757–761: `%` removed, `_` and the UUID (without
dashes) appended. -/
def genLabel (name uuid : Text) : Text := name.filter (· ≠ '%') ++ '_' :: uuid

/-- gen_labels, src/asm.rs 751–771.  `Uuid::new_v4` is a supply `uuid`; `k` is the number of UUIDs
drawn so far. -/
def genLabels (uuid : Nat → Text) : List MacroStmt → List (Text × Text) → Nat →
    Res (List (Text × Text) × Nat)
  | [], map, k => .ok (map, k)
  | .macroLabel n :: rest, map, k =>
    match map.lookup n with
    | none => genLabels uuid rest ((n, genLabel n (uuid k)) :: map) (k + 1)
    | some _ => .err (.duplicateLabel n)
  | _ :: rest, map, k => genLabels uuid rest map k

/-- The loop over the macro's body in expand, src/asm.rs 801–850; `again` is the recursive call. -/
def expandBody (uuid : Nat → Text) (macros : Macros) (fuel : Nat)
    (again : Text → List Arg → Nat → Res (List Stmt × Nat))
    (labels : List (Text × Text)) (argmap : List (Text × Arg)) :
    List MacroStmt → Nat → Res (List Stmt × Nat)
  | [], k => .ok ([], k)
  | .instr iname iargs :: rest, k =>
    match macros.lookup (iname, iargs.length) with
    | some _ => do
      let args ← replaceArgs fuel labels argmap iargs
      let (new, k) ← again iname args k
      let (out, k) ← expandBody uuid macros fuel again labels argmap rest k
      .ok (new ++ out, k)
    | none => do
      let args ← replaceArgs fuel labels argmap iargs
      let i ← makeInstr iname args
      let (out, k) ← expandBody uuid macros fuel again labels argmap rest k
      .ok (.instr i :: out, k)
  | .label n :: rest, k => do
    let (out, k) ← expandBody uuid macros fuel again labels argmap rest k
    .ok (.label n :: out, k)
  | .macroLabel n :: rest, k =>
    match labels.lookup n with
    | none => .panic
    | some l => do
      let (out, k) ← expandBody uuid macros fuel again labels argmap rest k
      .ok (.label l :: out, k)

/-- The argument map of expand, src/asm.rs 788–797: later insertions replace earlier ones. -/
def argMap (names : List Text) (args : List Arg) : List (Text × Arg) := (names.zip args).reverse

/-- expand, src/asm.rs 773–852.  The recursion need not terminate: the fuel bounds its depth (and
that of the substitutions), and exhausted fuel gives `loop`. -/
def expand (uuid : Nat → Text) (macros : Macros) : Nat → Text → List Arg → Nat → Res (List Stmt × Nat)
  | 0, _, _, _ => .loop
  | fuel + 1, name, args, k =>
    match macros.lookup (name, args.length) with
    | none => .err (.noSuchMacro name)
    | some d =>
      if args.length ≠ d.args.length then .err (.wrongNumberOfMacroArgs name)
      else do
        let (labels, k) ← genLabels uuid d.body [] k
        expandBody uuid macros fuel (expand uuid macros fuel) labels (argMap d.args args) d.body k

/-- The loop of expand_macros, src/asm.rs 700–714 -/
def expandStmts (uuid : Nat → Text) (macros : Macros) (fuel : Nat) : List Stmt → Nat →
    Res (List Stmt × Nat)
  | [], k => .ok ([], k)
  | .macroCall name args :: rest, k => do
    let (new, k) ← expand uuid macros fuel name args k
    let (out, k) ← expandStmts uuid macros fuel rest k
    .ok (new ++ out, k)
  | x :: rest, k => do
    let (out, k) ← expandStmts uuid macros fuel rest k
    .ok (x :: out, k)

/-- expand_macros, src/asm.rs 700–714 -/
def expandMacros (uuid : Nat → Text) (fuel : Nat) (p : Program) : Res Program := do
  let (out, _) ← expandStmts uuid p.macros fuel p.stmts 0
  .ok ⟨p.macros, out⟩

end Verif
