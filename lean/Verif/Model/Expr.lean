import Verif.Model.Basic
/-
Expressions and instruction arguments (src/expression.rs) and name environments (src/env.rs).
-/
namespace Verif

/-- src/expression.rs 42–47 -/
inductive Radix where
  | decimal | hex | binary | octal
  deriving DecidableEq, Repr

/-- src/expression.rs 61–76, without spans.  `num` is an `i32` in the code. -/
inductive Expr where
  | name (n : Text)
  | plus (l r : Expr)
  | minus (l r : Expr)
  | uminus (e : Expr)
  | times (l r : Expr)
  | divide (l r : Expr)
  | number (v : Int) (radix : Radix)
  | upperByte (e : Expr)
  | lowerByte (e : Expr)
  | macroLabel (n : Text)
  | macroArg (n : Text)
  | bxor (l r : Expr)
  | band (l r : Expr)
  | bor (l r : Expr)
  deriving DecidableEq, Repr

/-- Expr::num, src/expression.rs 79–81 -/
def Expr.num (v : Int) : Expr := .number v .hex

/-- src/expression.rs 515–521 -/
inductive IM where
  | R0 | R1 | R2 | R3
  deriving DecidableEq, Repr

/-- IndirectionMode::index, src/expression.rs 524–531 -/
def IM.index : IM → Nat
  | .R0 => 0
  | .R1 => 1
  | .R2 => 2
  | .R3 => 3

/-- IndirectionMode::from, src/expression.rs 533–541: panics above 3 -/
def IM.from : Nat → Res IM
  | 0 => .ok .R0
  | 1 => .ok .R1
  | 2 => .ok .R2
  | 3 => .ok .R3
  | _ => .panic

/-- src/expression.rs 556–562, without spans -/
inductive Arg where
  | imm (e : Expr)
  | ex (e : Expr)
  | im (m : IM)
  | macroArg (n : Text)
  deriving DecidableEq, Repr

/-- src/env.rs 3–6: an environment is its `get` function. -/
abbrev Env := Text → Option Int

/-- Bitwise operation on two's complement 32-bit integers: Rust `^`, `&`, `|` on `i32`. -/
def i32xor (a b : Int) : Int := (BitVec.ofInt 32 a ^^^ BitVec.ofInt 32 b).toInt
def i32and (a b : Int) : Int := (BitVec.ofInt 32 a &&& BitVec.ofInt 32 b).toInt
def i32or (a b : Int) : Int := (BitVec.ofInt 32 a ||| BitVec.ofInt 32 b).toInt

/-- Expr::eval, src/expression.rs 464–512.  `i32` division overflow (`i32::MIN / -1`) panics in
both build modes.  `>> 8` on `i32` is the arithmetic shift. -/
def Expr.eval (m : Mode) (env : Env) : Expr → Res Int
  | .bxor l r => do
    let a ← l.eval m env
    let b ← r.eval m env
    .ok (i32xor a b)
  | .band l r => do
    let a ← l.eval m env
    let b ← r.eval m env
    .ok (i32and a b)
  | .bor l r => do
    let a ← l.eval m env
    let b ← r.eval m env
    .ok (i32or a b)
  | .name n =>
    match env (lower n) with
    | some v => .ok v
    | none => .err (.nameNotFound n)
  | .plus l r => do
    let a ← l.eval m env
    let b ← r.eval m env
    m.norm (a + b)
  | .minus l r => do
    let a ← l.eval m env
    let b ← r.eval m env
    m.norm (a - b)
  | .uminus e => do
    let a ← e.eval m env
    m.norm (-1 * a)
  | .times l r => do
    let a ← l.eval m env
    let b ← r.eval m env
    m.norm (a * b)
  | .divide l r => do
    let a ← l.eval m env
    let b ← r.eval m env
    if b = 0 then .err (.divideByZero a)
    else if inI32 (a.tdiv b) then .ok (a.tdiv b) else .panic
  | .number v _ => .ok v
  | .upperByte e => do
    let a ← e.eval m env
    .ok (i32and (a >>> 8) 0xFF)
  | .lowerByte e => do
    let a ← e.eval m env
    .ok (i32and a 0xFF)
  | .macroLabel n => .err (.macroLabelOutsideOfMacro n)
  | .macroArg n => .err (.macroArgOutsideOfMacro n)

/-- Expr::complex, src/expression.rs 445–462 -/
def Expr.complex : Expr → Bool
  | .bxor _ _ => true
  | .band _ _ => true
  | .bor _ _ => true
  | .name _ => false
  | .plus _ _ => true
  | .minus _ _ => true
  | .uminus _ => true
  | .times _ _ => true
  | .divide _ _ => true
  | .number _ _ => false
  | .upperByte _ => true
  | .lowerByte _ => true
  | .macroLabel _ => false
  | .macroArg _ => false

/-- The body of Expr::replace_macro_args, src/expression.rs 119–208, without spans; the recursive
call on an argument expression (194–196) is the parameter `onArg`. -/
def Expr.replaceWith (onArg : Expr → Res Expr) (labels : List (Text × Text))
    (args : List (Text × Arg)) : Expr → Res Expr
  | .bxor l r => do
    let a ← l.replaceWith onArg labels args
    let b ← r.replaceWith onArg labels args
    .ok (.bxor a b)
  | .band l r => do
    let a ← l.replaceWith onArg labels args
    let b ← r.replaceWith onArg labels args
    .ok (.band a b)
  | .bor l r => do
    let a ← l.replaceWith onArg labels args
    let b ← r.replaceWith onArg labels args
    .ok (.bor a b)
  | .name n => .ok (.name n)
  | .plus l r => do
    let a ← l.replaceWith onArg labels args
    let b ← r.replaceWith onArg labels args
    .ok (.plus a b)
  | .minus l r => do
    let a ← l.replaceWith onArg labels args
    let b ← r.replaceWith onArg labels args
    .ok (.minus a b)
  | .uminus e => do
    let a ← e.replaceWith onArg labels args
    .ok (.uminus a)
  | .times l r => do
    let a ← l.replaceWith onArg labels args
    let b ← r.replaceWith onArg labels args
    .ok (.times a b)
  | .divide l r => do
    let a ← l.replaceWith onArg labels args
    let b ← r.replaceWith onArg labels args
    .ok (.divide a b)
  | .number v radix => .ok (.number v radix)
  | .upperByte e => do
    let a ← e.replaceWith onArg labels args
    .ok (.upperByte a)
  | .lowerByte e => do
    let a ← e.replaceWith onArg labels args
    .ok (.lowerByte a)
  | .macroLabel n =>
    match labels.lookup n with
    | some label => .ok (.name label)
    | none => .err (.macroLabelOutsideOfMacro n)
  | .macroArg n =>
    match args.lookup n with
    | some (.imm _) => .err .immediateNotAllowed
    | some (.ex e) => onArg e
    | some (.im _) => .err .indirectionNotAllowed
    | some (.macroArg n') => .err (.macroArgOutsideOfMacro n')
    | none => .err (.invalidMacroArg n)

/-- Expr::replace_macro_args, src/expression.rs 119–208.  The code substitutes again inside the
substituted argument (194–196), so the recursion need not terminate; the fuel bounds the nesting of
such substitutions and `loop` is returned when it is exhausted. -/
def Expr.replaceMacroArgs : Nat → List (Text × Text) → List (Text × Arg) → Expr → Res Expr
  | 0, labels, args, e => e.replaceWith (fun _ => .loop) labels args
  | n + 1, labels, args, e => e.replaceWith (Expr.replaceMacroArgs n labels args) labels args

/-- src/env.rs 18–22 -/
structure Names where
  globals : List (Text × Int)
  locals : List (Text × List (Text × Int))
  deriving DecidableEq, Repr

/-- NamesEnv::get, src/env.rs 46–52 -/
def namesGet (globals locals : List (Text × Int)) : Env := fun name =>
  if name.head? = some '.' then locals.lookup name else globals.lookup name

/-- Names::as_env, src/env.rs 25–31: panics when the scope is unknown. -/
def Names.asEnv (names : Names) (currentGlobal : Text) : Res Env :=
  match names.locals.lookup currentGlobal with
  | some locals => .ok (namesGet names.globals locals)
  | none => .panic

end Verif
