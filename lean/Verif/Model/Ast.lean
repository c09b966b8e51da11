import Verif.Model.Instr
/-
Statements and directives (src/ast.rs), without spans.
-/
namespace Verif

/-- src/ast.rs 136–139 -/
inductive ByteValue where
  | expr (e : Expr)
  | str (bytes : List UInt8)
  deriving DecidableEq, Repr

/-- src/ast.rs 165–169 -/
inductive SpriteType where
  | simple | masked
  deriving DecidableEq, Repr

/-- src/ast.rs 189–196; IncludeHeader (151–154) is a `Bool`. -/
inductive IncludeType where
  | asm
  | bytes
  | cHeader
  | icon (speed : Option Expr) (eyecatch : Option ByteValue)
  | sprite (t : SpriteType) (header : Bool)
  deriving DecidableEq, Repr

/-- src/ast.rs 229–238; `Org`, `Text`, `String` hold a `usize`. -/
inductive Directive where
  | byte (vs : List ByteValue)
  | org (location : Nat)
  | word (es : List Expr)
  | text (size : Nat) (bytes : List UInt8)
  | string (size : Nat) (bytes : List UInt8)
  | incl (t : IncludeType) (path : Text)
  | cnop (add multiple : Expr)
  deriving DecidableEq, Repr

/-- src/ast.rs 418–427 -/
inductive Stmt where
  | dir (d : Directive)
  | label (name : Text)
  | instr (i : Instr Expr IM)
  | variable (name : Text) (e : Expr)
  | alias (name : Text) (e : Expr)
  | comment (text : Text)
  | macroCall (name : Text) (args : List Arg)
  deriving DecidableEq, Repr

/-- Directive::eval_cnop_expr, src/ast.rs 241–247 -/
def evalCnopExpr : Expr → Res Int
  | .number v _ => .ok v
  | _ => .err .mustBeLiteralNumber

/-- The loop of Directive::eval_cnop, src/ast.rs 255–261.  The loop state is one `i32`, so a run
of more than 2^32 steps never ends: the fuel 2^32 is exact. -/
def cnopLoop (m : Mode) (pos multiple : Int) : Nat → Int → Res Int
  | 0, _ => .loop
  | fuel + 1, mult =>
    if pos ≤ mult then .ok mult
    else do
      let next ← m.norm (mult + multiple)
      cnopLoop m pos multiple fuel next

/-- The number of `i32` values, more steps than any run that ends can take. -/
def cnopFuel : Nat := 4294967296

/-- Directive::eval_cnop, src/ast.rs 249–264 -/
def evalCnop (m : Mode) (pos : Int) (add multiple : Expr) : Res Int := do
  let a ← evalCnopExpr add
  let k ← evalCnopExpr multiple
  if k = 0 then .ok a
  else do
    let mult ← cnopLoop m pos k cnopFuel 0
    m.norm (mult + a)

/-- The byte count of one `.byte` item, src/ast.rs 271–275 -/
def ByteValue.count : ByteValue → Nat
  | .expr _ => 1
  | .str bytes => bytes.length

/-- Directive::size, src/ast.rs 266–286; `pos` is an `i32`. -/
def Directive.size (m : Mode) (pos : Int) : Directive → Res Int
  | .byte vs => .ok (wrap32 ((vs.map ByteValue.count).sum : Nat))
  | .org location => m.norm (wrap32 location - pos)
  | .word es => .ok (wrap32 (es.length * 2 : Nat))
  | .text size _ => .ok (wrap32 size)
  | .string size _ => .ok (wrap32 size)
  | .incl _ _ => .ok 0
  | .cnop add multiple => do
    let v ← evalCnop m pos add multiple
    m.norm (v - pos)

end Verif
