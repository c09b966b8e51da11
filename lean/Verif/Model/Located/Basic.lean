import Verif.Model.Include
/-
Where errors are: spans (src/location.rs) and the errors that carry them.  The modules `Model/Located/*` model the same
functions as the modules `Model/*`, with the spans that those leave out; the names are the same, in the namespace
`Verif.Located`.  `erase` functions forget the spans.
-/
namespace Verif.Located

/-- The part of a text between two locations: the fields `start` and `end` of Span, src/location.rs 50–55 -/
structure Range where
  start : Loc
  stop : Loc
  deriving DecidableEq, Repr

/-- Span, src/location.rs 50–55.  The field `parent` is an optional boxed span that has a parent itself and so on: this
chain is a list, nearest first. -/
structure Span where
  start : Loc
  stop : Loc
  parents : List Range
  deriving DecidableEq, Repr

/-- The two ends of a span -/
def Span.range (s : Span) : Range := ⟨s.start, s.stop⟩

/-- Span::with_parent, src/location.rs 73–77 -/
def Span.withParent (s parent : Span) : Span := ⟨s.start, s.stop, parent.range :: parent.parents⟩

/-- Location::default, src/location.rs 22–24, and Span::default, 79–81 -/
def Span.default : Span := ⟨⟨0, 0, 1, 0⟩, ⟨0, 0, 1, 0⟩, []⟩

/-- Span::from, src/location.rs 83–85 -/
def Span.from (a b : Span) : Span := ⟨a.start, b.stop, []⟩

/-- Token::span, src/lexer.rs 78–95 -/
def _root_.Verif.Token.span (t : Token) : Span := ⟨t.start, t.stop, []⟩

/-- What an error value holds about its place -/
inductive Place where
  | nowhere
  | span (s : Span)
  /-- the place of a definition and that of an earlier one -/
  | spans (s earlier : Span)
  | location (l : Loc)
  deriving DecidableEq, Repr

/-- The error enums with their spans: AssemblyError (src/asm.rs 388–467), ParseError (src/parser.rs 14–41),
EvaluationError (src/expression.rs 8–17), EncodingError (src/instruction.rs 8–31), LexerError (src/lexer.rs 274–276).
A `Token` in an error is its span. -/
structure Error where
  err : Err
  place : Place
  deriving DecidableEq, Repr

/-- The outcome of a function, see `Verif.Res` -/
inductive Res (α : Type) where
  | ok (a : α)
  | err (e : Error)
  | panic
  | loop
  deriving DecidableEq, Repr

namespace Res

/-- The `?` operator; the `From` instances keep the spans (src/asm.rs 469–565). -/
def bind {α β : Type} (x : Res α) (f : α → Res β) : Res β :=
  match x with
  | ok a => f a
  | err e => err e
  | panic => panic
  | loop => loop

instance : Monad Res where
  pure := ok
  bind := bind

/-- An error with a span -/
def fail {α : Type} (e : Err) (s : Span) : Res α := .err ⟨e, .span s⟩

/-- Outcomes without a place -/
def lift {α : Type} : Verif.Res α → Res α
  | .ok a => .ok a
  | .err e => .err ⟨e, .nowhere⟩
  | .panic => .panic
  | .loop => .loop

/-- The outcome without its place -/
def erase {α β : Type} (f : α → β) : Res α → Verif.Res β
  | .ok a => .ok (f a)
  | .err e => .err e.err
  | .panic => .panic
  | .loop => .loop

end Res

/-! ### Expressions and arguments -/

/-- src/expression.rs 61–76 -/
inductive Expr where
  | name (s : Span) (n : Text)
  | plus (s : Span) (l r : Expr)
  | minus (s : Span) (l r : Expr)
  | uminus (s : Span) (e : Expr)
  | times (s : Span) (l r : Expr)
  | divide (s : Span) (l r : Expr)
  | number (s : Span) (v : Int) (radix : Radix)
  | upperByte (s : Span) (e : Expr)
  | lowerByte (s : Span) (e : Expr)
  | macroLabel (s : Span) (n : Text)
  | macroArg (s : Span) (n : Text)
  | bxor (s : Span) (l r : Expr)
  | band (s : Span) (l r : Expr)
  | bor (s : Span) (l r : Expr)
  deriving DecidableEq, Repr

/-- Expr::span, src/expression.rs 213–230 -/
def Expr.span : Expr → Span
  | .name s _ => s
  | .plus s _ _ => s
  | .minus s _ _ => s
  | .uminus s _ => s
  | .times s _ _ => s
  | .divide s _ _ => s
  | .number s _ _ => s
  | .upperByte s _ => s
  | .lowerByte s _ => s
  | .macroLabel s _ => s
  | .macroArg s _ => s
  | .bxor s _ _ => s
  | .band s _ _ => s
  | .bor s _ _ => s

/-- Expr::with_span, src/expression.rs 99–117 -/
def Expr.withSpan (new : Span) : Expr → Expr
  | .name _ n => .name new n
  | .plus _ l r => .plus new l r
  | .minus _ l r => .minus new l r
  | .uminus _ e => .uminus new e
  | .times _ l r => .times new l r
  | .divide _ l r => .divide new l r
  | .number _ v radix => .number new v radix
  | .upperByte _ e => .upperByte new e
  | .lowerByte _ e => .lowerByte new e
  | .macroLabel _ n => .macroLabel new n
  | .macroArg _ n => .macroArg new n
  | .bxor _ l r => .bxor new l r
  | .band _ l r => .band new l r
  | .bor _ l r => .bor new l r

/-- The expression without spans -/
def Expr.erase : Expr → Verif.Expr
  | .name _ n => .name n
  | .plus _ l r => .plus l.erase r.erase
  | .minus _ l r => .minus l.erase r.erase
  | .uminus _ e => .uminus e.erase
  | .times _ l r => .times l.erase r.erase
  | .divide _ l r => .divide l.erase r.erase
  | .number _ v radix => .number v radix
  | .upperByte _ e => .upperByte e.erase
  | .lowerByte _ e => .lowerByte e.erase
  | .macroLabel _ n => .macroLabel n
  | .macroArg _ n => .macroArg n
  | .bxor _ l r => .bxor l.erase r.erase
  | .band _ l r => .band l.erase r.erase
  | .bor _ l r => .bor l.erase r.erase

/-- The expression with the span Span::default everywhere, as Expr::num (src/expression.rs 79–81) makes it -/
def Expr.plain : Verif.Expr → Expr
  | .name n => .name .default n
  | .plus l r => .plus .default (plain l) (plain r)
  | .minus l r => .minus .default (plain l) (plain r)
  | .uminus e => .uminus .default (plain e)
  | .times l r => .times .default (plain l) (plain r)
  | .divide l r => .divide .default (plain l) (plain r)
  | .number v radix => .number .default v radix
  | .upperByte e => .upperByte .default (plain e)
  | .lowerByte e => .lowerByte .default (plain e)
  | .macroLabel n => .macroLabel .default n
  | .macroArg n => .macroArg .default n
  | .bxor l r => .bxor .default (plain l) (plain r)
  | .band l r => .band .default (plain l) (plain r)
  | .bor l r => .bor .default (plain l) (plain r)

/-- src/expression.rs 556–562 -/
inductive Arg where
  | imm (e : Expr)
  | ex (e : Expr)
  | im (s : Span) (m : IM)
  | macroArg (s : Span) (n : Text)
  deriving DecidableEq, Repr

/-- Arg::span, src/expression.rs 575–583 -/
def Arg.span : Arg → Span
  | .imm e => e.span
  | .ex e => e.span
  | .im s _ => s
  | .macroArg s _ => s

/-- The argument without spans -/
def Arg.erase : Arg → Verif.Arg
  | .imm e => .imm e.erase
  | .ex e => .ex e.erase
  | .im _ m => .im m
  | .macroArg _ n => .macroArg n

/-- Expr::eval, src/expression.rs 464–512 -/
def Expr.eval (m : Mode) (env : Env) : Expr → Res Int
  | .bxor _ l r => do
    let a ← l.eval m env
    let b ← r.eval m env
    .ok (i32xor a b)
  | .band _ l r => do
    let a ← l.eval m env
    let b ← r.eval m env
    .ok (i32and a b)
  | .bor _ l r => do
    let a ← l.eval m env
    let b ← r.eval m env
    .ok (i32or a b)
  | .name s n =>
    match env (lower n) with
    | some v => .ok v
    | none => .fail (.nameNotFound n) s
  | .plus _ l r => do
    let a ← l.eval m env
    let b ← r.eval m env
    .lift (m.norm (a + b))
  | .minus _ l r => do
    let a ← l.eval m env
    let b ← r.eval m env
    .lift (m.norm (a - b))
  | .uminus _ e => do
    let a ← e.eval m env
    .lift (m.norm (-1 * a))
  | .times _ l r => do
    let a ← l.eval m env
    let b ← r.eval m env
    .lift (m.norm (a * b))
  | .divide s l r => do
    let a ← l.eval m env
    let b ← r.eval m env
    if b = 0 then .fail (.divideByZero a) s
    else if inI32 (a.tdiv b) then .ok (a.tdiv b) else .panic
  | .number _ v _ => .ok v
  | .upperByte _ e => do
    let a ← e.eval m env
    .ok (i32and (a >>> 8) 0xFF)
  | .lowerByte _ e => do
    let a ← e.eval m env
    .ok (i32and a 0xFF)
  | .macroLabel s n => .fail (.macroLabelOutsideOfMacro n) s
  | .macroArg s n => .fail (.macroArgOutsideOfMacro n) s

/-- The body of Expr::replace_macro_args, src/expression.rs 119–208; `inv` is the span of the macro call, `onArg` the
recursive call on an argument expression (194–196). -/
def Expr.replaceWith (onArg : Expr → Res Expr) (inv : Span) (labels : List (Text × Text))
    (args : List (Text × Arg)) : Expr → Res Expr
  | .bxor s l r => do
    let a ← l.replaceWith onArg inv labels args
    let b ← r.replaceWith onArg inv labels args
    .ok (.bxor (s.withParent inv) a b)
  | .band s l r => do
    let a ← l.replaceWith onArg inv labels args
    let b ← r.replaceWith onArg inv labels args
    .ok (.band (s.withParent inv) a b)
  | .bor s l r => do
    let a ← l.replaceWith onArg inv labels args
    let b ← r.replaceWith onArg inv labels args
    .ok (.bor (s.withParent inv) a b)
  | .name s n => .ok (.name (s.withParent inv) n)
  | .plus s l r => do
    let a ← l.replaceWith onArg inv labels args
    let b ← r.replaceWith onArg inv labels args
    .ok (.plus (s.withParent inv) a b)
  | .minus s l r => do
    let a ← l.replaceWith onArg inv labels args
    let b ← r.replaceWith onArg inv labels args
    .ok (.minus (s.withParent inv) a b)
  | .uminus s e => do
    let a ← e.replaceWith onArg inv labels args
    .ok (.uminus (s.withParent inv) a)
  | .times s l r => do
    let a ← l.replaceWith onArg inv labels args
    let b ← r.replaceWith onArg inv labels args
    .ok (.times (s.withParent inv) a b)
  | .divide s l r => do
    let a ← l.replaceWith onArg inv labels args
    let b ← r.replaceWith onArg inv labels args
    .ok (.divide (s.withParent inv) a b)
  | .number s v radix => .ok (.number (s.withParent inv) v radix)
  | .upperByte s e => do
    let a ← e.replaceWith onArg inv labels args
    .ok (.upperByte (s.withParent inv) a)
  | .lowerByte s e => do
    let a ← e.replaceWith onArg inv labels args
    .ok (.lowerByte (s.withParent inv) a)
  | .macroLabel s n =>
    match labels.lookup n with
    | some label => .ok (.name (s.withParent inv) label)
    | none => .fail (.macroLabelOutsideOfMacro n) s
  | .macroArg s n =>
    match args.lookup n with
    | some (.imm e) => .fail .immediateNotAllowed (s.withParent e.span)
    | some (.ex e) => do
      let x ← onArg e
      .ok (x.withSpan (e.span.withParent inv))
    | some (.im t _) => .fail .indirectionNotAllowed (s.withParent t)
    | some (.macroArg t n') => .fail (.macroArgOutsideOfMacro n') (t.withParent inv)
    | none => .fail (.invalidMacroArg n) s

/-- Expr::replace_macro_args, src/expression.rs 119–208, with fuel for the nesting of substitutions -/
def Expr.replaceMacroArgs : Nat → Span → List (Text × Text) → List (Text × Arg) → Expr → Res Expr
  | 0, inv, labels, args, e => e.replaceWith (fun _ => .loop) inv labels args
  | n + 1, inv, labels, args, e => e.replaceWith (Expr.replaceMacroArgs n inv labels args) inv labels args

/-! ### Statements -/

/-- src/ast.rs 136–139 -/
inductive ByteValue where
  | expr (e : Expr)
  | str (s : Span) (bytes : List UInt8)
  deriving DecidableEq, Repr

/-- ByteValue::span, src/ast.rs 142–149 -/
def ByteValue.span : ByteValue → Span
  | .expr e => e.span
  | .str s _ => s

/-- The value without spans -/
def ByteValue.erase : ByteValue → Verif.ByteValue
  | .expr e => .expr e.erase
  | .str _ bytes => .str bytes

/-- src/ast.rs 189–196 -/
inductive IncludeType where
  | asm
  | bytes
  | cHeader
  | icon (speed : Option Expr) (eyecatch : Option ByteValue)
  | sprite (t : SpriteType) (header : Bool)
  deriving DecidableEq, Repr

/-- The include type without spans -/
def IncludeType.erase : IncludeType → Verif.IncludeType
  | .asm => .asm
  | .bytes => .bytes
  | .cHeader => .cHeader
  | .icon speed eyecatch => .icon (speed.map Expr.erase) (eyecatch.map ByteValue.erase)
  | .sprite t header => .sprite t header

/-- src/ast.rs 229–238 -/
inductive Directive where
  | byte (s : Span) (vs : List ByteValue)
  | org (s : Span) (location : Nat)
  | word (s : Span) (es : List Expr)
  | text (s : Span) (size : Nat) (bytes : List UInt8)
  | string (s : Span) (size : Nat) (bytes : List UInt8)
  | incl (s : Span) (t : IncludeType) (path : Text)
  | cnop (s : Span) (add multiple : Expr)
  deriving DecidableEq, Repr

/-- The directive without spans -/
def Directive.erase : Directive → Verif.Directive
  | .byte _ vs => .byte (vs.map ByteValue.erase)
  | .org _ l => .org l
  | .word _ es => .word (es.map Expr.erase)
  | .text _ size bytes => .text size bytes
  | .string _ size bytes => .string size bytes
  | .incl _ t path => .incl t.erase path
  | .cnop _ a k => .cnop a.erase k.erase

/-- src/ast.rs 418–427 -/
inductive Stmt where
  | dir (d : Directive)
  | label (s : Span) (name : Text)
  | instr (s : Span) (i : Instr Expr IM)
  | variable (s : Span) (name : Text) (e : Expr)
  | alias (s : Span) (name : Text) (e : Expr)
  | comment (text : Text)
  | macroCall (s : Span) (name : Text) (args : List Arg)
  deriving DecidableEq, Repr

/-- Directive::eval_cnop_expr, src/ast.rs 241–247 -/
def evalCnopExpr : Expr → Res Int
  | .number _ v _ => .ok v
  | e => .fail .mustBeLiteralNumber e.span

/-- Directive::eval_cnop, src/ast.rs 249–264 -/
def evalCnop (m : Mode) (pos : Int) (add multiple : Expr) : Res Int := do
  let a ← evalCnopExpr add
  let k ← evalCnopExpr multiple
  if k = 0 then .ok a
  else do
    let mult ← .lift (cnopLoop m pos k cnopFuel 0)
    .lift (m.norm (mult + a))

/-- Directive::size, src/ast.rs 266–286 -/
def Directive.size (m : Mode) (pos : Int) : Directive → Res Int
  | .byte _ vs => .ok (wrap32 (((vs.map ByteValue.erase).map Verif.ByteValue.count).sum : Nat))
  | .org _ location => .lift (m.norm (wrap32 location - pos))
  | .word _ es => .ok (wrap32 (es.length * 2 : Nat))
  | .text _ size _ => .ok (wrap32 size)
  | .string _ size _ => .ok (wrap32 size)
  | .incl _ _ _ => .ok 0
  | .cnop _ add multiple => do
    let v ← evalCnop m pos add multiple
    .lift (m.norm (v - pos))

end Verif.Located
