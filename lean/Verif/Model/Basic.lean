/-
Common vocabulary of the model: outcomes, machine integers, text.
-/
namespace Verif

/-- Text and identifiers: Rust `String`/`&str`, as a list of characters. -/
abbrev Text := List Char

/-- Models the error enums of the crate, without source spans:
`EvaluationError` (src/expression.rs 8–17), `EncodingError` (src/instruction.rs 8–31),
`AssemblyError` (src/asm.rs 388–), `ParseError` (src/parser.rs 14–41), `LexerError`
(src/lexer.rs 274–276), merged into one type because every layer wraps the errors of the one
below.  Simplification: spans and message texts are dropped. -/
inductive Err where
  -- EvalError
  | nameNotFound (name : Text)
  | divideByZero (dividend : Int)
  | immediateNotAllowed
  | indirectionNotAllowed
  | macroLabelOutsideOfMacro (name : Text)
  | macroArgOutsideOfMacro (name : Text)
  | invalidMacroArg (name : Text)
  | mustBeLiteralNumber
  -- EncodingError
  | numOutOfRange (bits : Nat) (value : Int)
  | signedNumOutOfRange (bits : Nat) (value : Int)
  | addrBitsDontMatch (pos : Nat) (value : Int)
  | invalidAddress (value : Int)
  -- AssemblyError
  | nameAlreadyExists (name : Text)
  | byteOutOfRange (value : Int)
  | wordOutOfRange (value : Int)
  | bytesLongerThanLength (length count : Nat)
  | invalidCodeLocation (value : Int)
  | noSuchMacro (name : Text)
  | wrongNumberOfMacroArgs (name : Text)
  | duplicateLabel (name : Text)
  -- ParseError
  | unexpectedToken
  | unexpectedEof
  | unexpectedChar (pos line column : Nat)
  | unknownInstruction (name : Text)
  | unknownDirective (name : Text)
  | wrongInstructionArgs (name : Text)
  | invalidInstruction
  | invalidExpression
  | missingBytes
  | missingWords
  | macroAlreadyExists (name : Text) (arity : Nat)
  | macroNameConflict (name : Text)
  | duplicateMacroArg (name : Text)
  | invalidMacroParam
  | expectedTokenNotFound (what : Text)
  | invalidSpriteType (given : Text)
  | invalidSpriteHeader (given : Text)
  -- images and files
  | spriteTooWide (width max : Nat)
  | spriteTooTall (height max : Nat)
  | invalidIconSize (path : Text) (width height : Nat)
  | invalidPaletteSize (path : Text) (size max : Nat)
  | imageParseError (path : Text)
  | fileLoadFailure (path : Text)
  | fileUtf8Error (path : Text)
  | invalidPath (given : Text)
  -- DisasmError
  | noInstruction (pos : Nat) (byte : Nat)
  deriving DecidableEq, Repr

/-- Outcome of a Rust function returning `Result<α, _>` that may also panic, or fail to return:
`loop` is the result of running a possibly non-terminating recursion with exhausted fuel. -/
inductive Res (α : Type) where
  | ok (a : α)
  | err (e : Err)
  | panic
  | loop
  deriving DecidableEq, Repr

namespace Res

/-- The `?` operator: errors and panics propagate. -/
def bind {α β : Type} (x : Res α) (f : α → Res β) : Res β :=
  match x with
  | ok a => f a
  | err e => err e
  | panic => panic
  | loop => loop

instance : Monad Res where
  pure := ok
  bind := bind

@[simp] theorem pure_eq {α : Type} (a : α) : (pure a : Res α) = ok a := rfl
@[simp] theorem ok_bind {α β : Type} (a : α) (f : α → Res β) : (ok a >>= f) = f a := rfl
@[simp] theorem err_bind {α β : Type} (e : Err) (f : α → Res β) : ((err e : Res α) >>= f) = err e := rfl
@[simp] theorem panic_bind {α β : Type} (f : α → Res β) : ((panic : Res α) >>= f) = panic := rfl
@[simp] theorem loop_bind {α β : Type} (f : α → Res β) : ((loop : Res α) >>= f) = loop := rfl

theorem bind_eq_ok {α β : Type} {x : Res α} {f : α → Res β} {b : β} :
    (x >>= f) = ok b ↔ ∃ a, x = ok a ∧ f a = ok b := by
  cases x <;> simp

theorem bind_eq_err {α β : Type} {x : Res α} {f : α → Res β} {e : Err} :
    (x >>= f) = err e ↔ x = err e ∨ ∃ a, x = ok a ∧ f a = err e := by
  cases x <;> simp

theorem bind_eq_panic {α β : Type} {x : Res α} {f : α → Res β} :
    (x >>= f) = panic ↔ x = panic ∨ ∃ a, x = ok a ∧ f a = panic := by
  cases x <;> simp

theorem bind_eq_loop {α β : Type} {x : Res α} {f : α → Res β} :
    (x >>= f) = loop ↔ x = loop ∨ ∃ a, x = ok a ∧ f a = loop := by
  cases x <;> simp

@[simp] theorem map_eq_bind {α β : Type} (x : Res α) (f : α → β) :
    (f <$> x) = (x >>= fun a => ok (f a)) := rfl

end Res

/-- How the program was compiled: with overflow checks (`cargo build`, overflow panics) or
without (`cargo build --release`, overflow wraps). -/
inductive Mode where
  | checked
  | wrapping
  deriving DecidableEq, Repr

/-- The values of Rust's `i32`. -/
def inI32 (v : Int) : Prop := -2147483648 ≤ v ∧ v ≤ 2147483647

instance (v : Int) : Decidable (inI32 v) := inferInstanceAs (Decidable (_ ∧ _))

/-- Two's complement wrap-around to 32 bits. -/
def wrap32 (v : Int) : Int := (v + 2147483648) % 4294967296 - 2147483648

/-- The result of an `i32` operation whose mathematical result is `v`. -/
def Mode.norm (m : Mode) (v : Int) : Res Int :=
  if inI32 v then .ok v
  else match m with
    | .checked => .panic
    | .wrapping => .ok (wrap32 v)

theorem Mode.norm_of_inI32 (m : Mode) {v : Int} (h : inI32 v) : m.norm v = .ok v := by
  simp [Mode.norm, h]

theorem wrap32_of_inI32 {v : Int} (h : inI32 v) : wrap32 v = v := by
  unfold inI32 at h; unfold wrap32; omega

theorem inI32_wrap32 (v : Int) : inI32 (wrap32 v) := by
  unfold inI32 wrap32; omega

theorem Mode.norm_inI32 {m : Mode} {v w : Int} (h : m.norm v = .ok w) : inI32 w := by
  unfold Mode.norm at h
  split at h
  · cases h; assumption
  · cases m
    · cases h
    · cases h; exact inI32_wrap32 v

theorem Mode.norm_ne_loop (m : Mode) (v : Int) : m.norm v ≠ .loop := by
  unfold Mode.norm; split
  · simp
  · cases m <;> simp

theorem Mode.norm_ne_err (m : Mode) (v : Int) (e : Err) : m.norm v ≠ .err e := by
  unfold Mode.norm; split
  · simp
  · cases m <;> simp

/-- `v as u32` for an `i32` (or smaller unsigned) value. -/
def toU32 (v : Int) : Nat := (v % 4294967296).toNat

/-- Rust `str::to_lowercase`.  Simplification: ASCII letters only; identifiers are ASCII by the
lexer's regular expressions (src/lexer.rs 421–494). -/
def lower (s : Text) : Text := s.map Char.toLower

end Verif
