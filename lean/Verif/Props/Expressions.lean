import Verif.Lemmas.ExprEval
/-
Properties C10–C12: evaluation of expressions.  Specification: Spec/Expressions.lean.
-/
namespace Verif.Props
open Verif.Spec

/-- C10: evaluation returns exactly the mathematical value (in a wrapping build: with 32-bit
wrap-around of sums, differences, products and negations). -/
theorem C10_value_iff (m : Mode) (env : Env) (e : Expr) (v : Int) (he : Env32 env) (hl : Literals32 e) :
    e.eval m env = .ok v ↔ Value m env e v :=
  ⟨value_of_eval he hl, eval_of_value he hl⟩

/-- C10: an expression all of whose intermediate results fit in 32 bits has its mathematical value
in every build. -/
theorem C10_mode_independent (m : Mode) (env : Env) (e : Expr) (v : Int) (he : Env32 env)
    (hl : Literals32 e) (h : Value .checked env e v) : e.eval m env = .ok v := by
  cases m with
  | checked => exact eval_of_value he hl h
  | wrapping =>
    apply eval_of_value he hl
    have fit : ∀ {v r}, Fit .checked v r → Fit .wrapping v r := by
      rintro v r ⟨rfl, h⟩; exact ⟨h, 0, by omega⟩
    clear hl
    induction h with
    | number => exact .number
    | name h => exact .name h
    | plus _ _ h ih1 ih2 => exact .plus ih1 ih2 (fit h)
    | minus _ _ h ih1 ih2 => exact .minus ih1 ih2 (fit h)
    | times _ _ h ih1 ih2 => exact .times ih1 ih2 (fit h)
    | uminus _ h ih => exact .uminus ih (fit h)
    | divide _ _ h1 h2 h3 ih1 ih2 => exact .divide ih1 ih2 h1 h2 h3
    | upperByte _ ih => exact .upperByte ih
    | lowerByte _ ih => exact .lowerByte ih
    | bxor _ _ h ih1 ih2 => exact .bxor ih1 ih2 h
    | band _ _ h ih1 ih2 => exact .band ih1 ih2 h
    | bor _ _ h ih1 ih2 => exact .bor ih1 ih2 h

/-- The value is unique. -/
theorem C10_value_unique (m : Mode) (env : Env) (e : Expr) (v w : Int) (he : Env32 env)
    (hl : Literals32 e) (h1 : Value m env e v) (h2 : Value m env e w) : v = w := by
  have a := eval_of_value he hl h1
  rw [eval_of_value he hl h2] at a
  exact (Res.ok.inj a).symm

/-- `(-7)/2 ^ (x & $F0)` with `x = $1234` is `-3 ^ $30 = -51`. -/
example : Value .checked (fun _ => some 0x1234)
    (.bxor (.divide (.uminus (.num 7)) (.num 2)) (.band (.name ['X']) (.num 0xF0))) (-51) := by
  have he : Env32 (fun _ => some 0x1234) := by
    intro n v h; simp only [Option.some.injEq] at h; omega
  rw [← C10_value_iff _ _ _ _ he (by simp [Literals32, Expr.num])]
  decide +kernel

/-- C11: evaluation reports an error exactly for an unbound name, an unexpanded macro construct or a
zero divisor, and it is the one met first reading left to right. -/
theorem C11_error_iff (m : Mode) (env : Env) (e : Expr) (er : Err) (he : Env32 env) (hl : Literals32 e) :
    e.eval m env = .err er ↔ Fails m env e er :=
  ⟨fails_of_eval he e hl, eval_of_fails he hl⟩

/-- C11: it panics exactly if the first problem is an operation without a 32-bit result. -/
theorem C11_panic_iff (m : Mode) (env : Env) (e : Expr) (he : Env32 env) (hl : Literals32 e) :
    e.eval m env = .panic ↔ Overflows m env e :=
  ⟨overflows_of_eval he e hl, eval_of_overflows he hl⟩

/-- C11: there is no other outcome: evaluation ends with a value, such an error or such a panic. -/
theorem C11_outcomes (m : Mode) (env : Env) (e : Expr) (he : Env32 env) (hl : Literals32 e) :
    (∃ v, Value m env e v) ∨ (∃ er, Fails m env e er) ∨ Overflows m env e := by
  cases h : e.eval m env with
  | ok v => exact .inl ⟨v, value_of_eval he hl h⟩
  | err er => exact .inr (.inl ⟨er, fails_of_eval he e hl h⟩)
  | panic => exact .inr (.inr (overflows_of_eval he e hl h))
  | loop => exact (eval_ne_loop e h).elim

/-- The listed reasons are the only ones. -/
theorem C11_reasons (m : Mode) (env : Env) (e : Expr) (er : Err) (h : Fails m env e er) :
    (∃ n, er = .nameNotFound n ∧ env (lower n) = none) ∨ (∃ a, er = .divideByZero a) ∨
      (∃ n, er = .macroLabelOutsideOfMacro n) ∨ ∃ n, er = .macroArgOutsideOfMacro n := by
  induction h with
  | name h => exact .inl ⟨_, rfl, h⟩
  | macroLabel => exact .inr (.inr (.inl ⟨_, rfl⟩))
  | macroArg => exact .inr (.inr (.inr ⟨_, rfl⟩))
  | zero _ _ => exact .inr (.inl ⟨_, rfl⟩)
  | left _ _ ih => exact ih
  | right _ _ _ ih => exact ih
  | under _ _ ih => exact ih

/-- The left operand's error wins. -/
example : Fails .checked (fun _ => none)
    (.plus (.divide (.num 1) (.num 0)) (.name ['a'])) (.divideByZero 1) :=
  .left rfl (.zero .number .number)
/-- A checked build overflows where a wrapping build does not. -/
example : Overflows .checked (fun _ => none) (.plus (.num 2147483647) (.num 1)) ∧
    Value .wrapping (fun _ => none) (.plus (.num 2147483647) (.num 1)) (-2147483648) := by
  have he : Env32 (fun _ => none) := by intro n v h; cases h
  have hl : Literals32 (.plus (.num 2147483647) (.num 1)) := by simp [Literals32, Expr.num]
  constructor
  · rw [← C11_panic_iff _ _ _ he hl]; decide +kernel
  · rw [← C10_value_iff _ _ _ _ he hl]; decide +kernel

/-- C12: only the names that occur matter (and only through their lower-case spelling). -/
theorem C12_depends_on_occurring (m : Mode) (env env' : Env) (e : Expr)
    (h : ∀ n, Occurs n e → env (lower n) = env' (lower n)) : e.eval m env = e.eval m env' :=
  eval_congr e h

example : ∃ e : Expr, Occurs ['a'] e ∧ ¬ Occurs ['b'] e :=
  ⟨.plus (.name ['a']) (.num 1), .left rfl .name, by
    intro h
    cases h with
    | left h1 h2 => cases h1; cases h2 <;> simp_all [binary, unary]
    | right h1 h2 => cases h1; cases h2 <;> simp_all [binary, unary, Expr.num]
    | under h1 h2 => simp [unary] at h1⟩

end Verif.Props
