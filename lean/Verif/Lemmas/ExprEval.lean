import Verif.Spec.Expressions
import Verif.Lemmas.DocBits
/-
Helper lemmas: Expr.eval against the relational specification.
-/
namespace Verif
open Spec

theorem intBit_high {v : Int} (h : inI32 v) {i : Nat} (hi : 31 ≤ i) : intBit v i = decide (v < 0) := by
  unfold inI32 at h
  have hp : (2147483648 : Int) ≤ 2 ^ i := by
    have : (2 : Int) ^ 31 ≤ 2 ^ i := by
      have : (2 : Nat) ^ 31 ≤ 2 ^ i := Nat.pow_le_pow_right (by omega) hi
      exact_mod_cast this
    exact this
  unfold intBit
  generalize (2 : Int) ^ i = p at *
  by_cases hv : v < 0
  · have : v / p = -1 := by
      rw [Int.ediv_eq_iff_of_pos (by omega)] <;> constructor <;> omega
    simp [hv, this]
  · have : v / p = 0 := Int.ediv_eq_zero_of_lt (by omega) (by omega)
    simp [hv, this]

theorem toU32_ofInt (v : Int) : (BitVec.ofInt 32 v).toNat = toU32 v := by
  rw [BitVec.toNat_ofInt]; rfl

theorem ofInt_toU32 (x : BitVec 32) : toU32 x.toInt = x.toNat := by
  rw [← toU32_ofInt, BitVec.ofInt_toInt]

theorem toInt_inI32 (x : BitVec 32) : inI32 x.toInt := by
  have h1 := BitVec.toInt_lt (x := x)
  have h2 := BitVec.le_toInt (x := x)
  unfold inI32
  constructor
  · exact h2
  · have : x.toInt < 2147483648 := h1
    omega

theorem bitwise_of {op : Bool → Bool → Bool} {a b : Int} {x : BitVec 32} (ha : inI32 a) (hb : inI32 b)
    (h : ∀ i, i < 32 → x.toNat.testBit i = op ((toU32 a).testBit i) ((toU32 b).testBit i)) :
    Bitwise op a b x.toInt := by
  have low : ∀ i, i < 32 → intBit x.toInt i = op (intBit a i) (intBit b i) := by
    intro i hi
    rw [← toU32_testBit _ hi, ← toU32_testBit _ hi, ← toU32_testBit _ hi, ofInt_toU32, h i hi]
  intro i
  by_cases hi : i < 32
  · exact low i hi
  · have := low 31 (by omega)
    rw [intBit_high (toInt_inI32 x) (by omega), intBit_high ha (by omega), intBit_high hb (by omega)] at this
    rw [intBit_high (toInt_inI32 x) (by omega), intBit_high ha (by omega), intBit_high hb (by omega), this]

theorem i32xor_spec {a b : Int} (ha : inI32 a) (hb : inI32 b) : Bitwise xor a b (i32xor a b) := by
  apply bitwise_of ha hb
  intro i _
  rw [BitVec.toNat_xor, toU32_ofInt, toU32_ofInt, Nat.testBit_xor]

theorem i32and_spec {a b : Int} (ha : inI32 a) (hb : inI32 b) : Bitwise and a b (i32and a b) := by
  apply bitwise_of ha hb
  intro i _
  rw [BitVec.toNat_and, toU32_ofInt, toU32_ofInt, Nat.testBit_and]

theorem i32or_spec {a b : Int} (ha : inI32 a) (hb : inI32 b) : Bitwise or a b (i32or a b) := by
  apply bitwise_of ha hb
  intro i _
  rw [BitVec.toNat_or, toU32_ofInt, toU32_ofInt, Nat.testBit_or]

/-- Two integers with the same bits are equal. -/
theorem eq_of_intBit {a b : Int} (h : ∀ i, intBit a i = intBit b i) : a = b := by
  have nonneg : ∀ (n : Nat) (a b : Int), a.natAbs + b.natAbs ≤ n → (∀ i, intBit a i = intBit b i) → a = b := by
    intro n
    induction n with
    | zero => intro a b hn _; omega
    | succ n ih =>
      intro a b hn h
      have h0 := h 0
      simp only [intBit, Int.pow_zero, Int.ediv_one] at h0
      have hm : a % 2 = b % 2 := by
        have := decide_eq_decide.mp h0
        omega
      have hs : ∀ i, intBit (a / 2) i = intBit (b / 2) i := by
        intro i
        have := h (i + 1)
        unfold intBit at *
        have e : (2 : Int) ^ (i + 1) = 2 * 2 ^ i := by rw [Int.pow_succ, Int.mul_comm]
        rw [e, ← Int.ediv_ediv_of_nonneg (by omega), ← Int.ediv_ediv_of_nonneg (by omega)] at this
        exact this
      by_cases hlt : (a / 2).natAbs + (b / 2).natAbs ≤ n
      · have := ih _ _ hlt hs
        omega
      · -- both are -1 or 0
        have ha : a = 0 ∨ a = -1 := by omega
        have hb : b = 0 ∨ b = -1 := by omega
        have h1 : ∀ i, intBit 0 i = false := by intro i; simp [intBit]
        have h2 : intBit (-1) 0 = true := by decide
        have := h 0
        rcases ha with rfl | rfl <;> rcases hb with rfl | rfl <;> simp_all
  exact nonneg _ a b (Nat.le_refl _) h

theorem bitwise_unique {op : Bool → Bool → Bool} {a b r s : Int} (h1 : Bitwise op a b r)
    (h2 : Bitwise op a b s) : r = s :=
  eq_of_intBit fun i => by rw [h1 i, h2 i]

theorem quotient_tdiv (a b : Int) (hb : b ≠ 0) : Quotient a b (a.tdiv b) := by
  refine ⟨a.tmod b, (Int.mul_tdiv_add_tmod a b).symm, ?_, ?_, ?_⟩
  · have := Int.natAbs_tmod a b
    rw [this]
    exact Nat.mod_lt _ (by omega)
  · intro h; exact Int.tmod_nonneg b h
  · intro h
    have := Int.tmod_nonneg b (a := -a) (by omega)
    rw [Int.neg_tmod] at this
    omega

theorem quotient_unique {a b q q' : Int} (h1 : Quotient a b q) (h2 : Quotient a b q') : q = q' := by
  obtain ⟨r, e1, e2, e3, e4⟩ := h1
  obtain ⟨s, f1, f2, f3, f4⟩ := h2
  have hd : (r - s).natAbs < b.natAbs := by
    rcases Int.le_total 0 a with h | h
    · have := e3 h; have := f3 h; omega
    · have := e4 h; have := f4 h; omega
  have he : b * (q' - q) = r - s := by rw [Int.mul_sub]; omega
  by_cases hq : q' - q = 0
  · omega
  · exfalso
    have := congrArg Int.natAbs he
    rw [Int.natAbs_mul] at this
    have h1 : 1 ≤ (q' - q).natAbs := by omega
    have := Nat.mul_le_mul_left b.natAbs h1
    omega

theorem norm_iff {m : Mode} {v r : Int} : m.norm v = .ok r ↔ Fit m v r := by
  unfold Mode.norm Fit
  split
  · rename_i h
    unfold inI32 at h
    cases m
    · simp only [Res.ok.injEq]; omega
    · simp only [Res.ok.injEq]
      constructor
      · rintro rfl; exact ⟨h, 0, by omega⟩
      · rintro ⟨h1, k, hk⟩; omega
  · rename_i h
    unfold inI32 at h
    cases m
    · simp only [reduceCtorEq, false_iff]; omega
    · simp only [Res.ok.injEq]
      constructor
      · rintro rfl
        have := inI32_wrap32 v
        unfold inI32 at this
        refine ⟨this, (v + 2147483648) / 4294967296, ?_⟩
        unfold wrap32; omega
      · rintro ⟨h1, k, hk⟩
        unfold wrap32; omega

theorem intBit_mod256 (x : Int) (i : Nat) : intBit (x % 256) i = (intBit x i && intBit 0xFF i) := by
  by_cases hi : i < 8
  · have h1 : intBit 0xFF i = true := by
      have : ∀ i, i < 8 → intBit 0xFF i = true := by decide
      exact this i hi
    rw [h1, Bool.and_true]
    unfold intBit
    have hc : i = 0 ∨ i = 1 ∨ i = 2 ∨ i = 3 ∨ i = 4 ∨ i = 5 ∨ i = 6 ∨ i = 7 := by omega
    congr 1
    apply propext
    rcases hc with rfl | rfl | rfl | rfl | rfl | rfl | rfl | rfl <;> simp only [Int.reducePow] <;> omega
  · have hp : (256 : Int) ≤ 2 ^ i := by
      have h2 : ((2 ^ 8 : Nat) : Int) ≤ ((2 ^ i : Nat) : Int) :=
        Int.ofNat_le.mpr (Nat.pow_le_pow_right (by omega) (by omega))
      rw [Int.natCast_pow] at h2
      rw [Int.natCast_pow] at h2
      exact h2
    have h1 : intBit 0xFF i = false := by
      unfold intBit
      rw [Int.ediv_eq_zero_of_lt (by omega) (by omega)]; rfl
    rw [h1, Bool.and_false]
    unfold intBit
    rw [Int.ediv_eq_zero_of_lt (by omega) (by omega)]; rfl

theorem upper_eq {a : Int} (h : inI32 a) : i32and (a >>> 8) 0xFF = a / 256 % 256 := by
  have h8 : a >>> (8 : Nat) = a / 256 := Int.shiftRight_eq_div_pow a 8
  rw [h8]
  have ha : inI32 (a / 256) := by unfold inI32 at *; omega
  generalize a / 256 = x at *
  clear h h8
  apply bitwise_unique (i32and_spec (b := 255) ha (by decide))
  intro i
  exact intBit_mod256 x i
theorem lower_eq {a : Int} (h : inI32 a) : i32and a 0xFF = a % 256 := by
  apply bitwise_unique (i32and_spec (b := 255) h (by decide))
  intro i
  exact intBit_mod256 a i

theorem eval_inI32 {m : Mode} {env : Env} (he : Env32 env) : ∀ {e : Expr} {v : Int}, Literals32 e →
    e.eval m env = .ok v → inI32 v := by
  intro e
  induction e with
  | name n =>
    intro v _ h
    simp only [Expr.eval] at h
    split at h
    · cases h; exact he _ _ (by assumption)
    · cases h
  | number w r => intro v hl h; simp only [Expr.eval, Res.ok.injEq] at h; subst h; exact hl
  | macroLabel n => intro v _ h; simp [Expr.eval] at h
  | macroArg n => intro v _ h; simp [Expr.eval] at h
  | plus l r | minus l r | times l r =>
    intro v _ h
    simp only [Expr.eval, Res.bind_eq_ok] at h
    obtain ⟨_, _, _, _, h⟩ := h
    exact Mode.norm_inI32 h
  | uminus e =>
    intro v _ h
    simp only [Expr.eval, Res.bind_eq_ok] at h
    obtain ⟨_, _, h⟩ := h
    exact Mode.norm_inI32 h
  | divide l r =>
    intro v _ h
    simp only [Expr.eval, Res.bind_eq_ok] at h
    obtain ⟨_, _, _, _, h⟩ := h
    split at h
    · cases h
    · split at h
      · cases h; assumption
      · cases h
  | bxor l r | band l r | bor l r =>
    intro v _ h
    simp only [Expr.eval, Res.bind_eq_ok, Res.ok.injEq] at h
    obtain ⟨_, _, _, _, rfl⟩ := h
    exact toInt_inI32 _
  | upperByte e | lowerByte e =>
    intro v _ h
    simp only [Expr.eval, Res.bind_eq_ok, Res.ok.injEq] at h
    obtain ⟨_, _, rfl⟩ := h
    exact toInt_inI32 _

theorem unary_literals {e x : Expr} (h : unary e = some x) (hl : Literals32 e) : Literals32 x := by
  cases e <;> simp only [unary, Option.some.injEq, reduceCtorEq] at h <;> (subst h; exact hl)

theorem value_of_eval {m : Mode} {env : Env} (he : Env32 env) : ∀ {e : Expr} {v : Int}, Literals32 e →
    e.eval m env = .ok v → Value m env e v := by
  intro e
  induction e with
  | name n =>
    intro v _ h
    simp only [Expr.eval] at h
    split at h
    · cases h; exact .name (by assumption)
    · cases h
  | number w r => intro v hl h; simp only [Expr.eval, Res.ok.injEq] at h; subst h; exact .number
  | macroLabel n => intro v _ h; simp [Expr.eval] at h
  | macroArg n => intro v _ h; simp [Expr.eval] at h
  | plus l r ihl ihr =>
    intro v hl h
    simp only [Expr.eval, Res.bind_eq_ok] at h
    obtain ⟨_, h1, _, h2, h⟩ := h
    exact .plus (ihl hl.1 h1) (ihr hl.2 h2) (norm_iff.mp h)
  | minus l r ihl ihr =>
    intro v hl h
    simp only [Expr.eval, Res.bind_eq_ok] at h
    obtain ⟨_, h1, _, h2, h⟩ := h
    exact .minus (ihl hl.1 h1) (ihr hl.2 h2) (norm_iff.mp h)
  | times l r ihl ihr =>
    intro v hl h
    simp only [Expr.eval, Res.bind_eq_ok] at h
    obtain ⟨_, h1, _, h2, h⟩ := h
    exact .times (ihl hl.1 h1) (ihr hl.2 h2) (norm_iff.mp h)
  | uminus e ih =>
    intro v hl h
    simp only [Expr.eval, Res.bind_eq_ok] at h
    obtain ⟨a, h1, h⟩ := h
    rw [show -1 * a = -a by omega] at h
    exact .uminus (ih hl h1) (norm_iff.mp h)
  | divide l r ihl ihr =>
    intro v hl h
    simp only [Expr.eval, Res.bind_eq_ok] at h
    obtain ⟨a, h1, b, h2, h⟩ := h
    split at h
    · cases h
    · rename_i hb
      split at h
      · rename_i hv
        cases h
        exact .divide (ihl hl.1 h1) (ihr hl.2 h2) hb (quotient_tdiv a b hb) hv
      · cases h
  | bxor l r ihl ihr =>
    intro v hl h
    simp only [Expr.eval, Res.bind_eq_ok, Res.ok.injEq] at h
    obtain ⟨_, h1, _, h2, rfl⟩ := h
    exact .bxor (ihl hl.1 h1) (ihr hl.2 h2) (i32xor_spec (eval_inI32 he hl.1 h1) (eval_inI32 he hl.2 h2))
  | band l r ihl ihr =>
    intro v hl h
    simp only [Expr.eval, Res.bind_eq_ok, Res.ok.injEq] at h
    obtain ⟨_, h1, _, h2, rfl⟩ := h
    exact .band (ihl hl.1 h1) (ihr hl.2 h2) (i32and_spec (eval_inI32 he hl.1 h1) (eval_inI32 he hl.2 h2))
  | bor l r ihl ihr =>
    intro v hl h
    simp only [Expr.eval, Res.bind_eq_ok, Res.ok.injEq] at h
    obtain ⟨_, h1, _, h2, rfl⟩ := h
    exact .bor (ihl hl.1 h1) (ihr hl.2 h2) (i32or_spec (eval_inI32 he hl.1 h1) (eval_inI32 he hl.2 h2))
  | upperByte e ih =>
    intro v hl h
    simp only [Expr.eval, Res.bind_eq_ok, Res.ok.injEq] at h
    obtain ⟨_, h1, rfl⟩ := h
    rw [upper_eq (eval_inI32 he (unary_literals rfl hl) h1)]
    exact .upperByte (ih hl h1)
  | lowerByte e ih =>
    intro v hl h
    simp only [Expr.eval, Res.bind_eq_ok, Res.ok.injEq] at h
    obtain ⟨_, h1, rfl⟩ := h
    rw [lower_eq (eval_inI32 he (unary_literals rfl hl) h1)]
    exact .lowerByte (ih hl h1)

theorem eval_of_value {m : Mode} {env : Env} (he : Env32 env) {e : Expr} {v : Int} (hl : Literals32 e)
    (h : Value m env e v) : e.eval m env = .ok v := by
  induction h with
  | number => rfl
  | name h => simp [Expr.eval, h]
  | plus h1 h2 h ih1 ih2 =>
    simp only [Expr.eval, ih1 hl.1, ih2 hl.2, Res.ok_bind]; exact norm_iff.mpr h
  | minus h1 h2 h ih1 ih2 =>
    simp only [Expr.eval, ih1 hl.1, ih2 hl.2, Res.ok_bind]; exact norm_iff.mpr h
  | times h1 h2 h ih1 ih2 =>
    simp only [Expr.eval, ih1 hl.1, ih2 hl.2, Res.ok_bind]; exact norm_iff.mpr h
  | uminus h1 h ih =>
    simp only [Expr.eval, ih hl, Res.ok_bind]
    rw [Int.neg_one_mul]; exact norm_iff.mpr h
  | @divide l r a b v h1 h2 hb hq hv ih1 ih2 =>
    simp only [Expr.eval, ih1 hl.1, ih2 hl.2, Res.ok_bind]
    rw [if_neg hb]
    have := quotient_unique hq (quotient_tdiv a b hb)
    subst this
    rw [if_pos (show inI32 _ from hv)]
  | bxor h1 h2 h ih1 ih2 =>
    simp only [Expr.eval, ih1 hl.1, ih2 hl.2, Res.ok_bind, Res.ok.injEq]
    exact bitwise_unique (i32xor_spec (eval_inI32 he hl.1 (ih1 hl.1)) (eval_inI32 he hl.2 (ih2 hl.2))) h
  | band h1 h2 h ih1 ih2 =>
    simp only [Expr.eval, ih1 hl.1, ih2 hl.2, Res.ok_bind, Res.ok.injEq]
    exact bitwise_unique (i32and_spec (eval_inI32 he hl.1 (ih1 hl.1)) (eval_inI32 he hl.2 (ih2 hl.2))) h
  | bor h1 h2 h ih1 ih2 =>
    simp only [Expr.eval, ih1 hl.1, ih2 hl.2, Res.ok_bind, Res.ok.injEq]
    exact bitwise_unique (i32or_spec (eval_inI32 he hl.1 (ih1 hl.1)) (eval_inI32 he hl.2 (ih2 hl.2))) h
  | upperByte h ih =>
    simp only [Expr.eval, ih hl, Res.ok_bind, Res.ok.injEq]
    exact upper_eq (eval_inI32 he (unary_literals rfl hl) (ih hl))
  | lowerByte h ih =>
    simp only [Expr.eval, ih hl, Res.ok_bind, Res.ok.injEq]
    exact lower_eq (eval_inI32 he (unary_literals rfl hl) (ih hl))

/-- How evaluation of a binary expression depends on its operands. -/
theorem eval_binary {m : Mode} {env : Env} {e l r : Expr} (h : binary e = some (l, r)) :
    ∃ op : Int → Int → Res Int, e.eval m env = (do let a ← l.eval m env; let b ← r.eval m env; op a b) ∧
      (∀ a b er, op a b = .err er → b = 0 ∧ e = .divide l r ∧ er = .divideByZero a) ∧
      (∀ a b, op a b ≠ .loop) ∧ (e = .divide l r → ∀ a, op a 0 = .err (.divideByZero a)) := by
  cases e <;> simp only [binary, Option.some.injEq, Prod.mk.injEq, reduceCtorEq] at h
  case plus => obtain ⟨rfl, rfl⟩ := h; exact ⟨fun a b => m.norm (a + b), rfl, fun a b er h => (m.norm_ne_err _ _ h).elim, fun a b => m.norm_ne_loop _, fun h => by cases h⟩
  case minus => obtain ⟨rfl, rfl⟩ := h; exact ⟨fun a b => m.norm (a - b), rfl, fun a b er h => (m.norm_ne_err _ _ h).elim, fun a b => m.norm_ne_loop _, fun h => by cases h⟩
  case times => obtain ⟨rfl, rfl⟩ := h; exact ⟨fun a b => m.norm (a * b), rfl, fun a b er h => (m.norm_ne_err _ _ h).elim, fun a b => m.norm_ne_loop _, fun h => by cases h⟩
  case divide =>
    obtain ⟨rfl, rfl⟩ := h
    refine ⟨fun a b => if b = 0 then .err (.divideByZero a) else if inI32 (a.tdiv b) then .ok (a.tdiv b) else .panic, rfl, ?_, ?_, ?_⟩
    · intro a b er h
      dsimp only at h
      split at h
      · cases h; exact ⟨by assumption, rfl, rfl⟩
      · split at h <;> cases h
    · intro a b h
      dsimp only at h
      split at h
      · cases h
      · split at h <;> cases h
    · intro _ a; rfl
  case bxor => obtain ⟨rfl, rfl⟩ := h; exact ⟨fun a b => .ok (i32xor a b), rfl, fun a b er h => (by cases h), fun a b h => (by cases h), fun h => by cases h⟩
  case band => obtain ⟨rfl, rfl⟩ := h; exact ⟨fun a b => .ok (i32and a b), rfl, fun a b er h => (by cases h), fun a b h => (by cases h), fun h => by cases h⟩
  case bor => obtain ⟨rfl, rfl⟩ := h; exact ⟨fun a b => .ok (i32or a b), rfl, fun a b er h => (by cases h), fun a b h => (by cases h), fun h => by cases h⟩

theorem eval_unary {m : Mode} {env : Env} {e x : Expr} (h : unary e = some x) :
    ∃ op : Int → Res Int, e.eval m env = (do let a ← x.eval m env; op a) ∧
      (∀ a er, op a ≠ .err er) ∧ (∀ a, op a ≠ .loop) := by
  cases e <;> simp only [unary, Option.some.injEq, reduceCtorEq] at h
  case uminus => subst h; exact ⟨fun a => m.norm (-1 * a), rfl, fun a er => m.norm_ne_err _ _, fun a => m.norm_ne_loop _⟩
  case upperByte => subst h; exact ⟨fun a => .ok (i32and (a >>> 8) 0xFF), rfl, fun a er => by simp, fun a => by simp⟩
  case lowerByte => subst h; exact ⟨fun a => .ok (i32and a 0xFF), rfl, fun a er => by simp, fun a => by simp⟩

/-- Every expression is a leaf, unary or binary. -/
theorem expr_cases (e : Expr) : (∃ l r, binary e = some (l, r)) ∨ (∃ x, unary e = some x) ∨
    (∃ n, e = .name n) ∨ (∃ v r, e = .number v r) ∨ (∃ n, e = .macroLabel n) ∨ (∃ n, e = .macroArg n) := by
  cases e <;> simp [binary, unary]

theorem binary_literals {e l r : Expr} (h : binary e = some (l, r)) (hl : Literals32 e) :
    Literals32 l ∧ Literals32 r := by
  cases e <;> simp only [binary, Option.some.injEq, Prod.mk.injEq, reduceCtorEq] at h <;>
    (obtain ⟨rfl, rfl⟩ := h; exact hl)

theorem binary_size {e l r : Expr} (h : binary e = some (l, r)) : sizeOf l < sizeOf e ∧ sizeOf r < sizeOf e := by
  cases e <;> simp only [binary, Option.some.injEq, Prod.mk.injEq, reduceCtorEq] at h <;>
    (obtain ⟨rfl, rfl⟩ := h; simp <;> omega)

theorem unary_size {e x : Expr} (h : unary e = some x) : sizeOf x < sizeOf e := by
  cases e <;> simp only [unary, Option.some.injEq, reduceCtorEq] at h <;> (subst h; simp)

theorem eval_ne_loop {m : Mode} {env : Env} : ∀ e : Expr, e.eval m env ≠ .loop := by
  intro e
  rcases expr_cases e with ⟨l, r, h⟩ | ⟨x, h⟩ | ⟨n, rfl⟩ | ⟨v, r, rfl⟩ | ⟨n, rfl⟩ | ⟨n, rfl⟩
  · obtain ⟨op, heq, -, h3, -⟩ := eval_binary (m := m) (env := env) h
    have := binary_size h
    have h1 := eval_ne_loop (m := m) (env := env) l
    have h2 := eval_ne_loop (m := m) (env := env) r
    rw [heq]
    intro hc
    rcases Res.bind_eq_loop.mp hc with hc | ⟨a, -, hc⟩
    · exact h1 hc
    · rcases Res.bind_eq_loop.mp hc with hc | ⟨b, -, hc⟩
      · exact h2 hc
      · exact h3 _ _ hc
  · obtain ⟨op, heq, -, h3⟩ := eval_unary (m := m) (env := env) h
    have := unary_size h
    have h1 := eval_ne_loop (m := m) (env := env) x
    rw [heq]
    intro hc
    rcases Res.bind_eq_loop.mp hc with hc | ⟨a, -, hc⟩
    · exact h1 hc
    · exact h3 _ hc
  · simp only [Expr.eval]; split <;> simp
  all_goals simp [Expr.eval]
termination_by e => sizeOf e

theorem fails_of_eval {m : Mode} {env : Env} (he : Env32 env) : ∀ (e : Expr) {er : Err}, Literals32 e →
    e.eval m env = .err er → Fails m env e er := by
  intro e er hl hev
  rcases expr_cases e with ⟨l, r, h⟩ | ⟨x, h⟩ | ⟨n, rfl⟩ | ⟨v, r, rfl⟩ | ⟨n, rfl⟩ | ⟨n, rfl⟩
  · obtain ⟨op, heq, h3, -, -⟩ := eval_binary (m := m) (env := env) h
    have := binary_size h
    have hl' := binary_literals h hl
    rw [heq] at hev
    rcases Res.bind_eq_err.mp hev with hc | ⟨a, ha, hc⟩
    · exact .left h (fails_of_eval he l hl'.1 hc)
    · rcases Res.bind_eq_err.mp hc with hc | ⟨b, hb, hc⟩
      · exact .right h (value_of_eval he hl'.1 ha) (fails_of_eval he r hl'.2 hc)
      · obtain ⟨rfl, rfl, rfl⟩ := h3 _ _ _ hc
        exact .zero (value_of_eval he hl'.1 ha) (value_of_eval he hl'.2 hb)
  · obtain ⟨op, heq, h3, -⟩ := eval_unary (m := m) (env := env) h
    have := unary_size h
    rw [heq] at hev
    rcases Res.bind_eq_err.mp hev with hc | ⟨a, ha, hc⟩
    · exact .under h (fails_of_eval he x (unary_literals h hl) hc)
    · exact (h3 _ _ hc).elim
  · simp only [Expr.eval] at hev
    split at hev
    · cases hev
    · cases hev; exact .name (by assumption)
  · simp [Expr.eval] at hev
  · simp only [Expr.eval, Res.err.injEq] at hev; subst hev; exact .macroLabel
  · simp only [Expr.eval, Res.err.injEq] at hev; subst hev; exact .macroArg
termination_by e => sizeOf e

theorem eval_of_fails {m : Mode} {env : Env} (he : Env32 env) {e : Expr} {er : Err} (hl : Literals32 e)
    (h : Fails m env e er) : e.eval m env = .err er := by
  induction h with
  | name h => simp [Expr.eval, h]
  | macroLabel => rfl
  | macroArg => rfl
  | zero h1 h2 =>
    simp only [Expr.eval, eval_of_value he hl.1 h1, eval_of_value he hl.2 h2, Res.ok_bind, if_true]
  | left hb h ih =>
    obtain ⟨op, heq, -⟩ := eval_binary (m := m) (env := env) hb
    rw [heq, ih (binary_literals hb hl).1]; rfl
  | right hb hv h ih =>
    obtain ⟨op, heq, -⟩ := eval_binary (m := m) (env := env) hb
    rw [heq, eval_of_value he (binary_literals hb hl).1 hv, Res.ok_bind, ih (binary_literals hb hl).2]; rfl
  | under hu h ih =>
    obtain ⟨op, heq, -⟩ := eval_unary (m := m) (env := env) hu
    rw [heq, ih (unary_literals hu hl)]; rfl

theorem overflows_of_eval {m : Mode} {env : Env} (he : Env32 env) : ∀ (e : Expr), Literals32 e →
    e.eval m env = .panic → Overflows m env e := by
  intro e hl hev
  have hnv : ¬ ∃ v, Value m env e v := by
    rintro ⟨v, hv⟩
    rw [eval_of_value he hl hv] at hev; cases hev
  rcases expr_cases e with ⟨l, r, h⟩ | ⟨x, h⟩ | ⟨n, rfl⟩ | ⟨v, r, rfl⟩ | ⟨n, rfl⟩ | ⟨n, rfl⟩
  · obtain ⟨op, heq, -, -, h4⟩ := eval_binary (m := m) (env := env) h
    have := binary_size h
    have hl' := binary_literals h hl
    rw [heq] at hev
    rcases Res.bind_eq_panic.mp hev with hc | ⟨a, ha, hc⟩
    · exact .left h (overflows_of_eval he l hl'.1 hc)
    · rcases Res.bind_eq_panic.mp hc with hc | ⟨b, hb, hc⟩
      · exact .right h (value_of_eval he hl'.1 ha) (overflows_of_eval he r hl'.2 hc)
      · refine .here h (value_of_eval he hl'.1 ha) (value_of_eval he hl'.2 hb) hnv ?_
        rintro ⟨rfl, hd⟩
        rw [h4 hd a] at hc; cases hc
  · obtain ⟨op, heq, -, -⟩ := eval_unary (m := m) (env := env) h
    have := unary_size h
    rw [heq] at hev
    rcases Res.bind_eq_panic.mp hev with hc | ⟨a, ha, hc⟩
    · exact .under h (overflows_of_eval he x (unary_literals h hl) hc)
    · exact .hereU h (value_of_eval he (unary_literals h hl) ha) hnv
  · simp only [Expr.eval] at hev
    split at hev <;> cases hev
  all_goals simp [Expr.eval] at hev
termination_by e => sizeOf e

theorem eval_of_overflows {m : Mode} {env : Env} (he : Env32 env) {e : Expr} (hl : Literals32 e)
    (h : Overflows m env e) : e.eval m env = .panic := by
  induction h with
  | here hb h1 h2 hn hz =>
    obtain ⟨op, heq, h3, -⟩ := eval_binary (m := m) (env := env) hb
    cases hr : Expr.eval m env _ with
    | ok v => exact (hn ⟨v, value_of_eval he hl hr⟩).elim
    | panic => rfl
    | loop => exact (eval_ne_loop _ hr).elim
    | err er =>
      rw [heq, eval_of_value he (binary_literals hb hl).1 h1, Res.ok_bind,
        eval_of_value he (binary_literals hb hl).2 h2, Res.ok_bind] at hr
      have := h3 _ _ _ hr
      exact (hz ⟨this.1, this.2.1⟩).elim
  | hereU hu h1 hn =>
    obtain ⟨op, heq, h3, -⟩ := eval_unary (m := m) (env := env) hu
    cases hr : Expr.eval m env _ with
    | ok v => exact (hn ⟨v, value_of_eval he hl hr⟩).elim
    | panic => rfl
    | loop => exact (eval_ne_loop _ hr).elim
    | err er =>
      rw [heq, eval_of_value he (unary_literals hu hl) h1, Res.ok_bind] at hr
      exact (h3 _ _ hr).elim
  | left hb h ih =>
    obtain ⟨op, heq, -⟩ := eval_binary (m := m) (env := env) hb
    rw [heq, ih (binary_literals hb hl).1]; rfl
  | right hb hv h ih =>
    obtain ⟨op, heq, -⟩ := eval_binary (m := m) (env := env) hb
    rw [heq, eval_of_value he (binary_literals hb hl).1 hv, Res.ok_bind, ih (binary_literals hb hl).2]; rfl
  | under hu h ih =>
    obtain ⟨op, heq, -⟩ := eval_unary (m := m) (env := env) hu
    rw [heq, ih (unary_literals hu hl)]; rfl

theorem eval_congr {m : Mode} {env env' : Env} : ∀ (e : Expr),
    (∀ n, Occurs n e → env (lower n) = env' (lower n)) → e.eval m env = e.eval m env' := by
  intro e
  induction e with
  | name n => intro h; simp only [Expr.eval]; rw [h n .name]
  | number v r => intro _; rfl
  | macroLabel n => intro _; rfl
  | macroArg n => intro _; rfl
  | plus l r ihl ihr | minus l r ihl ihr | times l r ihl ihr | divide l r ihl ihr | bxor l r ihl ihr
  | band l r ihl ihr | bor l r ihl ihr =>
    intro h
    simp only [Expr.eval]
    rw [ihl (fun n hn => h n (.left rfl hn)), ihr (fun n hn => h n (.right rfl hn))]
  | uminus e ih | upperByte e ih | lowerByte e ih =>
    intro h
    simp only [Expr.eval]
    rw [ih (fun n hn => h n (.under rfl hn))]

end Verif
