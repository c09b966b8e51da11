import Verif.Lemmas.Located.EraseParse
import Verif.Lemmas.ParseExpr
/-
The located expression parser without its bound on the number of steps.
-/
namespace Verif.Located

/-- More fuel does not change a result. -/
theorem exprs_mono (f : Nat) :
    (∀ p ts, parseExprPrec f p ts ≠ .loop → parseExprPrec (f + 1) p ts = parseExprPrec f p ts) ∧
    (∀ t ts, parsePrefix f t ts ≠ .loop → parsePrefix (f + 1) t ts = parsePrefix f t ts) ∧
    (∀ p l ts, parseInfix f p l ts ≠ .loop → parseInfix (f + 1) p l ts = parseInfix f p l ts) := by
  induction f with
  | zero =>
    refine ⟨?_, ?_, ?_⟩
    · intro p ts h; rw [parseExprPrec] at h; exact absurd rfl h
    · intro t ts h; rw [parsePrefix] at h; exact absurd rfl h
    · intro p l ts h; rw [parseInfix] at h; exact absurd rfl h
  | succ f ih =>
    obtain ⟨ih1, ih2, ih3⟩ := ih
    refine ⟨?_, ?_, ?_⟩
    · intro p ts h
      cases ts with
      | nil => simp [parseExprPrec]
      | cons tok ts =>
        rw [parseExprPrec] at h ⊢
        rw [parseExprPrec]
        have h1 : parsePrefix f tok ts ≠ .loop := fun e => h (by rw [e]; rfl)
        rw [ih2 _ _ h1]
        cases e : parsePrefix f tok ts with
        | ok a =>
          rw [e] at h
          exact ih3 _ _ _ h
        | err _ => rfl
        | panic => rfl
        | loop => rfl
    · intro tok ts h
      rw [parsePrefix] at h ⊢
      rw [parsePrefix]
      cases ea : atomExpr tok with
      | some e => rfl
      | none =>
        rw [ea] at h
        cases ep : prefixExpr tok with
        | some g =>
          rw [ep] at h
          have h1 : parseExprPrec f prefixPrec ts ≠ .loop := fun e => h (by dsimp only; rw [e]; rfl)
          simp only [ih1 _ _ h1]
        | none =>
          rw [ep] at h
          by_cases hp : tok.tok = .leftParen
          · simp only [hp, if_true] at h ⊢
            have h1 : parseExprPrec f 0 ts ≠ .loop := fun e => h (by rw [e]; rfl)
            rw [ih1 _ _ h1]
          · simp only [hp, if_false]
    · intro p l ts h
      cases ts with
      | nil => simp [parseInfix]
      | cons tok ts =>
        rw [parseInfix] at h ⊢
        rw [parseInfix]
        by_cases hp : p < infixPrec tok.tok
        · simp only [hp, if_true] at h ⊢
          have h1 : parseExprPrec f (infixPrec tok.tok) ts ≠ .loop := fun e => h (by rw [e]; rfl)
          rw [ih1 _ _ h1]
          cases e : parseExprPrec f (infixPrec tok.tok) ts with
          | ok a =>
            rw [e] at h
            change (match binaryExpr tok.tok l a.1 with
              | some e => parseInfix f p e a.2
              | none => .fail (.expectedTokenNotFound "Binary Operator".toList) tok.span) ≠ Res.loop at h
            show (match binaryExpr tok.tok l a.1 with
              | some e => parseInfix (f + 1) p e a.2
              | none => .fail (.expectedTokenNotFound "Binary Operator".toList) tok.span) =
              (match binaryExpr tok.tok l a.1 with
              | some e => parseInfix f p e a.2
              | none => .fail (.expectedTokenNotFound "Binary Operator".toList) tok.span)
            cases eb : binaryExpr tok.tok l a.1 with
            | some x =>
              simp only [eb] at h ⊢
              exact ih3 _ _ _ h
            | none => simp only
          | err _ => rfl
          | panic => rfl
          | loop => rfl
        · simp only [hp, if_false]

theorem prec_mono {f g p ts} (h : parseExprPrec f p ts ≠ .loop) (hg : f ≤ g) :
    parseExprPrec g p ts = parseExprPrec f p ts := by
  induction hg with
  | refl => rfl
  | step _ ih => rw [(exprs_mono _).1 _ _ (by rw [ih]; exact h), ih]

theorem prefix_mono {f g t ts} (h : parsePrefix f t ts ≠ .loop) (hg : f ≤ g) :
    parsePrefix g t ts = parsePrefix f t ts := by
  induction hg with
  | refl => rfl
  | step _ ih => rw [(exprs_mono _).2.1 _ _ (by rw [ih]; exact h), ih]

theorem infix_mono {f g p l ts} (h : parseInfix f p l ts ≠ .loop) (hg : f ≤ g) :
    parseInfix g p l ts = parseInfix f p l ts := by
  induction hg with
  | refl => rfl
  | step _ ih => rw [(exprs_mono _).2.2 _ _ _ (by rw [ih]; exact h), ih]

theorem prec_no_loop {f p ts} (h : 2 * ts.length + 1 ≤ f) : parseExprPrec f p ts ≠ .loop := by
  intro e
  have := (erase_exprs f).1 p ts
  rw [e] at this
  exact (parse_no_loop f).1 p (toks ts) (by simpa using h) this.symm

theorem prefix_no_loop {f t ts} (h : 2 * ts.length + 2 ≤ f) : parsePrefix f t ts ≠ .loop := by
  intro e
  have := (erase_exprs f).2.1 t ts
  rw [e] at this
  exact (parse_no_loop f).2.1 t.tok (toks ts) (by simpa using h) this.symm

theorem infix_no_loop {f p l ts} (h : 2 * ts.length + 1 ≤ f) : parseInfix f p l ts ≠ .loop := by
  intro e
  have := (erase_exprs f).2.2 p l ts
  rw [e] at this
  exact (parse_no_loop f).2.2 p l.erase (toks ts) (by simpa using h) this.symm

theorem prec_length {f p ts e r} (h : parseExprPrec f p ts = .ok (e, r)) : r.length < ts.length := by
  have := (erase_exprs f).1 p ts
  rw [h] at this
  simpa using (parse_length f).1 p (toks ts) e.erase (toks r) this.symm

theorem prefix_length {f t ts e r} (h : parsePrefix f t ts = .ok (e, r)) : r.length ≤ ts.length := by
  have := (erase_exprs f).2.1 t ts
  rw [h] at this
  simpa using (parse_length f).2.1 t.tok (toks ts) e.erase (toks r) this.symm

/-- An expression of binding strength more than `p` -/
def readExpr (p : Nat) (ts : List Token) : Res (Expr × List Token) := parseExprPrec (2 * ts.length + 2) p ts

/-- The first operand, after its first token -/
def readOperand (t : Token) (ts : List Token) : Res (Expr × List Token) := parsePrefix (2 * ts.length + 2) t ts

/-- The operators and operands after the first -/
def readMore (p : Nat) (l : Expr) (ts : List Token) : Res (Expr × List Token) := parseInfix (2 * ts.length + 1) p l ts

theorem parseExpr_eq (ts : List Token) : parseExpr ts = readExpr 0 ts := rfl

theorem readExpr_nil (p : Nat) : readExpr p [] = .err ⟨.unexpectedEof, .nowhere⟩ := by
  unfold readExpr; rw [List.length_nil, parseExprPrec]; rfl

theorem readExpr_cons (p : Nat) (t : Token) (ts : List Token) :
    readExpr p (t :: ts) = readOperand t ts >>= fun x => readMore p x.1 x.2 := by
  unfold readExpr readOperand
  rw [List.length_cons, show 2 * (ts.length + 1) + 2 = (2 * ts.length + 3) + 1 from by omega, parseExprPrec,
    prefix_mono (f := 2 * ts.length + 2) (prefix_no_loop (by omega)) (by omega)]
  cases h : parsePrefix (2 * ts.length + 2) t ts with
  | ok a =>
    have := prefix_length h
    exact infix_mono (infix_no_loop (by omega)) (by omega)
  | err _ => rfl
  | panic => rfl
  | loop => rfl

theorem readOperand_eq (t : Token) (ts : List Token) : readOperand t ts =
    match atomExpr t with
    | some e => .ok (e, ts)
    | none =>
      match prefixExpr t with
      | some f => readExpr prefixPrec ts >>= fun x => .ok (f x.1, x.2)
      | none =>
        if t.tok = .leftParen then
          readExpr 0 ts >>= fun x => consume .rightParen rightParenName x.2 >>= fun r => .ok (x.1, r)
        else .err ⟨.invalidExpression, .location t.start⟩ := by
  unfold readOperand readExpr
  rw [show 2 * ts.length + 2 = (2 * ts.length + 1) + 1 from by omega, parsePrefix,
    ← prec_mono (f := 2 * ts.length + 1) (g := 2 * ts.length + 1 + 1) (p := prefixPrec) (prec_no_loop (by omega)) (by omega),
    ← prec_mono (f := 2 * ts.length + 1) (g := 2 * ts.length + 1 + 1) (p := 0) (prec_no_loop (by omega)) (by omega)]
  rfl

theorem readMore_nil (p : Nat) (l : Expr) : readMore p l [] = .ok (l, []) := by
  unfold readMore; rw [parseInfix]

theorem readMore_cons (p : Nat) (l : Expr) (t : Token) (ts : List Token) : readMore p l (t :: ts) =
    if p < infixPrec t.tok then
      readExpr (infixPrec t.tok) ts >>= fun x =>
        match binaryExpr t.tok l x.1 with
        | some e => readMore p e x.2
        | none => .fail (.expectedTokenNotFound "Binary Operator".toList) t.span
    else .ok (l, t :: ts) := by
  unfold readMore readExpr
  rw [List.length_cons, show 2 * (ts.length + 1) + 1 = (2 * ts.length + 2) + 1 from by omega, parseInfix]
  by_cases hp : p < infixPrec t.tok
  · rw [if_pos hp, if_pos hp]
    cases h : parseExprPrec (2 * ts.length + 2) (infixPrec t.tok) ts with
    | ok a =>
      have := prec_length h
      show (match binaryExpr t.tok l a.1 with
        | some e => parseInfix (2 * ts.length + 2) p e a.2
        | none => .fail (.expectedTokenNotFound "Binary Operator".toList) t.span) =
        (match binaryExpr t.tok l a.1 with
        | some e => parseInfix (2 * a.2.length + 1) p e a.2
        | none => .fail (.expectedTokenNotFound "Binary Operator".toList) t.span)
      cases binaryExpr t.tok l a.1 with
      | none => rfl
      | some e => exact infix_mono (infix_no_loop (by omega)) (by omega)
    | err _ => rfl
    | panic => rfl
    | loop => rfl
  · rw [if_neg hp, if_neg hp]

end Verif.Located
