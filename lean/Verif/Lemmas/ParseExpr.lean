import Verif.Spec.Grammar
/-
The expression parser accepts exactly the grammar.
-/
namespace Verif
open Spec

/-- More fuel does not change a result. -/
theorem parse_mono (f : Nat) :
    (∀ p ts, parseExprPrec f p ts ≠ .loop → parseExprPrec (f + 1) p ts = parseExprPrec f p ts) ∧
    (∀ t ts, parsePrefix f t ts ≠ .loop → parsePrefix (f + 1) t ts = parsePrefix f t ts) ∧
    (∀ p l ts, parseInfix f p l ts ≠ .loop → parseInfix (f + 1) p l ts = parseInfix f p l ts) := by
  induction f with
  | zero =>
    refine ⟨?_, ?_, ?_⟩
    · intro p ts h; rw [parseExprPrec] at h; exact absurd rfl h
    · intro t ts h; rw [parsePrefix] at h; exact absurd rfl h
    · intro p l ts h; rw [parseInfix] at h; exact absurd rfl h
  | succ f ih =>
    obtain ⟨ih1, ih2, ih3⟩ := ih
    refine ⟨?_, ?_, ?_⟩
    · intro p ts h
      cases ts with
      | nil => simp [parseExprPrec]
      | cons tok ts =>
        rw [parseExprPrec] at h ⊢
        rw [parseExprPrec]
        have h1 : parsePrefix f tok ts ≠ .loop := fun e => h (by rw [e]; rfl)
        rw [ih2 _ _ h1]
        cases e : parsePrefix f tok ts with
        | ok a => 
          rw [e] at h
          exact ih3 _ _ _ h
        | err _ => rfl
        | panic => rfl
        | loop => rfl
    · intro tok ts h
      rw [parsePrefix] at h ⊢
      rw [parsePrefix]
      cases ea : atomExpr tok with
      | some e => rfl
      | none =>
        rw [ea] at h
        cases ep : prefixExpr tok with
        | some g =>
          rw [ep] at h
          have h1 : parseExprPrec f prefixPrec ts ≠ .loop := fun e => h (by simp [e])
          simp only [ih1 _ _ h1]
        | none =>
          rw [ep] at h
          by_cases hp : tok = .leftParen
          · simp only [hp, if_true] at h ⊢
            have h1 : parseExprPrec f 0 ts ≠ .loop := fun e => h (by simp [e])
            rw [ih1 _ _ h1]
          · simp only [hp, if_false]
    · intro p l ts h
      cases ts with
      | nil => simp [parseInfix]
      | cons tok ts =>
        rw [parseInfix] at h ⊢
        rw [parseInfix]
        by_cases hp : p < infixPrec tok
        · simp only [hp, if_true] at h ⊢
          have h1 : parseExprPrec f (infixPrec tok) ts ≠ .loop := fun e => h (by simp [e])
          rw [ih1 _ _ h1]
          cases e : parseExprPrec f (infixPrec tok) ts with
          | ok a =>
            rw [e] at h
            simp only [Res.ok_bind] at h ⊢
            cases eb : binaryExpr tok l a.1 with
            | some x =>
              simp only [eb] at h ⊢
              exact ih3 _ _ _ h
            | none => simp only
          | err _ => rfl
          | panic => rfl
          | loop => rfl
        · simp only [hp, if_false]

theorem parseExprPrec_mono {f g p ts} (h : parseExprPrec f p ts ≠ .loop) (hg : f ≤ g) :
    parseExprPrec g p ts = parseExprPrec f p ts := by
  induction hg with
  | refl => rfl
  | step _ ih => rw [(parse_mono _).1 _ _ (by rw [ih]; exact h), ih]

theorem parsePrefix_mono {f g t ts} (h : parsePrefix f t ts ≠ .loop) (hg : f ≤ g) :
    parsePrefix g t ts = parsePrefix f t ts := by
  induction hg with
  | refl => rfl
  | step _ ih => rw [(parse_mono _).2.1 _ _ (by rw [ih]; exact h), ih]

theorem parseInfix_mono {f g p l ts} (h : parseInfix f p l ts ≠ .loop) (hg : f ≤ g) :
    parseInfix g p l ts = parseInfix f p l ts := by
  induction hg with
  | refl => rfl
  | step _ ih => rw [(parse_mono _).2.2 _ _ _ (by rw [ih]; exact h), ih]

/-- The tokens left are no more than the tokens given; an expression has a token. -/
theorem parse_length (f : Nat) :
    (∀ p ts e r, parseExprPrec f p ts = .ok (e, r) → r.length < ts.length) ∧
    (∀ t ts e r, parsePrefix f t ts = .ok (e, r) → r.length ≤ ts.length) ∧
    (∀ p l ts e r, parseInfix f p l ts = .ok (e, r) → r.length ≤ ts.length) := by
  induction f with
  | zero => simp [parseExprPrec, parsePrefix, parseInfix]
  | succ f ih =>
    obtain ⟨ih1, ih2, ih3⟩ := ih
    refine ⟨?_, ?_, ?_⟩
    · intro p ts e r h
      cases ts with
      | nil => simp [parseExprPrec] at h
      | cons tok ts =>
        rw [parseExprPrec] at h
        obtain ⟨⟨l, ts'⟩, h1, h2⟩ := Res.bind_eq_ok.mp h
        have := ih2 _ _ _ _ h1
        have := ih3 _ _ _ _ _ h2
        simp only [List.length_cons]; omega
    · intro tok ts e r h
      rw [parsePrefix] at h
      split at h
      · cases h; exact Nat.le_refl _
      · split at h
        · obtain ⟨⟨x, ts'⟩, h1, h2⟩ := Res.bind_eq_ok.mp h
          cases h2
          exact Nat.le_of_lt (ih1 _ _ _ _ h1)
        · split at h
          · obtain ⟨⟨x, ts'⟩, h1, h2⟩ := Res.bind_eq_ok.mp h
            obtain ⟨ts'', h3, h4⟩ := Res.bind_eq_ok.mp h2
            cases h4
            have := ih1 _ _ _ _ h1
            cases ts' with
            | nil => simp [Toks.consume] at h3
            | cons y ys =>
              simp only [Toks.consume] at h3
              split at h3
              · cases h3; simp only [List.length_cons] at this; omega
              · cases h3
          · cases h
    · intro p l ts e r h
      cases ts with
      | nil => simp [parseInfix] at h; simp [h]
      | cons tok ts =>
        rw [parseInfix] at h
        split at h
        · obtain ⟨⟨x, ts'⟩, h1, h2⟩ := Res.bind_eq_ok.mp h
          have := ih1 _ _ _ _ h1
          dsimp only at h2
          split at h2
          · have := ih3 _ _ _ _ _ h2
            simp only [List.length_cons]; omega
          · cases h2
        · cases h; exact Nat.le_refl _

/-- Two steps per token are enough. -/
theorem parse_no_loop (f : Nat) :
    (∀ p ts, 2 * ts.length + 1 ≤ f → parseExprPrec f p ts ≠ .loop) ∧
    (∀ t ts, 2 * ts.length + 2 ≤ f → parsePrefix f t ts ≠ .loop) ∧
    (∀ p l ts, 2 * ts.length + 1 ≤ f → parseInfix f p l ts ≠ .loop) := by
  induction f with
  | zero => refine ⟨?_, ?_, ?_⟩ <;> intros <;> omega
  | succ f ih =>
    obtain ⟨ih1, ih2, ih3⟩ := ih
    refine ⟨?_, ?_, ?_⟩
    · intro p ts hf h
      cases ts with
      | nil => simp [parseExprPrec] at h
      | cons tok ts =>
        rw [parseExprPrec] at h
        simp only [List.length_cons] at hf
        rcases Res.bind_eq_loop.mp h with h1 | ⟨⟨l, ts'⟩, h1, h2⟩
        · exact ih2 _ _ (by omega) h1
        · have := (parse_length f).2.1 _ _ _ _ h1
          exact ih3 _ _ _ (by omega) h2
    · intro tok ts hf h
      rw [parsePrefix] at h
      split at h
      · cases h
      · split at h
        · rcases Res.bind_eq_loop.mp h with h1 | ⟨⟨x, ts'⟩, h1, h2⟩
          · exact ih1 _ _ (by omega) h1
          · cases h2
        · split at h
          · rcases Res.bind_eq_loop.mp h with h1 | ⟨⟨x, ts'⟩, h1, h2⟩
            · exact ih1 _ _ (by omega) h1
            · rcases Res.bind_eq_loop.mp h2 with h3 | ⟨_, _, h4⟩
              · cases ts' with
                | nil => simp [Toks.consume] at h3
                | cons y ys => simp only [Toks.consume] at h3; split at h3 <;> cases h3
              · cases h4
          · cases h
    · intro p l ts hf h
      cases ts with
      | nil => simp [parseInfix] at h
      | cons tok ts =>
        rw [parseInfix] at h
        simp only [List.length_cons] at hf
        split at h
        · rcases Res.bind_eq_loop.mp h with h1 | ⟨⟨x, ts'⟩, h1, h2⟩
          · exact ih1 _ _ (by omega) h1
          · have := (parse_length f).1 _ _ _ _ h1
            dsimp only at h2
            split at h2
            · exact ih3 _ _ _ (by omega) h2
            · cases h2
        · cases h

theorem parse_no_panic (f : Nat) :
    (∀ p ts, parseExprPrec f p ts ≠ .panic) ∧
    (∀ t ts, parsePrefix f t ts ≠ .panic) ∧
    (∀ p l ts, parseInfix f p l ts ≠ .panic) := by
  induction f with
  | zero => simp [parseExprPrec, parsePrefix, parseInfix]
  | succ f ih =>
    obtain ⟨ih1, ih2, ih3⟩ := ih
    refine ⟨?_, ?_, ?_⟩
    · intro p ts h
      cases ts with
      | nil => simp [parseExprPrec] at h
      | cons tok ts =>
        rw [parseExprPrec] at h
        rcases Res.bind_eq_panic.mp h with h1 | ⟨⟨l, ts'⟩, h1, h2⟩
        · exact ih2 _ _ h1
        · exact ih3 _ _ _ h2
    · intro tok ts h
      rw [parsePrefix] at h
      split at h
      · cases h
      · split at h
        · rcases Res.bind_eq_panic.mp h with h1 | ⟨⟨x, ts'⟩, h1, h2⟩
          · exact ih1 _ _ h1
          · cases h2
        · split at h
          · rcases Res.bind_eq_panic.mp h with h1 | ⟨⟨x, ts'⟩, h1, h2⟩
            · exact ih1 _ _ h1
            · rcases Res.bind_eq_panic.mp h2 with h3 | ⟨_, _, h4⟩
              · cases ts' with
                | nil => simp [Toks.consume] at h3
                | cons y ys => simp only [Toks.consume] at h3; split at h3 <;> cases h3
              · cases h4
          · cases h
    · intro p l ts h
      cases ts with
      | nil => simp [parseInfix] at h
      | cons tok ts =>
        rw [parseInfix] at h
        split at h
        · rcases Res.bind_eq_panic.mp h with h1 | ⟨⟨x, ts'⟩, h1, h2⟩
          · exact ih1 _ _ h1
          · dsimp only at h2
            split at h2
            · exact ih3 _ _ _ h2
            · cases h2
        · cases h

/-! ### The grammar -/

/-- The precedence of the operators of a level. -/
def low : Level → Nat
  | .bitwise => 1
  | .sum => 3
  | .product => 4
  | .unary => 7
  | .atom => 8

theorem low_tighter (lv : Level) (h : lv ≠ .atom) : low lv < low lv.tighter := by
  cases lv <;> simp_all [low, Level.tighter]

theorem low_le_tighter (lv : Level) : low lv ≤ low lv.tighter := by
  cases lv <;> simp_all [low, Level.tighter]

theorem binOp_prec {t lv f} (h : BinOp t lv f) : infixPrec t = low lv := by cases h <;> rfl

theorem binOp_expr {t lv f} (h : BinOp t lv f) (l r : Expr) : binaryExpr t l r = some (f l r) := by cases h <;> rfl

theorem binOp_level {t lv f} (h : BinOp t lv f) : low lv ≤ 4 ∧ 0 < low lv ∧ lv ≠ .atom := by
  cases h <;> simp [low]

theorem prec_binOp {t : Tok} (h : 0 < infixPrec t) : ∃ lv f, BinOp t lv f := by
  cases t <;> simp [infixPrec] at h
  · exact ⟨_, _, .band⟩
  · exact ⟨_, _, .bxor⟩
  · exact ⟨_, _, .bor⟩
  · exact ⟨_, _, .plus⟩
  · exact ⟨_, _, .times⟩
  · exact ⟨_, _, .minus⟩
  · exact ⟨_, _, .divide⟩

theorem infixPrec_le (t : Tok) : infixPrec t ≤ 4 := by cases t <;> simp [infixPrec]

theorem preOp_iff {t f} : prefixExpr t = some f ↔ PreOp t f := by
  constructor
  · intro h
    cases t <;> simp [prefixExpr] at h <;> subst h <;> constructor
  · intro h; cases h <;> rfl

theorem atom_iff {t e} : atomExpr t = some e ↔ AtomTok t e := by
  constructor
  · intro h
    cases t <;> simp [atomExpr] at h <;> subst h <;> constructor
  · intro h; cases h <;> rfl

theorem preOp_not_atom {t f} (h : PreOp t f) : atomExpr t = none := by cases h <;> rfl

/-- A tighter sentence is a sentence. -/
theorem Spec.Sentence.loosen {a b w e} (h : Sentence b w e) (hl : low a ≤ low b) : Sentence a w e := by
  have key : ∀ n a, low b = low a + n → Sentence a w e := by
    intro n
    induction n using Nat.strongRecOn with
    | ind n ih =>
      intro a hn
      by_cases e0 : n = 0
      · have : a = b := by
          subst e0
          cases a <;> cases b <;> simp [low] at hn <;> rfl
        exact this ▸ h
      · have ha : a ≠ .atom := by
          rintro rfl
          cases b <;> simp [low] at hn <;> omega
        have h1 := low_tighter a ha
        have h2 : low a.tighter ≤ low b := by
          cases a <;> cases b <;> simp_all [low, Level.tighter] <;> omega
        exact .tight (ih (low b - low a.tighter) (by omega) _ (by omega))
  exact key (low b - low a) a (by omega)

/-- How tight the first token binds. -/
def headPrec : List Tok → Nat
  | [] => 0
  | t :: _ => infixPrec t

theorem headPrec_le (ts : List Tok) : headPrec ts ≤ 4 := by
  cases ts <;> simp [headPrec, infixPrec_le]

theorem noOperator_iff {rest : List Tok} : NoOperator rest ↔ headPrec rest = 0 := by
  constructor
  · intro h
    cases rest with
    | nil => rfl
    | cons t ts =>
      by_cases e : 0 < infixPrec t
      · obtain ⟨lv, f, hb⟩ := prec_binOp e
        exact absurd hb (h t ts lv f rfl)
      · simp [headPrec]; omega
  · rintro h t ts lv f rfl hb
    have := binOp_prec hb
    have := (binOp_level hb).2.1
    simp [headPrec] at h; omega

theorem parseInfix_stop {f p e rest} (h : headPrec rest ≤ p) : parseInfix (f + 1) p e rest = .ok (e, rest) := by
  cases rest with
  | nil => rfl
  | cons t ts =>
    rw [parseInfix, if_neg]
    simpa [headPrec, Nat.not_lt] using h

/-- Completeness: after the tokens of a sentence the parser is in its loop, with the tree so far. -/
theorem sentence_complete {lv w e} (h : Sentence lv w e) :
    ∀ p rest r, p < low lv → headPrec rest ≤ low lv → r ≠ .loop →
      (∃ f, parseInfix f p e rest = r) → ∃ f, parseExprPrec f p (w ++ rest) = r := by
  induction h with
  | @atom t e ha =>
    rintro p rest r _ _ hr ⟨f, hf⟩
    refine ⟨f + 2, ?_⟩
    simp only [List.singleton_append]
    rw [parseExprPrec, parsePrefix, atom_iff.mpr ha]
    show parseInfix (f + 1) p e rest = r
    rw [parseInfix_mono (hf ▸ hr) (Nat.le_succ f), hf]
  | @paren w e _ ih =>
    rintro p rest r _ _ hr ⟨f, hf⟩
    obtain ⟨g, hg⟩ := ih 0 (.rightParen :: rest) (.ok (e, .rightParen :: rest)) (by simp [low])
      (by simp [headPrec, infixPrec]) (by simp) ⟨1, parseInfix_stop (by simp [headPrec, infixPrec])⟩
    refine ⟨f + g + 2, ?_⟩
    simp only [List.cons_append, List.append_assoc, List.nil_append]
    rw [parseExprPrec, parsePrefix]
    have h1 : parseExprPrec (f + g) 0 (w ++ .rightParen :: rest) = .ok (e, .rightParen :: rest) := by
      rw [parseExprPrec_mono (f := g) (by rw [hg]; simp) (by omega), hg]
    simp only [atomExpr, prefixExpr, if_true, h1, Res.ok_bind, Toks.consume]
    rw [parseInfix_mono (f := f) (hf ▸ hr) (by omega), hf]
  | @pre t g w e hp _ ih =>
    rintro p rest r _ _ hr ⟨f, hf⟩
    obtain ⟨k, hk⟩ := ih 6 rest (.ok (e, rest)) (by simp [low])
      (by have := headPrec_le rest; simp only [low]; omega) (by simp)
      ⟨1, parseInfix_stop (by have := headPrec_le rest; omega)⟩
    refine ⟨f + k + 2, ?_⟩
    simp only [List.cons_append]
    rw [parseExprPrec, parsePrefix]
    have h1 : parseExprPrec (f + k) prefixPrec (w ++ rest) = .ok (e, rest) := by
      rw [prefixPrec, parseExprPrec_mono (f := k) (by rw [hk]; simp) (by omega), hk]
    simp only [preOp_not_atom hp, preOp_iff.mpr hp, h1, Res.ok_bind]
    rw [parseInfix_mono (f := f) (hf ▸ hr) (by omega), hf]
  | @binary t lv g w l w' x hb _ _ ih1 ih2 =>
    rintro p rest r hp hrest hr ⟨f, hf⟩
    have hq := binOp_prec hb
    have hlt := low_tighter lv (binOp_level hb).2.2
    rw [List.append_assoc]
    obtain ⟨k, hk⟩ := ih2 (infixPrec t) rest (.ok (x, rest)) (by omega) (by omega) (by simp)
      ⟨1, parseInfix_stop (by omega)⟩
    apply ih1 p _ r hp (by simp [headPrec, hq]) hr
    refine ⟨f + k + 1, ?_⟩
    simp only [List.cons_append]
    rw [parseInfix, if_pos (by omega)]
    have h1 : parseExprPrec (f + k) (infixPrec t) (w' ++ rest) = .ok (x, rest) := by
      rw [parseExprPrec_mono (f := k) (by rw [hk]; simp) (by omega), hk]
    simp only [h1, Res.ok_bind, binOp_expr hb]
    rw [parseInfix_mono (f := f) (hf ▸ hr) (by omega), hf]
  | @tight lv w e _ ih =>
    intro p rest r hp hrest hr hf
    have := low_le_tighter lv
    exact ih p rest r (by omega) (by omega) hr hf

/-- Soundness. -/
theorem sentence_sound (f : Nat) :
    (∀ p ts e rest, p < 7 → parseExprPrec f p ts = .ok (e, rest) →
      ∃ lv w, ts = w ++ rest ∧ Sentence lv w e ∧ p < low lv ∧ headPrec rest ≤ p) ∧
    (∀ t ts e rest, parsePrefix f t ts = .ok (e, rest) →
      ∃ w, t :: ts = w ++ rest ∧ Sentence .unary w e) ∧
    (∀ p l ts e rest, parseInfix f p l ts = .ok (e, rest) →
      ∀ lv wl, Sentence lv wl l → p < low lv → headPrec ts ≤ low lv →
      ∃ lv' w, wl ++ ts = w ++ rest ∧ Sentence lv' w e ∧ p < low lv' ∧ headPrec rest ≤ p) := by
  induction f with
  | zero => 
    refine ⟨?_, ?_, ?_⟩
    · intro p ts e r _ h; rw [parseExprPrec] at h; cases h
    · intro t ts e r h; rw [parsePrefix] at h; cases h
    · intro p l ts e r h; rw [parseInfix] at h; cases h
  | succ f ih =>
    obtain ⟨ih1, ih2, ih3⟩ := ih
    refine ⟨?_, ?_, ?_⟩
    · intro p ts e rest hp h
      cases ts with
      | nil => simp [parseExprPrec] at h
      | cons tok ts =>
        rw [parseExprPrec] at h
        obtain ⟨⟨l, ts'⟩, h1, h2⟩ := Res.bind_eq_ok.mp h
        obtain ⟨w, hw, hs⟩ := ih2 _ _ _ _ h1
        dsimp only at h2
        obtain ⟨lv', w', e', hs', h3, h4⟩ := ih3 _ _ _ _ _ h2 .unary w hs hp
          (by have := headPrec_le ts'; simp only [low]; omega)
        exact ⟨lv', w', hw ▸ e', hs', h3, h4⟩
    · intro tok ts e rest h
      rw [parsePrefix] at h
      split at h
      next x hx =>
        cases h
        exact ⟨[tok], rfl, .tight (.atom (atom_iff.mp hx))⟩
      next hx =>
        split at h
        next g hg =>
          obtain ⟨⟨x, ts'⟩, h1, h2⟩ := Res.bind_eq_ok.mp h
          cases h2
          obtain ⟨lv, w, hw, hs, hp, _⟩ := ih1 _ _ _ _ (by decide) h1
          exact ⟨tok :: w, by rw [hw]; rfl, .pre (preOp_iff.mp hg) (hs.loosen (by simp only [low, prefixPrec] at hp ⊢; omega))⟩
        next hg =>
          split at h
          next hpar =>
            obtain ⟨⟨x, ts'⟩, h1, h2⟩ := Res.bind_eq_ok.mp h
            obtain ⟨ts'', h3, h4⟩ := Res.bind_eq_ok.mp h2
            cases h4
            obtain ⟨lv, w, hw, hs, hp, _⟩ := ih1 _ _ _ _ (by decide) h1
            cases ts' with
            | nil => simp [Toks.consume] at h3
            | cons y ys =>
              simp only [Toks.consume] at h3
              split at h3
              next hy =>
                cases h3
                subst hy hpar hw
                have hb : Sentence .bitwise w e := hs.loosen (by cases lv <;> simp [low])
                have ha : Sentence .atom (Tok.leftParen :: (w ++ [Tok.rightParen])) e := .paren hb
                exact ⟨Tok.leftParen :: (w ++ [Tok.rightParen]), by simp, .tight ha⟩
              next => cases h3
          next => cases h
    · intro p l ts e rest h lv wl hl hp hh
      cases ts with
      | nil =>
        simp only [parseInfix, Res.ok.injEq, Prod.mk.injEq] at h
        obtain ⟨rfl, rfl⟩ := h
        exact ⟨lv, wl, rfl, hl, hp, by simp [headPrec]⟩
      | cons tok ts =>
        rw [parseInfix] at h
        split at h
        next hlt =>
          obtain ⟨⟨x, ts'⟩, h1, h2⟩ := Res.bind_eq_ok.mp h
          dsimp only at h2
          obtain ⟨lv1, g, hb⟩ := prec_binOp (t := tok) (by omega)
          rw [binOp_expr hb] at h2
          have hq := binOp_prec hb
          obtain ⟨lv2, w2, hw2, hs2, hp2, hr2⟩ := ih1 _ _ _ _ (by have := infixPrec_le tok; omega) h1
          have hnew : Sentence lv1 (wl ++ tok :: w2) (g l x) := by
            refine .binary hb (hl.loosen ?_) (hs2.loosen ?_)
            · simp only [headPrec] at hh; omega
            · rw [hq] at hp2
              cases lv1 <;> cases lv2 <;> simp_all [low, Level.tighter]
          obtain ⟨lv', w', hw', hs', hp', hr'⟩ := ih3 _ _ _ _ _ h2 lv1 _ hnew (by omega) (by omega)
          refine ⟨lv', w', ?_, hs', hp', hr'⟩
          rw [← hw', hw2]; simp
        next hlt =>
          cases h
          exact ⟨lv, wl, rfl, hl, hp, by simp only [headPrec]; omega⟩

/-- The expression parser reads exactly the sentences that no operator follows. -/
theorem parseExpr_iff {ts e rest} :
    parseExpr ts = .ok (e, rest) ↔ ∃ w, ts = w ++ rest ∧ ExprSyntax w e ∧ NoOperator rest := by
  constructor
  · intro h
    obtain ⟨lv, w, hw, hs, _, hr⟩ := (sentence_sound _).1 _ _ _ _ (by decide) h
    exact ⟨w, hw, hs.loosen (by cases lv <;> simp [low]), noOperator_iff.mpr (by omega)⟩
  · rintro ⟨w, rfl, hs, hn⟩
    have h0 := noOperator_iff.mp hn
    obtain ⟨f, hf⟩ := sentence_complete hs 0 rest (.ok (e, rest)) (by simp [low]) (by omega) (by simp)
      ⟨1, parseInfix_stop (by omega)⟩
    have h1 : parseExprPrec f 0 (w ++ rest) ≠ .loop := by rw [hf]; simp
    have h2 := (parse_no_loop (2 * (w ++ rest).length + 2)).1 0 (w ++ rest) (by omega)
    show parseExprPrec _ _ _ = _
    rcases Nat.le_total f (2 * (w ++ rest).length + 2) with h | h
    · rw [parseExprPrec_mono h1 h, hf]
    · rw [← parseExprPrec_mono h2 h, hf]

theorem parseExpr_not_loop (ts) : parseExpr ts ≠ .loop := (parse_no_loop _).1 _ _ (by omega)

theorem parseExpr_not_panic (ts) : parseExpr ts ≠ .panic := (parse_no_panic _).1 _ _

theorem parseExpr_length {ts e rest} (h : parseExpr ts = .ok (e, rest)) : rest.length < ts.length :=
  (parse_length _).1 _ _ _ _ h

/-- A sentence has one reading. -/
theorem exprSyntax_unique {w e e'} (h : ExprSyntax w e) (h' : ExprSyntax w e') : e = e' := by
  have nil : NoOperator [] := by intro t ts lv f e; cases e
  have a := parseExpr_iff.mpr ⟨w, (List.append_nil w).symm, h, nil⟩
  have b := parseExpr_iff.mpr ⟨w, (List.append_nil w).symm, h', nil⟩
  rw [a] at b
  simpa using b

theorem rank_low {a b : Level} : a.rank ≤ b.rank ↔ low a ≤ low b := by
  cases a <;> cases b <;> simp [Level.rank, low]

/-- The tokens written for an expression are a sentence of its level. -/
theorem written_sentence (e : Expr) : Sentence (levelOf e) (written e) e := by
  have br : ∀ (x : Expr) (lv : Level), Sentence (levelOf x) (written x) x → Sentence lv (bracket lv x (written x)) x := by
    intro x lv h
    unfold bracket
    split
    · have hb : Sentence .bitwise (written x) x := h.loosen (by cases levelOf x <;> simp [low])
      exact (Sentence.paren hb).loosen (by cases lv <;> simp [low])
    · exact h.loosen (rank_low.mp (by omega))
  induction e with
  | name n => exact .atom .name
  | number v r => exact .atom .number
  | macroLabel n => exact .atom .label
  | macroArg n => exact .atom .param
  | plus l r hl hr => exact .binary .plus (br l _ hl) (br r _ hr)
  | minus l r hl hr => exact .binary .minus (br l _ hl) (br r _ hr)
  | times l r hl hr => exact .binary .times (br l _ hl) (br r _ hr)
  | divide l r hl hr => exact .binary .divide (br l _ hl) (br r _ hr)
  | bxor l r hl hr => exact .binary .bxor (br l _ hl) (br r _ hr)
  | band l r hl hr => exact .binary .band (br l _ hl) (br r _ hr)
  | bor l r hl hr => exact .binary .bor (br l _ hl) (br r _ hr)
  | uminus e he => exact .pre .minus (br e _ he)
  | upperByte e he => exact .pre .upper (br e _ he)
  | lowerByte e he => exact .pre .lower (br e _ he)

theorem written_syntax (e : Expr) : ExprSyntax (written e) e :=
  (written_sentence e).loosen (by cases levelOf e <;> simp [low])

end Verif
