import Verif.Spec.Syntax
import Verif.Lemmas.Located.EraseParse
import Verif.Lemmas.ParseLine
/-
Reading from left to right: what a parsing function does depends on the tokens it has read and on the next one.
-/
namespace Verif.Located
open Verif.Spec Verif.Spec.Syntax

variable {α β : Type}

theorem may_prec {x : Err} {t : Tok} (h : ¬ May x t) : infixPrec t = 0 := by
  cases t with
  | plus => exact (h (.operator .plus)).elim
  | minus => exact (h (.operator .minus)).elim
  | times => exact (h (.operator .times)).elim
  | divide => exact (h (.operator .divide)).elim
  | caret => exact (h (.operator .bxor)).elim
  | ampersand => exact (h (.operator .band)).elim
  | pipe => exact (h (.operator .bor)).elim
  | _ => rfl

/-- A token that is none of the end of the file, the word `equ` and a colon -/
abbrev Ordinary (t : Tok) : Prop := t ≠ .eof ∧ t ≠ .name "equ".toList ∧ t ≠ .colon

/-- After the tokens `w` a token with `Q` can follow so that reading goes on to an end. -/
def Goes (f : List Token → Res (α × List Token)) (F : List Token → Prop) (w : List Token) (Q : Tok → Prop) : Prop :=
  ∃ m ms a, Q m.tok ∧ infixPrec m.tok = 0 ∧ Ordinary m.tok ∧ ∀ rest, F rest → f (w ++ m :: ms ++ rest) = .ok (a, rest)

/-- After the tokens `w` only such tokens can follow that can stand where the error `x` says something is missing. -/
def Only (f : List Token → Res (α × List Token)) (w : List Token) (x : Err) : Prop :=
  ∀ t rest, ¬ May x t.tok → ∃ e, f (w ++ t :: rest) = .err e

/-- What an outcome of `f` for the tokens `ts` says about other tokens -/
def SteadyRes (f : List Token → Res (α × List Token)) (F : List Token → Prop) (ts : List Token) :
    Res (α × List Token) → Prop
  | .ok (a, rest) => ∃ w, ts = w ++ rest ∧ ∀ rest', rest'.head? = rest.head? ∨ F rest' → f (w ++ rest') = .ok (a, rest')
  | .err ⟨x, p⟩ =>
    (x = .unexpectedEof ∧ p = .nowhere ∧ Goes f F ts fun _ => True) ∨
    ∃ w t rest, ts = w ++ t :: rest ∧ p = about x t ∧ (∀ rest', f (w ++ t :: rest') = .err ⟨x, p⟩) ∧ Only f w x ∧
      Goes f F w (Wanted x)
  | .panic => False
  | .loop => False

/-- What a function reads, and the token it fails at, do not depend on what follows, if the next token is the same or one
that may always follow (`F`). -/
def SteadyAt (f : List Token → Res (α × List Token)) (F : List Token → Prop) (ts : List Token) : Prop :=
  SteadyRes f F ts (f ts)

/-- A token that is no binary operator may follow. -/
def Neutral (F : List Token → Prop) : Prop := ∀ t r, infixPrec t.tok = 0 → F (t :: r)

/-- There is something the function reads to the end. -/
def Sample (f : List Token → Res (α × List Token)) (F : List Token → Prop) : Prop :=
  ∃ m ms a, infixPrec m.tok = 0 ∧ Ordinary m.tok ∧ ∀ rest, F rest → f (m :: ms ++ rest) = .ok (a, rest)

theorem Sample.goes {f : List Token → Res (α × List Token)} {F} (h : Sample f F) : Goes f F [] fun _ => True := by
  obtain ⟨m, ms, a, h1, h2, h3⟩ := h
  exact ⟨m, ms, a, trivial, h1, h2, h3⟩

theorem SteadyAt.congr {f g : List Token → Res (α × List Token)} {F ts} (h : SteadyAt f F ts) (he : ∀ ts, f ts = g ts) :
    SteadyAt g F ts := by
  have : f = g := funext he
  rw [← this]; exact h

theorem SteadyAt.eof {f : List Token → Res (α × List Token)} {F} (h : f [] = .err ⟨.unexpectedEof, .nowhere⟩)
    (hs : Sample f F) : SteadyAt f F [] := by
  unfold SteadyAt
  rw [h]
  exact .inl ⟨rfl, rfl, hs.goes⟩

theorem SteadyAt.token {f : List Token → Res (α × List Token)} {F t ts x}
    (h : ∀ r, f (t :: r) = .err ⟨x, about x t⟩) (ho : ∀ m r, ¬ May x m.tok → ∃ e, f (m :: r) = .err e)
    (hg : Goes f F [] (Wanted x)) : SteadyAt f F (t :: ts) := by
  unfold SteadyAt
  rw [h]
  exact .inr ⟨[], t, ts, rfl, rfl, h, ho, hg⟩

theorem SteadyAt.stop {f : List Token → Res (α × List Token)} {F ts a}
    (h : ∀ r, r.head? = ts.head? ∨ F r → f r = .ok (a, r)) : SteadyAt f F ts := by
  unfold SteadyAt
  rw [h _ (.inl rfl)]
  exact ⟨[], rfl, h⟩

/-- After a first token -/
theorem SteadyAt.cons {f g : List Token → Res (α × List Token)} {F t ts} (h : ∀ r, f (t :: r) = g r)
    (hg : SteadyAt g F ts) : SteadyAt f F (t :: ts) := by
  unfold SteadyAt at hg ⊢
  rw [h]
  generalize g ts = r at hg
  match r, hg with
  | .ok (a, rest), ⟨w, e, hw⟩ =>
    exact ⟨t :: w, by rw [e]; rfl, fun rest' hr => by rw [List.cons_append, h, hw _ hr]⟩
  | .err ⟨x, p⟩, .inl ⟨e1, e2, m, ms, a, h1, h2, h3, h4⟩ =>
    refine .inl ⟨e1, e2, m, ms, a, h1, h2, h3, fun rest hr => ?_⟩
    rw [List.cons_append, List.cons_append, h]
    exact h4 _ hr
  | .err ⟨x, p⟩, .inr ⟨w, u, rest, e, hp, hs, ho, m, ms, a, h1, h2, h3, h4⟩ =>
    refine .inr ⟨t :: w, u, rest, by rw [e]; rfl, hp, fun rest' => by rw [List.cons_append, h, hs],
      fun m r hm => by rw [List.cons_append, h]; exact ho m r hm, m, ms, a, h1, h2, h3, fun rest hr => ?_⟩
    rw [List.cons_append, List.cons_append, h]
    exact h4 _ hr

/-- A function that does as another for this first token, and for the tokens that might stand there -/
theorem SteadyAt.head {f g : List Token → Res (α × List Token)} {F t ts} (hg : SteadyAt g F (t :: ts)) (hF : F [])
    (h : ∀ r, f (t :: r) = g (t :: r))
    (hne : (∀ a, g (t :: ts) ≠ .ok (a, t :: ts)) ∨ ∀ r, F r → f r = g r)
    (hm : ∀ m x r a r', Wanted x m.tok → infixPrec m.tok = 0 → Ordinary m.tok → g (m :: r) = .ok (a, r') →
      ∀ r, f (m :: r) = g (m :: r))
    (hno : ∀ x, (∀ r, g (t :: r) = .err ⟨x, about x t⟩) → ∀ m r, ¬ May x m.tok → f (m :: r) = g (m :: r)) :
    SteadyAt f F (t :: ts) := by
  unfold SteadyAt at hg ⊢
  rw [h]
  generalize g (t :: ts) = r at hg hne
  match r, hg with
  | .ok (a, rest), ⟨[], e, hw⟩ =>
    rcases hne with hne | hne
    · exact absurd (by rw [e]; rfl) (hne a)
    · rw [List.nil_append] at e
      refine ⟨[], e, fun rest' hr => ?_⟩
      have hgr := hw rest' hr
      rw [List.nil_append] at hgr ⊢
      rcases hr with hr | hr
      · rw [← e] at hr
        cases rest' with
        | nil => cases hr
        | cons v rest' =>
          injection hr with hr
          rw [hr, h, ← hr]
          exact hgr
      · rw [hne _ hr]
        exact hgr
  | .ok (a, rest), ⟨v :: w, e, hw⟩ =>
    injection e with e1 e2
    subst e1
    exact ⟨t :: w, by rw [e2]; rfl, fun rest' hr => by rw [List.cons_append, h, ← List.cons_append, hw _ hr]⟩
  | .err ⟨x, p⟩, .inl ⟨e1, e2, m, ms, a, h1, h2, h3, h4⟩ =>
    refine .inl ⟨e1, e2, m, ms, a, h1, h2, h3, fun rest hr => ?_⟩
    rw [List.cons_append, List.cons_append, h]
    exact h4 _ hr
  | .err ⟨x, p⟩, .inr ⟨[], u, rest, e, hp, hs, ho, m, ms, a, h1, h2, h3, h4⟩ =>
    injection e with e1 e2
    subst e1
    refine .inr ⟨[], t, rest, by rw [e2]; rfl, hp, fun rest' => by rw [List.nil_append, h]; exact hs rest',
      fun m r hm => by rw [List.nil_append, hno x (hp ▸ hs) m r hm]; exact ho m r hm, m, ms, a, h1, h2, h3,
      fun rest hr => ?_⟩
    have := h4 _ hF
    rw [List.nil_append, List.cons_append] at this ⊢
    rw [hm m x _ _ _ h1 h2 h3 this]
    exact h4 _ hr
  | .err ⟨x, p⟩, .inr ⟨v :: w, u, rest, e, hp, hs, ho, m, ms, a, h1, h2, h3, h4⟩ =>
    injection e with e1 e2
    subst e1
    refine .inr ⟨t :: w, u, rest, by rw [e2]; rfl, hp, fun rest' => by rw [List.cons_append, h]; exact hs rest',
      fun m r hm => by rw [List.cons_append, h]; exact ho m r hm, m, ms, a, h1, h2, h3, fun rest hr => ?_⟩
    rw [List.cons_append, List.cons_append, h]
    exact h4 _ hr

theorem SteadyAt.empty {f g : List Token → Res (α × List Token)} {F} (hg : SteadyAt g F []) (h0 : f [] = g [])
    (hF : ∀ r, F r → f r = g r) (hm : ∀ m r, Ordinary m.tok → f (m :: r) = g (m :: r)) : SteadyAt f F [] := by
  unfold SteadyAt at hg ⊢
  rw [h0]
  generalize g [] = r at hg
  match r, hg with
  | .ok (a, rest), ⟨w, e, hw⟩ =>
    obtain ⟨rfl, rfl⟩ := List.append_eq_nil_iff.mp e.symm
    refine ⟨[], rfl, fun rest' hr => ?_⟩
    rw [List.nil_append]
    rcases hr with hr | hr
    · cases rest' with
      | nil => rw [h0]; exact hw [] (.inl rfl)
      | cons _ _ => cases hr
    · rw [hF _ hr]; exact hw _ (.inr hr)
  | .err ⟨x, p⟩, .inl ⟨e1, e2, m, ms, a, h1, h2, h3, h4⟩ =>
    refine .inl ⟨e1, e2, m, ms, a, h1, h2, h3, fun rest hr => ?_⟩
    rw [List.nil_append, List.cons_append, hm _ _ h3]
    exact h4 _ hr
  | .err ⟨x, p⟩, .inr ⟨w, u, rest, e, _⟩ => cases w <;> cases e

theorem SteadyAt.map {f : List Token → Res (α × List Token)} {F ts} (hf : SteadyAt f F ts) (k : α → β) :
    SteadyAt (fun ts => f ts >>= fun x => .ok (k x.1, x.2)) F ts := by
  unfold SteadyAt at hf ⊢
  dsimp only
  generalize hr : f ts = r at hf
  match r, hf with
  | .ok (a, rest), ⟨w, e, hw⟩ =>
    exact ⟨w, e, fun rest' hr => by dsimp only; rw [hw _ hr]; rfl⟩
  | .err ⟨x, p⟩, .inl ⟨e1, e2, m, ms, a, h1, h2, h3, h4⟩ =>
    exact .inl ⟨e1, e2, m, ms, k a, h1, h2, h3, fun rest hr => by dsimp only; rw [h4 _ hr]; rfl⟩
  | .err ⟨x, p⟩, .inr ⟨w, u, rest, e, hp, hs, ho, m, ms, a, h1, h2, h3, h4⟩ =>
    exact .inr ⟨w, u, rest, e, hp, fun rest' => by dsimp only; rw [hs]; rfl, fun m r hm => by
      obtain ⟨y, hy⟩ := ho m r hm
      exact ⟨y, by dsimp only; rw [hy]; rfl⟩, m, ms, k a, h1, h2, h3, fun rest hr => by dsimp only; rw [h4 _ hr]; rfl⟩

/-- One function after another -/
theorem SteadyAt.bind {f : List Token → Res (α × List Token)} {g : α → List Token → Res (β × List Token)} {F G ts}
    (hf : SteadyAt f F ts) (hn : Neutral F)
    (hg : ∀ a rest, f ts = .ok (a, rest) → SteadyAt (g a) G rest)
    (hs : ∀ a, ∃ w b, ∀ rest, G rest → F (w ++ rest) ∧ g a (w ++ rest) = .ok (b, rest))
    (h0 : ∀ a b rest, G rest → g a rest = .ok (b, rest) → F rest) :
    SteadyAt (fun ts => f ts >>= fun x => g x.1 x.2) G ts := by
  unfold SteadyAt at hf ⊢
  dsimp only
  generalize hr : f ts = r at hf
  match r, hf with
  | .err ⟨x, p⟩, .inl ⟨e1, e2, m, ms, a, h1, h2, h3, h4⟩ =>
    obtain ⟨w', b, hw'⟩ := hs a
    refine .inl ⟨e1, e2, m, ms ++ w', b, h1, h2, h3, fun rest hr => ?_⟩
    have := h4 (w' ++ rest) (hw' rest hr).1
    simp only [List.append_assoc, List.cons_append] at this ⊢
    rw [this]
    exact (hw' rest hr).2
  | .err ⟨x, p⟩, .inr ⟨w, u, rest, e, hp, hs', ho, m, ms, a, h1, h2, h3, h4⟩ =>
    obtain ⟨w', b, hw'⟩ := hs a
    refine .inr ⟨w, u, rest, e, hp, fun rest' => by dsimp only; rw [hs']; rfl, fun m r hm => by
      obtain ⟨y, hy⟩ := ho m r hm
      exact ⟨y, by dsimp only; rw [hy]; rfl⟩, m, ms ++ w', b, h1, h2, h3, fun rest hr => ?_⟩
    have := h4 (w' ++ rest) (hw' rest hr).1
    simp only [List.append_assoc, List.cons_append] at this ⊢
    rw [this]
    exact (hw' rest hr).2
  | .ok (a, rest), ⟨w, e, hw⟩ =>
    have hga := hg a rest hr
    unfold SteadyAt at hga
    show SteadyRes _ G ts (g a rest)
    generalize hr2 : g a rest = r2 at hga
    match r2, hga with
    | .ok (b, rest2), ⟨w2, e2, hw2⟩ =>
      refine ⟨w ++ w2, by rw [e, e2, List.append_assoc], fun rest' hr' => ?_⟩
      have hF' : (w2 ++ rest').head? = rest.head? ∨ F (w2 ++ rest') := by
        cases w2 with
        | nil =>
          rcases hr' with hr' | hr'
          · rw [e2]; exact .inl hr'
          · exact .inr (h0 a b _ hr' (hw2 _ (.inr hr')))
        | cons t w2 => rw [e2]; exact .inl rfl
      dsimp only
      rw [List.append_assoc, hw _ hF']
      exact hw2 _ hr'
    | .err ⟨x, p⟩, .inl ⟨e1, e2, m, ms, b, h1, h2, h3, h4⟩ =>
      refine .inl ⟨e1, e2, m, ms, b, h1, h2, h3, fun rest' hr' => ?_⟩
      have hF' : (rest ++ m :: ms ++ rest').head? = rest.head? ∨ F (rest ++ m :: ms ++ rest') := by
        cases rest with
        | nil => exact .inr (hn _ _ h2)
        | cons t rest => exact .inl rfl
      have := hw _ hF'
      simp only [e, List.append_assoc] at this ⊢
      rw [this]
      have := h4 _ hr'
      simp only [List.append_assoc] at this
      exact this
    | .err ⟨x, p⟩, .inr ⟨w2, u, rest2, e2, hp, hs', ho, m, ms, b, h1, h2, h3, h4⟩ =>
      refine .inr ⟨w ++ w2, u, rest2, by rw [e, e2, List.append_assoc], hp, fun rest' => ?_, fun m r hm => ?_, m, ms, b, h1,
        h2, h3, fun rest' hr' => ?_⟩
      · have hF' : (w2 ++ u :: rest').head? = rest.head? ∨ F (w2 ++ u :: rest') := by
          rw [e2]
          cases w2 <;> exact .inl rfl
        dsimp only
        rw [List.append_assoc, hw _ hF']
        exact hs' rest'
      · have hF' : (w2 ++ m :: r).head? = rest.head? ∨ F (w2 ++ m :: r) := by
          cases w2 with
          | nil => exact .inr (hn _ _ (may_prec hm))
          | cons t w2 => rw [e2]; exact .inl rfl
        dsimp only
        rw [List.append_assoc, hw _ hF']
        exact ho m r hm
      · have hF' : (w2 ++ m :: ms ++ rest').head? = rest.head? ∨ F (w2 ++ m :: ms ++ rest') := by
          cases w2 with
          | nil => exact .inr (hn _ _ h2)
          | cons t w2 => rw [e2]; exact .inl rfl
        have := hw _ hF'
        simp only [List.append_assoc] at this ⊢
        rw [this]
        have := h4 _ hr'
        simp only [List.append_assoc] at this
        exact this

theorem SteadyAt.weaken {f : List Token → Res (α × List Token)} {F F' ts} (h : SteadyAt f F ts) (hF : ∀ r, F' r → F r) :
    SteadyAt f F' ts := by
  unfold SteadyAt at h ⊢
  generalize f ts = r at h
  match r, h with
  | .ok (a, rest), ⟨w, e, hw⟩ => exact ⟨w, e, fun rest' hr => hw rest' (hr.imp id (hF _))⟩
  | .err ⟨x, p⟩, .inl ⟨e1, e2, m, ms, a, h1, h2, h3, h4⟩ =>
    exact .inl ⟨e1, e2, m, ms, a, h1, h2, h3, fun rest hr => h4 rest (hF _ hr)⟩
  | .err ⟨x, p⟩, .inr ⟨w, u, rest, e, hp, hs, ho, m, ms, a, h1, h2, h3, h4⟩ =>
    exact .inr ⟨w, u, rest, e, hp, hs, ho, m, ms, a, h1, h2, h3, fun rest hr => h4 rest (hF _ hr)⟩

theorem SteadyAt.length {f : List Token → Res (α × List Token)} {F ts a rest} (h : SteadyAt f F ts)
    (hr : f ts = .ok (a, rest)) : rest.length ≤ ts.length := by
  unfold SteadyAt at h
  rw [hr] at h
  obtain ⟨w, e, _⟩ := h
  rw [e, List.length_append]
  omega

end Verif.Located
