import Verif.Lemmas.Located.Steady
import Verif.Lemmas.Located.ExprSteps
/-
Expressions are read from left to right.
-/
namespace Verif.Located
open Verif.Spec Verif.Spec.Syntax

variable {α β : Type}

/-- Any tokens may follow. -/
def Any : List Token → Prop := fun _ => True

/-- The next token is no binary operator that binds tighter than `p`. -/
def Upto (p : Nat) (ts : List Token) : Prop := headPrec (toks ts) ≤ p

theorem any_neutral : Neutral Any := fun _ _ _ => trivial
theorem upto_neutral (p : Nat) : Neutral (Upto p) := fun t r h => by
  show infixPrec t.tok ≤ p
  omega

theorem head_upto {p : Nat} {r ts : List Token} (h : r.head? = ts.head?) (hu : Upto p ts) : Upto p r := by
  cases r with
  | nil => exact Nat.zero_le p
  | cons t r =>
    cases ts with
    | nil => cases h
    | cons u ts =>
      injection h with h
      rw [h]
      exact hu

theorem SteadyAt.follow {f : List Token → Res (α × List Token)} {F F' ts} (h : SteadyAt f F ts) (he : ∀ r, F r ↔ F' r) :
    SteadyAt f F' ts := by
  have : F = F' := funext fun r => propext (he r)
  rw [← this]; exact h

/-- A token without a place -/
def bare (t : Tok) : Token := ⟨t, ⟨0, 0, 1, 0⟩, ⟨0, 0, 1, 0⟩⟩

/-- `consume` with a result -/
def take (k : Tok) (what : Text) (ts : List Token) : Res (Unit × List Token) := consume k what ts >>= fun r => .ok ((), r)

theorem consume_take (k : Tok) (what : Text) (ts : List Token) (g : List Token → Res α) :
    (consume k what ts >>= g) = (take k what ts >>= fun x => g x.2) := by
  unfold take
  cases consume k what ts <;> rfl

theorem take_eq (k : Tok) (what : Text) (t : Token) (ts : List Token) : take k what (t :: ts) =
    if t.tok = k then .ok ((), ts) else .fail (.expectedTokenNotFound what) t.span := by
  show ((if t.tok = k then Res.ok ts else .fail (.expectedTokenNotFound what) t.span) >>= fun r => Res.ok ((), r)) = _
  split <;> rfl

theorem take_bare (k : Tok) (what : Text) (ts : List Token) : take k what (bare k :: ts) = .ok ((), ts) := by
  rw [take_eq]; exact if_pos rfl

theorem take_steady {k : Tok} {what : Text} (h1 : infixPrec k = 0) (h2 : Ordinary k)
    (hw : Wanted (.expectedTokenNotFound what) k) (ts : List Token) : SteadyAt (take k what) Any ts := by
  have hok : ∀ r, take k what (bare k :: [] ++ r) = .ok ((), r) := fun r => by
    rw [List.cons_append, take_bare]; rfl
  cases ts with
  | nil => exact .eof rfl ⟨bare k, [], (), h1, h2, fun r _ => hok r⟩
  | cons t ts =>
    by_cases h : t.tok = k
    · refine .cons (g := fun r => .ok ((), r)) (fun r => by rw [take_eq, if_pos h]) (.stop fun r _ => rfl)
    · have hx : Err.expectedTokenNotFound what ≠ .invalidExpression := by simp
      have hnot : ∀ (t : Token) r, t.tok ≠ k → take k what (t :: r) =
          .err ⟨.expectedTokenNotFound what, about (.expectedTokenNotFound what) t⟩ := fun t r h => by
        rw [take_eq, if_neg h]
        unfold about
        rw [if_neg hx]
        rfl
      exact .token (fun r => hnot t r h) (fun m r hm => ⟨_, hnot m r fun e => hm (.wanted (e ▸ hw))⟩) ⟨bare k, [], (), hw, h1, h2, fun r _ => hok r⟩

theorem take_shorter {k : Tok} {what : Text} {ts : List Token} {u : Unit} : take k what ts ≠ .ok (u, ts) := by
  intro h
  cases ts with
  | nil => cases h
  | cons t ts =>
    rw [take_eq] at h
    split at h
    · have := congrArg (fun x => match x with | Res.ok (_, r) => List.length r | _ => 0) h
      simp at this
    · cases h

/-- The first operand of an expression -/
def readFirst : List Token → Res (Expr × List Token)
  | [] => .err ⟨.unexpectedEof, .nowhere⟩
  | t :: ts => readOperand t ts

theorem readExpr_first (p : Nat) (ts : List Token) :
    readExpr p ts = readFirst ts >>= fun x => readMore p x.1 x.2 := by
  cases ts with
  | nil => rw [readExpr_nil]; rfl
  | cons t ts => exact readExpr_cons p t ts

/-- A macro parameter -/
def aParam : Token := bare (.macroIdent [])

theorem first_param (r : List Token) : readFirst (aParam :: [] ++ r) = .ok (.macroArg aParam.span [], r) := by
  show readOperand aParam r = _
  rw [readOperand_eq]
  rfl

theorem more_stop {p l r} (h : Upto p r) : readMore p l r = .ok (l, r) := by
  cases r with
  | nil => exact readMore_nil p l
  | cons t ts =>
    rw [readMore_cons, if_neg]
    intro h'
    have : infixPrec t.tok ≤ p := h
    omega

theorem expr_param {p r} (h : Upto p r) : readExpr p (aParam :: [] ++ r) = .ok (.macroArg aParam.span [], r) := by
  rw [readExpr_first, first_param]
  exact more_stop h

theorem expr_sample (p : Nat) : Sample (readExpr p) (Upto p) :=
  ⟨aParam, [], _, rfl, by decide, fun _ h => expr_param h⟩

theorem binary_some {t : Tok} (h : 0 < infixPrec t) (l r : Expr) : ∃ e, binaryExpr t l r = some e := by
  cases t <;> first | exact ⟨_, rfl⟩ | (exact absurd h (Nat.lt_irrefl 0))

/-- After the right operand of the operator `t` -/
def afterRight (p : Nat) (l : Expr) (t : Token) (a : Expr) (r : List Token) : Res (Expr × List Token) :=
  match binaryExpr t.tok l a with
  | some e => readMore p e r
  | none => .fail (.expectedTokenNotFound "Binary Operator".toList) t.span

theorem expr_steady_aux (n : Nat) : ∀ ts : List Token, ts.length ≤ n →
    SteadyAt readFirst Any ts ∧ (∀ p l, SteadyAt (readMore p l) (Upto p) ts) ∧
      ∀ p, SteadyAt (readExpr p) (Upto p) ts := by
  induction n with
  | zero =>
    intro ts h
    cases ts with
    | cons t ts => simp at h
    | nil =>
      exact ⟨.eof rfl ⟨aParam, [], _, rfl, by decide, fun r _ => first_param r⟩,
        fun p l => .stop fun r hr => more_stop (hr.elim (fun e => head_upto e (Nat.zero_le _)) id),
        fun p => .eof (readExpr_nil p) (expr_sample p)⟩
  | succ n ih =>
    intro ts h
    have hfirst : SteadyAt readFirst Any ts := by
      cases ts with
      | nil => exact .eof rfl ⟨aParam, [], _, rfl, by decide, fun r _ => first_param r⟩
      | cons t ts =>
        simp only [List.length_cons, Nat.add_le_add_iff_right] at h
        obtain ⟨_, _, hx⟩ := ih ts h
        cases ha : atomExpr t with
        | some e =>
          exact .cons (g := fun r => .ok (e, r)) (fun r => by
            show readOperand t r = _
            rw [readOperand_eq, ha]) (.stop fun r _ => rfl)
        | none =>
          cases hp : prefixExpr t with
          | some f =>
            refine .cons (g := fun r => readExpr prefixPrec r >>= fun x => .ok (f x.1, x.2)) (fun r => by
              show readOperand t r = _
              rw [readOperand_eq, ha, hp]) (SteadyAt.map ?_ f)
            refine (hx prefixPrec).follow fun r => ⟨fun _ => trivial, fun _ => ?_⟩
            exact Nat.le_trans (headPrec_le _) (by decide)
          | none =>
            by_cases hl : t.tok = .leftParen
            · refine .cons (g := fun r => (readExpr 0 r >>= fun x => (take .rightParen rightParenName x.2 >>= fun y =>
                .ok ((fun _ : Unit => x.1) y.1, y.2)))) (fun r => ?_) ?_
              · show readOperand t r = _
                rw [readOperand_eq, ha, hp]
                simp only [hl, if_true, consume_take]
              · refine SteadyAt.bind (f := readExpr 0) (F := Upto 0)
                  (g := fun a r => take .rightParen rightParenName r >>= fun y => .ok ((fun _ : Unit => a) y.1, y.2))
                  (hx 0) (upto_neutral 0)
                  (fun a rest _ => SteadyAt.map (take_steady (what := rightParenName) rfl (by decide) .rightParen rest) (fun _ : Unit => a)) ?_ ?_
                · intro a
                  exact ⟨[bare .rightParen], a, fun rest _ => ⟨Nat.le_refl 0, by
                    dsimp only; rw [List.cons_append, take_bare]; rfl⟩⟩
                · intro a b rest _ he
                  exfalso
                  cases htk : take .rightParen rightParenName rest with
                  | ok y =>
                    rw [htk] at he
                    obtain ⟨y1, y2⟩ := y
                    have : y2 = rest := by
                      injection he with he
                      exact congrArg Prod.snd he
                    rw [this] at htk
                    exact take_shorter htk
                  | err _ => rw [htk] at he; cases he
                  | panic => rw [htk] at he; cases he
                  | loop => rw [htk] at he; cases he
            · exact .token (x := .invalidExpression) (fun r => by
                show readOperand t r = _
                rw [readOperand_eq, ha, hp]
                simp only [hl, if_false]
                rfl) (fun m r hm => absurd .expression hm) ⟨aParam, [], _, .expression, rfl, by decide, fun r _ => first_param r⟩
    have hmore : ∀ p l, SteadyAt (readMore p l) (Upto p) ts := by
      intro p l
      cases ts with
      | nil => exact .stop fun r hr => more_stop (hr.elim (fun e => head_upto e (Nat.zero_le _)) id)
      | cons t ts =>
        simp only [List.length_cons, Nat.add_le_add_iff_right] at h
        by_cases hp : p < infixPrec t.tok
        · refine .cons (g := fun r => readExpr (infixPrec t.tok) r >>= fun x => afterRight p l t x.1 x.2)
            (fun r => by rw [readMore_cons, if_pos hp]; rfl) ?_
          have hup : ∀ r, Upto p r → Upto (infixPrec t.tok) r := fun r hr => Nat.le_trans hr (by omega)
          refine SteadyAt.bind (g := afterRight p l t) ((ih ts h).2.2 _) (upto_neutral _) ?_ ?_ ?_
          · intro a rest hr
            obtain ⟨e, he⟩ := binary_some (t := t.tok) (by omega) l a
            rw [show afterRight p l t a = readMore p e from funext fun r => by simp only [afterRight, he]]
            have := ((ih ts h).2.2 (infixPrec t.tok)).length hr
            exact (ih rest (by omega)).2.1 p e
          · intro a
            obtain ⟨e, he⟩ := binary_some (t := t.tok) (by omega) l a
            simp only [afterRight, he]
            exact ⟨[], e, fun rest hr => ⟨hup _ hr, more_stop hr⟩⟩
          · intro a b rest hr _
            exact hup _ hr
        · exact .stop (a := l) fun r hr => more_stop (hr.elim (fun e => head_upto e (by show infixPrec t.tok ≤ p; omega)) id)
    refine ⟨hfirst, hmore, fun p => ?_⟩
    refine SteadyAt.congr (SteadyAt.bind (f := readFirst) (g := readMore p) hfirst any_neutral ?_ ?_ ?_)
      fun r => (readExpr_first p r).symm
    · intro a rest hr
      have hl := hfirst.length hr
      cases ts with
      | nil => cases hr
      | cons t ts =>
        simp only [List.length_cons, Nat.add_le_add_iff_right] at h
        have := prefix_length (show parsePrefix (2 * ts.length + 2) t ts = .ok (a, rest) from hr)
        exact (ih rest (by omega)).2.1 p a
    · intro a
      exact ⟨[], a, fun rest hr => ⟨trivial, more_stop hr⟩⟩
    · intro a b rest _ _
      trivial

theorem expr_steady (ts : List Token) : SteadyAt parseExpr (Upto 0) ts :=
  (expr_steady_aux ts.length ts (Nat.le_refl _)).2.2 0

end Verif.Located
