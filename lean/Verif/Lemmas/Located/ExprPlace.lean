import Verif.Lemmas.Located.PlacesParse
import Verif.Lemmas.Located.SteadyItems
import Verif.Spec.Syntax
/-
What is highlighted for an expression and for an argument, by itself.
-/
namespace Verif.Located
open Spec Spec.Places Spec.Syntax

/-- What is highlighted for the expression -/
def Lit (lv : Level) (w : List Token) (e : Expr) : Prop := Highlights lv w e.erase e.span.range ∧ e.span.parents = []

theorem expr_lit (f : Nat) :
    (∀ p ts, p < 7 → (parseExprPrec f p ts).All (fun _ _ => True) fun x =>
      ∃ lv w, ts = w ++ x.2 ∧ Lit lv w x.1 ∧ p < low lv ∧ headPrec (toks x.2) ≤ p) ∧
    (∀ t ts, (parsePrefix f t ts).All (fun _ _ => True) fun x => ∃ w, t :: ts = w ++ x.2 ∧ Lit .unary w x.1) ∧
    (∀ p left ts lv wl, Lit lv wl left → p < low lv → headPrec (toks ts) ≤ low lv →
      (parseInfix f p left ts).All (fun _ _ => True) fun x =>
      ∃ lv' w, wl ++ ts = w ++ x.2 ∧ Lit lv' w x.1 ∧ p < low lv' ∧ headPrec (toks x.2) ≤ p) := by
  induction f with
  | zero => exact ⟨fun _ _ _ => trivial, fun _ _ => trivial, fun _ _ _ _ _ _ _ _ => trivial⟩
  | succ f ih =>
    obtain ⟨ih1, ih2, ih3⟩ := ih
    refine ⟨?_, ?_, ?_⟩
    · intro p ts hp
      cases ts with
      | nil => trivial
      | cons tok ts =>
        rw [parseExprPrec]
        refine .bind (ih2 tok ts) fun ⟨left, ts'⟩ ⟨w, hw, hg⟩ => ?_
        rw [hw]
        refine ih3 p left ts' .unary w hg hp ?_
        have := headPrec_le (toks ts'); simp only [low]; omega
    · intro tok ts
      rw [parsePrefix]
      split
      next x hx =>
        obtain ⟨h1, h2, h3⟩ := atom_make hx
        have hr : Highlights .atom [tok] x.erase x.span.range := by rw [h2]; exact .atom h1
        exact ⟨[tok], rfl, .tight hr, by rw [h2]; rfl⟩
      next hx =>
        split
        next g hg =>
          obtain ⟨f', hf, hgf⟩ := preOp_make hg
          refine .bind (ih1 prefixPrec ts (by decide)) fun ⟨e, ts'⟩ ⟨lv, w, hw, ⟨hr, hsrc⟩, hp, _⟩ => ?_
          obtain ⟨h1, h2, h3⟩ := hgf e
          have hr' : Highlights .unary (tok :: w) (g e).erase (g e).span.range := by
            rw [h1, h2]
            exact .pre hf (hr.loosen (by simp only [low, prefixPrec] at hp ⊢; omega))
          subst hw
          exact ⟨tok :: w, rfl, hr', by rw [h2]; rfl⟩
        next hg =>
          refine .ite (fun hpar => ?_) fun hpar => trivial
          refine .bind (ih1 0 ts (by decide)) fun ⟨e, ts'⟩ ⟨lv, w, hw, ⟨hr, hsrc⟩, hp, _⟩ => ?_
          dsimp only at hw
          subst hw
          refine .bind (P := fun rest => ∃ t, t.tok = .rightParen ∧ ts' = t :: rest) ?_ fun ts'' ⟨y, hy, hts⟩ => ?_
          · cases ts' with
            | nil => trivial
            | cons t ts =>
              unfold consume
              exact .ite (fun h => ⟨t, h, rfl⟩) fun _ => trivial
          · subst hts
            exact ⟨tok :: (w ++ [y]), by simp, .tight (.paren hpar hy hr.bitwise), hsrc⟩
    · intro p left ts lv wl hg hp hh
      cases ts with
      | nil => exact ⟨lv, wl, rfl, hg, hp, by simp [toks, headPrec]⟩
      | cons tok ts =>
        rw [parseInfix]
        refine .ite (fun hlt => ?_) fun hlt => ?_
        · refine .bind (ih1 (infixPrec tok.tok) ts (by have := infixPrec_le tok.tok; omega))
            fun ⟨x, ts'⟩ ⟨lv2, w2, hw2, ⟨hr2, hs2⟩, hp2, hh2⟩ => ?_
          dsimp only at hw2 hr2 hs2 hp2 hh2 ⊢
          obtain ⟨lv1, g, hb⟩ := prec_binOp (t := tok.tok) (by omega)
          obtain ⟨e, he, h1, h2, h3⟩ := binOp_make hb left x
          rw [he]
          have hq := binOp_prec hb
          subst hw2
          have hr' : Highlights lv1 (wl ++ tok :: w2) e.erase e.span.range := by
            rw [h1, h2]
            refine .binary hb (hg.1.loosen ?_) (hr2.loosen ?_)
            · simp only [toks, List.map_cons, headPrec] at hh; omega
            · rw [hq] at hp2
              cases lv1 <;> cases lv2 <;> simp_all [low, Level.tighter]
          have hg' : Lit lv1 (wl ++ tok :: w2) e := ⟨hr', by rw [h2]; rfl⟩
          have := ih3 p e ts' lv1 _ hg' (by omega) (by omega)
          simpa using this
        · exact ⟨lv, wl, rfl, hg, hp, by simp only [toks, List.map_cons, headPrec]; omega⟩

theorem parseExpr_lit {ts e rest} (h : parseExpr ts = .ok (e, rest)) : ∃ w, ts = w ++ rest ∧ Lit .bitwise w e := by
  have := (expr_lit (2 * ts.length + 2)).1 0 ts (by decide)
  unfold parseExpr at h
  rw [h] at this
  obtain ⟨lv, w, hw, hl, _⟩ := this
  exact ⟨w, hw, hl.1.bitwise, hl.2⟩

theorem parseArg_lit {ts a rest} (h : parseArg ts = .ok (a, rest)) :
    ∃ w, ts = w ++ rest ∧ ArgPlace w a.erase a.span.range ∧ a.span.parents = [] := by
  cases ts with
  | nil => cases h
  | cons t ts =>
    unfold parseArg at h
    dsimp only at h
    split at h
    next r hr => cases h; exact ⟨[t], rfl, .mode (imOf_modeTok hr), rfl⟩
    next =>
      split at h
      next ht =>
        obtain ⟨⟨e, r⟩, h1, h⟩ := Res.bind_eq_ok.mp h
        cases h
        obtain ⟨w, rfl, hl, hp⟩ := parseExpr_lit h1
        exact ⟨t :: w, rfl, .immediate ht hl, hp⟩
      next =>
        obtain ⟨⟨e, r⟩, h1, h⟩ := Res.bind_eq_ok.mp h
        cases h
        obtain ⟨w, hw, hl, hp⟩ := parseExpr_lit h1
        refine ⟨w, hw, ?_⟩
        unfold argOf
        split
        next s n => exact ⟨.param hl, hp⟩
        next hn =>
          refine ⟨.expr hl fun n he => ?_, hp⟩
          cases e with
          | macroArg s n => exact hn s n rfl
          | _ => cases he

theorem parseByte_lit {ts v rest} (h : parseByteValue ts = .ok (v, rest)) :
    ∃ w, ts = w ++ rest ∧ ValuePlace w v.erase v.span := by
  have key : ∀ ts, (∀ t r, ts = t :: r → ∀ s, t.tok ≠ .string s) → parseExprByte ts = .ok (v, rest) →
      ∃ w, ts = w ++ rest ∧ ValuePlace w v.erase v.span := fun ts _ h => by
    obtain ⟨⟨e, r⟩, h1, h⟩ := Res.bind_eq_ok.mp h
    cases h
    obtain ⟨w, hw, hl, hp⟩ := parseExpr_lit h1
    exact ⟨w, hw, hp, w, List.infix_refl w, hl⟩
  cases ts with
  | nil => exact key [] (by simp) h
  | cons t ts =>
    unfold parseByteValue at h
    dsimp only at h
    split at h
    next s hs => cases h; exact ⟨[t], rfl, t, by simp, s, hs, rfl, rfl⟩
    next hn => exact key _ (fun t' r e s => by injection e with e _; subst e; exact hn s) h

theorem valuePlace_mono {w w' : List Token} {v s} (h : ValuePlace w v s) (hw : w <:+: w') : ValuePlace w' v s := by
  cases v with
  | str b => obtain ⟨u, hu, h⟩ := h; exact ⟨u, hw.subset hu, h⟩
  | expr e => obtain ⟨hp, w'', h1, h⟩ := h; exact ⟨hp, w'', h1.trans hw, h⟩

end Verif.Located
