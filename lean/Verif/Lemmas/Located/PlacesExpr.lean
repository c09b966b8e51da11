import Verif.Spec.Places
import Verif.Lemmas.ParseProgram
import Verif.Lemmas.ReadsAt
import Verif.Lemmas.Located.EraseParse
/-
The places of expressions.
-/
namespace Verif.Located
open Spec Spec.Places

/-- The value satisfies `P`, the error `E`. -/
def Res.All {α : Type} (E : Err → Place → Prop) (P : α → Prop) : Res α → Prop
  | .ok a => P a
  | .err e => E e.err e.place
  | .panic => True
  | .loop => True

namespace Res.All
variable {α β : Type} {E : Err → Place → Prop} {P : α → Prop} {Q : β → Prop}

theorem bind {r : Res α} {f : α → Res β} (h : r.All E P) (k : ∀ a, P a → (f a).All E Q) : (r >>= f).All E Q := by
  cases r with
  | ok a => exact k a h
  | err e => exact h
  | panic => trivial
  | loop => trivial

theorem imp {r : Res α} {P' : α → Prop} (h : r.All E P) (k : ∀ a, P a → P' a) : r.All E P' := by
  cases r with
  | ok a => exact k a h
  | err e => exact h
  | panic => trivial
  | loop => trivial

theorem and {r : Res α} {P' : α → Prop} (h : r.All E P) (k : ∀ a, r = .ok a → P' a) : r.All E fun a => P a ∧ P' a := by
  cases r with
  | ok a => exact ⟨h, k a rfl⟩
  | err e => exact h
  | panic => trivial
  | loop => trivial

theorem ok {a : α} (h : P a) : (Res.ok a).All E P := h
theorem fail {e : Err} {s : Span} (h : E e (.span s)) : (Res.fail e s : Res α).All E P := h
theorem panic : (Res.panic : Res α).All E P := trivial
theorem loop : (Res.loop : Res α).All E P := trivial

/-- Outcomes that are no errors -/
theorem lift {r : Verif.Res α} (h : ∀ a, r = .ok a → P a) (he : ∀ e, r = .err e → E e .nowhere) : (Res.lift r).All E P := by
  cases r with
  | ok a => exact h a rfl
  | err e => exact he e rfl
  | panic => trivial
  | loop => trivial

theorem ite {c : Prop} [Decidable c] {a b : Res α} (ha : c → a.All E P) (hb : ¬c → b.All E P) :
    (if c then a else b).All E P := by
  split
  · exact ha ‹_›
  · exact hb ‹_›

end Res.All

/-! ### Expressions -/

/-- All parts of the expression satisfy `N`. -/
def Expr.Nodes (N : Expr → Prop) : Expr → Prop
  | .name s n => N (.name s n)
  | .plus s l r => N (.plus s l r) ∧ l.Nodes N ∧ r.Nodes N
  | .minus s l r => N (.minus s l r) ∧ l.Nodes N ∧ r.Nodes N
  | .uminus s e => N (.uminus s e) ∧ e.Nodes N
  | .times s l r => N (.times s l r) ∧ l.Nodes N ∧ r.Nodes N
  | .divide s l r => N (.divide s l r) ∧ l.Nodes N ∧ r.Nodes N
  | .number s v radix => N (.number s v radix)
  | .upperByte s e => N (.upperByte s e) ∧ e.Nodes N
  | .lowerByte s e => N (.lowerByte s e) ∧ e.Nodes N
  | .macroLabel s n => N (.macroLabel s n)
  | .macroArg s n => N (.macroArg s n)
  | .bxor s l r => N (.bxor s l r) ∧ l.Nodes N ∧ r.Nodes N
  | .band s l r => N (.band s l r) ∧ l.Nodes N ∧ r.Nodes N
  | .bor s l r => N (.bor s l r) ∧ l.Nodes N ∧ r.Nodes N

theorem Expr.Nodes.top {N : Expr → Prop} {e : Expr} (h : e.Nodes N) : N e := by
  cases e <;> first | exact h | exact h.1

theorem Expr.Nodes.imp {N M : Expr → Prop} {e : Expr} (h : e.Nodes N) (k : ∀ x, N x → M x) : e.Nodes M := by
  induction e with
  | name | number | macroLabel | macroArg => exact k _ h
  | uminus _ _ ih | upperByte _ _ ih | lowerByte _ _ ih => exact ⟨k _ h.1, ih h.2⟩
  | _ => rename_i ih1 ih2; exact ⟨k _ h.1, ih1 h.2.1, ih2 h.2.2⟩

/-- The expression `e₀` was read where now, perhaps after the expansion of a macro, the expression is. -/
def Alike (e₀ : Verif.Expr) : Expr → Prop
  | .name _ n => e₀ = .name n ∨ ∃ m u, e₀ = .macroLabel m ∧ n = genLabel m u
  | .divide _ _ _ => ∃ l r, e₀ = .divide l r
  | .macroLabel _ n => e₀ = .macroLabel n
  | .macroArg _ n => e₀ = .macroArg n
  | .number _ v radix => e₀ = .number v radix
  | _ => ∀ v radix, e₀ ≠ .number v radix

theorem alike_erase (e : Expr) : Alike e.erase e := by
  cases e <;> simp [Alike, Expr.erase]

variable {all : List Token} {load : Text → Verif.Res Image}

/-- All parts of the expression are on lines with the property `L`, with the calls `ps`. -/
def Src (all : List Token) (L : List Token → Prop) (ps : List Range) : Expr → Prop :=
  Expr.Nodes fun x => x.span.parents = ps ∧
    ∃ l w e₀, L l ∧ IsLine all l ∧ w <:+: l ∧ Highlights .bitwise w e₀ x.span.range ∧ Alike e₀ x

theorem Src.imp {L L' : List Token → Prop} {ps : List Range} {e : Expr} (h : Src all L ps e) (k : ∀ l, L l → L' l) :
    Src all L' ps e :=
  Expr.Nodes.imp h fun _ ⟨h1, l, w, e₀, hl, h2⟩ => ⟨h1, l, w, e₀, k l hl, h2⟩

/-- A tighter reading is a reading. -/
theorem _root_.Verif.Spec.Places.Highlights.loosen {a b w e r} (h : Highlights b w e r) (hl : low a ≤ low b) : Highlights a w e r := by
  have key : ∀ n a, low b = low a + n → Highlights a w e r := by
    intro n
    induction n using Nat.strongRecOn with
    | ind n ih =>
      intro a hn
      by_cases e0 : n = 0
      · have : a = b := by
          subst e0
          cases a <;> cases b <;> simp [low] at hn <;> rfl
        exact this ▸ h
      · have ha : a ≠ .atom := by
          rintro rfl
          cases b <;> simp [low] at hn <;> omega
        have h1 := low_tighter a ha
        have h2 : low a.tighter ≤ low b := by
          cases a <;> cases b <;> simp_all [low, Level.tighter] <;> omega
        exact .tight (ih (low b - low a.tighter) (by omega) _ (by omega))
  exact key (low b - low a) a (by omega)

theorem _root_.Verif.Spec.Places.Highlights.bitwise {a w e r} (h : Highlights a w e r) : Highlights .bitwise w e r :=
  h.loosen (by cases a <;> simp [low])

/-- What is highlighted for an expression are tokens of it. -/
theorem _root_.Verif.Spec.Places.Highlights.covers {lv w e r} (h : Highlights lv w e r) : ∃ w', w' <:+: w ∧ Covers w' r := by
  induction h with
  | @atom t e h => exact ⟨[t], ⟨[], [], by simp⟩, t, t, rfl, rfl, rfl⟩
  | @paren a b w e r _ _ _ ih =>
    obtain ⟨w', ⟨x, y, rfl⟩, h⟩ := ih
    exact ⟨w', ⟨a :: x, y ++ [b], by simp⟩, h⟩
  | @pre t f w e r _ _ _ => exact ⟨[t], ⟨[], w, by simp⟩, t, t, rfl, rfl, rfl⟩
  | @binary t lv f w l r w' l' r' _ _ _ ih1 ih2 =>
    obtain ⟨y1, ⟨x1, z1, rfl⟩, a1, b1, ha1, hb1, rfl⟩ := ih1
    obtain ⟨y2, ⟨x2, z2, rfl⟩, a2, b2, ha2, hb2, rfl⟩ := ih2
    refine ⟨y1 ++ (z1 ++ t :: x2) ++ y2, ⟨x1, z2, by simp⟩, a1, b2, ?_, ?_, rfl⟩
    · cases y1 with
      | nil => cases ha1
      | cons c cs => exact ha1
    · rw [List.getLast?_append, hb2]; rfl
  | tight _ ih => exact ih

/-- Readings are sentences. -/
theorem _root_.Verif.Spec.Places.Highlights.sentence {lv w e r} (h : Highlights lv w e r) : Sentence lv (w.map Token.tok) e := by
  induction h with
  | atom h => exact .atom h
  | paren ha hb _ ih =>
    simp only [List.map_cons, List.map_append, List.map_nil, ha, hb]
    exact .paren ih
  | pre hp _ ih => exact .pre hp ih
  | binary hb _ _ ih1 ih2 =>
    simp only [List.map_cons, List.map_append]
    exact .binary hb ih1 ih2
  | tight _ ih => exact .tight ih

/-- What the parser reads as an expression -/
def Good (all l : List Token) (lv : Level) (w : List Token) (e : Expr) : Prop :=
  Highlights lv w e.erase e.span.range ∧ Src all (· = l) [] e

theorem binOp_make {t lv f} (h : BinOp t lv f) (l r : Expr) : ∃ e, binaryExpr t l r = some e ∧
    e.erase = f l.erase r.erase ∧ e.span = .from l.span r.span ∧
    ∀ N : Expr → Prop, N e → l.Nodes N → r.Nodes N → e.Nodes N := by
  cases h <;> exact ⟨_, rfl, rfl, rfl, fun N h1 h2 h3 => ⟨h1, h2, h3⟩⟩

theorem preOp_make {t : Token} {g : Expr → Expr} (h : prefixExpr t = some g) : ∃ f, PreOp t.tok f ∧ ∀ e,
    (g e).erase = f e.erase ∧ (g e).span = t.span ∧ ∀ N : Expr → Prop, N (g e) → e.Nodes N → (g e).Nodes N := by
  obtain ⟨k, a, b⟩ := t
  cases k <;> simp [prefixExpr] at h <;> subst h
  · exact ⟨_, .minus, fun e => ⟨rfl, rfl, fun N h1 h2 => ⟨h1, h2⟩⟩⟩
  · exact ⟨_, .upper, fun e => ⟨rfl, rfl, fun N h1 h2 => ⟨h1, h2⟩⟩⟩
  · exact ⟨_, .lower, fun e => ⟨rfl, rfl, fun N h1 h2 => ⟨h1, h2⟩⟩⟩

theorem atom_make {t : Token} {e : Expr} (h : atomExpr t = some e) : AtomTok t.tok e.erase ∧ e.span = t.span ∧
    ∀ N : Expr → Prop, N e → e.Nodes N := by
  obtain ⟨k, a, b⟩ := t
  cases k <;> simp [atomExpr] at h <;> subst h
  · exact ⟨.name, rfl, fun N h => h⟩
  · exact ⟨.number, rfl, fun N h => h⟩
  · exact ⟨.param, rfl, fun N h => h⟩
  · exact ⟨.label, rfl, fun N h => h⟩

theorem good_node {l w : List Token} {lv : Level} {e : Expr} (hl : IsLine all l) (hw : w <:+: l)
    (hp : e.span.parents = []) (hr : Highlights lv w e.erase e.span.range) : e.span.parents = [] ∧
    ∃ l' w e₀, l' = l ∧ IsLine all l' ∧ w <:+: l' ∧ Highlights .bitwise w e₀ e.span.range ∧ Alike e₀ e :=
  ⟨hp, l, w, _, rfl, hl, hw, hr.bitwise, alike_erase e⟩

theorem infix_suffix {α : Type} {w rest l : List α} (h : w ++ rest <:+ l) : w <:+: l := by
  obtain ⟨p, rfl⟩ := h
  exact ⟨p, rest, by simp⟩

theorem suffix_drop {α : Type} {w rest l : List α} (h : w ++ rest <:+ l) : rest <:+ l := by
  obtain ⟨p, rfl⟩ := h
  exact ⟨p ++ w, by simp⟩

theorem suffix_tail {α : Type} {t : α} {rest l : List α} (h : t :: rest <:+ l) : rest <:+ l :=
  suffix_drop (w := [t]) h

theorem isLine_mem {l : List Token} (h : IsLine all l) {t : Token} (ht : t ∈ l) : t ∈ all := by
  obtain ⟨ls, hs, hm⟩ := h
  rw [← splits_flatten hs]
  exact List.mem_flatten.mpr ⟨l, hm, ht⟩

theorem shown_token {l : List Token} (hl : IsLine all l) {t : Token} (ht : t ∈ l) : ShownToken all t t.span := by
  obtain ⟨a, b, rfl⟩ := List.append_of_mem ht
  exact ⟨_, hl, ⟨a, b, by simp⟩, ⟨t, t, rfl, rfl, rfl⟩, .inl rfl⟩

theorem mem_suffix {l ts : List Token} {t : Token} (h : t :: ts <:+ l) : t ∈ l := h.subset (by simp)

theorem consume_all {l : List Token} (hl : IsLine all l) {k : Tok} {what : Text} {ts : List Token} (hs : ts <:+ l) :
    (consume k what ts).All (Blames all load) fun rest => ∃ t, t.tok = k ∧ ts = t :: rest := by
  cases ts with
  | nil => exact Blames.nowhere .eof
  | cons t ts =>
    unfold consume
    refine .ite (fun h => ⟨t, h, rfl⟩) fun _ => ?_
    exact Blames.expectedTokenNotFound (shown_token hl (mem_suffix hs))

theorem startsNone {t : Token} (h1 : atomExpr t = none) (h2 : prefixExpr t = none) (h3 : t.tok ≠ .leftParen) : StartsNone t := by
  obtain ⟨k, a, b⟩ := t
  refine ⟨fun e he => ?_, fun f hf => ?_, h3⟩
  · dsimp only at he; cases he <;> cases h1
  · dsimp only at hf; cases hf <;> cases h2

theorem expr_places {l : List Token} (hl : IsLine all l) (f : Nat) :
    (∀ p ts, p < 7 → ts <:+ l → (parseExprPrec f p ts).All (Blames all load) fun x =>
      ∃ lv w, ts = w ++ x.2 ∧ Good all l lv w x.1 ∧ p < low lv ∧ headPrec (toks x.2) ≤ p) ∧
    (∀ t ts, t :: ts <:+ l → (parsePrefix f t ts).All (Blames all load) fun x =>
      ∃ w, t :: ts = w ++ x.2 ∧ Good all l .unary w x.1) ∧
    (∀ p left ts lv wl, wl ++ ts <:+ l → Good all l lv wl left → p < low lv → headPrec (toks ts) ≤ low lv →
      (parseInfix f p left ts).All (Blames all load) fun x =>
      ∃ lv' w, wl ++ ts = w ++ x.2 ∧ Good all l lv' w x.1 ∧ p < low lv' ∧ headPrec (toks x.2) ≤ p) := by
  induction f with
  | zero => exact ⟨fun _ _ _ _ => trivial, fun _ _ _ => trivial, fun _ _ _ _ _ _ _ _ _ => trivial⟩
  | succ f ih =>
    obtain ⟨ih1, ih2, ih3⟩ := ih
    refine ⟨?_, ?_, ?_⟩
    · intro p ts hp hs
      cases ts with
      | nil => exact Blames.nowhere .eof
      | cons tok ts =>
        rw [parseExprPrec]
        refine .bind (ih2 tok ts hs) fun ⟨left, ts'⟩ ⟨w, hw, hg⟩ => ?_
        rw [hw] at hs ⊢
        refine ih3 p left ts' .unary w hs hg hp ?_
        have := headPrec_le (toks ts'); simp only [low]; omega
    · intro tok ts hs
      rw [parsePrefix]
      split
      next x hx =>
        obtain ⟨h1, h2, h3⟩ := atom_make hx
        have hr : Highlights .atom [tok] x.erase x.span.range := by rw [h2]; exact .atom h1
        refine ⟨[tok], rfl, .tight hr, h3 _ (good_node hl (infix_suffix (w := [tok]) hs) (by rw [h2]; rfl) hr)⟩
      next hx =>
        split
        next g hg =>
          obtain ⟨f', hf, hgf⟩ := preOp_make hg
          refine .bind (ih1 prefixPrec ts (by decide) (suffix_tail hs)) fun ⟨e, ts'⟩ ⟨lv, w, hw, ⟨hr, hsrc⟩, hp, _⟩ => ?_
          obtain ⟨h1, h2, h3⟩ := hgf e
          have hr' : Highlights .unary (tok :: w) (g e).erase (g e).span.range := by
            rw [h1, h2]
            exact .pre hf (hr.loosen (by simp only [low, prefixPrec] at hp ⊢; omega))
          subst hw
          refine ⟨tok :: w, rfl, hr', h3 _ (good_node hl ?_ (by rw [h2]; rfl) hr') hsrc⟩
          exact infix_suffix (w := tok :: w) hs
        next hg =>
          refine .ite (fun hpar => ?_) fun hpar => ?_
          · refine .bind (ih1 0 ts (by decide) (suffix_tail hs)) fun ⟨e, ts'⟩ ⟨lv, w, hw, ⟨hr, hsrc⟩, hp, _⟩ => ?_
            dsimp only at hw
            subst hw
            refine .bind (consume_all hl (suffix_drop (suffix_tail hs))) fun ts'' ⟨y, hy, hts⟩ => ?_
            subst hts
            exact ⟨tok :: (w ++ [y]), by simp, .tight (.paren hpar hy hr.bitwise), hsrc⟩
          · exact Blames.invalidExpression (isLine_mem hl (mem_suffix hs)) (startsNone hx hg hpar)
    · intro p left ts lv wl hs hg hp hh
      cases ts with
      | nil => exact ⟨lv, wl, rfl, hg, hp, by simp [toks, headPrec]⟩
      | cons tok ts =>
        rw [parseInfix]
        refine .ite (fun hlt => ?_) fun hlt => ?_
        · have hs' : ts <:+ l := suffix_tail (suffix_drop hs)
          refine .bind (ih1 (infixPrec tok.tok) ts (by have := infixPrec_le tok.tok; omega) hs')
            fun ⟨x, ts'⟩ ⟨lv2, w2, hw2, ⟨hr2, hs2⟩, hp2, hh2⟩ => ?_
          dsimp only at hw2 hr2 hs2 hp2 hh2 ⊢
          obtain ⟨lv1, g, hb⟩ := prec_binOp (t := tok.tok) (by omega)
          obtain ⟨e, he, h1, h2, h3⟩ := binOp_make hb left x
          rw [he]
          have hq := binOp_prec hb
          subst hw2
          have hr' : Highlights lv1 (wl ++ tok :: w2) e.erase e.span.range := by
            rw [h1, h2]
            refine .binary hb (hg.1.loosen ?_) (hr2.loosen ?_)
            · simp only [toks, List.map_cons, headPrec] at hh; omega
            · rw [hq] at hp2
              cases lv1 <;> cases lv2 <;> simp_all [low, Level.tighter]
          have hs3 : (wl ++ tok :: w2) ++ ts' <:+ l := by simpa using hs
          have hg' : Good all l lv1 (wl ++ tok :: w2) e :=
            ⟨hr', h3 _ (good_node hl (infix_suffix hs3) (by rw [h2]; rfl) hr') hg.2 hs2⟩
          have := ih3 p e ts' lv1 _ hs3 hg' (by omega) (by omega)
          simpa using this
        · exact ⟨lv, wl, rfl, hg, hp, by simp only [toks, List.map_cons, headPrec]; omega⟩

theorem parseExpr_places {l ts : List Token} (hl : IsLine all l) (hs : ts <:+ l) :
    (parseExpr ts).All (Blames all load) fun x => ∃ w, ts = w ++ x.2 ∧ Good all l .bitwise w x.1 :=
  ((expr_places hl _).1 0 ts (by decide) hs).imp fun _ ⟨_, w, hw, hg, _⟩ => ⟨w, hw, hg.1.bitwise, hg.2⟩

end Verif.Located
