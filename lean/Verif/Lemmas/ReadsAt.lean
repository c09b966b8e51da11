import Verif.Spec.Include
import Verif.Lemmas.LexSwap
import Verif.Lemmas.ParseProgram
import Verif.Lemmas.Reading
/-
Lines of tokens: how the lines of a text follow from those of its parts.
-/
namespace Verif
open Spec

theorem atEol_snoc {x : Text} (h : atEol x) : atEol (x ++ ['\n']) := by
  rcases h with rfl | h | ⟨u, rfl⟩
  · exact .inr (.inl rfl)
  · cases x with
    | nil => cases h
    | cons c x => exact .inr (.inl h)
  · exact .inr (.inr ⟨u ++ ['\n'], rfl⟩)

theorem atEol_more {x y : Text} (h : atEol (x ++ ['\n'])) : atEol (x ++ ['\n'] ++ y) := by
  cases x with
  | nil => exact .inr (.inl rfl)
  | cons c x =>
    rcases h with h | h | ⟨u, h⟩
    · cases h
    · exact .inr (.inl h)
    · exact .inr (.inr ⟨u ++ y, by rw [h]; rfl⟩)

theorem blank_snoc {ls : Bool} {g r : Text} (h : Blank ls g r) : Blank ls g (r ++ ['\n']) := by
  induction h with
  | nil => exact .nil
  | space h1 _ ih => exact .space h1 ih
  | comment h1 h2 h3 _ ih => exact .comment h1 h2 (by rw [← List.append_assoc]; exact atEol_snoc h3) ih

theorem blank_more {ls : Bool} {g r y : Text} (h : Blank ls g (r ++ ['\n'])) : Blank ls g (r ++ ['\n'] ++ y) := by
  generalize he : r ++ ['\n'] = x at h
  induction h with
  | nil => exact .nil
  | space h1 _ ih => exact .space h1 (ih he)
  | @comment _ _ _ g _ h1 h2 h3 _ ih =>
    subst he
    refine .comment h1 h2 ?_ (ih rfl)
    rw [← List.append_assoc] at h3 ⊢
    rw [← List.append_assoc]
    exact atEol_more h3

theorem append_snoc {α : Type} {a b c : List α} {x : α} (h : a ++ b = c ++ [x]) (hb : b ≠ []) :
    ∃ d, b = d ++ [x] ∧ c = a ++ d := by
  rcases List.eq_nil_or_concat b with rfl | ⟨d, y, rfl⟩
  · exact absurd rfl hb
  · rw [List.concat_eq_append, ← List.append_assoc] at h
    obtain ⟨h1, h2⟩ := List.append_inj' h rfl
    cases h2
    exact ⟨d, by simp, h1.symm⟩

theorem blank_end_more {ls : Bool} {g y : Text} (h : Blank ls (g ++ ['\n']) []) : Blank ls (g ++ ['\n']) y := by
  generalize he : g ++ ['\n'] = x at h
  generalize hr : ([] : Text) = r at h
  induction h generalizing g with
  | nil => exact .nil
  | @space _ c g' _ h1 hb ih =>
    subst hr
    refine .space h1 ?_
    cases g' with
    | nil => exact .nil
    | cons d g' =>
      obtain ⟨v, hv, -⟩ := append_snoc (a := [c]) (b := d :: g') he.symm (by simp)
      exact ih hv.symm rfl
  | @comment _ c t g' _ h1 h2 h3 hb ih =>
    subst hr
    cases g' with
    | nil =>
      exfalso
      rw [List.append_nil] at he
      have : '\n' ∈ c :: t := by rw [← he]; simp
      rcases List.mem_cons.mp this with rfl | h
      · rcases h1 with h | ⟨h, _⟩ <;> exact absurd h (by decide)
      · exact h2 h
    | cons d g' =>
      obtain ⟨v, hv, -⟩ := append_snoc (a := c :: t) (b := d :: g') he.symm (by simp)
      refine .comment h1 h2 ?_ (ih hv.symm rfl)
      rw [hv]
      rw [hv, List.append_nil] at h3
      exact atEol_more h3

theorem stuck_more {ls : Bool} {w r r' : Text} (hw : w ≠ []) (h : Stuck ls (w ++ r)) : Stuck ls (w ++ r') := by
  cases w with
  | nil => exact absurd rfl hw
  | cons c w => exact h

theorem stuck_nil {ls : Bool} : Stuck ls [] := fun c h => nomatch h

theorem delimited_newline {t : Text} : Delimited ('\n' :: t) := by
  intro c hc
  cases hc
  exact .inr (.inr (.inl rfl))

/-- A newline at the end of the text changes nothing. -/
theorem lexes_newline {f : Nat} {before text : Text} {T : List Token} (h : LexesTo f before text T) :
    LexesTo f before (text ++ ['\n']) T := by
  induction h with
  | @done before g hg =>
    refine .done ⟨?_, stuck_nil⟩
    exact blank_trans (by simpa using blank_snoc hg.1) (.space (by decide) .nil)
  | @token before g w rest k toks hg hk _ ih =>
    rw [List.append_assoc]
    refine .token ⟨by rw [← List.append_assoc]; exact blank_snoc hg.1, stuck_more (spells_ne_nil hk) hg.2⟩ ?_ ih
    exact spells_swap (d1 := []) delimited_newline (by simpa using hk)

theorem spells_end {w rest : Text} {k : Tok} (h : Spells w rest k) : ∃ w' c, w = w' ++ [c] ∧ c ≠ '\n' := by
  cases h with
  | symbol hm _ =>
    have hall : ∀ p ∈ symbols, p.1 ≠ [] ∧ p.1.getLast? ≠ some '\n' := by decide
    obtain ⟨h1, h2⟩ := hall _ hm
    rcases List.eq_nil_or_concat w with rfl | ⟨w', c, rfl⟩
    · exact absurd rfl h1
    · exact ⟨w', c, by simp, by simpa using h2⟩
  | name hi _ =>
    obtain ⟨w', c, rfl, hc⟩ := ident_last hi
    exact ⟨w', c, rfl, (identChar_solid hc).2.2.2⟩
  | macroLabel hi => exact ⟨_, '%', rfl, by decide⟩
  | macroIdent hi _ =>
    obtain ⟨w', c, rfl, hc⟩ := ident_last hi
    exact ⟨'%' :: w', c, rfl, (identChar_solid hc).2.2.2⟩
  | string hq => exact ⟨_, '"', rfl, by decide⟩
  | number hn _ =>
    obtain ⟨p, base, ds, _, rfl, hn, _⟩ := hn
    obtain ⟨w', c, d, rfl, hd⟩ := numeral_last hn
    refine ⟨p ++ w', c, by rw [List.append_assoc], ?_⟩
    rintro rfl
    exact absurd (digit_ascii hd).2.1 (by decide)

/-- After a token, the text still ends with a newline. -/
theorem spells_rest {g w rest b : Text} {k : Tok} (hk : Spells w rest k) (h : g ++ w ++ rest = b ++ ['\n']) :
    ∃ r, rest = r ++ ['\n'] := by
  cases rest with
  | nil =>
    exfalso
    obtain ⟨w', c, rfl, hc⟩ := spells_end hk
    rw [List.append_nil, ← List.append_assoc] at h
    obtain ⟨-, h⟩ := List.append_inj' h rfl
    cases h
    exact hc rfl
  | cons d rest =>
    obtain ⟨v, hv, -⟩ := append_snoc (a := g ++ w) (b := d :: rest) h (by simp)
    exact ⟨v, hv⟩

/-- Whole lines, followed by more text. -/
theorem lexes_append {f : Nat} {before a b : Text} {A B : List Token} {e e' : Token}
    (h : LexesTo f before a (A ++ [e])) (hw : a = [] ∨ ∃ a', a = a' ++ ['\n']) (hb : LexesTo f (before ++ a) b (B ++ [e'])) :
    ∃ e'', LexesTo f before (a ++ b) (A ++ B ++ [e'']) := by
  generalize hT : A ++ [e] = T at h
  induction h generalizing A with
  | @done before g hg =>
    have hA : A = [] := by
      cases A with
      | nil => rfl
      | cons x A =>
        have := congrArg List.length hT
        simp at this
    subst hA
    rw [List.nil_append]
    have hy : ∀ y, Blank (lineStart before) g y := by
      intro y
      rcases hw with rfl | ⟨a', rfl⟩
      · exact .nil
      · exact blank_end_more hg.1
    have hgap : ∀ g2 r, Gap (before ++ g) g2 r → Gap before (g ++ g2) r := by
      rintro g2 r ⟨h1, h2⟩
      refine ⟨blank_trans (hy _) (by rw [← lsAfter_before]; exact h1), by rw [← List.append_assoc]; exact h2⟩
    generalize hTB : B ++ [e'] = TB at hb
    cases hb with
    | @done _ g2 hg2 =>
      have hB : B = [] := by
        cases B with
        | nil => rfl
        | cons x B =>
          have := congrArg List.length hTB
          simp at this
      subst hB
      exact ⟨_, .done (hgap _ _ hg2)⟩
    | @token _ g2 w rest k toks hg2 hk hr =>
      refine ⟨e', ?_⟩
      rw [hTB]
      have := LexesTo.token (file := f) (before := before) (g := g ++ g2) (hgap _ _ hg2) hk (by simpa using hr)
      simpa using this
  | @token before g w rest k toks hg hk hr ih =>
    have hrest : ∃ r, rest = r ++ ['\n'] := by
      rcases hw with h | ⟨a', h⟩
      · exfalso
        have := spells_ne_nil hk
        simp at h
        exact this h.2.1
      · exact spells_rest hk h
    obtain ⟨r, rfl⟩ := hrest
    cases A with
    | nil =>
      exfalso
      have := congrArg List.length hT
      simp at this
      subst this
      generalize hz : r ++ ['\n'] = z at hr
      cases hr
    | cons x A =>
      simp only [List.cons_append, List.cons.injEq] at hT
      obtain ⟨rfl, hT⟩ := hT
      obtain ⟨e'', h1⟩ := ih (.inr ⟨r, rfl⟩) (by simpa using hb) hT
      refine ⟨e'', ?_⟩
      rw [List.append_assoc (g ++ w)]
      refine .token ⟨?_, stuck_more (spells_ne_nil hk) hg.2⟩ ?_ h1
      · rw [← List.append_assoc, ← List.append_assoc]
        refine blank_more ?_
        rw [List.append_assoc]
        exact hg.1
      · rw [List.append_assoc]
        exact spells_swap delimited_newline hk

/-- The lines on which the tokens are. -/
theorem lexes_bounds {f : Nat} {before text : Text} {T : List Token} (h : LexesTo f before text T) :
    ∀ t ∈ T, t.start.file = f ∧ t.stop.file = f ∧ 1 + before.count '\n' ≤ t.start.line ∧
      ((∃ a, text = a ++ ['\n']) → t.stop.line < 1 + (before ++ text).count '\n') := by
  induction h with
  | @done before g hg =>
    intro t ht
    rw [List.mem_singleton] at ht
    subst ht
    refine ⟨rfl, rfl, Nat.le_refl _, ?_⟩
    rintro ⟨a, rfl⟩
    simp [placeIn]
  | @token before g w rest k toks hg hk _ ih =>
    intro t ht
    rcases List.mem_cons.mp ht with rfl | ht
    · refine ⟨rfl, rfl, by simp [placeIn], ?_⟩
      rintro ⟨a, ha⟩
      obtain ⟨r, rfl⟩ := spells_rest hk ha
      simp [placeIn]
    · obtain ⟨h1, h2, h3, h4⟩ := ih t ht
      refine ⟨h1, h2, ?_, ?_⟩
      · simp only [List.count_append] at h3; omega
      · rintro ⟨a, ha⟩
        have := h4 (spells_rest hk ha)
        simpa using this

/-- A token at another place. -/
def Moved (f1 f2 c1 c2 : Nat) (t t' : Token) : Prop :=
  t'.tok = t.tok ∧ t.start.file = f1 ∧ t.stop.file = f1 ∧ t'.start.file = f2 ∧ t'.stop.file = f2 ∧
    t'.start.line + c1 = t.start.line + c2 ∧ t'.stop.line + c1 = t.stop.line + c2

theorem lexes_moved {f1 f2 : Nat} {b1 b2 text : Text} {T : List Token} (h : LexesTo f1 b1 text T) {c1 c2 : Nat}
    (hc : b2.count '\n' + c1 = b1.count '\n' + c2)
    (hl : lineStart b1 = lineStart b2) : ∃ T', LexesTo f2 b2 text T' ∧ EachLine (Moved f1 f2 c1 c2) T T' := by
  induction h generalizing b2 with
  | done hg =>
    refine ⟨_, .done (gap_shift hl hg), .cons ⟨rfl, rfl, rfl, rfl, rfl, ?_, ?_⟩ .nil⟩ <;> (simp only [placeIn]; omega)
  | @token before g w rest k toks hg hk _ ih =>
    obtain ⟨T', h1, h2⟩ := ih (b2 := b2 ++ g ++ w) (by simp only [List.count_append]; omega) (by
      rw [List.append_assoc, List.append_assoc]; exact lineStart_shift hl)
    refine ⟨_, .token (gap_shift hl hg) hk h1, .cons ⟨rfl, rfl, rfl, rfl, rfl, ?_, ?_⟩ h2⟩ <;>
      (simp only [placeIn, List.count_append]; omega)

theorem eachLine_split {α β : Type} {R : α → β → Prop} {a b : List α} : ∀ {c : List β}, EachLine R (a ++ b) c →
    ∃ c1 c2, c = c1 ++ c2 ∧ EachLine R a c1 ∧ EachLine R b c2 := by
  induction a with
  | nil => intro c h; exact ⟨[], c, rfl, .nil, h⟩
  | cons x a ih =>
    intro c h
    cases h with
    | cons h1 h2 =>
      obtain ⟨c1, c2, rfl, h3, h4⟩ := ih h2
      exact ⟨_ :: c1, c2, rfl, .cons h1 h3, h4⟩

theorem eachLine_join {α β : Type} {R : α → β → Prop} {a b : List α} {c d : List β} (h1 : EachLine R a c) (h2 : EachLine R b d) :
    EachLine R (a ++ b) (c ++ d) := by
  induction h1 with
  | nil => exact h2
  | cons h _ ih => exact .cons h ih

theorem eachLine_mem {α β : Type} {R : α → β → Prop} {a : List α} {b : List β} (h : EachLine R a b) :
    ∀ y ∈ b, ∃ x ∈ a, R x y := by
  induction h with
  | nil => intro y hy; cases hy
  | cons h _ ih =>
    intro y hy
    rcases List.mem_cons.mp hy with rfl | hy
    · exact ⟨_, List.mem_cons_self, h⟩
    · obtain ⟨x, h1, h2⟩ := ih y hy
      exact ⟨x, List.mem_cons_of_mem _ h1, h2⟩

theorem moved_toks {f1 f2 c1 c2 : Nat} {T T' : List Token} (h : EachLine (Moved f1 f2 c1 c2) T T') :
    T'.map Token.tok = T.map Token.tok := by
  induction h with
  | nil => rfl
  | cons h _ ih => simp only [List.map_cons, ih, h.1]

theorem splits_moved_each {f1 f2 c1 c2 : Nat} {T : List Token} {L : List (List Token)} (h : SplitsInto T L) :
    ∀ {T'}, EachLine (Moved f1 f2 c1 c2) T T' →
      ∃ L', SplitsInto T' L' ∧ EachLine (EachLine (Moved f1 f2 c1 c2)) L L' := by
  induction h with
  | nil => intro T' h; cases h; exact ⟨[], .nil, .nil⟩
  | @cons t l rest ls h1 h2 _ ih =>
    intro T' h
    obtain ⟨a, b, rfl, ha, hb⟩ := eachLine_split h
    cases ha with
    | @cons _ t' _ l' hm hl =>
      obtain ⟨L', h3, h4⟩ := ih hb
      refine ⟨(t' :: l') :: L', .cons ?_ ?_ h3, ?_⟩
      · intro x' hx'
        obtain ⟨x, hx, hxm⟩ := eachLine_mem hl x' hx'
        obtain ⟨e1, e2⟩ := h1 x hx
        obtain ⟨-, -, -, -, m1, -, m2⟩ := hm
        obtain ⟨-, -, -, n1, -, n2, -⟩ := hxm
        exact ⟨by omega, by rw [n1, m1]⟩
      · rintro x' xs' rfl
        cases hb with
        | @cons x _ xs _ hxm _ =>
          have := h2 x xs rfl
          obtain ⟨-, -, m3, -, m1, -, m2⟩ := hm
          obtain ⟨-, n3, -, n1, -, n2, -⟩ := hxm
          rintro ⟨g1, g2⟩
          exact this ⟨by omega, by rw [n3, m3]⟩
      · exact .cons (.cons hm hl) h4

theorem moved_kinds {f1 f2 c1 c2 : Nat} {L L' : List (List Token)} (h : EachLine (EachLine (Moved f1 f2 c1 c2)) L L') :
    L'.map (·.map Token.tok) = L.map (·.map Token.tok) := by
  induction h with
  | nil => rfl
  | cons h _ ih => rw [List.map_cons, ih, moved_toks h]; rfl

theorem splits_moved {f1 f2 c1 c2 : Nat} {T : List Token} {L : List (List Token)} (h : SplitsInto T L)
    {T'} (h' : EachLine (Moved f1 f2 c1 c2) T T') :
      ∃ L', SplitsInto T' L' ∧ L'.map (·.map Token.tok) = L.map (·.map Token.tok) := by
  obtain ⟨L', h1, h2⟩ := splits_moved_each h h'
  exact ⟨L', h1, moved_kinds h2⟩

theorem splits_flatten {T : List Token} {L : List (List Token)} (h : SplitsInto T L) : L.flatten = T := by
  induction h with
  | nil => rfl
  | cons _ _ _ ih => rw [List.flatten_cons, ih]

theorem splits_append {A B : List Token} {LA LB : List (List Token)} (hA : SplitsInto A LA) (hB : SplitsInto B LB)
    (h : ∀ t ∈ A, ∀ x ∈ B, ¬ (x.start.line = t.stop.line ∧ x.start.file = t.stop.file)) :
    SplitsInto (A ++ B) (LA ++ LB) := by
  induction hA with
  | nil => exact hB
  | @cons t l rest ls h1 h2 _ ih =>
    rw [List.append_assoc]
    refine .cons h1 ?_ (ih fun t' ht' => h t' (List.mem_append_right _ ht'))
    intro x xs hx
    cases rest with
    | nil => exact h t (by simp) x (by rw [List.nil_append] at hx; rw [hx]; simp)
    | cons y ys => cases hx; exact h2 _ _ rfl

/-! ### The lines of a text -/

theorem readsAt_shift {f1 f2 : Nat} {b1 b2 text : Text} {L : List (List Token)} (h : ReadsAt f1 b1 text L)
    (hl : lineStart b1 = lineStart b2) :
    ∃ L', ReadsAt f2 b2 text L' ∧ L'.map (·.map Token.tok) = L.map (·.map Token.tok) := by
  obtain ⟨e, h1, h2⟩ := h
  obtain ⟨T', h3, h4⟩ := lexes_moved (f2 := f2) (b2 := b2) h1 (c1 := b1.count '\n') (c2 := b2.count '\n') (by omega) hl
  obtain ⟨c1, c2, rfl, h5, h6⟩ := eachLine_split h4
  obtain ⟨L', h7, h8⟩ := splits_moved h2 h5
  cases h6 with
  | cons h _ =>
    rename_i e' _ hn
    cases hn
    have := splits_flatten h7
    refine ⟨L', ⟨e', by rw [this]; exact h3, by rw [this]; exact h7⟩, h8⟩

theorem readsAt_newline {f : Nat} {before a : Text} {L : List (List Token)} (h : ReadsAt f before a L) :
    ReadsAt f before (a ++ ['\n']) L := by
  obtain ⟨e, h1, h2⟩ := h
  exact ⟨e, lexes_newline h1, h2⟩

theorem readsAt_append {f : Nat} {before a b : Text} {La Lb : List (List Token)} (ha : ReadsAt f before a La)
    (hw : ∃ a', a = a' ++ ['\n']) (hb : ReadsAt f (before ++ a) b Lb) : ReadsAt f before (a ++ b) (La ++ Lb) := by
  obtain ⟨e, h1, h2⟩ := ha
  obtain ⟨e', h3, h4⟩ := hb
  obtain ⟨e'', h5⟩ := lexes_append h1 (.inr hw) h3
  refine ⟨e'', by rw [List.flatten_append]; exact h5, ?_⟩
  rw [List.flatten_append]
  refine splits_append h2 h4 ?_
  intro t ht x hx
  have g1 := (lexes_bounds h1 t (List.mem_append_left _ ht)).2.2.2 hw
  have g2 := (lexes_bounds h3 x (List.mem_append_left _ hx)).2.2.1
  omega

theorem readsAt_nil {f : Nat} {before : Text} : ReadsAt f before [] [] :=
  ⟨_, .done ⟨.nil, stuck_nil⟩, .nil⟩

theorem readsAt_unique {f : Nat} {text : Text} {L L' : List (List Token)} (h : ReadsAt f [] text L)
    (h' : ReadsAt f [] text L') : L = L' := by
  obtain ⟨e, h1, h2⟩ := h
  obtain ⟨e', h3, h4⟩ := h'
  have := lexesTo_unique h1 h3
  obtain ⟨this, -⟩ := List.append_inj' this rfl
  rw [this] at h2
  exact (lines_iff.mpr h2).symm.trans (lines_iff.mpr h4)

theorem readsAt_empty {f : Nat} {before : Text} {L : List (List Token)} (h : ReadsAt f before [] L) : L = [] := by
  obtain ⟨e, h1, h2⟩ := h
  generalize hT : L.flatten ++ [e] = T at h1
  generalize ht : ([] : Text) = text at h1
  cases h1 with
  | done hg =>
    have : L.flatten = [] := by
      cases hL : L.flatten with
      | nil => rfl
      | cons x A =>
        rw [hL] at hT
        have := congrArg List.length hT
        simp at this
    rw [this] at h2
    cases h2
    rfl
  | token _ hk _ =>
    exfalso
    have := spells_ne_nil hk
    simp at ht
    exact this ht.2.1

theorem readsAs_newline {a : Text} {ls : List (List Tok)} (h : ReadsAs a ls) : ReadsAs (a ++ ['\n']) ls := by
  obtain ⟨L, h1, h2⟩ := h
  exact ⟨L, readsAt_newline h1, h2⟩

theorem readsAs_append {a b : Text} {la lb : List (List Tok)} (ha : ReadsAs (a ++ ['\n']) la) (hb : ReadsAs b lb) :
    ReadsAs (a ++ ['\n'] ++ b) (la ++ lb) := by
  obtain ⟨L, h1, rfl⟩ := ha
  obtain ⟨M, h2, rfl⟩ := hb
  obtain ⟨M', h3, h4⟩ := readsAt_shift (f2 := 0) (b2 := [] ++ (a ++ ['\n'])) h2 (by simp [lineStart])
  exact ⟨L ++ M', readsAt_append h1 ⟨a, rfl⟩ h3, by rw [List.map_append, h4]⟩

theorem readsAs_unique {a : Text} {l l' : List (List Tok)} (h : ReadsAs a l) (h' : ReadsAs a l') : l = l' := by
  obtain ⟨L, h1, rfl⟩ := h
  obtain ⟨M, h2, rfl⟩ := h'
  rw [readsAt_unique h1 h2]

theorem readsAs_nil : ReadsAs [] [] := ⟨[], readsAt_nil, rfl⟩

end Verif
