import Verif.Lemmas.Lexing
/-
Exchanging what comes between tokens.
-/
namespace Verif
open Spec

/-- No name and no number can contain these characters. -/
def delimiter (c : Char) : Prop := c = ';' ∨ c = '*' ∨ c = '\n' ∨ c = '\r' ∨ c = '/' ∨ c = ' '

/-- What can follow a token without changing it. -/
def Delimited (t : Text) : Prop := ∀ c ∈ t.head?, delimiter c

theorem delimiter_not_identChar {c : Char} (h : delimiter c) : ¬ identChar c ∧ c ≠ '%' ∧ c ≠ ':' ∧ c ≠ '\'' := by
  refine ⟨?_, ?_⟩
  · intro hh
    have := isIdentChar_iff.mpr hh
    revert this
    rcases h with rfl | rfl | rfl | rfl | rfl | rfl <;> decide
  · rcases h with rfl | rfl | rfl | rfl | rfl | rfl <;> decide

theorem delimiter_not_digit {c : Char} (h : delimiter c) {d : Nat} : ¬ digit c d := by
  intro hh
  have := digitValue_iff.mpr hh
  revert this
  rcases h with rfl | rfl | rfl | rfl | rfl | rfl
  · simp [show digitValue ';' = none from by decide]
  · simp [show digitValue '*' = none from by decide]
  · simp [show digitValue '\n' = none from by decide]
  · simp [show digitValue '\r' = none from by decide]
  · simp [show digitValue '/' = none from by decide]
  · simp [show digitValue ' ' = none from by decide]

theorem head_swap {P : Char → Prop} (hP : ∀ c, delimiter c → P c) {r d1 d2 : Text} (h2 : Delimited d2)
    (h : ∀ c ∈ (r ++ d1).head?, P c) : ∀ c ∈ (r ++ d2).head?, P c := by
  cases r with
  | nil => exact fun c hc => hP c (h2 c hc)
  | cons a r => exact h

theorem moreDigits_swap {base : Nat} {r d1 d2 : Text} (h2 : Delimited d2) (h : ¬ moreDigits base (r ++ d1)) :
    ¬ moreDigits base (r ++ d2) := by
  rintro ⟨c, d, hd, hl, hh⟩
  cases r with
  | nil =>
    rcases hh with hh | ⟨u, hu⟩
    · exact delimiter_not_digit (h2 c hh) hd
    · rw [List.nil_append] at hu
      exact (delimiter_not_identChar (h2 '\'' (by rw [hu]; rfl))).2.2.2 rfl
  | cons a r =>
    rcases hh with hh | ⟨u, hu⟩
    · exact h ⟨c, d, hd, hl, .inl hh⟩
    · cases r with
      | nil =>
        simp only [List.cons_append, List.nil_append, List.cons.injEq] at hu
        exact delimiter_not_digit (h2 c (by rw [hu.2]; rfl)) hd
      | cons b r =>
        simp only [List.cons_append, List.cons.injEq] at hu
        obtain ⟨rfl, rfl, _⟩ := hu
        exact h ⟨b, d, hd, hl, .inr ⟨_, rfl⟩⟩

theorem digits_no_delimiter {base acc : Nat} {w : Text} {v : Nat} (h : Digits base acc w v) : ∀ c ∈ w, ¬ delimiter c := by
  induction h with
  | nil => intro c hc; cases hc
  | digit hd _ _ ih =>
    intro c hc
    rcases List.mem_cons.mp hc with rfl | hc
    · exact fun h => delimiter_not_digit h hd
    · exact ih c hc
  | quote hd _ _ ih =>
    intro c hc
    rcases List.mem_cons.mp hc with rfl | hc
    · exact fun h => (delimiter_not_identChar h).2.2.2 rfl
    · rcases List.mem_cons.mp hc with rfl | hc
      · exact fun h => delimiter_not_digit h hd
      · exact ih c hc

theorem prefixed_swap {t d1 d2 : Text} (h1 : Delimited d1) (h : prefixed (t ++ d1)) : prefixed (t ++ d2) := by
  obtain ⟨p, base, radix, w, v, u, hp, hl, hn, ht⟩ := h
  have hno : ∀ c ∈ p ++ w, ¬ delimiter c := by
    intro c hc
    rcases List.mem_append.mp hc with hc | hc
    · have hall : ∀ q ∈ prefixes, ∀ c ∈ q.1, c ≠ ';' ∧ c ≠ '*' ∧ c ≠ '\n' ∧ c ≠ '\r' ∧ c ≠ '/' ∧ c ≠ ' ' := by decide
      obtain ⟨e1, e2, e3, e4, e5, e6⟩ := hall _ hp c hc
      rintro (h | h | h | h | h | h)
      · exact e1 h
      · exact e2 h
      · exact e3 h
      · exact e4 h
      · exact e5 h
      · exact e6 h
    · exact digits_no_delimiter hn.1 c hc
  rcases List.append_eq_append_iff.mp ht with ⟨a', e1, e2⟩ | ⟨c', e1, e2⟩
  · cases a' with
    | nil =>
      rw [List.append_nil] at e1
      exact ⟨p, base, radix, w, v, d2, hp, hl, hn, by rw [e1]⟩
    | cons x a' =>
      exfalso
      have : delimiter x := h1 x (by rw [e2]; rfl)
      exact hno x (by rw [e1]; simp) this
  · exact ⟨p, base, radix, w, v, c' ++ d2, hp, hl, hn, by rw [e1, List.append_assoc]⟩

theorem numberToken_swap {w r d1 d2 : Text} {v : Nat} {radix : Radix} (h2 : Delimited d2)
    (h : NumberToken w (r ++ d1) v radix) : NumberToken w (r ++ d2) v radix := by
  obtain ⟨p, base, ds, hp, rfl, hn, hm, hpre⟩ := h
  refine ⟨p, base, ds, hp, rfl, hn, moreDigits_swap h2 hm, fun e hpr => hpre e ?_⟩
  rw [← List.append_assoc] at hpr ⊢
  exact prefixed_swap h2 hpr

/-- What comes after a token can be exchanged for something else that is delimited. -/
theorem spells_swap {w r d1 d2 : Text} {k : Tok} (h2 : Delimited d2)
    (h : Spells w (r ++ d1) k) : Spells w (r ++ d2) k := by
  cases h with
  | symbol hm hc =>
    refine .symbol hm (fun e hh => ?_)
    have := head_swap (P := fun c => c ≠ ':') (fun c hc => (delimiter_not_identChar hc).2.2.1) h2
      (fun c (hcc : c ∈ (r ++ d1).head?) e' => hc e (by rw [e'] at hcc; exact hcc))
    exact this ':' hh rfl
  | name hi hr =>
    exact .name hi (head_swap (P := fun c => ¬ identChar c ∧ c ≠ '%')
      (fun c hc => ⟨(delimiter_not_identChar hc).1, (delimiter_not_identChar hc).2.1⟩) h2 hr)
  | macroLabel hi => exact .macroLabel hi
  | macroIdent hi hr =>
    exact .macroIdent hi (head_swap (P := fun c => ¬ identChar c) (fun c hc => (delimiter_not_identChar hc).1) h2 hr)
  | string hq => exact .string hq
  | number hn hv => exact .number (numberToken_swap h2 hn) hv

/-- `d` starts with a comment character. -/
def Comments (d : Text) : Prop := ∃ c u, d = c :: u ∧ (c = ';' ∨ c = '*')

theorem blank_swap {ls : Bool} {g r d1 d2 : Text} (h1 : Comments d1) (h : Blank ls g (r ++ d1)) :
    Blank ls g (r ++ d2) := by
  generalize he : r ++ d1 = rest at h
  induction h with
  | nil => exact .nil
  | space hs _ ih => exact .space hs (ih he)
  | @comment ls c t g rest hc ht hat _ ih =>
    refine .comment hc ht ?_ (ih he)
    subst he
    obtain ⟨x, u, rfl, hx⟩ := h1
    rw [← List.append_assoc] at hat ⊢
    generalize g ++ r = s at hat ⊢
    have hx1 : x ≠ '\n' := by rcases hx with rfl | rfl <;> decide
    have hx2 : x ≠ '\r' := by rcases hx with rfl | rfl <;> decide
    cases s with
    | nil =>
      rcases hat with h | h | ⟨u', h⟩
      · cases h
      · exact absurd (Option.some.inj h) hx1
      · exact absurd (List.cons.inj h).1 hx2
    | cons a s =>
      rcases hat with h | h | ⟨u', h⟩
      · cases h
      · exact .inr (.inl h)
      · cases s with
        | nil =>
          simp only [List.cons_append, List.nil_append, List.cons.injEq] at h
          exact absurd h.2.1 hx1
        | cons b s =>
          simp only [List.cons_append, List.cons.injEq] at h
          obtain ⟨rfl, rfl, _⟩ := h
          exact .inr (.inr ⟨_, rfl⟩)

theorem gap_swap {before g w r d1 d2 : Text} (h1 : Comments d1) (hw : w ≠ []) (h : Gap before g (w ++ (r ++ d1))) :
    Gap before g (w ++ (r ++ d2)) := by
  obtain ⟨hb, hs⟩ := h
  rw [← List.append_assoc] at hb
  refine ⟨by rw [← List.append_assoc]; exact blank_swap h1 hb, ?_⟩
  cases w with
  | nil => exact absurd rfl hw
  | cons a w => exact hs

theorem comments_delimited {d : Text} (h : Comments d) : Delimited d := by
  obtain ⟨c, u, rfl, hc⟩ := h
  intro x hx
  cases hx
  rcases hc with rfl | rfl
  · exact .inl rfl
  · exact .inr (.inl rfl)

theorem spells_ne_nil {w rest : Text} {k : Tok} (h : Spells w rest k) : w ≠ [] := by
  obtain ⟨w', c, rfl, _⟩ := spells_last h
  simp

/-- Everything before a comment is read in the same way if the comment is exchanged. -/
theorem reaches_swap {before text b t : Text} {ks : List Tok} (h : LexReaches before text ks b t) :
    ∀ {r d1 d2 : Text}, t = r ++ d1 → Comments d1 → Delimited d2 →
      ∃ text', before ++ text' = b ++ (r ++ d2) ∧ LexReaches before text' ks b (r ++ d2) := by
  induction h with
  | here => intro r d1 d2 _ _ _; exact ⟨_, rfl, .here⟩
  | @token before g w rest k ks b t hg hk hr ih =>
    intro r d1 d2 ht hc hd
    obtain ⟨text', e, h⟩ := ih ht hc hd
    have hlen := (reaches_length hr).2.2
    have hlen' := (reaches_length h).2.2
    -- both rests are the same text followed by the exchanged parts
    have hle := (reaches_length hr).2.1
    obtain ⟨m, hm⟩ : ∃ m, b = before ++ g ++ w ++ m := by
      have h1 : before ++ g ++ w <+: b ++ t := ⟨rest, hlen⟩
      have h2 : b <+: b ++ t := List.prefix_append _ _
      have hl := (reaches_length hr).1
      obtain ⟨m, hm⟩ := List.prefix_of_prefix_length_le h1 h2 (by omega)
      exact ⟨m, hm.symm⟩
    have hrest : rest = (m ++ r) ++ d1 := by
      rw [hm, ht] at hlen
      simp only [List.append_assoc] at hlen ⊢
      simpa using hlen
    have htext : text' = (m ++ r) ++ d2 := by
      rw [hm] at e
      simp only [List.append_assoc] at e ⊢
      simpa using e
    subst hrest htext
    refine ⟨g ++ w ++ (m ++ r ++ d2), ?_, .token (gap_swap hc (spells_ne_nil hk) hg) (spells_swap hd hk) h⟩
    rw [hm]; simp

theorem gap_shift {b1 b2 g rest : Text} (hl : lineStart b1 = lineStart b2) (h : Gap b1 g rest) : Gap b2 g rest := by
  unfold Gap at *
  rw [lsAfter_before] at *
  rwa [← hl]

theorem lineStart_shift {b1 b2 g : Text} (hl : lineStart b1 = lineStart b2) : lineStart (b1 ++ g) = lineStart (b2 ++ g) := by
  rw [lsAfter_before, lsAfter_before, hl]

/-- The tokens of a text depend on what is before it only by whether that ends a line. -/
theorem lexesTo_shift {file f2 : Nat} {b1 b2 text : Text} {toks : List Token} (hl : lineStart b1 = lineStart b2)
    (h : LexesTo file b1 text toks) : ∃ toks', LexesTo f2 b2 text toks' ∧ tokKinds toks' = tokKinds toks := by
  induction h generalizing b2 with
  | done hg => exact ⟨_, .done (gap_shift hl hg), rfl⟩
  | @token before g w rest k toks hg hk _ ih =>
    obtain ⟨toks', h1, h2⟩ := ih (b2 := b2 ++ g ++ w) (by
      rw [List.append_assoc, List.append_assoc]; exact lineStart_shift hl)
    exact ⟨_, .token (gap_shift hl hg) hk h1, by simp only [tokKinds, List.map_cons, List.cons.injEq, true_and]; exact h2⟩

theorem reaches_lexes {file : Nat} {before text b t : Text} {ks : List Tok} (h : LexReaches before text ks b t) {toks : List Token}
    (ht : LexesTo file b t toks) : ∃ pre, LexesTo file before text (pre ++ toks) ∧ tokKinds pre = ks := by
  induction h with
  | here => exact ⟨[], ht, rfl⟩
  | token hg hk _ ih =>
    obtain ⟨pre, h1, h2⟩ := ih ht
    exact ⟨_ :: pre, .token hg hk h1, by simp only [tokKinds, List.map_cons, List.cons.injEq, true_and]; exact h2⟩

theorem lexesTo_reaches {file : Nat} {before text b t : Text} {ks : List Tok} (h : LexReaches before text ks b t)
    {toks : List Token} (hl : LexesTo file before text toks) :
    ∃ pre suf, toks = pre ++ suf ∧ tokKinds pre = ks ∧ LexesTo file b t suf := by
  induction h generalizing toks with
  | here => exact ⟨[], toks, rfl, rfl, hl⟩
  | @token before g w rest k ks b t hg hk _ ih =>
    generalize he : g ++ w ++ rest = text at hl
    cases hl with
    | done hg' =>
      have hg2 : Gap before text ([] : Text) := hg'
      obtain ⟨rfl, h2⟩ := gap_unique hg hg2 (by rw [List.append_nil, ← he, List.append_assoc])
      exact absurd (List.append_eq_nil_iff.mp h2).1 (spells_ne_nil hk)
    | @token _ g' w' rest' k' toks' hg' hk' hl' =>
      obtain ⟨rfl, h2⟩ := gap_unique hg hg' (by rw [← List.append_assoc, he, List.append_assoc])
      obtain ⟨rfl, rfl, rfl⟩ := spells_unique hk hk' h2
      obtain ⟨pre, suf, rfl, h3, h4⟩ := ih hl'
      exact ⟨_ :: pre, suf, rfl, by simp only [tokKinds, List.map_cons, List.cons.injEq, true_and]; exact h3, h4⟩

theorem blank_atEol {l1 l2 : Bool} {g rest : Text} (he : atEol (g ++ rest)) (h : Blank l1 g rest) : Blank l2 g rest := by
  cases h with
  | nil => exact .nil
  | space hs hb => exact .space hs hb
  | @comment _ c t g _ hc _ _ _ =>
    exfalso
    have := atEol_head he c rfl
    rcases hc with rfl | ⟨rfl, _⟩ <;> revert this <;> decide

/-- After two blank texts that go to the end of a line, the same tokens follow. -/
theorem lexes_after_blank {file : Nat} {b g1 g2 post : Text} {toks : List Token}
    (h1 : Blank (lineStart b) g1 post) (h2 : Blank (lineStart b) g2 post) (hp : atEol post)
    (h : LexesTo file b (g1 ++ post) toks) : ∃ toks', LexesTo file b (g2 ++ post) toks' ∧ tokKinds toks' = tokKinds toks := by
  obtain ⟨g, rest, rfl, hg⟩ := gap_exists (b ++ g1) post
  have hstuck : ∀ x : Text, Stuck (lineStart (x ++ g)) rest := by
    intro x
    rcases List.eq_nil_or_concat g with rfl | ⟨g', c, rfl⟩
    · cases rest with
      | nil => intro c hc; cases hc
      | cons c cs =>
        exfalso
        have := hg.2 c rfl
        rcases atEol_head hp c rfl with rfl | rfl
        · rw [isSpace_newline] at this; cases this.1
        · rw [isSpace_cr] at this; cases this.1
    · have := hg.2
      rw [List.concat_eq_append, ← List.append_assoc, lineStart_snoc] at this ⊢
      exact this
  have hgap : ∀ {x : Text}, Blank (lineStart b) x (g ++ rest) → Gap b (x ++ g) rest := by
    intro x hx
    refine ⟨blank_trans hx ?_, ?_⟩
    · exact blank_atEol hp hg.1
    · rw [← List.append_assoc]; exact hstuck _
  have hg1 := hgap h1
  have hg2 := hgap h2
  rw [← List.append_assoc] at h ⊢
  generalize he : g1 ++ g ++ rest = text at h
  cases h with
  | done hg' =>
    have hg3 : Gap b text ([] : Text) := hg'
    obtain ⟨rfl, rfl⟩ := gap_unique hg1 hg3 (by rw [List.append_nil, ← he])
    rw [List.append_nil]
    exact ⟨_, .done hg2, rfl⟩
  | @token _ g' w' rest' k' toks' hg' hk' hl' =>
    obtain ⟨rfl, rfl⟩ := gap_unique hg1 hg' (by rw [he, List.append_assoc])
    obtain ⟨toks2, h3, h4⟩ := lexesTo_shift (f2 := file) (b2 := b ++ (g2 ++ g) ++ w') (by
      rw [lineStart_append (spells_ne_nil hk'), lineStart_append (spells_ne_nil hk')]) hl'
    rw [← List.append_assoc]
    exact ⟨_, .token hg2 hk' h3, by simp only [tokKinds, List.map_cons, List.cons.injEq, true_and]; exact h4⟩

theorem atEol_delimited {t : Text} (h : atEol t) : Delimited t := by
  intro c hc
  rcases atEol_head h c hc with rfl | rfl
  · exact .inr (.inr (.inl rfl))
  · exact .inr (.inr (.inr (.inl rfl)))

/-- Exchanging a comment, or removing it, does not change the tokens. -/
theorem lexes_comment {file : Nat} {b g t post : Text} {c : Char} {ks ks' : List Tok}
    (hc : c = ';' ∨ (c = '*' ∧ lineStart (b ++ g) = true)) (ht : '\n' ∉ t) (hp : atEol post)
    (hr : LexReaches [] (b ++ g ++ c :: t ++ post) ks b (g ++ c :: t ++ post))
    (hb : Blank (lineStart b) g (c :: t ++ post)) {d : Text}
    (hd : d = [] ∨ ∃ c' t', d = c' :: t' ∧ (c' = ';' ∨ (c' = '*' ∧ lineStart (b ++ g) = true)) ∧ '\n' ∉ t') :
    (∃ toks, LexesTo file [] (b ++ g ++ c :: t ++ post) toks ∧ tokKinds toks = ks') ↔
    ∃ toks', LexesTo file [] (b ++ g ++ d ++ post) toks' ∧ tokKinds toks' = ks' := by
  have hcom : Comments (c :: t ++ post) := ⟨c, t ++ post, rfl, by
    rcases hc with h | h
    · exact .inl h
    · exact .inr h.1⟩
  have hdel : Delimited (d ++ post) := by
    rcases hd with rfl | ⟨c', t', rfl, hc', _⟩
    · exact atEol_delimited hp
    · intro x hx
      cases hx
      rcases hc' with rfl | ⟨rfl, _⟩
      · exact .inl rfl
      · exact .inr (.inl rfl)
  obtain ⟨text', e, hr'⟩ := reaches_swap hr (r := g) (d2 := d ++ post) (by simp) hcom hdel
  rw [List.nil_append] at e
  subst e
  have hls : lsAfter (lineStart b) g = lineStart (b ++ g) := (lsAfter_before b g).symm
  have b1 : Blank (lineStart b) (g ++ c :: t) post := by
    refine blank_trans hb ?_
    have := Blank.comment (ls := lsAfter (lineStart b) g) (c := c) (t := t) (g := []) (rest := post)
      (by rw [hls]; exact hc) ht hp .nil
    rwa [List.append_nil] at this
  have b2 : Blank (lineStart b) (g ++ d) post := by
    have hb' : Blank (lineStart b) g (d ++ post) := by
      have := blank_swap (r := []) (d2 := d ++ post) hcom hb
      exact this
    refine blank_trans hb' ?_
    rcases hd with rfl | ⟨c', t', rfl, hc', ht'⟩
    · exact .nil
    · have := Blank.comment (ls := lsAfter (lineStart b) g) (c := c') (t := t') (g := []) (rest := post)
        (by rw [hls]; exact hc') ht' hp .nil
      rwa [List.append_nil] at this
  have hr1 : LexReaches [] (b ++ ((g ++ c :: t) ++ post)) ks b ((g ++ c :: t) ++ post) := by
    simpa only [List.append_assoc] using hr
  have hr2 : LexReaches [] (b ++ ((g ++ d) ++ post)) ks b ((g ++ d) ++ post) := by
    simpa only [List.append_assoc] using hr'
  have key : ∀ {x y : Text}, Blank (lineStart b) x post → Blank (lineStart b) y post →
      LexReaches [] (b ++ (x ++ post)) ks b (x ++ post) → LexReaches [] (b ++ (y ++ post)) ks b (y ++ post) →
      (∃ toks, LexesTo file [] (b ++ (x ++ post)) toks ∧ tokKinds toks = ks') →
      ∃ toks, LexesTo file [] (b ++ (y ++ post)) toks ∧ tokKinds toks = ks' := by
    rintro x y bx b_y rx ry ⟨toks, h, hk⟩
    obtain ⟨pre, suf, rfl, h1, h2⟩ := lexesTo_reaches rx h
    obtain ⟨suf', h3, h4⟩ := lexes_after_blank bx b_y hp h2
    obtain ⟨pre', h5, h6⟩ := reaches_lexes ry h3
    refine ⟨_, h5, ?_⟩
    simp only [tokKinds, List.map_append] at *
    rw [h6, h4, ← h1, hk]
  have e1 : b ++ g ++ c :: t ++ post = b ++ ((g ++ c :: t) ++ post) := by simp
  have e2 : b ++ g ++ d ++ post = b ++ ((g ++ d) ++ post) := by simp
  rw [e1, e2]
  exact ⟨key b1 b2 hr1 hr2, key b2 b1 hr2 hr1⟩

theorem lexesTo_one {file : Nat} {w : Text} {k : Tok} (h : Spells w [] k) (hg : Gap [] [] w) :
    LexesTo file [] w [⟨k, placeIn file [], placeIn file w⟩, ⟨.eof, placeIn file w, placeIn file w⟩] := by
  have := LexesTo.token (file := file) (before := []) (g := []) (w := w) (rest := []) (k := k)
    (by rw [List.append_nil]; exact hg) h (.done (g := []) ⟨.nil, fun c hc => nomatch hc⟩)
  simp only [List.nil_append, List.append_nil] at this
  exact this

theorem gap_nil {before rest : Text} (h : ∀ c ∈ rest.head?, isSpace c = false ∧ c ≠ ';' ∧ c ≠ '*') : Gap before [] rest :=
  ⟨.nil, fun c hc => ⟨(h c hc).1, (h c hc).2.1, fun _ => (h c hc).2.2⟩⟩

theorem digit_ascii {c : Char} {d : Nat} (h : digit c d) :
    c.toNat < 128 ∧ isSpace c = false ∧ c ≠ ';' ∧ c ≠ '*' ∧ c ≠ 'x' ∧ c ≠ 'X' ∧ c ≠ 'o' ∧ c ≠ 'O' ∧
      (d < 10 → c ≠ 'b' ∧ c ≠ 'B') := by
  have hall : ∀ d < 16, ∀ s ∈ ["0123456789abcdef".toList[d]?.getD '0', "0123456789ABCDEF".toList[d]?.getD '0'],
      s.toNat < 128 ∧ isSpace s = false ∧ s ≠ ';' ∧ s ≠ '*' ∧ s ≠ 'x' ∧ s ≠ 'X' ∧ s ≠ 'o' ∧ s ≠ 'O' ∧
        (d < 10 → s ≠ 'b' ∧ s ≠ 'B') := by decide
  have hd : d < 16 := by
    rcases h with h | h <;> exact (List.getElem?_eq_some_iff.mp h).1
  rcases h with h | h
  · exact hall d hd c (by rw [h]; simp)
  · exact hall d hd c (by rw [h]; simp)

theorem digits_ascii {base acc : Nat} {w : Text} {v : Nat} (h : Digits base acc w v) : ∀ c ∈ w, c.toNat < 128 := by
  induction h with
  | nil => intro c hc; cases hc
  | digit hd _ _ ih =>
    intro c hc
    rcases List.mem_cons.mp hc with rfl | hc
    · exact (digit_ascii hd).1
    · exact ih c hc
  | quote hd _ _ ih =>
    intro c hc
    rcases List.mem_cons.mp hc with rfl | hc
    · decide
    · rcases List.mem_cons.mp hc with rfl | hc
      · exact (digit_ascii hd).1
      · exact ih c hc

theorem decimal_not_prefixed {ds : Text} {v : Nat} (h : Numeral 10 ds v) : ¬ prefixed (ds ++ []) := by
  rw [List.append_nil]
  rintro ⟨p, base, radix, w, v', u, hp, hl, hn, ht⟩
  have hall : ∀ q ∈ prefixes, q.1.length = 2 → ∃ c ∈ ['x', 'X', 'o', 'O', 'b', 'B'], q.1 = ['0', c] := by decide
  obtain ⟨c, hc, rfl⟩ := hall _ hp hl
  obtain ⟨a, d, w', rfl, hd, hd', hw⟩ := numeral_cons h
  simp only [List.cons_append, List.nil_append, List.cons.injEq] at ht
  obtain ⟨rfl, ht⟩ := ht
  subst ht
  generalize w ++ u = x at hw
  cases hw with
  | digit hd hl _ =>
    have := digit_ascii hd
    obtain ⟨_, _, _, _, e1, e2, e3, e4, e5⟩ := this
    obtain ⟨e5, e6⟩ := e5 hl
    simp only [List.mem_cons, List.not_mem_nil, or_false] at hc
    rcases hc with h | h | h | h | h | h
    · exact e1 h
    · exact e2 h
    · exact e3 h
    · exact e4 h
    · exact e5 h
    · exact e6 h
  | quote _ _ _ => revert hc; decide

theorem not_moreDigits_nil {base : Nat} : ¬ moreDigits base [] := by
  rintro ⟨c, d, _, _, h | ⟨u, h⟩⟩ <;> cases h

theorem lexesTo_tokens {file : Nat} {before text : Text} {toks : List Token} (h : LexesTo file before text toks) :
    ∀ t ∈ toks, t.tok = .eof ∨ ∃ a w rest, before ++ text = a ++ w ++ rest ∧ Spells w rest t.tok ∧
      t.start = placeIn file a ∧ t.stop = placeIn file (a ++ w) := by
  induction h with
  | @done before g hg =>
    intro t ht
    rw [List.mem_singleton] at ht
    subst ht
    exact .inl rfl
  | @token before g w rest k toks hg hk _ ih =>
    intro t ht
    rcases List.mem_cons.mp ht with rfl | ht
    · exact .inr ⟨before ++ g, w, rest, by simp, hk, rfl, rfl⟩
    · rcases ih t ht with h | ⟨a, w', rest', h1, h2⟩
      · exact .inl h
      · exact .inr ⟨a, w', rest', by rw [← h1]; simp, h2⟩

/-! Order and progress -/

theorem byteLen_mono (a b : Text) : byteLen a ≤ byteLen (a ++ b) := by rw [byteLen_append]; omega

theorem lexesTo_order {file : Nat} {before text : Text} {toks : List Token} (h : LexesTo file before text toks) :
    (∀ t ∈ toks, (placeIn file before).pos ≤ t.start.pos) ∧
    toks.Pairwise (fun a b => a.stop.pos ≤ b.start.pos) ∧
    ∀ t ∈ toks, t.tok ≠ .eof → t.start.pos < t.stop.pos := by
  induction h with
  | done hg =>
    refine ⟨?_, List.pairwise_singleton _ _, ?_⟩
    · intro t ht
      rw [List.mem_singleton] at ht
      subst ht; exact Nat.le_refl _
    · intro t ht hne
      rw [List.mem_singleton] at ht
      subst ht; exact absurd rfl hne
  | @token before g w rest k toks hg hk _ ih =>
    obtain ⟨h1, h2, h3⟩ := ih
    have hm : byteLen before ≤ byteLen (before ++ g) := byteLen_mono _ _
    have hm2 : byteLen (before ++ g) < byteLen (before ++ g ++ w) := by
      rw [byteLen_append (before ++ g)]
      have := byteLen_pos (spells_ne_nil hk)
      omega
    refine ⟨?_, List.pairwise_cons.mpr ⟨h1, h2⟩, ?_⟩
    · intro t ht
      rcases List.mem_cons.mp ht with rfl | ht
      · exact hm
      · exact Nat.le_trans (Nat.le_trans hm (Nat.le_of_lt hm2)) (h1 t ht)
    · intro t ht hne
      rcases List.mem_cons.mp ht with rfl | ht
      · exact hm2
      · exact h3 t ht hne

theorem lexesTo_places {file : Nat} {before text : Text} {toks : List Token} (h : LexesTo file before text toks) :
    ∀ t ∈ toks, ∃ a w rest, before ++ text = a ++ w ++ rest ∧ t.start = placeIn file a ∧ t.stop = placeIn file (a ++ w) := by
  induction h with
  | @done before g hg =>
    intro t ht
    rw [List.mem_singleton] at ht
    subst ht
    exact ⟨before, [], g, by simp, rfl, by rw [List.append_nil]⟩
  | @token before g w rest k toks hg hk _ ih =>
    intro t ht
    rcases List.mem_cons.mp ht with rfl | ht
    · exact ⟨before ++ g, w, rest, by simp, rfl, rfl⟩
    · obtain ⟨a, w', rest', h1, h2⟩ := ih t ht
      exact ⟨a, w', rest', by rw [← h1]; simp, h2⟩

end Verif
