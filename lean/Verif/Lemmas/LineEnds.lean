import Verif.Lemmas.LexSwap
import Verif.Spec.LineEnds
/-
Line ends do not matter.
-/
namespace Verif
open Spec

theorem windows_append (a b : Text) : windows (a ++ b) = windows a ++ windows b := by simp [windows]

theorem windows_newline (t : Text) : windows ('\n' :: t) = '\r' :: '\n' :: windows t := by simp [windows]

theorem windows_cons {c : Char} (h : c ≠ '\n') (t : Text) : windows (c :: t) = c :: windows t := by simp [windows, h]

theorem windows_same {t : Text} (h : '\n' ∉ t) : windows t = t := by
  induction t with
  | nil => rfl
  | cons c t ih =>
    rw [windows_cons (fun e => h (by simp [e])), ih fun hm => h (List.mem_cons_of_mem _ hm)]

theorem windows_count (t : Text) : (windows t).count '\n' = t.count '\n' := by
  induction t with
  | nil => rfl
  | cons c t ih =>
    by_cases h : c = '\n'
    · subst h; rw [windows_newline]; simp [ih]
    · rw [windows_cons h]; simp [h, ih]

theorem windows_lineStart (t : Text) : lineStart (windows t) = lineStart t := by
  rcases List.eq_nil_or_concat t with rfl | ⟨u, c, rfl⟩
  · rfl
  · rw [List.concat_eq_append, windows_append, lineStart_snoc]
    by_cases h : c = '\n'
    · subst h
      rw [windows_newline, show windows u ++ '\r' :: '\n' :: windows [] = (windows u ++ ['\r']) ++ ['\n'] by simp [windows], lineStart_snoc]
    · rw [windows_cons h, show windows [] = [] from rfl, lineStart_snoc]

/-- The first line, and the rest. -/
theorem line_and_rest (t : Text) : ∃ r d, t = r ++ d ∧ '\n' ∉ r ∧ (d = [] ∨ ∃ u, d = '\n' :: u) := by
  induction t with
  | nil => exact ⟨[], [], rfl, by simp, .inl rfl⟩
  | cons c t ih =>
    by_cases h : c = '\n'
    · exact ⟨[], c :: t, rfl, by simp, .inr ⟨t, by rw [h]⟩⟩
    · obtain ⟨r, d, h1, h2, h3⟩ := ih
      exact ⟨c :: r, d, by rw [h1]; rfl, by simp [h2, Ne.symm h], h3⟩

theorem windows_spells {w rest : Text} {k : Tok} (h : Spells w rest k) : Spells w (windows rest) k := by
  obtain ⟨r, d, rfl, h2, h3⟩ := line_and_rest rest
  rw [windows_append, windows_same h2]
  refine spells_swap ?_ h
  rcases h3 with rfl | ⟨u, rfl⟩
  · intro c hc; cases hc
  · rw [windows_newline]
    intro c hc
    cases hc
    exact .inr (.inr (.inr (.inl rfl)))

theorem windows_blank {ls : Bool} {g rest : Text} (h : Blank ls g rest) (hr : '\r' ∉ g ++ rest) : Blank ls (windows g) (windows rest) := by
  induction h with
  | nil => exact .nil
  | @space ls c g rest h1 _ ih =>
    have hr' : '\r' ∉ g ++ rest := fun h => hr (List.mem_cons_of_mem _ h)
    by_cases h : c = '\n'
    · subst h
      rw [windows_newline]
      exact .space (by decide) (.space (by decide) (ih hr'))
    · rw [windows_cons h]
      exact .space h1 (ih hr')
  | @comment ls c t g rest h1 h2 h3 _ ih =>
    have hc : c ≠ '\n' := by rcases h1 with rfl | ⟨rfl, _⟩ <;> decide
    have hr' : '\r' ∉ g ++ rest := fun h => hr (by
      rw [List.append_assoc]
      exact List.mem_append_right _ h)
    rw [windows_append, windows_cons hc, windows_same h2]
    refine .comment h1 h2 ?_ (ih hr')
    rw [← windows_append]
    generalize g ++ rest = x at h3 hr'
    rcases h3 with rfl | h3 | ⟨u, rfl⟩
    · exact .inl rfl
    · cases x with
      | nil => cases h3
      | cons d x =>
        cases h3
        exact .inr (.inr ⟨windows x, windows_newline x⟩)
    · exact absurd List.mem_cons_self hr'

theorem windows_stuck {ls : Bool} {rest : Text} (h : Stuck ls rest) : Stuck ls (windows rest) := by
  cases rest with
  | nil => exact h
  | cons c rest =>
    have hc := h c rfl
    have : c ≠ '\n' := by rintro rfl; exact absurd hc.1 (by decide)
    rw [windows_cons this]
    exact h

theorem windows_gap {b g rest : Text} (h : Gap b g rest) (hr : '\r' ∉ g ++ rest) : Gap (windows b) (windows g) (windows rest) := by
  refine ⟨?_, ?_⟩
  · rw [windows_lineStart]
    exact windows_blank h.1 hr
  · rw [← windows_append, windows_lineStart]
    exact windows_stuck h.2

theorem windows_line (file : Nat) (b : Text) : (placeIn file (windows b)).line = (placeIn file b).line := by
  simp only [placeIn, windows_count]

theorem windows_lexes {file : Nat} {b t : Text} {toks : List Token} (h : LexesTo file b t toks) (hr : '\r' ∉ t)
    (hl : ∀ k ∈ toks, k.start.line = k.stop.line) :
    ∃ toks', LexesTo file (windows b) (windows t) toks' ∧ EachLine SameSpot toks toks' := by
  induction h with
  | @done b g h1 =>
    exact ⟨_, .done (windows_gap h1 (by simpa using hr)), .cons ⟨rfl, (windows_line file b).symm, (windows_line file b).symm⟩ .nil⟩
  | @token b g w rest k toks h1 h2 _ ih =>
    obtain ⟨toks', a1, a2⟩ := ih (fun hm => hr (List.mem_append_right _ hm)) fun k hk => hl k (List.mem_cons_of_mem _ hk)
    have hw : '\n' ∉ w := by
      have := hl _ List.mem_cons_self
      simp only [placeIn, List.count_append] at this
      exact List.count_eq_zero.mp (by omega)
    rw [windows_append, windows_append, windows_same hw] at a1
    have h3 := windows_gap h1 (by rwa [← List.append_assoc])
    rw [windows_append, windows_same hw] at h3
    rw [windows_append, windows_append, windows_same hw]
    refine ⟨_, .token h3 (windows_spells h2) a1, .cons ⟨rfl, ?_, ?_⟩ a2⟩
    · rw [← windows_append]
      exact (windows_line file _).symm
    · have := windows_line file (b ++ g ++ w)
      rw [windows_append, windows_append, windows_same hw] at this
      exact this.symm

theorem sameTokens_windows {t : Text} (h : TokensOnLines t) (hr : '\r' ∉ t) : SameTokens t (windows t) := by
  obtain ⟨toks, h1, h2⟩ := h
  obtain ⟨toks', h3, h4⟩ := windows_lexes h1 hr h2
  exact ⟨toks, toks', h1, h3, h4⟩

theorem sameTokens_symm {t t' : Text} (h : SameTokens t t') : SameTokens t' t := by
  obtain ⟨a, b, h1, h2, h3⟩ := h
  refine ⟨b, a, h2, h1, ?_⟩
  clear h1 h2
  induction h3 with
  | nil => exact .nil
  | cons h _ ih => exact .cons ⟨h.1.symm, h.2.1.symm, h.2.2.symm⟩ ih

/-! ### C headers -/

theorem windows_head {x u : Text} {c : Char} (h : windows x = c :: u) (hc : c ≠ '\r') : ∃ v, x = c :: v ∧ u = windows v := by
  cases x with
  | nil => cases h
  | cons d x =>
    by_cases hd : d = '\n'
    · subst hd
      rw [windows_newline] at h
      cases h
      exact absurd rfl hc
    · rw [windows_cons hd] at h
      cases h
      exact ⟨x, rfl, rfl⟩

theorem windows_close : ∀ {t a b : Text}, windows t = a ++ '*' :: '/' :: b → ∃ a' b', t = a' ++ '*' :: '/' :: b'
  | [], a, b, h => by cases a <;> cases h
  | c :: t, a, b, h => by
    by_cases hc : c = '\n'
    · subst hc
      rw [windows_newline] at h
      match a, h with
      | [], h => cases h
      | [_], h => cases h
      | _ :: _ :: a, h =>
        simp only [List.cons_append, List.cons.injEq] at h
        obtain ⟨a', b', rfl⟩ := windows_close h.2.2
        exact ⟨'\n' :: a', b', rfl⟩
    · rw [windows_cons hc] at h
      match a, h with
      | [], h =>
        simp only [List.nil_append, List.cons.injEq] at h
        obtain ⟨v, rfl, -⟩ := windows_head h.2 (by decide)
        exact ⟨[], v, by rw [h.1]; rfl⟩
      | _ :: a, h =>
        simp only [List.cons_append, List.cons.injEq] at h
        obtain ⟨a', b', rfl⟩ := windows_close h.2
        exact ⟨c :: a', b', rfl⟩

theorem windows_noClose {t : Text} (h : NoClose t) : NoClose (windows t) := by
  intro a b e
  obtain ⟨a', b', e'⟩ := windows_close e
  exact h a' b' e'

theorem windows_atEol {x : Text} (h : atEol x) (hr : '\r' ∉ x) : atEol (windows x) := by
  rcases h with rfl | h | ⟨u, rfl⟩
  · exact .inl rfl
  · cases x with
    | nil => cases h
    | cons d x =>
      cases h
      exact .inr (.inr ⟨windows x, windows_newline x⟩)
  · exact absurd List.mem_cons_self hr

theorem windows_cblank {g rest : Text} (h : CBlank g rest) (hr : '\r' ∉ g ++ rest) : CBlank (windows g) (windows rest) := by
  induction h with
  | nil => exact .nil
  | @space c g rest h1 _ ih =>
    have hr' : '\r' ∉ g ++ rest := fun h => hr (List.mem_cons_of_mem _ h)
    by_cases h : c = '\n'
    · subst h
      rw [windows_newline]
      exact .space (by decide) (.space (by decide) (ih hr'))
    · rw [windows_cons h]
      exact .space h1 (ih hr')
  | @line t g rest h1 h2 _ ih =>
    have hr' : '\r' ∉ g ++ rest := fun h => hr (by
      rw [List.append_assoc]
      exact List.mem_append_right _ h)
    rw [windows_append, windows_cons (by decide), windows_cons (by decide), windows_same h1]
    exact .line h1 (by rw [← windows_append]; exact windows_atEol h2 hr') (ih hr')
  | @block t g rest h1 _ ih =>
    have hr' : '\r' ∉ g ++ rest := fun h => hr (by
      rw [List.append_assoc]
      exact List.mem_append_right _ (List.mem_cons_of_mem _ (List.mem_cons_of_mem _ h)))
    rw [windows_append, windows_cons (by decide), windows_cons (by decide), windows_cons (by decide), windows_cons (by decide)]
    exact .block (windows_noClose h1) (ih hr')
  | @unclosed t h1 =>
    rw [windows_cons (by decide), windows_cons (by decide)]
    exact .unclosed (windows_noClose h1)

theorem windows_cstuck {rest : Text} (h : CStuck rest) : CStuck (windows rest) := by
  refine ⟨?_, fun u e => ?_, fun u e => ?_⟩
  · cases rest with
    | nil => exact h.1
    | cons c rest =>
      have hc := h.1 c rfl
      have : c ≠ '\n' := by rintro rfl; exact absurd hc (by decide)
      rw [windows_cons this]
      exact h.1
  · obtain ⟨v, rfl, e1⟩ := windows_head e (by decide)
    obtain ⟨v', rfl, -⟩ := windows_head e1.symm (by decide)
    exact h.2.1 _ rfl
  · obtain ⟨v, rfl, e1⟩ := windows_head e (by decide)
    obtain ⟨v', rfl, -⟩ := windows_head e1.symm (by decide)
    exact h.2.2 _ rfl

theorem windows_cgap {g rest : Text} (h : CGap g rest) (hr : '\r' ∉ g ++ rest) : CGap (windows g) (windows rest) :=
  ⟨windows_cblank h.1 hr, windows_cstuck h.2⟩

theorem windows_clexes {file : Nat} {b t : Text} {toks : List Token} (h : CLexesTo file b t toks) (hr : '\r' ∉ t)
    (hl : ∀ k ∈ toks, k.start.line = k.stop.line) :
    ∃ toks', CLexesTo file (windows b) (windows t) toks' ∧ EachLine SameSpot toks toks' := by
  induction h with
  | @done b g h1 =>
    exact ⟨_, .done (windows_cgap h1 (by simpa using hr)), .cons ⟨rfl, (windows_line file b).symm, (windows_line file b).symm⟩ .nil⟩
  | @token b g w rest k toks h1 h2 _ ih =>
    obtain ⟨toks', a1, a2⟩ := ih (fun hm => hr (List.mem_append_right _ hm)) fun k hk => hl k (List.mem_cons_of_mem _ hk)
    have hw : '\n' ∉ w := by
      have := hl _ List.mem_cons_self
      simp only [placeIn, List.count_append] at this
      exact List.count_eq_zero.mp (by omega)
    rw [windows_append, windows_append, windows_same hw] at a1
    have h3 := windows_cgap h1 (by rwa [← List.append_assoc])
    rw [windows_append, windows_same hw] at h3
    rw [windows_append, windows_append, windows_same hw]
    refine ⟨_, .token h3 (windows_spells h2) a1, .cons ⟨rfl, ?_, ?_⟩ a2⟩
    · rw [← windows_append]
      exact (windows_line file _).symm
    · have := windows_line file (b ++ g ++ w)
      rw [windows_append, windows_append, windows_same hw] at this
      exact this.symm

theorem sameHeaderTokens_windows {t : Text} (h : HeaderOnLines t) (hr : '\r' ∉ t) : SameHeaderTokens t (windows t) := by
  obtain ⟨toks, h1, h2⟩ := h
  obtain ⟨toks', h3, h4⟩ := windows_clexes h1 hr h2
  exact ⟨toks, toks', h1, h3, h4⟩

theorem sameHeaderTokens_symm {t t' : Text} (h : SameHeaderTokens t t') : SameHeaderTokens t' t := by
  obtain ⟨a, b, h1, h2, h3⟩ := h
  refine ⟨b, a, h2, h1, ?_⟩
  clear h1 h2
  induction h3 with
  | nil => exact .nil
  | cons h _ ih => exact .cons ⟨h.1.symm, h.2.1.symm, h.2.2.symm⟩ ih

theorem windows_ascii {t : Text} (h : Ascii t) : Ascii (windows t) := by
  intro c hc
  obtain ⟨d, hd, hm⟩ := List.mem_flatMap.mp hc
  split at hm
  · simp only [List.mem_cons, List.not_mem_nil, or_false] at hm
    rcases hm with rfl | rfl <;> decide
  · simp only [List.mem_cons, List.not_mem_nil, or_false] at hm
    exact hm ▸ h d hd

/-! ### Disks -/

theorem respelled_lineEnds {seg : Seg} {fs fs' : FS} {dir main : Path} (h : OtherLineEnds seg fs fs' dir main) : Respelled fs fs' where
  isFile := h.isFile
  isDir := h.isDir
  read p := by
    rcases h.read p with e | ⟨t, -, h1, ⟨h5, h6⟩ | ⟨h5, h6⟩⟩
    · exact .inl e
    · exact .inr ⟨_, _, h5, h6⟩
    · exact .inr ⟨_, _, h5, h6⟩

theorem sources_lineEnds {seg : Seg} {fs fs' : FS} {dir main : Path} (h : OtherLineEnds seg fs fs' dir main) :
    SameSources seg fs fs' dir main := by
  intro p hp
  rcases h.read p with e | ⟨t, hd⟩
  · exact .inl e
  · obtain ⟨h2, h3, h4⟩ := h.sources p t hp hd
    obtain ⟨-, h1, ⟨h5, h6⟩ | ⟨h5, h6⟩⟩ := hd
    · exact .inr ⟨_, _, h5, h6, h3, h4, sameTokens_windows h2 h1⟩
    · exact .inr ⟨_, _, h5, h6, h4, h3, sameTokens_symm (sameTokens_windows h2 h1)⟩

theorem headers_lineEnds {seg : Seg} {fs fs' : FS} {dir main : Path} (h : OtherLineEnds seg fs fs' dir main) :
    SameHeaders seg fs fs' dir main := by
  intro p q hp hq
  rcases h.read q with e | ⟨t, hd⟩
  · exact .inl e
  · obtain ⟨h2, ha, h3, h4⟩ := h.headers p q t hp hq hd
    obtain ⟨-, h1, ⟨h5, h6⟩ | ⟨h5, h6⟩⟩ := hd
    · exact .inr ⟨_, _, h5, h6, h3, h4, ha, windows_ascii ha, sameHeaderTokens_windows h2 h1⟩
    · exact .inr ⟨_, _, h5, h6, h4, h3, windows_ascii ha, ha, sameHeaderTokens_symm (sameHeaderTokens_windows h2 h1)⟩

end Verif
