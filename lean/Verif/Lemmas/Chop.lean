import Verif.Lemmas.ReadsAt
/-
The newline at the end of a text does not matter.
-/
namespace Verif
open Spec

theorem blank_other {ls : Bool} {g w r r' : Text} (hw : ∀ c ∈ (w ++ r).head?, isSpace c = false) (hne : w ≠ []) (h : Blank ls g (w ++ r)) :
    Blank ls g (w ++ r') := by
  generalize he : w ++ r = x at h
  induction h with
  | nil => exact .nil
  | space h1 _ ih => subst he; exact .space h1 (ih rfl)
  | @comment ls c t g rest h1 h2 h3 _ ih =>
    subst he
    refine .comment h1 h2 ?_ (ih rfl)
    obtain ⟨x, xs, rfl⟩ := List.exists_cons_of_ne_nil hne
    have hx : isSpace x = false := hw x rfl
    rcases h3 with h3 | h3 | ⟨u, h3⟩
    · simp at h3
    · cases g with
      | nil =>
        simp at h3
        subst h3
        exact absurd hx (by decide)
      | cons d g => exact .inr (.inl (by simpa using h3))
    · right; right
      cases g with
      | nil =>
        simp at h3
        rw [h3.1] at hx
        exact absurd hx (by decide)
      | cons d g =>
        cases g with
        | nil =>
          simp at h3
          rw [h3.2.1] at hx
          exact absurd hx (by decide)
        | cons e g =>
          simp at h3
          exact ⟨g ++ (x :: xs ++ r'), by simp [h3.1, h3.2.1]⟩

theorem blank_chop {ls : Bool} {t : Text} (h : Blank ls (t ++ ['\n']) []) : Blank ls t [] := by
  generalize he : t ++ ['\n'] = x at h
  generalize hr : ([] : Text) = r at h
  induction h generalizing t with
  | nil => simp at he
  | @space ls c g rest h1 _ ih =>
    subst hr
    cases t with
    | nil => exact .nil
    | cons d t =>
      simp only [List.cons_append, List.cons.injEq] at he
      obtain ⟨rfl, he⟩ := he
      exact .space h1 (ih he rfl)
  | @comment ls c u g rest h1 h2 h3 _ ih =>
    subst hr
    have hg : g ≠ [] := by
      rintro rfl
      have hm : '\n' ∈ c :: u ++ [] := he ▸ by simp
      rw [List.append_nil] at hm
      rcases List.mem_cons.mp hm with hm | hm
      · rcases h1 with rfl | ⟨rfl, _⟩ <;> exact absurd hm (by decide)
      · exact h2 hm
    obtain ⟨g', rfl, rfl⟩ := append_snoc he.symm hg
    have hb := ih rfl rfl
    rw [List.append_nil] at h3
    rcases h3 with h3 | h3 | ⟨v, h3⟩
    · simp at h3
    · refine .comment h1 h2 ?_ hb
      cases g' with
      | nil => exact .inl rfl
      | cons d g' => exact .inr (.inl (by simpa using h3))
    · cases g' with
      | nil => simp at h3
      | cons d g' =>
        simp only [List.cons_append, List.cons.injEq] at h3
        obtain ⟨rfl, h3⟩ := h3
        cases g' with
        | nil =>
          have : Blank ls (c :: (u ++ ['\r']) ++ []) [] := by
            refine .comment h1 ?_ (.inl rfl) .nil
            intro hm
            rcases List.mem_append.mp hm with hm | hm
            · exact h2 hm
            · revert hm; decide
          simpa using this
        | cons e g' =>
          simp only [List.cons_append, List.cons.injEq] at h3
          refine .comment h1 h2 (.inr (.inr ⟨g', ?_⟩)) hb
          simp [h3.1]

theorem lexes_chop {f : Nat} {before t : Text} {T : List Token} (h : LexesTo f before (t ++ ['\n']) T) : LexesTo f before t T := by
  generalize he : t ++ ['\n'] = x at h
  induction h generalizing t with
  | done h1 => subst he; exact .done ⟨blank_chop h1.1, stuck_nil⟩
  | @token before g w rest k toks h1 h2 h3 ih =>
    obtain ⟨r, rfl⟩ := spells_rest h2 he.symm
    obtain ⟨r', h4, rfl⟩ := append_snoc he.symm (by simp)
    obtain rfl : r = r' := (List.append_inj' h4 rfl).1
    have hw := spells_ne_nil h2
    refine .token ⟨?_, stuck_more hw h1.2⟩ ?_ (ih rfl)
    · exact blank_other (fun c hc => (h1.2 c hc).1) hw h1.1
    · have := spells_swap (d2 := []) (by intro c hc; cases hc) h2
      rwa [List.append_nil] at this

theorem readsAs_chop {t : Text} {ls : List (List Tok)} (h : ReadsAs (t ++ ['\n']) ls) : ReadsAs t ls := by
  obtain ⟨L, ⟨e, h1, h2⟩, h3⟩ := h
  exact ⟨L, ⟨e, lexes_chop h1, h2⟩, h3⟩

end Verif
