import Verif.Spec.Lexing
/-
Positions and blank text.
-/
namespace Verif
open Spec

/-- The input after `before`, in front of `rest`. -/
def inputAt (file : Nat) (before rest : Text) : Input :=
  ⟨file, before, rest, 1 + before.count '\n', column before⟩

theorem inputAt_location (file : Nat) (before rest : Text) :
    (inputAt file before rest).location = placeIn file before := rfl

theorem byteLen_append (a b : Text) : byteLen (a ++ b) = byteLen a + byteLen b := by
  simp [byteLen]

theorem byteLen_cons (c : Char) (t : Text) : byteLen (c :: t) = c.utf8Size + byteLen t := by
  simp [byteLen]

theorem byteLen_pos {t : Text} (h : t ≠ []) : 0 < byteLen t := by
  cases t with
  | nil => exact absurd rfl h
  | cons c t => rw [byteLen_cons]; have := c.utf8Size_pos; omega

theorem Spec.Plain.suffix {seg : Seg} {a b : Text} (h : Plain seg (a ++ b)) : Plain seg b := by
  intro pre s e hs
  exact h (a ++ pre) s (by rw [e, List.append_assoc]) hs

theorem Spec.Plain.self {seg : Seg} {t : Text} (h : Plain seg t) (ht : t ≠ []) : seg t = plainSeg t :=
  h [] t rfl ht

theorem plain_of_ascii {seg : Seg} (hs : AsciiSeg seg) {text : Text} (ht : ∀ c ∈ text, c.toNat < 128) :
    Plain seg text := by
  intro pre s e hne
  refine hs s hne fun c hc => ht c ?_
  rw [e]
  exact List.mem_append_right _ (List.mem_of_mem_take hc)

theorem plain_plainSeg (text : Text) : Plain plainSeg text := fun _ _ _ _ => rfl

theorem plainSeg_ascii : AsciiSeg plainSeg := fun _ _ _ => rfl

theorem column_snoc (t : Text) (c : Char) : column (t ++ [c]) = if c = '\n' then 0 else column t + 1 := by
  unfold column
  by_cases h : c = '\n'
  · simp [h]
  · simp [h]

theorem plainSeg_crlf (t : Text) : plainSeg ('\r' :: '\n' :: t) = 2 := rfl

theorem plainSeg_other {c : Char} {t : Text} (h : ¬ (c = '\r' ∧ t.head? = some '\n')) : plainSeg (c :: t) = 1 := by
  unfold plainSeg
  split
  · rename_i heq
    exfalso
    simp only [List.cons.injEq] at heq
    exact h ⟨heq.1, by rw [heq.2]; rfl⟩
  · rfl

theorem over_one (file : Nat) (before : Text) (c : Char) (rest : Text) (r : Text) :
    (inputAt file before r).over [c] rest = inputAt file (before ++ [c]) rest := by
  unfold Input.over inputAt
  by_cases h : c = '\n'
  · subst h
    simp [column_snoc]
    omega
  · simp [column_snoc, h]

theorem over_crlf (file : Nat) (before rest : Text) (r : Text) :
    (inputAt file before r).over ['\r', '\n'] rest = inputAt file (before ++ ['\r', '\n']) rest := by
  have e : before ++ ['\r', '\n'] = (before ++ ['\r']) ++ ['\n'] := by simp
  have hc : column (before ++ ['\r', '\n']) = 0 := by rw [e, column_snoc]; rfl
  have hn : (before ++ ['\r', '\n']).count '\n' = before.count '\n' + 1 := by simp
  unfold Input.over inputAt
  rw [if_pos (.inl rfl), hc, hn]
  simp
  omega

theorem updateLoop_plain {seg : Seg} (file : Nat) : ∀ (n : Nat) (w before rest : Text), w.length ≤ n →
    Plain seg (w ++ rest) → ¬ (w.getLast? = some '\r' ∧ rest.head? = some '\n') →
    ∀ fuel, (w ++ rest).length ≤ fuel →
    (inputAt file before (w ++ rest)).updateLoop seg fuel (byteLen w) = inputAt file (before ++ w) rest := by
  intro n
  induction n with
  | zero =>
    intro w before rest hw hp hs fuel hf
    have : w = [] := List.length_eq_zero_iff.mp (by omega)
    subst this
    cases fuel with
    | zero => simp [Input.updateLoop]
    | succ f =>
      simp only [List.nil_append, List.append_nil]
      cases rest with
      | nil => simp [Input.updateLoop, inputAt]
      | cons c r =>
        have hseg : seg (c :: r) ≠ 0 := by
          rw [Spec.Plain.self (t := c :: r) hp (by simp)]
          unfold plainSeg
          split <;> simp
        have : 0 < byteLen ((c :: r).take (seg (c :: r))) :=
          byteLen_pos (by simpa using hseg)
        simp only [Input.updateLoop, inputAt]
        rw [if_pos (by simpa [byteLen] using this)]
  | succ n ih =>
    intro w before rest hw hp hs fuel hf
    cases w with
    | nil => exact ih [] before rest (by simp) hp hs fuel hf
    | cons c w =>
      cases fuel with
      | zero => simp at hf
      | succ f =>
        by_cases hcr : c = '\r' ∧ (w ++ rest).head? = some '\n'
        · obtain ⟨rfl, hh⟩ := hcr
          cases w with
          | nil => exact absurd ⟨rfl, hh⟩ hs
          | cons d w =>
            simp only [List.cons_append, List.head?_cons, Option.some.injEq] at hh
            subst hh
            have hseg : seg ('\r' :: '\n' :: (w ++ rest)) = 2 := by
              have := hp.self (by simp)
              simpa [plainSeg_crlf] using this
            simp only [List.cons_append, Input.updateLoop, inputAt, hseg, List.take_succ_cons, List.take_zero,
              List.drop_succ_cons, List.drop_zero]
            have hb : byteLen ('\r' :: '\n' :: w) = byteLen ['\r', '\n'] + byteLen w := byteLen_append ['\r', '\n'] w
            rw [if_neg (by rw [hb]; omega), hb, Nat.add_sub_cancel_left]
            have := over_crlf file before (w ++ rest) ('\r' :: '\n' :: (w ++ rest))
            unfold inputAt at this
            rw [this]
            have h2 := ih w (before ++ ['\r', '\n']) rest (by simp at hw; omega)
              (Spec.Plain.suffix (a := ['\r', '\n']) hp) ?_ f (by simp at hf ⊢; omega)
            · unfold inputAt at h2
              rw [h2]
              simp
            · intro ⟨h3, h4⟩
              refine hs ⟨?_, h4⟩
              cases w with
              | nil => simp at h3
              | cons a w => simpa [List.getLast?_cons_cons] using h3
        · have hseg : seg (c :: (w ++ rest)) = 1 := by
            have := hp.self (by simp)
            rw [List.cons_append] at this
            rw [this, plainSeg_other hcr]
          simp only [List.cons_append, Input.updateLoop, inputAt, hseg, List.take_succ_cons, List.take_zero,
            List.drop_succ_cons, List.drop_zero]
          have hb : byteLen (c :: w) = byteLen [c] + byteLen w := byteLen_append [c] w
          rw [if_neg (by rw [hb]; omega), hb, Nat.add_sub_cancel_left]
          have := over_one file before c (w ++ rest) (c :: (w ++ rest))
          unfold inputAt at this
          rw [this]
          have h2 := ih w (before ++ [c]) rest (by simp at hw; omega)
            (Spec.Plain.suffix (a := [c]) hp) ?_ f (by simp at hf ⊢; omega)
          · unfold inputAt at h2
            rw [h2]
            simp
          · intro ⟨h3, h4⟩
            refine hs ⟨?_, h4⟩
            cases w with
            | nil => simp at h3
            | cons a w => simpa [List.getLast?_cons_cons] using h3

theorem update_plain {seg : Seg} (file : Nat) (w before rest : Text) (hp : Plain seg (w ++ rest))
    (hs : ¬ (w.getLast? = some '\r' ∧ rest.head? = some '\n')) :
    (inputAt file before (w ++ rest)).update seg (byteLen w) = inputAt file (before ++ w) rest :=
  updateLoop_plain file w.length w before rest (Nat.le_refl _) hp hs _ (Nat.le_refl _)

/-! Blank text -/

theorem lineStart_nil : lineStart [] = true := rfl

theorem lineStart_snoc (t : Text) (c : Char) : lineStart (t ++ [c]) = (c == '\n') := by
  simp [lineStart]

theorem lineStart_append {t u : Text} (h : u ≠ []) : lineStart (t ++ u) = lineStart u := by
  have : (t ++ u).getLast? = u.getLast? := by
    rw [List.getLast?_append]
    cases hu : u.getLast? with
    | none => exact absurd (List.getLast?_eq_none_iff.mp hu) h
    | some c => simp
  unfold lineStart
  rw [this]

theorem startOfLine_eq (file : Nat) (before rest : Text) :
    (inputAt file before rest).startOfLine = lineStart before := by
  unfold Input.startOfLine lineStart inputAt
  cases h : before.getLast? <;> simp [Option.all]

theorem isSpace_newline : isSpace '\n' = true := by decide
theorem isSpace_cr : isSpace '\r' = true := by decide

/-- The line-start flag after blank text. -/
def lsAfter (ls : Bool) (g : Text) : Bool := if g = [] then ls else lineStart g

theorem lsAfter_cons (ls : Bool) (c : Char) (g : Text) : lsAfter ls (c :: g) = lsAfter (c == '\n') g := by
  unfold lsAfter
  cases g with
  | nil => simp [lineStart]
  | cons d g =>
    simp only [reduceCtorEq, ↓reduceIte]
    exact lineStart_append (t := [c]) (u := d :: g) (by simp)

theorem lsAfter_append (ls : Bool) (a b : Text) : lsAfter ls (a ++ b) = lsAfter (lsAfter ls a) b := by
  induction a generalizing ls with
  | nil => rfl
  | cons c a ih =>
    rw [List.cons_append, lsAfter_cons, lsAfter_cons, ih]

theorem lsAfter_before (before g : Text) : lineStart (before ++ g) = lsAfter (lineStart before) g := by
  unfold lsAfter
  split
  · rename_i h; simp [h]
  · rename_i h; exact lineStart_append h

theorem blank_trans {ls : Bool} {g1 g2 rest : Text} (h1 : Blank ls g1 (g2 ++ rest))
    (h2 : Blank (lsAfter ls g1) g2 rest) : Blank ls (g1 ++ g2) rest := by
  generalize hr : g2 ++ rest = r at h1
  induction h1 with
  | nil => exact h2
  | space hc _ ih =>
    rw [lsAfter_cons] at h2
    exact .space hc (ih h2 hr)
  | @comment ls c t g rest' hc ht he _ ih =>
    subst hr
    rw [show c :: t ++ g = (c :: t) ++ g from rfl, lsAfter_append] at h2
    have hl : lsAfter ls (c :: t) = false := by
      rw [lsAfter_cons]
      unfold lsAfter
      split
      · rcases hc with rfl | ⟨rfl, _⟩ <;> rfl
      · unfold lineStart
        cases hl : t.getLast? with
        | none => rename_i hne; exact absurd (List.getLast?_eq_none_iff.mp hl) hne
        | some x =>
          have : x ∈ t := List.mem_of_getLast? hl
          have hx : x ≠ '\n' := fun e => ht (e ▸ this)
          simpa using hx
    rw [hl] at h2
    have := Blank.comment hc ht (g := g ++ g2) (rest := rest) (by rwa [List.append_assoc]) (ih h2 rfl)
    simpa [List.append_assoc] using this

theorem takeWhile_space_blank {ls : Bool} : ∀ (t rest : Text), (∀ c ∈ t, isSpace c = true) → Blank ls t rest := by
  intro t
  induction t generalizing ls with
  | nil => intro _ _; exact .nil
  | cons c t ih => intro rest h; exact .space (h c List.mem_cons_self) (ih rest fun d hd => h d (List.mem_cons_of_mem _ hd))

theorem toEol_split : ∀ t : Text, ∃ rest, t = toEol t ++ rest ∧ '\n' ∉ toEol t ∧ atEol rest ∧
    ¬ ((toEol t).getLast? = some '\r' ∧ rest.head? = some '\n')
  | [] => ⟨[], rfl, by simp [toEol], .inl rfl, by simp [toEol]⟩
  | c :: cs => by
    unfold toEol
    split
    · rename_i h
      refine ⟨c :: cs, rfl, by simp, ?_, by simp⟩
      rcases h with rfl | ⟨rfl, h⟩
      · exact .inr (.inl rfl)
      · cases cs with
        | nil => cases h
        | cons d u =>
          simp only [List.head?_cons, Option.some.injEq] at h
          subst h
          exact .inr (.inr ⟨u, rfl⟩)
    · rename_i h
      obtain ⟨rest, h1, h2, h3, h4⟩ := toEol_split cs
      refine ⟨rest, by rw [List.cons_append, ← h1], ?_, h3, ?_⟩
      · simp only [List.mem_cons, not_or]
        exact ⟨fun e => h (.inl e.symm), h2⟩
      · rintro ⟨h5, h6⟩
        cases ht : toEol cs with
        | nil =>
          rw [ht] at h5 h1
          simp only [List.getLast?_singleton, Option.some.injEq] at h5
          rw [List.nil_append] at h1
          exact h (.inr ⟨h5, by rw [h1]; exact h6⟩)
        | cons d u =>
          rw [ht, List.getLast?_cons_cons, ← ht] at h5
          exact h4 ⟨h5, h6⟩

theorem takeWhile_head {p : Char → Bool} : ∀ t : Text, ∀ c ∈ (t.dropWhile p).head?, p c = false
  | [], c, h => by cases h
  | d :: t, c, h => by
    rw [List.dropWhile_cons] at h
    split at h
    · exact takeWhile_head t c h
    · rename_i hd
      simp only [List.head?_cons, Option.mem_def, Option.some.injEq] at h
      subst h
      simpa using hd

theorem skipWhitespace_plain {seg : Seg} (file : Nat) (before text : Text) (hp : Plain seg text) :
    (inputAt file before text).skipWhitespace seg =
      inputAt file (before ++ text.takeWhile isSpace) (text.dropWhile isSpace) := by
  have e : text = text.takeWhile isSpace ++ text.dropWhile isSpace := List.takeWhile_append_dropWhile.symm
  unfold Input.skipWhitespace
  rw [show (inputAt file before text).rest = text from rfl]
  conv => lhs; arg 3; rw [e]
  refine update_plain file _ before _ (by rwa [← e]) ?_
  rintro ⟨_, h⟩
  have := takeWhile_head (p := isSpace) text '\n' h
  rw [isSpace_newline] at this
  cases this

theorem skipToEol_plain {seg : Seg} (file : Nat) (before text : Text) (hp : Plain seg text) :
    ∃ rest, text = toEol text ++ rest ∧ '\n' ∉ toEol text ∧ atEol rest ∧
      skipToEol seg (inputAt file before text) = inputAt file (before ++ toEol text) rest := by
  obtain ⟨rest, h1, h2, h3, h4⟩ := toEol_split text
  refine ⟨rest, h1, h2, h3, ?_⟩
  unfold skipToEol
  rw [show (inputAt file before text).rest = text from rfl]
  conv => lhs; arg 3; rw [h1]
  exact update_plain file _ before _ (by rwa [← h1]) h4

theorem atEol_head {t : Text} (h : atEol t) : ∀ c ∈ t.head?, c = '\n' ∨ c = '\r' := by
  intro c hc
  rcases h with rfl | h | ⟨u, rfl⟩
  · cases hc
  · rw [h] at hc; cases hc; exact .inl rfl
  · cases hc; exact .inr rfl

/-- A comment starting with `c` at the head of the text. -/
theorem skip_comment_step {seg : Seg} (file : Nat) (before text : Text) (hp : Plain seg text) {c : Char}
    (hc : c = ';' ∨ (c = '*' ∧ lineStart before = true)) (hh : text.head? = some c) :
    ∃ g rest, text = g ++ rest ∧ g ≠ [] ∧ Blank (lineStart before) g rest ∧ atEol rest ∧
      skipToEol seg (inputAt file before text) = inputAt file (before ++ g) rest := by
  obtain ⟨rest, h1, h2, h3, h4⟩ := skipToEol_plain file before text hp
  refine ⟨toEol text, rest, h1, ?_, ?_, h3, h4⟩
  · cases text with
    | nil => cases hh
    | cons d u =>
      simp only [List.head?_cons, Option.some.injEq] at hh
      subst hh
      unfold toEol
      rw [if_neg]
      · simp
      · rcases hc with rfl | ⟨rfl, _⟩ <;> simp
  · cases text with
    | nil => cases hh
    | cons d u =>
      simp only [List.head?_cons, Option.some.injEq] at hh
      subst hh
      have ht : toEol (d :: u) = d :: toEol u := by
        rw [toEol, if_neg]
        rcases hc with rfl | ⟨rfl, _⟩ <;> simp
      rw [ht] at h2 ⊢
      have := Blank.comment hc (fun hm => h2 (List.mem_cons_of_mem _ hm)) (g := []) (rest := rest) h3 .nil
      simpa using this

/-- One repetition of the skipping loop. -/
theorem skip_once {seg : Seg} (file : Nat) (before text : Text) (hp : Plain seg text) :
    ∃ g rest, text = g ++ rest ∧ Blank (lineStart before) g rest ∧
      skipComment seg (skipStarComment seg ((inputAt file before text).skipWhitespace seg)) =
        inputAt file (before ++ g) rest ∧ (g = [] → Stuck (lineStart before) rest) := by
  rw [skipWhitespace_plain file before text hp]
  generalize hw : text.takeWhile isSpace = w
  generalize hr : text.dropWhile isSpace = r
  have e : text = w ++ r := by rw [← hw, ← hr]; exact List.takeWhile_append_dropWhile.symm
  have hb : Blank (lineStart before) w r := takeWhile_space_blank w r fun c hc => by
    rw [← hw] at hc
    have := List.all_takeWhile (p := isSpace) (l := text)
    exact List.all_eq_true.mp this c hc
  have hpr : Plain seg r := Spec.Plain.suffix (a := w) (by rwa [← e])
  have hsp : ∀ c ∈ r.head?, isSpace c = false := by rw [← hr]; exact takeWhile_head text
  by_cases hst : lineStart (before ++ w) = true ∧ r.head? = some '*'
  · -- a star comment
    obtain ⟨g, rest, h1, h2, h3, h4, h5⟩ := skip_comment_step file (before ++ w) r hpr (.inr ⟨rfl, hst.1⟩) hst.2
    refine ⟨w ++ g, rest, by rw [e, h1, List.append_assoc], ?_, ?_, ?_⟩
    · refine blank_trans (by rwa [← h1]) ?_
      rwa [← lsAfter_before]
    · unfold skipStarComment
      rw [startOfLine_eq, show (inputAt file (before ++ w) r).rest = r from rfl, hst.1, hst.2]
      simp only [beq_self_eq_true, Bool.and_self, ↓reduceIte, h5]
      unfold skipComment
      rw [if_neg, List.append_assoc]
      show ¬ (rest.head? == some ';') = true
      cases hrest : rest.head? with
      | none => simp
      | some c =>
        rcases atEol_head h4 c (by rw [hrest]; rfl) with rfl | rfl <;> decide
    · intro hn
      exact absurd (List.append_eq_nil_iff.mp hn).2 h2
  · have h1 : skipStarComment seg (inputAt file (before ++ w) r) = inputAt file (before ++ w) r := by
      unfold skipStarComment
      rw [startOfLine_eq, if_neg]
      show ¬ (lineStart (before ++ w) && r.head? == some '*') = true
      simpa using hst
    rw [h1]
    by_cases hsc : r.head? = some ';'
    · obtain ⟨g, rest, h1, h2, h3, h4, h5⟩ := skip_comment_step file (before ++ w) r hpr (.inl rfl) hsc
      refine ⟨w ++ g, rest, by rw [e, h1, List.append_assoc], ?_, ?_, ?_⟩
      · refine blank_trans (by rwa [← h1]) ?_
        rwa [← lsAfter_before]
      · unfold skipComment
        rw [show (inputAt file (before ++ w) r).rest = r from rfl, hsc]
        simp only [beq_self_eq_true, ↓reduceIte, h5, List.append_assoc]
      · intro hn
        exact absurd (List.append_eq_nil_iff.mp hn).2 h2
    · refine ⟨w, r, e, hb, ?_, ?_⟩
      · unfold skipComment
        rw [if_neg]
        show ¬ (r.head? == some ';') = true
        simpa using hsc
      · intro hn c hc
        rw [hn, List.append_nil] at hst
        refine ⟨hsp c hc, ?_, ?_⟩
        · rintro rfl; exact hsc hc
        · rintro hl rfl; exact hst ⟨hl, hc⟩

theorem skipBlankLoop_plain {seg : Seg} (file : Nat) : ∀ (fuel : Nat) (before text : Text), Plain seg text →
    text.length < fuel →
    ∃ g rest, text = g ++ rest ∧ Gap before g rest ∧
      skipBlankLoop seg fuel (inputAt file before text) = inputAt file (before ++ g) rest := by
  intro fuel
  induction fuel with
  | zero => intro _ _ _ h; omega
  | succ f ih =>
    intro before text hp hf
    obtain ⟨g, rest, h1, h2, h3, h4⟩ := skip_once file before text hp
    simp only [skipBlankLoop]
    rw [h3]
    have hpos : (inputAt file (before ++ g) rest).pos > (inputAt file before text).pos ↔ g ≠ [] := by
      show byteLen (before ++ g) > byteLen before ↔ _
      rw [byteLen_append]
      constructor
      · rintro h rfl
        simp [byteLen] at h
      · intro h
        have := byteLen_pos h
        omega
    by_cases hg : g = []
    · rw [if_neg (fun h => hpos.mp h hg)]
      subst hg
      exact ⟨[], rest, h1, ⟨h2, by simpa using h4 rfl⟩, rfl⟩
    · rw [if_pos (hpos.mpr hg)]
      obtain ⟨g', rest', h5, h6, h7⟩ := ih (before ++ g) rest (Spec.Plain.suffix (a := g) (by rwa [← h1])) (by
        have := congrArg List.length h1
        have hl : 0 < g.length := List.length_pos_iff.mpr hg
        simp at this
        omega)
      refine ⟨g ++ g', rest', by rw [h1, h5, List.append_assoc], ⟨?_, ?_⟩, by rw [h7, List.append_assoc]⟩
      · refine blank_trans (by rwa [← h5]) ?_
        rw [← lsAfter_before]
        exact h6.1
      · rw [← List.append_assoc]; exact h6.2

theorem skipBlank_plain {seg : Seg} (file : Nat) (before text : Text) (hp : Plain seg text) :
    ∃ g rest, text = g ++ rest ∧ Gap before g rest ∧
      skipBlank seg (inputAt file before text) = inputAt file (before ++ g) rest :=
  skipBlankLoop_plain file _ before text hp (Nat.lt_succ_self _)

/-! Gaps are determined by the text -/

/-- The text after the blank text at its start. -/
def blankRest : Nat → Bool → Text → Text
  | 0, _, t => t
  | _ + 1, _, [] => []
  | n + 1, ls, c :: cs =>
    if isSpace c then blankRest n (c == '\n') cs
    else if c = ';' ∨ (c = '*' ∧ ls = true) then blankRest n false (cs.dropWhile (· ≠ '\n'))
    else c :: cs

theorem blankRest_fuel : ∀ (n m : Nat) (ls : Bool) (t : Text), t.length ≤ n → t.length ≤ m →
    blankRest n ls t = blankRest m ls t := by
  intro n
  induction n with
  | zero =>
    intro m ls t h1 _
    have : t = [] := List.length_eq_zero_iff.mp (by omega)
    subst this
    cases m <;> rfl
  | succ n ih =>
    intro m ls t h1 h2
    cases t with
    | nil => cases m <;> rfl
    | cons c cs =>
      cases m with
      | zero => simp at h2
      | succ m =>
        simp only [List.length_cons, Nat.add_le_add_iff_right] at h1 h2
        simp only [blankRest]
        have hd : (cs.dropWhile (· ≠ '\n')).length ≤ cs.length := (List.dropWhile_suffix _).length_le
        rw [ih m _ cs h1 h2, ih m _ (cs.dropWhile (· ≠ '\n')) (by omega) (by omega)]

theorem dropWhile_no_newline {t r : Text} (h : '\n' ∉ t) : (t ++ r).dropWhile (· ≠ '\n') = r.dropWhile (· ≠ '\n') := by
  induction t with
  | nil => rfl
  | cons c t ih =>
    rw [List.cons_append, List.dropWhile_cons, if_pos, ih (fun hm => h (List.mem_cons_of_mem _ hm))]
    have : c ≠ '\n' := fun e => h (e ▸ List.mem_cons_self)
    simpa using this

theorem blank_rest {ls : Bool} {g rest : Text} (h : Blank ls g rest) (hs : Stuck (lsAfter ls g) rest) :
    ∀ n, (g ++ rest).length ≤ n → blankRest n ls (g ++ rest) = rest := by
  induction h with
  | @nil ls rest =>
    intro n hn
    cases rest with
    | nil => cases n <;> rfl
    | cons c r =>
      cases n with
      | zero => rfl
      | succ n =>
        have := hs c rfl
        simp only [List.nil_append, blankRest, this.1]
        rw [if_neg (by simp), if_neg]
        rintro (h | ⟨h, hl⟩)
        · exact this.2.1 h
        · exact this.2.2 hl h
  | space hc _ ih =>
    intro n hn
    cases n with
    | zero => simp at hn
    | succ n =>
      rw [lsAfter_cons] at hs
      simp only [List.cons_append, blankRest, hc, ↓reduceIte]
      exact ih hs n (by simpa using hn)
  | @comment ls c t g rest hc ht he hb ih =>
    intro n hn
    have hl : lsAfter ls (c :: t) = false := by
      rw [lsAfter_cons]
      unfold lsAfter
      split
      · rcases hc with rfl | ⟨rfl, _⟩ <;> rfl
      · unfold lineStart
        cases hl : t.getLast? with
        | none => rename_i hne; exact absurd (List.getLast?_eq_none_iff.mp hl) hne
        | some x =>
          have : x ∈ t := List.mem_of_getLast? hl
          have hx : x ≠ '\n' := fun e => ht (e ▸ this)
          simpa using hx
    rw [show c :: t ++ g = (c :: t) ++ g from rfl, lsAfter_append, hl] at hs
    have hns : isSpace c = false := by rcases hc with rfl | ⟨rfl, _⟩ <;> decide
    cases n with
    | zero => simp at hn
    | succ n =>
      simp only [List.cons_append, List.append_assoc, blankRest, hns, Bool.false_eq_true, ↓reduceIte, if_pos hc]
      rw [dropWhile_no_newline ht]
      simp only [List.cons_append, List.append_assoc, List.length_cons, List.length_append] at hn
      have hlen : (g ++ rest).length ≤ n := by simp; omega
      rcases he with he | he | ⟨u, he⟩
      · rw [he]
        have := ih hs n hlen
        rw [he] at this
        exact this
      · cases hgr : g ++ rest with
        | nil => rw [hgr] at he; cases he
        | cons d u =>
          rw [hgr] at he
          simp only [List.head?_cons, Option.some.injEq] at he
          subst he
          rw [List.dropWhile_cons, if_neg (by simp), ← hgr]
          exact ih hs n hlen
      · have h1 := ih hs n hlen
        rw [he] at h1 hlen ⊢
        rw [List.dropWhile_cons, if_pos (by decide), List.dropWhile_cons, if_neg (by decide)]
        cases n with
        | zero => simp at hlen
        | succ n =>
          rw [← h1]
          simp only [blankRest, isSpace_cr, ↓reduceIte, isSpace_newline]
          simp only [List.length_cons] at hlen
          cases n with
          | zero => simp at hlen
          | succ n =>
            simp only [blankRest, isSpace_newline, ↓reduceIte]
            exact blankRest_fuel _ _ _ _ (by simp at hlen; omega) (by simp at hlen; omega)

theorem gap_unique {before g g' rest rest' : Text} (h : Gap before g rest) (h' : Gap before g' rest')
    (e : g ++ rest = g' ++ rest') : g = g' ∧ rest = rest' := by
  have h1 := blank_rest h.1 (by rw [← lsAfter_before]; exact h.2) _ (Nat.le_refl _)
  have h2 := blank_rest h'.1 (by rw [← lsAfter_before]; exact h'.2) _ (Nat.le_refl _)
  rw [e] at h1
  have hr : rest = rest' := by rw [← h1, h2]
  subst hr
  exact ⟨List.append_cancel_right e, rfl⟩

theorem skipBlank_gap {seg : Seg} (file : Nat) {before g rest : Text} (hp : Plain seg (g ++ rest)) (h : Gap before g rest) :
    skipBlank seg (inputAt file before (g ++ rest)) = inputAt file (before ++ g) rest := by
  obtain ⟨g', rest', h1, h2, h3⟩ := skipBlank_plain file before (g ++ rest) hp
  obtain ⟨rfl, rfl⟩ := gap_unique h h2 h1
  exact h3

end Verif
