import Verif.Lemmas.LexSwap
/-
The case of letters outside strings does not matter to the lexer.
-/
namespace Verif
open Spec

theorem toLower_cases (c : Char) : c.toLower = c ∨ ∃ n < 26, c = Char.ofNat (65 + n) ∧ c.toLower = Char.ofNat (97 + n) := by
  by_cases h : c.isUpper = true
  · right
    simp only [Char.isUpper, Bool.and_eq_true, decide_eq_true_eq, ge_iff_le] at h
    have h1 : 65 ≤ c.toNat := by have := h.1; rw [UInt32.le_iff_toNat_le] at this; exact this
    have h2 : c.toNat ≤ 90 := by have := h.2; rw [UInt32.le_iff_toNat_le] at this; exact this
    have key : ∀ n < 26, (Char.ofNat (65 + n)).toLower = Char.ofNat (97 + n) := by decide +kernel
    have e : c = Char.ofNat (65 + (c.toNat - 65)) := by
      rw [show 65 + (c.toNat - 65) = c.toNat by omega, Char.ofNat_toNat]
    refine ⟨c.toNat - 65, by omega, e, ?_⟩
    conv => lhs; rw [e]
    exact key _ (by omega)
  · left
    simp only [Char.isUpper, Bool.and_eq_true, decide_eq_true_eq, ge_iff_le] at h
    unfold Char.toLower
    rw [dif_neg (by simpa using h)]

/-- A property that does not tell the 26 letters from their capitals does not tell a character from one with the
same lower case. -/
theorem caseInd (P : Char → Prop) (h : ∀ n < 26, P (Char.ofNat (65 + n)) ↔ P (Char.ofNat (97 + n))) {c d : Char}
    (e : c.toLower = d.toLower) : P c ↔ P d := by
  have key : ∀ c, P c ↔ P c.toLower := by
    intro c
    rcases toLower_cases c with h1 | ⟨n, hn, h1, h2⟩
    · rw [h1]
    · rw [h2, h1]; exact h n hn
  rw [key c, key d, e]

theorem caseFn {α : Type} (f : Char → α) (h : ∀ n < 26, f (Char.ofNat (65 + n)) = f (Char.ofNat (97 + n))) {c d : Char}
    (e : c.toLower = d.toLower) : f c = f d := by
  have := caseInd (fun c => f c = f d) (fun n hn => by rw [h n hn]) e
  exact this.mpr rfl

theorem case_alpha {c d : Char} (e : c.toLower = d.toLower) : c.isAlpha = d.isAlpha := caseFn _ (by decide +kernel) e
theorem case_digit {c d : Char} (e : c.toLower = d.toLower) : c.isDigit = d.isDigit := caseFn _ (by decide +kernel) e
theorem case_space {c d : Char} (e : c.toLower = d.toLower) : isSpace c = isSpace d := caseFn _ (by decide +kernel) e
theorem case_size {c d : Char} (e : c.toLower = d.toLower) : c.utf8Size = d.utf8Size := caseFn _ (by decide +kernel) e

/-- Characters that are not letters stand for themselves. -/
theorem case_eq {x : Char} (hx : x.isAlpha = false) {c d : Char} (e : c.toLower = d.toLower) : c = x ↔ d = x := by
  refine caseInd (fun c => c = x) (fun n hn => ?_) e
  have k1 : ∀ n < 26, (Char.ofNat (65 + n)).isAlpha = true := by decide +kernel
  have k2 : ∀ n < 26, (Char.ofNat (97 + n)).isAlpha = true := by decide +kernel
  constructor
  · rintro rfl; rw [k1 n hn] at hx; cases hx
  · rintro rfl; rw [k2 n hn] at hx; cases hx

theorem case_self {x d : Char} (hx : x.isAlpha = false) (e : x.toLower = d.toLower) : d = x := (case_eq hx e).mp rfl

theorem lower_cons {c : Char} {t t' : Text} (h : lower (c :: t) = lower t') :
    ∃ d u, t' = d :: u ∧ c.toLower = d.toLower ∧ lower t = lower u := by
  cases t' with
  | nil => cases h
  | cons d u => simp only [lower, List.map_cons, List.cons.injEq] at h; exact ⟨d, u, rfl, h.1, h.2⟩

theorem lower_nil {t' : Text} (h : lower [] = lower t') : t' = [] := by
  cases t' with
  | nil => rfl
  | cons d u => cases h

theorem lower_append {a b t' : Text} (h : lower (a ++ b) = lower t') :
    ∃ a' b', t' = a' ++ b' ∧ lower a = lower a' ∧ lower b = lower b' := by
  induction a generalizing t' with
  | nil => exact ⟨[], t', rfl, rfl, h⟩
  | cons c a ih =>
    obtain ⟨d, u, rfl, h1, h2⟩ := lower_cons h
    obtain ⟨a', b', rfl, h3, h4⟩ := ih h2
    refine ⟨d :: a', b', rfl, ?_, h4⟩
    simp only [lower, List.map_cons] at h3 ⊢; rw [h1, h3]

theorem lower_app {a a' b b' : Text} (h : lower a = lower a') (h' : lower b = lower b') : lower (a ++ b) = lower (a' ++ b') := by
  simp only [lower, List.map_append] at h h' ⊢; rw [h, h']

theorem lower_con {c d : Char} {t t' : Text} (h : c.toLower = d.toLower) (h' : lower t = lower t') :
    lower (c :: t) = lower (d :: t') := by
  simp only [lower, List.map_cons] at h' ⊢; rw [h, h']

theorem case_text {f : Char → Bool} (hf : ∀ c d : Char, c.toLower = d.toLower → f c = f d) {t t' : Text} (h : lower t = lower t') :
    t.map f = t'.map f := by
  induction t generalizing t' with
  | nil => rw [lower_nil h]
  | cons c t ih =>
    obtain ⟨d, u, rfl, h1, h2⟩ := lower_cons h
    rw [List.map_cons, List.map_cons, hf c d h1, ih h2]

theorem case_head {P : Char → Prop} (hP : ∀ c d : Char, c.toLower = d.toLower → (P c ↔ P d)) {t t' : Text} (h : lower t = lower t') :
    (∀ c ∈ t.head?, P c) ↔ ∀ c ∈ t'.head?, P c := by
  cases t with
  | nil => rw [lower_nil h]
  | cons c t =>
    obtain ⟨d, u, rfl, h1, h2⟩ := lower_cons h
    simp [hP c d h1]

theorem case_not_mem {x : Char} (hx : x.isAlpha = false) {t t' : Text} (h : lower t = lower t') (hm : x ∉ t) : x ∉ t' := by
  induction t generalizing t' with
  | nil => rw [lower_nil h]; simp
  | cons c t ih =>
    obtain ⟨d, u, rfl, h1, h2⟩ := lower_cons h
    rw [List.mem_cons, not_or] at hm ⊢
    refine ⟨fun e => hm.1 ?_, ih h2 hm.2⟩
    exact ((case_eq hx h1).mpr e.symm).symm

/-! ### Places -/

theorem byteLen_case {t t' : Text} (h : lower t = lower t') : byteLen t = byteLen t' := by
  induction t generalizing t' with
  | nil => rw [lower_nil h]
  | cons c t ih =>
    obtain ⟨d, u, rfl, h1, h2⟩ := lower_cons h
    have := ih h2
    simp only [byteLen, List.map_cons, List.sum_cons] at this ⊢
    rw [case_size h1, this]

theorem count_case {x : Char} (hx : x.isAlpha = false) {t t' : Text} (h : lower t = lower t') : t.count x = t'.count x := by
  induction t generalizing t' with
  | nil => rw [lower_nil h]
  | cons c t ih =>
    obtain ⟨d, u, rfl, h1, h2⟩ := lower_cons h
    rw [List.count_cons, List.count_cons, ih h2]
    have := case_eq hx h1
    by_cases hc : c = x
    · rw [this.mp hc, hc]
    · have hd : d ≠ x := fun e => hc (this.mpr e)
      simp [hc, hd]

theorem lower_reverse {t t' : Text} (h : lower t = lower t') : lower t.reverse = lower t'.reverse := by
  simp only [lower, List.map_reverse] at h ⊢; rw [h]

theorem column_case {t t' : Text} (h : lower t = lower t') : column t = column t' := by
  unfold column
  have h := lower_reverse h
  generalize t.reverse = a at h
  generalize t'.reverse = b at h
  induction a generalizing b with
  | nil => rw [lower_nil h]
  | cons c a ih =>
    obtain ⟨d, u, rfl, h1, h2⟩ := lower_cons h
    have := case_eq (x := '\n') (by decide) h1
    rw [List.takeWhile_cons, List.takeWhile_cons]
    by_cases hc : c = '\n'
    · have hd : d = '\n' := this.mp hc
      simp [hc, hd]
    · have hd : d ≠ '\n' := fun e => hc (this.mpr e)
      rw [if_pos (by simpa using hc), if_pos (by simpa using hd), List.length_cons, List.length_cons, ih u h2]

theorem placeIn_case {file : Nat} {t t' : Text} (h : lower t = lower t') : placeIn file t = placeIn file t' := by
  rw [placeIn, placeIn, byteLen_case h, count_case (by decide) h, column_case h]

theorem lineStart_case {t t' : Text} (h : lower t = lower t') : lineStart t = lineStart t' := by
  unfold lineStart
  rw [List.getLast?_eq_head?_reverse, List.getLast?_eq_head?_reverse]
  have h := lower_reverse h
  generalize t.reverse = a at h
  generalize t'.reverse = b at h
  cases a with
  | nil => rw [lower_nil h]
  | cons c a =>
    obtain ⟨d, u, rfl, h1, h2⟩ := lower_cons h
    have := case_eq (x := '\n') (by decide) h1
    simp only [List.head?_cons, Option.all_some]
    rw [Bool.eq_iff_iff, beq_iff_eq, beq_iff_eq, this]

/-! ### Blank text -/

theorem atEol_case {t t' : Text} (h : lower t = lower t') (ha : atEol t) : atEol t' := by
  rcases ha with rfl | ha | ⟨u, rfl⟩
  · rw [lower_nil h]; exact .inl rfl
  · cases t with
    | nil => cases ha
    | cons c t =>
      cases ha
      obtain ⟨d, u, rfl, h1, h2⟩ := lower_cons h
      rw [case_self (by decide) h1]
      exact .inr (.inl rfl)
  · obtain ⟨d, v, rfl, h1, h2⟩ := lower_cons h
    obtain ⟨d', v', rfl, h3, h4⟩ := lower_cons h2
    rw [case_self (by decide) h1, case_self (by decide) h3]
    exact .inr (.inr ⟨v', rfl⟩)

theorem blank_case {ls g rest} (h : Blank ls g rest) : ∀ {g' rest'}, lower g = lower g' → lower rest = lower rest' →
    Blank ls g' rest' := by
  induction h with
  | nil => intro g' rest' h _; rw [lower_nil h]; exact .nil
  | @space ls c g rest hs _ ih =>
    intro g' rest' h hr
    obtain ⟨d, u, rfl, h1, h2⟩ := lower_cons h
    refine .space (by rw [← case_space h1]; exact hs) ?_
    have : (c == '\n') = (d == '\n') := by
      have := case_eq (x := '\n') (by decide) h1
      rw [Bool.eq_iff_iff, beq_iff_eq, beq_iff_eq, this]
    rw [← this]
    exact ih h2 hr
  | @comment ls c t g rest hc ht ha _ ih =>
    intro g' rest' h hr
    rw [List.cons_append] at h
    obtain ⟨d, u, rfl, h1, h2⟩ := lower_cons h
    obtain ⟨t', g'', rfl, h3, h4⟩ := lower_append h2
    refine .comment ?_ (case_not_mem (by decide) h3 ht) (atEol_case (lower_app h4 hr) ha) (ih h4 hr)
    rcases hc with rfl | ⟨rfl, hl⟩
    · exact .inl (case_self (by decide) h1)
    · exact .inr ⟨case_self (by decide) h1, hl⟩

theorem stuck_case {ls : Bool} {rest rest'} (h : lower rest = lower rest') (hs : Stuck ls rest) : Stuck ls rest' := by
  unfold Stuck at hs ⊢
  refine (case_head ?_ h).mp hs
  intro c d e
  rw [case_space e, Ne, Ne, case_eq (x := ';') (by decide) e, case_eq (x := '*') (by decide) e]

theorem gap_case {b b' g g' rest rest'} (hb : lower b = lower b') (hg : lower g = lower g') (hr : lower rest = lower rest')
    (h : Gap b g rest) : Gap b' g' rest' :=
  ⟨blank_case (lineStart_case hb ▸ h.1) hg hr, stuck_case hr (lineStart_case (lower_app hb hg) ▸ h.2)⟩

/-! ### Tokens -/

theorem identStart_case {c d : Char} (e : c.toLower = d.toLower) : identStart c ↔ identStart d := by
  unfold identStart
  rw [case_alpha e, case_eq (x := '_') (by decide) e, case_eq (x := '.') (by decide) e]

theorem identChar_case {c d : Char} (e : c.toLower = d.toLower) : identChar c ↔ identChar d := by
  unfold identChar
  rw [identStart_case e, case_digit e, case_eq (x := '$') (by decide) e]

theorem ident_case {w w'} (h : lower w = lower w') (hi : Ident w) : Ident w' := by
  obtain ⟨c, cs, rfl, h1, h2⟩ := hi
  obtain ⟨d, u, rfl, h3, h4⟩ := lower_cons h
  refine ⟨d, u, rfl, (identStart_case h3).mp h1, ?_⟩
  clear h
  induction cs generalizing u with
  | nil => rw [lower_nil h4]; simp
  | cons x cs ih =>
    obtain ⟨y, v, rfl, h5, h6⟩ := lower_cons h4
    intro z hz
    rcases List.mem_cons.mp hz with rfl | hz
    · exact (identChar_case h5).mp (h2 x (by simp))
    · exact ih (fun a ha => h2 a (by simp [ha])) v h6 z hz

theorem digit_case {c d : Char} (e : c.toLower = d.toLower) {n : Nat} : digit c n ↔ digit d n := by
  by_cases hn : n < 16
  · have : ∀ n < 16, ∀ m < 26, digit (Char.ofNat (65 + m)) n ↔ digit (Char.ofNat (97 + m)) n := by
      unfold digit; decide +kernel
    exact caseInd (fun c => digit c n) (this n hn) e
  · have : ∀ c, ¬ digit c n := by
      intro c h
      unfold digit at h
      rw [List.getElem?_eq_none (by simp; omega), List.getElem?_eq_none (by simp; omega)] at h
      simp at h
    simp [this]

theorem digits_case {base acc w v} (h : Digits base acc w v) : ∀ {w'}, lower w = lower w' → Digits base acc w' v := by
  induction h with
  | nil => intro w' h; rw [lower_nil h]; exact .nil
  | digit hd hb _ ih =>
    intro w' h
    obtain ⟨d, u, rfl, h1, h2⟩ := lower_cons h
    exact .digit ((digit_case h1).mp hd) hb (ih h2)
  | quote hd hb _ ih =>
    intro w' h
    obtain ⟨q, u, rfl, h1, h2⟩ := lower_cons h
    obtain ⟨d, v, rfl, h3, h4⟩ := lower_cons h2
    rw [case_self (by decide) h1]
    exact .quote ((digit_case h3).mp hd) hb (ih h4)

theorem numeral_case {base w v w'} (h : Numeral base w v) (e : lower w = lower w') : Numeral base w' v := by
  obtain ⟨h1, c, d, h2, h3⟩ := h
  refine ⟨digits_case h1 e, ?_⟩
  cases w with
  | nil => cases h2
  | cons x w =>
    cases h2
    obtain ⟨y, u, rfl, h5, h6⟩ := lower_cons e
    exact ⟨y, d, rfl, (digit_case h5).mp h3⟩

theorem moreDigits_case {base rest rest'} (e : lower rest = lower rest') (h : moreDigits base rest) : moreDigits base rest' := by
  obtain ⟨c, d, h1, h2, h3⟩ := h
  rcases h3 with h3 | ⟨u, rfl⟩
  · cases rest with
    | nil => cases h3
    | cons x rest =>
      cases h3
      obtain ⟨y, u, rfl, h5, h6⟩ := lower_cons e
      exact ⟨y, d, (digit_case h5).mp h1, h2, .inl rfl⟩
  · obtain ⟨q, v, rfl, h5, h6⟩ := lower_cons e
    obtain ⟨y, v', rfl, h7, h8⟩ := lower_cons h6
    rw [case_self (by decide) h5]
    exact ⟨y, d, (digit_case h7).mp h1, h2, .inr ⟨v', rfl⟩⟩

/-- All recasings of a word. -/
def recasings : Text → List Text
  | [] => [[]]
  | c :: t => [c, c.toLower, c.toUpper].flatMap fun d => (recasings t).map (d :: ·)

theorem recase_char {c d : Char} (h : c.toLower = d.toLower) : d ∈ [c, c.toLower, c.toUpper] := by
  rcases toLower_cases d with h1 | ⟨n, hn, h1, h2⟩
  · simp [h, h1]
  · rcases toLower_cases c with h3 | ⟨m, hm, h3, h4⟩
    · have k : ∀ n < 26, (Char.ofNat (97 + n)).toUpper = Char.ofNat (65 + n) := by decide +kernel
      have : c.toUpper = d := by rw [← h3, h, h2, k n hn, h1]
      simp [this]
    · have k : ∀ n < 26, ∀ m < 26, Char.ofNat (97 + n) = Char.ofNat (97 + m) → n = m := by decide +kernel
      have := k n hn m hm (by rw [← h2, ← h4, h])
      subst this
      simp [h1, h3]

theorem mem_recasings {w w' : Text} (h : lower w = lower w') : w' ∈ recasings w := by
  induction w generalizing w' with
  | nil => rw [lower_nil h]; simp [recasings]
  | cons c t ih =>
    obtain ⟨d, u, rfl, h1, h2⟩ := lower_cons h
    rw [recasings, List.mem_flatMap]
    exact ⟨d, recase_char h1, List.mem_map.mpr ⟨u, ih h2, rfl⟩⟩

theorem prefixes_case {p p' : Text} {base radix} (hp : (p, base, radix) ∈ prefixes) (h : lower p = lower p') :
    (p', base, radix) ∈ prefixes ∧ p'.length = p.length := by
  have hlen : p'.length = p.length := by
    have := congrArg List.length h; simpa [lower] using this.symm
  refine ⟨?_, hlen⟩
  have : ∀ e ∈ prefixes, ∀ p' ∈ recasings e.1, (p', e.2) ∈ prefixes := by decide +kernel
  exact this _ hp _ (mem_recasings h)

theorem prefixed_case {t t' : Text} (e : lower t = lower t') (h : prefixed t) : prefixed t' := by
  obtain ⟨p, base, radix, w, v, u, h1, h2, h3, rfl⟩ := h
  obtain ⟨a, u', rfl, e1, e2⟩ := lower_append e
  obtain ⟨p', w', rfl, e3, e4⟩ := lower_append e1
  obtain ⟨h4, h5⟩ := prefixes_case h1 e3
  exact ⟨p', base, radix, w', v, u', h4, by omega, numeral_case h3 e4, rfl⟩

theorem numberToken_case {w w' rest rest' v radix} (hw : lower w = lower w') (hr : lower rest = lower rest')
    (h : NumberToken w rest v radix) : NumberToken w' rest' v radix := by
  obtain ⟨p, base, ds, h1, rfl, h3, h4, h5⟩ := h
  obtain ⟨p', ds', rfl, e1, e2⟩ := lower_append hw
  obtain ⟨h6, h7⟩ := prefixes_case h1 e1
  refine ⟨p', base, ds', h6, rfl, numeral_case h3 e2, fun hm => h4 (moreDigits_case hr.symm hm), ?_⟩
  rintro rfl hpf
  have : p = [] := by cases p with
    | nil => rfl
    | cons _ _ => simp at h7
  exact h5 this (prefixed_case (lower_app hw hr).symm hpf)

theorem symbols_case {w w' : Text} {k : Tok} (h : (w, k) ∈ symbols) (e : lower w = lower w') : (w', k) ∈ symbols := by
  have : ∀ e ∈ symbols, ∀ w' ∈ recasings e.1, (w', e.2) ∈ symbols := by decide +kernel
  exact this _ h _ (mem_recasings e)

theorem quoted_case {src s} (h : Quoted src s) : ∀ {src'}, lower src = lower src' → ∃ s', Quoted src' s' := by
  induction h with
  | nil => intro src' h; rw [lower_nil h]; exact ⟨_, .nil⟩
  | plain h1 h2 _ ih =>
    intro src' h
    obtain ⟨d, u, rfl, h3, h4⟩ := lower_cons h
    obtain ⟨s', hs⟩ := ih h4
    exact ⟨_, .plain (fun e => h1 ((case_eq (by decide) h3).mpr e)) (fun e => h2 ((case_eq (by decide) h3).mpr e)) hs⟩
  | escape h1 _ ih =>
    intro src' h
    obtain ⟨d, u, rfl, h3, h4⟩ := lower_cons h
    obtain ⟨d', u', rfl, h5, h6⟩ := lower_cons h4
    obtain ⟨s', hs⟩ := ih h6
    rw [case_self (by decide) h3]
    exact ⟨_, .escape (fun e => h1 ((case_eq (by decide) h5).mpr e)) hs⟩

/-- A recased token is a token, the same one if it is not a string. -/
theorem spells_case {w w' rest rest' k} (hw : lower w = lower w') (hr : lower rest = lower rest') (h : Spells w rest k) :
    ∃ k', Spells w' rest' k' ∧ ((∀ s, k = .string s → w = w') → k' = k) := by
  cases h with
  | symbol h1 h2 =>
    refine ⟨k, .symbol (symbols_case h1 hw) ?_, fun _ => rfl⟩
    intro hk hh
    refine h2 hk ?_
    cases rest' with
    | nil => cases hh
    | cons c r =>
      cases hh
      obtain ⟨d, u, rfl, h3, -⟩ := lower_cons hr.symm
      rw [case_self (by decide) h3]; rfl
  | name h1 h2 =>
    refine ⟨_, .name (ident_case hw h1) ?_, fun _ => by rw [hw]⟩
    refine (case_head ?_ hr).mp h2
    intro c d e
    rw [identChar_case e, Ne, Ne, case_eq (x := '%') (by decide) e]
  | macroLabel h1 =>
    obtain ⟨u, v, rfl, e1, e2⟩ := lower_append hw
    obtain ⟨c, v', rfl, e3, e4⟩ := lower_cons e2
    rw [lower_nil e4, case_self (by decide) e3] at hw ⊢
    exact ⟨_, .macroLabel (ident_case e1 h1), fun _ => by rw [hw]⟩
  | macroIdent h1 h2 =>
    obtain ⟨c, u, rfl, e3, e4⟩ := lower_cons hw
    rw [case_self (by decide) e3] at hw ⊢
    refine ⟨_, .macroIdent (ident_case e4 h1) ?_, fun _ => by rw [hw]⟩
    refine (case_head ?_ hr).mp h2
    intro c d e
    rw [identChar_case e]
  | @string src s _ h1 =>
    have hq := h1
    rw [List.cons_append] at hw
    obtain ⟨c, u, rfl, e1, e2⟩ := lower_cons hw
    obtain ⟨src', v, rfl, e3, e4⟩ := lower_append e2
    obtain ⟨c', v', rfl, e5, e6⟩ := lower_cons e4
    rw [lower_nil e6, case_self (by decide) e1, case_self (by decide) e5]
    obtain ⟨s', hs⟩ := quoted_case h1 e3
    by_cases hsrc : src = src'
    · subst hsrc
      exact ⟨.string s, .string h1, fun _ => rfl⟩
    · refine ⟨.string s', .string hs, fun hk => ?_⟩
      have := hk s rfl
      simp at this
      exact absurd this hsrc
  | number h1 h2 => exact ⟨_, .number (numberToken_case hw hr h1) h2, fun _ => rfl⟩

theorem noToken_case {b b' t t'} (hb : lower b = lower b') (ht : lower t = lower t') (h : NoToken b t) : NoToken b' t' := by
  obtain ⟨g, rest, rfl, h1, h2, h3⟩ := h
  obtain ⟨g', rest', rfl, e1, e2⟩ := lower_append ht
  refine ⟨g', rest', rfl, gap_case hb e1 e2 h1, ?_, ?_⟩
  · rintro rfl; exact h2 (lower_nil e2.symm)
  · rintro w' r' rfl
    obtain ⟨w, r, rfl, e3, e4⟩ := lower_append e2.symm
    obtain ⟨h4, h5⟩ := h3 w r rfl
    refine ⟨fun k hk => ?_, fun v radix hn => h5 v radix (numberToken_case e3 e4 hn)⟩
    obtain ⟨k', hk', -⟩ := spells_case e3 e4 hk
    exact h4 k' hk'

theorem tooBig_case {b b' t t'} (hb : lower b = lower b') (ht : lower t = lower t') (h : TooBig b t) : TooBig b' t' := by
  obtain ⟨g, w, rest, v, radix, rfl, h1, h2, h3⟩ := h
  obtain ⟨a, rest', rfl, e1, e2⟩ := lower_append ht
  obtain ⟨g', w', rfl, e3, e4⟩ := lower_append e1
  exact ⟨g', w', rest', v, radix, rfl, gap_case hb e3 (lower_app e4 e2) h1, numberToken_case e4 e2 h2, h3⟩

theorem recased_lower {b t t'} (h : Recased b t t') : lower t = lower t' := by
  induction h with
  | done _ h => exact h
  | token _ _ h1 h2 _ _ ih => exact lower_app (lower_app h1 h2) ih
  | stuck _ h => exact h

/-- Both texts have the same tokens, or both are stuck in the same place for the same reason. -/
theorem recased_lex {b t t'} (h : Recased b t t') : ∀ {b'}, lower b = lower b' →
    (∀ file, ∃ toks, LexesTo file b t toks ∧ LexesTo file b' t' toks) ∨
    (∃ ks c u c' u', LexReaches b t ks c u ∧ LexReaches b' t' ks c' u' ∧ lower c = lower c' ∧
      ((NoToken c u ∧ NoToken c' u') ∨ (TooBig c u ∧ TooBig c' u'))) := by
  induction h with
  | done hg he =>
    intro b' hb
    left
    intro file
    refine ⟨_, .done hg, ?_⟩
    rw [placeIn_case hb]
    exact .done (gap_case hb he rfl hg)
  | @token before g g' w w' rest rest' k hg hs he1 he2 hk hr ih =>
    intro b' hb
    obtain ⟨k', hs', hkk⟩ := spells_case he2 (recased_lower hr) hs
    have hkk := hkk hk
    subst hkk
    have hg' := gap_case hb he1 (lower_app he2 (recased_lower hr)) hg
    rcases ih (b' := b' ++ g' ++ w') (lower_app (lower_app hb he1) he2) with h | ⟨ks, c, u, c', u', h1, h2, h3, h4⟩
    · left
      intro file
      obtain ⟨toks, h1, h2⟩ := h file
      refine ⟨_, .token hg hs h1, ?_⟩
      rw [placeIn_case (lower_app hb he1), placeIn_case (lower_app (lower_app hb he1) he2)]
      exact .token hg' hs' h2
    · exact .inr ⟨_, c, u, c', u', .token hg hs h1, .token hg' hs' h2, h3, h4⟩
  | stuck hs he =>
    intro b' hb
    right
    refine ⟨[], _, _, _, _, .here, .here, hb, ?_⟩
    rcases hs with h | h
    · exact .inl ⟨h, noToken_case hb he h⟩
    · exact .inr ⟨h, tooBig_case hb he h⟩

theorem recased_lexInput {seg : Seg} {file : Nat} {t t' : Text} (hp : Plain seg t) (hp' : Plain seg t')
    (h : Recased [] t t') : lexInput seg (Input.new file t') = lexInput seg (Input.new file t) := by
  rcases recased_lex h rfl with h | ⟨ks, c, u, c', u', h1, h2, h3, ⟨h4, h5⟩ | ⟨h4, h5⟩⟩
  · obtain ⟨toks, h1, h2⟩ := h file
    rw [(lexInput_ok_iff hp).mpr h1, (lexInput_ok_iff hp').mpr h2]
  · rw [(lexInput_err_iff hp).mpr ⟨ks, c, u, h1, h4, rfl⟩, (lexInput_err_iff hp').mpr ⟨ks, c', u', h2, h5, rfl⟩, placeIn_case h3]
  · rw [(lexInput_panic_iff hp).mpr ⟨ks, c, u, h1, h4⟩, (lexInput_panic_iff hp').mpr ⟨ks, c', u', h2, h5⟩]

/-- Without strings, any recasing will do. -/
theorem recased_of_lexesTo {file b t toks} (h : LexesTo file b t toks) (hq : '"' ∉ t) : ∀ {t'}, lower t = lower t' → Recased b t t' := by
  induction h with
  | done hg => intro t' h; exact .done hg h
  | @token before g w rest k toks hg hs _ ih =>
    intro t' h
    obtain ⟨a, rest', rfl, e1, e2⟩ := lower_append h
    obtain ⟨g', w', rfl, e3, e4⟩ := lower_append e1
    simp only [List.mem_append, not_or] at hq
    refine .token hg hs e3 e4 ?_ (ih hq.2 e2)
    rintro s rfl
    cases hs with
    | string _ => simp at hq
    | symbol h _ => simp [symbols] at h

theorem recased_of_reaches {b t ks c u} (h : LexReaches b t ks c u) (hq : '"' ∉ t) (hs : NoToken c u ∨ TooBig c u) :
    ∀ {t'}, lower t = lower t' → Recased b t t' := by
  induction h with
  | here => intro t' h; exact .stuck hs h
  | @token before g w rest k toks c u hg hk _ ih =>
    intro t' h
    obtain ⟨a, rest', rfl, e1, e2⟩ := lower_append h
    obtain ⟨g', w', rfl, e3, e4⟩ := lower_append e1
    simp only [List.mem_append, not_or] at hq
    refine .token hg hk e3 e4 ?_ (ih hq.2 hs e2)
    rintro s rfl
    cases hk with
    | string _ => simp at hq
    | symbol h _ => simp [symbols] at h

theorem recased_of_lower {t t' : Text} (hq : '"' ∉ t) (h : lower t = lower t') : Recased [] t t' := by
  have hp := plain_plainSeg t
  cases hx : lexInput plainSeg (Input.new 0 t) with
  | ok toks => exact recased_of_lexesTo ((lexInput_ok_iff hp).mp hx) hq h
  | err e =>
    obtain ⟨ks, c, u, h1, h2, -⟩ := (lexInput_err_iff hp).mp hx
    exact recased_of_reaches h1 hq (.inl h2) h
  | panic =>
    obtain ⟨ks, c, u, h1, h2⟩ := (lexInput_panic_iff hp).mp hx
    exact recased_of_reaches h1 hq (.inr h2) h
  | loop => exact absurd hx (lexInput_not_loop hp)

end Verif
