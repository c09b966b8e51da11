import Verif.Lemmas.LexInput
/-
The matchers find exactly the specified tokens.
-/
namespace Verif
open Spec

theorem isIdentStart_iff {c : Char} : isIdentStart c = true ↔ identStart c := by
  simp [isIdentStart, identStart, or_assoc]

theorem isIdentChar_iff {c : Char} : isIdentChar c = true ↔ identChar c := by
  simp only [isIdentChar, identChar, identStart, Char.isAlphanum, Bool.or_eq_true, beq_iff_eq]
  constructor
  · intro h
    rcases h with (((h | h) | h) | h) | h <;> simp [h]
  · intro h
    rcases h with (h | h | h) | h | h <;> simp [h]

theorem digitValue_iff {c : Char} {d : Nat} : digitValue c = some d ↔ digit c d := by
  constructor
  · intro h
    unfold digitValue at h
    split at h
    · rename_i hc
      simp only [Option.some.injEq] at h
      simp only [Char.isDigit, ge_iff_le, Bool.and_eq_true, decide_eq_true_eq] at hc
      have h1 : 48 ≤ c.toNat := hc.1
      have h2 : c.toNat ≤ 57 := hc.2
      have hn : c.toNat = 48 + d := by omega
      have hd : d < 10 := by omega
      have hcc : c = Char.ofNat (48 + d) := by rw [← hn, Char.ofNat_toNat]
      subst hcc
      clear h hc h1 h2 hn
      left
      match d, hd with
      | 0, _ | 1, _ | 2, _ | 3, _ | 4, _ | 5, _ | 6, _ | 7, _ | 8, _ | 9, _ => decide
    · split at h
      · rename_i hc
        simp only [Option.some.injEq] at h
        have h1 : 97 ≤ c.toNat := hc.1
        have h2 : c.toNat ≤ 102 := hc.2
        have hn : c.toNat = 87 + d := by omega
        have hcc : c = Char.ofNat (87 + d) := by rw [← hn, Char.ofNat_toNat]
        have hd : 10 ≤ d ∧ d < 16 := by omega
        subst hcc
        clear h hc h1 h2 hn
        left
        obtain ⟨k, rfl⟩ : ∃ k, d = 10 + k := ⟨d - 10, by omega⟩
        have hk : k < 6 := by omega
        match k, hk with
        | 0, _ | 1, _ | 2, _ | 3, _ | 4, _ | 5, _ => decide
      · split at h
        · rename_i hc
          simp only [Option.some.injEq] at h
          have h1 : 65 ≤ c.toNat := hc.1
          have h2 : c.toNat ≤ 70 := hc.2
          have hn : c.toNat = 55 + d := by omega
          have hcc : c = Char.ofNat (55 + d) := by rw [← hn, Char.ofNat_toNat]
          have hd : 10 ≤ d ∧ d < 16 := by omega
          subst hcc
          clear h hc h1 h2 hn
          right
          obtain ⟨k, rfl⟩ : ∃ k, d = 10 + k := ⟨d - 10, by omega⟩
          have hk : k < 6 := by omega
          match k, hk with
          | 0, _ | 1, _ | 2, _ | 3, _ | 4, _ | 5, _ => decide
        · cases h
  · intro h
    have hd : d < 16 := by
      rcases h with h | h <;> exact (List.getElem?_eq_some_iff.mp h).1
    rcases h with h | h
    all_goals
      have hd' : d ∈ List.range 16 := List.mem_range.mpr hd
      have hall : ∀ d ∈ List.range 16, ∀ c, ("0123456789abcdef".toList[d]? = some c → digitValue c = some d) ∧
          ("0123456789ABCDEF".toList[d]? = some c → digitValue c = some d) := by
        intro d hd c
        simp only [List.range, List.range.loop, List.mem_cons, List.not_mem_nil, or_false] at hd
        rcases hd with rfl | rfl | rfl | rfl | rfl | rfl | rfl | rfl | rfl | rfl | rfl | rfl | rfl | rfl | rfl | rfl <;>
          exact ⟨fun h => by cases h; decide, fun h => by cases h; decide⟩
    · exact (hall d hd' c).1 h
    · exact (hall d hd' c).2 h

theorem isDigitOf_iff {base : Nat} {c : Char} : isDigitOf base c = true ↔ ∃ d, digit c d ∧ d < base := by
  unfold isDigitOf
  cases h : digitValue c with
  | none =>
    simp only [Bool.false_eq_true, false_iff]
    rintro ⟨d, hd, _⟩
    rw [digitValue_iff.mpr hd] at h
    cases h
  | some d =>
    simp only [decide_eq_true_eq]
    constructor
    · intro hl; exact ⟨d, digitValue_iff.mp h, hl⟩
    · rintro ⟨d', hd', hl⟩
      rw [digitValue_iff.mpr hd'] at h
      cases h
      exact hl

theorem digit_not_quote {d : Nat} : ¬ digit '\'' d := by
  intro h
  have := digitValue_iff.mpr h
  revert this
  simp [show digitValue '\'' = none from by decide]

theorem digit_unique {c : Char} {d d' : Nat} (h : digit c d) (h' : digit c d') : d = d' := by
  have h1 := digitValue_iff.mpr h
  have h2 := digitValue_iff.mpr h'
  rw [h1] at h2
  exact Option.some.inj h2

theorem digits_value {base acc : Nat} {w : Text} {v : Nat} (h : Digits base acc w v) : numValue base acc w = v := by
  induction h with
  | nil => rfl
  | digit hd _ _ ih =>
    simp only [numValue, List.foldl_cons, digitValue_iff.mpr hd] at ih ⊢
    exact ih
  | quote hd _ _ ih =>
    have hq : digitValue '\'' = none := by decide
    simp only [numValue, List.foldl_cons, digitValue_iff.mpr hd, hq] at ih ⊢
    exact ih

theorem toNumber_digits {base : Nat} {radix : Radix} {w : Text} {v : Nat} (h : Digits base 0 w v) :
    toNumber base radix w = if v ≤ 2147483647 then .ok (.number v radix) else .panic := by
  unfold toNumber
  simp only [digits_value h]

/-- What `matchDigits` finds: the longest run of digits. -/
theorem matchDigits_spec {base : Nat} : ∀ (n : Nat) (t : Text) (acc : Nat), t.length ≤ n →
    ∃ rest v, t = matchDigits base t ++ rest ∧ Digits base acc (matchDigits base t) v ∧ ¬ moreDigits base rest := by
  intro n
  induction n with
  | zero =>
    intro t acc h
    have : t = [] := List.length_eq_zero_iff.mp (by omega)
    subst this
    refine ⟨[], acc, rfl, ?_, ?_⟩
    · rw [matchDigits]; exact .nil
    · rintro ⟨c, d, _, _, h | ⟨u, h⟩⟩ <;> cases h
  | succ n ih =>
    intro t acc h
    unfold matchDigits
    split
    · rename_i c cs
      split
      · rename_i hc
        obtain ⟨d, hd, hl⟩ := isDigitOf_iff.mp hc
        obtain ⟨rest, v, h1, h2, h3⟩ := ih cs (acc * base + d) (by simp at h; omega)
        exact ⟨rest, v, by rw [List.cons_append, List.cons_append, ← h1], .quote hd hl h2, h3⟩
      · rename_i hc
        refine ⟨_, acc, rfl, .nil, ?_⟩
        rintro ⟨c', d, hd, hl, hh | ⟨u, hu⟩⟩
        · simp only [List.head?_cons, Option.some.injEq] at hh
          subst hh
          exact digit_not_quote hd
        · simp only [List.cons.injEq, true_and] at hu
          obtain ⟨rfl, _⟩ := hu
          exact hc (isDigitOf_iff.mpr ⟨d, hd, hl⟩)
    · rename_i c cs hne
      split
      · rename_i hc
        obtain ⟨d, hd, hl⟩ := isDigitOf_iff.mp hc
        obtain ⟨rest, v, h1, h2, h3⟩ := ih cs (acc * base + d) (by simp at h; omega)
        exact ⟨rest, v, by rw [List.cons_append, ← h1], .digit hd hl h2, h3⟩
      · rename_i hc
        refine ⟨_, acc, rfl, .nil, ?_⟩
        rintro ⟨c', d, hd, hl, hh | ⟨u, hu⟩⟩
        · simp only [List.head?_cons, Option.some.injEq] at hh
          subst hh
          exact hc (isDigitOf_iff.mpr ⟨d, hd, hl⟩)
        · simp only [List.cons.injEq] at hu
          exact hne c' u hu.1 hu.2
    · refine ⟨[], acc, rfl, .nil, ?_⟩
      rintro ⟨c, d, _, _, h | ⟨u, h⟩⟩ <;> cases h

theorem matchDigits_of {base : Nat} {acc : Nat} {w rest : Text} {v : Nat} (h : Digits base acc w v)
    (hm : ¬ moreDigits base rest) : matchDigits base (w ++ rest) = w := by
  induction h with
  | nil =>
    rw [List.nil_append]
    unfold matchDigits
    split
    · rename_i c cs
      split
      · rename_i hc
        obtain ⟨d, hd, hl⟩ := isDigitOf_iff.mp hc
        exact absurd ⟨c, d, hd, hl, .inr ⟨cs, rfl⟩⟩ hm
      · rfl
    · rename_i c cs hne
      split
      · rename_i hc
        obtain ⟨d, hd, hl⟩ := isDigitOf_iff.mp hc
        exact absurd ⟨c, d, hd, hl, .inl rfl⟩ hm
      · rfl
    · rfl
  | @digit acc c d w v hd hl _ ih =>
    rw [List.cons_append]
    unfold matchDigits
    split
    · rename_i heq
      simp only [List.cons.injEq] at heq
      obtain ⟨rfl, _⟩ := heq
      exact absurd hd digit_not_quote
    · rename_i c' cs hne heq
      simp only [List.cons.injEq] at heq
      obtain ⟨rfl, rfl⟩ := heq
      rw [if_pos (isDigitOf_iff.mpr ⟨d, hd, hl⟩), ih]
    · rename_i heq; cases heq
  | @quote acc c d w v hd hl _ ih =>
    rw [List.cons_append, List.cons_append]
    rw [matchDigits, if_pos (isDigitOf_iff.mpr ⟨d, hd, hl⟩), ih]

/-- `matchNumber` finds the longest numeral. -/
theorem matchNumber_some {base : Nat} {t w : Text} (h : matchNumber base t = some w) :
    ∃ rest v, t = w ++ rest ∧ Numeral base w v ∧ ¬ moreDigits base rest := by
  cases t with
  | nil => cases h
  | cons c cs =>
    simp only [matchNumber] at h
    split at h
    · rename_i hc
      obtain ⟨d, hd, hl⟩ := isDigitOf_iff.mp hc
      obtain ⟨rest, v, h1, h2, h3⟩ := matchDigits_spec (base := base) cs.length cs (0 * base + d) (Nat.le_refl _)
      cases h
      exact ⟨rest, v, by rw [List.cons_append, ← h1], ⟨.digit hd hl h2, c, d, rfl, hd⟩, h3⟩
    · cases h

theorem numeral_cons {base : Nat} {w : Text} {v : Nat} (h : Numeral base w v) :
    ∃ c d w', w = c :: w' ∧ digit c d ∧ d < base ∧ Digits base d w' v := by
  obtain ⟨h, c, d, hc, hd⟩ := h
  generalize ha : 0 = acc at h
  cases h with
  | nil => cases hc
  | @digit acc c' d' w v hd' hl h =>
    subst ha
    refine ⟨c', d', w, rfl, hd', hl, ?_⟩
    simpa using h
  | quote _ _ _ =>
    simp only [List.head?_cons, Option.some.injEq] at hc
    subst hc
    exact absurd hd digit_not_quote

theorem matchNumber_of {base : Nat} {w rest : Text} {v : Nat} (h : Numeral base w v) (hm : ¬ moreDigits base rest) :
    matchNumber base (w ++ rest) = some w := by
  obtain ⟨c, d, w', rfl, hd, hl, h'⟩ := numeral_cons h
  rw [List.cons_append]
  simp only [matchNumber]
  rw [if_pos (isDigitOf_iff.mpr ⟨d, hd, hl⟩), matchDigits_of h' hm]

theorem matchNumber_none {base : Nat} {t : Text} (h : matchNumber base t = none) :
    ¬ ∃ w v u, Numeral base w v ∧ t = w ++ u := by
  rintro ⟨w, v, u, hn, rfl⟩
  obtain ⟨c, d, w', rfl, hd, hl, h'⟩ := numeral_cons hn
  rw [List.cons_append] at h
  simp only [matchNumber] at h
  rw [if_pos (isDigitOf_iff.mpr ⟨d, hd, hl⟩)] at h
  cases h

theorem matchIdent_some {t w : Text} (h : matchIdent t = some w) :
    ∃ rest, t = w ++ rest ∧ Ident w ∧ ∀ c ∈ rest.head?, ¬ identChar c := by
  cases t with
  | nil => cases h
  | cons c cs =>
    simp only [matchIdent] at h
    split at h
    · rename_i hc
      cases h
      refine ⟨cs.dropWhile isIdentChar, by rw [List.cons_append, List.takeWhile_append_dropWhile],
        ⟨c, _, rfl, isIdentStart_iff.mp hc, ?_⟩, ?_⟩
      · intro d hd
        have := List.all_takeWhile (p := isIdentChar) (l := cs)
        exact isIdentChar_iff.mp (List.all_eq_true.mp this d hd)
      · intro d hd hi
        have := takeWhile_head (p := isIdentChar) cs d hd
        rw [isIdentChar_iff.mpr hi] at this
        cases this
    · cases h

theorem takeWhile_append_stop {p : Char → Bool} {a b : Text} (ha : ∀ c ∈ a, p c = true) (hb : ∀ c ∈ b.head?, p c = false) :
    (a ++ b).takeWhile p = a := by
  rw [List.takeWhile_append_of_pos ha]
  cases b with
  | nil => simp
  | cons c b =>
    rw [List.takeWhile_cons, if_neg (by simp [hb c rfl])]
    simp

theorem matchIdent_of {w rest : Text} (h : Ident w) (hr : ∀ c ∈ rest.head?, ¬ identChar c) :
    matchIdent (w ++ rest) = some w := by
  obtain ⟨c, cs, rfl, hc, hcs⟩ := h
  rw [List.cons_append]
  simp only [matchIdent]
  rw [if_pos (isIdentStart_iff.mpr hc), takeWhile_append_stop (fun d hd => isIdentChar_iff.mpr (hcs d hd))]
  intro d hd
  cases hp : isIdentChar d with
  | false => rfl
  | true => exact absurd (isIdentChar_iff.mp hp) (hr d hd)

theorem matchIdent_none {t : Text} (h : matchIdent t = none) : ∀ c ∈ t.head?, ¬ identStart c := by
  intro c hc hi
  cases t with
  | nil => cases hc
  | cons d cs =>
    cases hc
    simp only [matchIdent] at h
    rw [if_pos (isIdentStart_iff.mpr hi)] at h
    cases h

/-! Strings -/

theorem escapeOf_eq (c : Char) : escapeOf c = unescape c := by
  unfold escapeOf unescape
  split
  · decide
  · decide
  · decide
  · decide
  · decide
  · rename_i h1 h2 h3 h4 h5
    have e1 : (c == 'r') = false := beq_eq_false_iff_ne.mpr h1
    have e2 : (c == 'n') = false := beq_eq_false_iff_ne.mpr h2
    have e3 : (c == 't') = false := beq_eq_false_iff_ne.mpr h3
    have e4 : (c == 'b') = false := beq_eq_false_iff_ne.mpr h4
    have e5 : (c == '0') = false := beq_eq_false_iff_ne.mpr h5
    simp only [List.lookup, e1, e2, e3, e4, e5, Option.getD_none]

theorem matchStringBody_some : ∀ {t w : Text}, matchStringBody t = some w →
    ∃ src s rest, t = w ++ rest ∧ w = src ++ ['"'] ∧ Quoted src s ∧ cleanLoop false src = s
  | [], w, h => by simp [matchStringBody] at h
  | c :: cs, w, h => by
    unfold matchStringBody at h
    split at h
    · cases h
    · rename_i rest heq
      cases heq
      cases h
      exact ⟨[], [], _, rfl, rfl, .nil, rfl⟩
    · rename_i d ds heq
      cases heq
      split at h
      · cases h
      · rename_i hd
        simp only [Option.map_eq_some_iff] at h
        obtain ⟨w', h1, rfl⟩ := h
        obtain ⟨src, s, rest, rfl, rfl, h4, h5⟩ := matchStringBody_some h1
        refine ⟨'\\' :: d :: src, escapeOf d :: s, rest, rfl, rfl, .escape hd h4, ?_⟩
        simp only [cleanLoop, ↓reduceIte, h5, escapeOf_eq]
    · cases h
    · rename_i d ds h1 h2 h3 heq
      cases heq
      simp only [Option.map_eq_some_iff] at h
      obtain ⟨w', h1', rfl⟩ := h
      obtain ⟨src, s, rest, rfl, rfl, h4, h5⟩ := matchStringBody_some h1'
      have hq : c ≠ '"' := h1
      have hb : c ≠ '\\' := by
        intro e
        subst e
        cases hsrc : src ++ ['"'] ++ rest with
        | nil => simp at hsrc
        | cons a as => exact h2 a as rfl hsrc
      refine ⟨c :: src, c :: s, rest, rfl, rfl, .plain hq hb h4, ?_⟩
      simp only [cleanLoop, hb, ↓reduceIte, h5]

theorem matchStringBody_of {src s rest : Text} (h : Quoted src s) :
    matchStringBody (src ++ '"' :: rest) = some (src ++ ['"']) ∧ cleanLoop false src = s := by
  induction h with
  | nil => exact ⟨by simp [matchStringBody], rfl⟩
  | @plain c w s hq hb _ ih =>
    constructor
    · rw [List.cons_append]
      unfold matchStringBody
      split
      · rename_i heq; cases heq
      · rename_i heq; exact absurd (List.cons.inj heq).1 hq
      · rename_i heq; exact absurd (List.cons.inj heq).1 hb
      · rename_i heq; exact absurd (List.cons.inj heq).1 hb
      · rename_i heq
        cases heq
        rw [ih.1]; rfl
    · simp only [cleanLoop, hb, ↓reduceIte, ih.2]
  | @escape c w s hc _ ih =>
    constructor
    · rw [List.cons_append, List.cons_append]
      simp only [matchStringBody]
      rw [if_neg hc, ih.1]; rfl
    · simp only [cleanLoop, ↓reduceIte, ih.2, escapeOf_eq]

theorem cleanStr_quoted (src : Text) : cleanStr ('"' :: (src ++ ['"'])) = cleanLoop false src := by
  unfold cleanStr
  simp

/-! Tokens -/

theorem fixed_ne {c d : Char} {s cs : Text} {k : Tok} (h : c ≠ d) : fixed (d :: s) k (c :: cs) = none := by
  simp [fixed, h.symm]

theorem numberMatcher_ne {c d : Char} {p cs : Text} {base : Nat} {radix : Radix} (h : c ≠ d) :
    numberMatcher [d :: p] base radix (c :: cs) = none := by
  simp [numberMatcher, h.symm]

theorem macroIdentMatcher_ne {c : Char} {cs : Text} (h : c ≠ '%') : macroIdentMatcher (c :: cs) = none := by
  unfold macroIdentMatcher
  split
  · rename_i heq; exact absurd (List.cons.inj heq).1 h
  · rfl

theorem stringMatcher_ne {c : Char} {cs : Text} (h : c ≠ '"') : stringMatcher (c :: cs) = none := by
  unfold stringMatcher
  split
  · rename_i heq; exact absurd (List.cons.inj heq).1 h
  · rfl

theorem matchIdent_ne {c : Char} {cs : Text} (h : isIdentStart c = false) : matchIdent (c :: cs) = none := by
  simp [matchIdent, h]

theorem macroLabelMatcher_ne {c : Char} {cs : Text} (h : isIdentStart c = false) :
    macroLabelMatcher (c :: cs) = none := by
  simp [macroLabelMatcher, matchIdent_ne h]

theorem nameMatcher_ne {c : Char} {cs : Text} (h : isIdentStart c = false) : nameMatcher (c :: cs) = none := by
  simp [nameMatcher, matchIdent_ne h]

theorem numberMatcher_zero {c d e : Char} {cs : Text} {base : Nat} {radix : Radix} (h : c ≠ '0') :
    numberMatcher [['0', d], ['0', e]] base radix (c :: cs) = none := by
  simp [numberMatcher, h.symm]

theorem numberMatcher_dec {c : Char} {cs : Text} (h : isDigitOf 10 c = false) :
    numberMatcher [[]] 10 .decimal (c :: cs) = none := by
  simp [numberMatcher, matchNumber, h]

theorem findSome_skip {m : Matcher} {ms : List Matcher} {t : Text} (h : m t = none) :
    (m :: ms).findSome? (· t) = ms.findSome? (· t) := by
  rw [List.findSome?_cons, h]

/-- The first characters that can only start a symbol, a string, a number with a one character prefix or
a macro name. -/
def special : List Char := ['%', '(', ')', '#', ',', ':', '=', '+', '*', '-', '/', '&', '|', '^', '>', '<', '"', '@', '$']

theorem matchToken_plain {c : Char} {cs : Text} (h : c ∉ special) :
    matchToken (c :: cs) = [macroLabelMatcher, nameMatcher,
      numberMatcher [['0', 'o'], ['0', 'O']] 8 .octal,
      numberMatcher [['0', 'x'], ['0', 'X']] 16 .hex,
      numberMatcher [['0', 'b'], ['0', 'B']] 2 .binary,
      numberMatcher [[]] 10 .decimal].findSome? (· (c :: cs)) := by
  simp only [special, List.mem_cons, List.not_mem_nil, or_false, not_or] at h
  obtain ⟨h1, h2, h3, h4, h5, h6, h7, h8, h9, h10, h11, h12, h13, h14, h15, h16, h17, h18, h19⟩ := h
  unfold matchToken matchers
  simp only [List.findSome?_cons, fixed_ne, macroIdentMatcher_ne, stringMatcher_ne, numberMatcher_ne, ne_eq,
    not_false_eq_true, h1, h2, h3, h4, h5, h6, h7, h8, h9, h10, h11, h12, h13, h14, h15, h16, h17, h18, h19]

/-- Leave only the matchers that can match a text with this first character. -/
local macro "reduce_matchers" c:term : tactic => `(tactic| (
  have hI : isIdentStart $c = false := by decide
  have hD : isDigitOf 10 $c = false := by decide
  unfold matchToken matchers
  simp only [List.findSome?_cons, List.findSome?_nil, fixed_ne, macroIdentMatcher_ne, macroLabelMatcher_ne hI,
    nameMatcher_ne hI, stringMatcher_ne, numberMatcher_ne, numberMatcher_zero, numberMatcher_dec hD,
    ne_eq, Char.reduceEq, not_false_eq_true]))

theorem matchToken_percent (cs : Text) :
    matchToken ('%' :: cs) = [macroIdentMatcher, numberMatcher [['%']] 2 .binary].findSome? (· ('%' :: cs)) := by
  reduce_matchers '%'

theorem matchToken_quote (cs : Text) : matchToken ('"' :: cs) = stringMatcher ('"' :: cs) := by
  reduce_matchers '"'
  cases stringMatcher ('"' :: cs) <;> rfl

theorem matchToken_dollar (cs : Text) : matchToken ('$' :: cs) = numberMatcher [['$']] 16 .hex ('$' :: cs) := by
  reduce_matchers '$'
  cases numberMatcher [['$']] 16 .hex ('$' :: cs) <;> rfl

theorem matchToken_colon (cs : Text) :
    matchToken (':' :: cs) = if cs.head? = some ':' then some ([':', ':'], .ok .doubleColon)
      else some ([':'], .ok .colon) := by
  reduce_matchers ':'
  cases cs with
  | nil => rfl
  | cons d ds =>
    by_cases hd : d = ':'
    · subst hd; simp [fixed]
    · have hd' : ':' ≠ d := fun e => hd e.symm
      simp [fixed, hd, hd']

/-- The symbols that are the only token starting with their character. -/
def singles : List (Char × Tok) := [('(', .leftParen), (')', .rightParen), ('#', .hash), (',', .comma), ('=', .equals),
  ('+', .plus), ('*', .times), ('-', .minus), ('/', .divide), ('&', .ampersand), ('|', .pipe), ('^', .caret),
  ('>', .upperByte), ('<', .lowerByte)]

theorem matchToken_single {c : Char} {k : Tok} (cs : Text) (h : (c, k) ∈ singles) :
    matchToken (c :: cs) = some ([c], .ok k) := by
  simp only [singles, List.mem_cons, Prod.mk.injEq, List.not_mem_nil, or_false] at h
  rcases h with ⟨rfl, rfl⟩ | ⟨rfl, rfl⟩ | ⟨rfl, rfl⟩ | ⟨rfl, rfl⟩ | ⟨rfl, rfl⟩ | ⟨rfl, rfl⟩ | ⟨rfl, rfl⟩ | ⟨rfl, rfl⟩ |
    ⟨rfl, rfl⟩ | ⟨rfl, rfl⟩ | ⟨rfl, rfl⟩ | ⟨rfl, rfl⟩ | ⟨rfl, rfl⟩ | ⟨rfl, rfl⟩
  · reduce_matchers '('; simp [fixed]
  · reduce_matchers ')'; simp [fixed]
  · reduce_matchers '#'; simp [fixed]
  · reduce_matchers ','; simp [fixed]
  · reduce_matchers '='; simp [fixed]
  · reduce_matchers '+'; simp [fixed]
  · reduce_matchers '*'; simp [fixed]
  · reduce_matchers '-'; simp [fixed]
  · reduce_matchers '/'; simp [fixed]
  · reduce_matchers '&'; simp [fixed]
  · reduce_matchers '|'; simp [fixed]
  · reduce_matchers '^'; simp [fixed]
  · reduce_matchers '>'; simp [fixed]
  · reduce_matchers '<'; simp [fixed]

/-- The symbols starting with `@`. -/
def ats : List (Text × Tok) := [(['@', 'R', '0'], .r0), (['@', 'R', '1'], .r1), (['@', 'R', '2'], .r2), (['@', 'R', '3'], .r3),
  (['@', 'r', '0'], .r0), (['@', 'r', '1'], .r1), (['@', 'r', '2'], .r2), (['@', 'r', '3'], .r3)]

theorem matchToken_at (cs : Text) :
    matchToken ('@' :: cs) = (ats.map fun p => fixed p.1 p.2).findSome? (· ('@' :: cs)) := by
  reduce_matchers '@'
  simp only [ats, List.map_cons, List.map_nil, List.findSome?_cons, List.findSome?_nil]

theorem fixed_some {s t w : Text} {k : Tok} {r : Res Tok} (h : fixed s k t = some (w, r)) :
    w = s ∧ r = .ok k ∧ ∃ rest, t = s ++ rest := by
  unfold fixed at h
  split at h
  · rename_i hp
    cases h
    obtain ⟨u, hu⟩ := List.isPrefixOf_iff_prefix.mp hp
    exact ⟨rfl, rfl, u, hu.symm⟩
  · cases h

theorem fixed_append (s rest : Text) (k : Tok) : fixed s k (s ++ rest) = some (s, .ok k) := by
  unfold fixed
  rw [if_pos (List.isPrefixOf_iff_prefix.mpr (List.prefix_append _ _))]

theorem matchToken_at_some {cs w : Text} {r : Res Tok} (h : matchToken ('@' :: cs) = some (w, r)) :
    ∃ k rest, r = .ok k ∧ (w, k) ∈ ats ∧ '@' :: cs = w ++ rest := by
  rw [matchToken_at] at h
  obtain ⟨m, hm, hm'⟩ := List.exists_of_findSome?_eq_some h
  obtain ⟨p, hp, rfl⟩ := List.mem_map.mp hm
  obtain ⟨rfl, rfl, rest, hr⟩ := fixed_some hm'
  exact ⟨_, rest, rfl, hp, hr⟩

theorem matchToken_at_of {w rest : Text} {k : Tok} (h : (w, k) ∈ ats) :
    matchToken (w ++ rest) = some (w, .ok k) := by
  simp only [ats, List.mem_cons, Prod.mk.injEq, List.not_mem_nil, or_false] at h
  rcases h with ⟨rfl, rfl⟩ | ⟨rfl, rfl⟩ | ⟨rfl, rfl⟩ | ⟨rfl, rfl⟩ | ⟨rfl, rfl⟩ | ⟨rfl, rfl⟩ | ⟨rfl, rfl⟩ | ⟨rfl, rfl⟩
  all_goals
    rw [List.cons_append, matchToken_at]
    simp [ats, fixed]

theorem numberMatcher_some {ps : List Text} {base : Nat} {radix : Radix} {t w : Text} {r : Res Tok}
    (h : numberMatcher ps base radix t = some (w, r)) :
    ∃ p ∈ ps, ∃ ds v rest, w = p ++ ds ∧ t = w ++ rest ∧ Numeral base ds v ∧ ¬ moreDigits base rest ∧
      r = if v ≤ 2147483647 then .ok (.number v radix) else .panic := by
  unfold numberMatcher at h
  split at h
  · rename_i p hp
    have hmem := List.mem_of_find?_eq_some hp
    have hpre := List.find?_some hp
    obtain ⟨u, rfl⟩ := List.isPrefixOf_iff_prefix.mp hpre
    rw [List.drop_left, Option.map_eq_some_iff] at h
    obtain ⟨ds, h1, h2⟩ := h
    cases h2
    obtain ⟨rest, v, rfl, h3, h4⟩ := matchNumber_some h1
    exact ⟨p, hmem, ds, v, rest, rfl, by rw [List.append_assoc], h3, h4, toNumber_digits h3.1⟩
  · cases h

theorem numberMatcher_of {ps : List Text} {base : Nat} {radix : Radix} {p ds rest : Text} {v : Nat}
    (hf : ps.find? (·.isPrefixOf (p ++ ds ++ rest)) = some p) (hn : Numeral base ds v) (hm : ¬ moreDigits base rest) :
    numberMatcher ps base radix (p ++ ds ++ rest) =
      some (p ++ ds, if v ≤ 2147483647 then .ok (.number v radix) else .panic) := by
  unfold numberMatcher
  simp only [hf]
  rw [List.append_assoc, List.drop_left, matchNumber_of hn hm, Option.map_some, toNumber_digits hn.1]

theorem symbols_cases {w : Text} {k : Tok} (h : (w, k) ∈ symbols) :
    (∃ c, w = [c] ∧ (c, k) ∈ singles) ∨ (w = [':', ':'] ∧ k = .doubleColon) ∨ (w = [':'] ∧ k = .colon) ∨
      (w, k) ∈ ats := by
  have hall : ∀ p ∈ symbols, ([p.1.headD ' '] = p.1 ∧ (p.1.headD ' ', p.2) ∈ singles) ∨
      (p.1 = [':', ':'] ∧ p.2 = .doubleColon) ∨ (p.1 = [':'] ∧ p.2 = .colon) ∨ p ∈ ats := by decide
  rcases hall _ h with h | h
  · exact .inl ⟨_, h.1.symm, h.2⟩
  · exact .inr h

theorem singles_symbols {c : Char} {k : Tok} (h : (c, k) ∈ singles) : ([c], k) ∈ symbols ∧ k ≠ .colon := by
  have hall : ∀ p ∈ singles, ([p.1], p.2) ∈ symbols ∧ p.2 ≠ .colon := by decide
  exact hall _ h

theorem ats_symbols {w : Text} {k : Tok} (h : (w, k) ∈ ats) : (w, k) ∈ symbols ∧ k ≠ .colon := by
  have hall : ∀ p ∈ ats, p ∈ symbols ∧ p.2 ≠ .colon := by decide
  exact hall _ h

theorem special_cases {c : Char} (h : c ∈ special) :
    (∃ k, (c, k) ∈ singles) ∨ c = '%' ∨ c = ':' ∨ c = '"' ∨ c = '@' ∨ c = '$' := by
  have hall : ∀ c ∈ special, (c ∈ singles.map Prod.fst) ∨ c = '%' ∨ c = ':' ∨ c = '"' ∨ c = '@' ∨ c = '$' := by decide
  rcases hall c h with h | h
  · obtain ⟨p, hp, rfl⟩ := List.mem_map.mp h
    exact .inl ⟨p.2, hp⟩
  · exact .inr h

theorem identStart_not_special {c : Char} (h : identStart c) : c ∉ special := by
  intro hs
  have hall : ∀ c ∈ special, isIdentStart c = false := by decide
  have := hall c hs
  rw [isIdentStart_iff.mpr h] at this
  cases this

theorem digit_not_special {c : Char} {d : Nat} (h : digit c d) : c ∉ special := by
  intro hs
  have hall : ∀ c ∈ special, digitValue c = none := by decide
  have := hall c hs
  rw [digitValue_iff.mpr h] at this
  cases this

theorem digit_not_identStart {c : Char} {d : Nat} (h : digit c d) (hd : d < 10) : isIdentStart c = false := by
  have hall : ∀ d < 10, isIdentStart ("0123456789abcdef".toList[d]?.getD 'a') = false ∧
      isIdentStart ("0123456789ABCDEF".toList[d]?.getD 'a') = false := by decide
  rcases h with h | h
  · have := (hall d hd).1
    rw [h] at this
    exact this
  · have := (hall d hd).2
    rw [h] at this
    exact this

theorem matchIdent_spec_none {c : Char} {cs : Text} (h : matchIdent (c :: cs) = none) : isIdentStart c = false := by
  cases hi : isIdentStart c with
  | false => rfl
  | true => simp [matchIdent, hi] at h

/-- What the matchers give for a text starting with `w`. -/
def Reads (w rest : Text) (r : Res Tok) : Prop :=
  (∃ k, r = .ok k ∧ Spells w rest k) ∨ (∃ v radix, r = .panic ∧ NumberToken w rest v radix ∧ 2 ^ 31 ≤ v)

theorem reads_number {w rest : Text} {v : Nat} {radix : Radix} (h : NumberToken w rest v radix) :
    Reads w rest (if v ≤ 2147483647 then .ok (.number v radix) else .panic) := by
  by_cases hv : v ≤ 2147483647
  · rw [if_pos hv]
    exact .inl ⟨_, rfl, .number h (by omega)⟩
  · rw [if_neg hv]
    exact .inr ⟨v, radix, rfl, h, by omega⟩

theorem find_prefix_none {ps : List Text} {t : Text} (h : ∀ p ∈ ps, ¬ p <+: t) :
    ps.find? (·.isPrefixOf t) = none := by
  rw [List.find?_eq_none]
  intro p hp hh
  exact h p hp (List.isPrefixOf_iff_prefix.mp hh)

/-- The numeral prefixes of two characters, as they are grouped by the matchers. -/
theorem numberMatcher_two_none {d e : Char} {base : Nat} {radix : Radix} {t : Text}
    (h : numberMatcher [['0', d], ['0', e]] base radix t = none) :
    ∀ p ∈ [['0', d], ['0', e]], ∀ ds v u, Numeral base ds v → t ≠ p ++ ds ++ u := by
  intro p hp ds v u hn ht
  unfold numberMatcher at h
  have hpt : p.isPrefixOf t = true := List.isPrefixOf_iff_prefix.mpr ⟨ds ++ u, by rw [ht, List.append_assoc]⟩
  cases hf : [['0', d], ['0', e]].find? (·.isPrefixOf t) with
  | none =>
    exact (List.find?_eq_none.mp hf) p hp hpt
  | some q =>
    have hq := List.find?_some hf
    have hqm := List.mem_of_find?_eq_some hf
    have hlen : p.length = q.length := by
      simp only [List.mem_cons, List.not_mem_nil, or_false] at hp hqm
      rcases hp with rfl | rfl <;> rcases hqm with rfl | rfl <;> rfl
    have hqp : q = p := by
      obtain ⟨u1, h1⟩ := List.isPrefixOf_iff_prefix.mp hq
      obtain ⟨u2, h2⟩ := List.isPrefixOf_iff_prefix.mp hpt
      rw [← h2] at h1
      exact (List.append_inj h1 hlen.symm).1
    subst hqp
    rw [hf] at h
    simp only [Option.map_eq_none_iff] at h
    rw [ht, List.append_assoc, List.drop_left] at h
    exact matchNumber_none h ⟨ds, v, u, hn, rfl⟩

theorem findSome_cons_some {α β : Type} {f : α → Option β} {a : α} {l : List α} {b : β}
    (h : (a :: l).findSome? f = some b) : f a = some b ∨ (f a = none ∧ l.findSome? f = some b) := by
  rw [List.findSome?_cons] at h
  split at h
  · rename_i hs; cases h; exact .inl hs
  · rename_i hs; exact .inr ⟨hs, h⟩

theorem prefixed_iff {t : Text} : prefixed t ↔
    (∃ p ∈ [['0', 'o'], ['0', 'O']], ∃ ds v u, Numeral 8 ds v ∧ t = p ++ ds ++ u) ∨
    (∃ p ∈ [['0', 'x'], ['0', 'X']], ∃ ds v u, Numeral 16 ds v ∧ t = p ++ ds ++ u) ∨
    (∃ p ∈ [['0', 'b'], ['0', 'B']], ∃ ds v u, Numeral 2 ds v ∧ t = p ++ ds ++ u) := by
  constructor
  · rintro ⟨p, base, radix, w, v, u, hp, hl, hn, ht⟩
    have hall : ∀ q ∈ prefixes, q.1.length = 2 → (q.1 ∈ [['0', 'o'], ['0', 'O']] ∧ q.2.1 = 8) ∨
        (q.1 ∈ [['0', 'x'], ['0', 'X']] ∧ q.2.1 = 16) ∨ (q.1 ∈ [['0', 'b'], ['0', 'B']] ∧ q.2.1 = 2) := by decide
    rcases hall _ hp hl with ⟨h1, h2⟩ | ⟨h1, h2⟩ | ⟨h1, h2⟩
    · simp only at h2; subst h2
      exact .inl ⟨p, h1, w, v, u, hn, ht⟩
    · simp only at h2; subst h2
      exact .inr (.inl ⟨p, h1, w, v, u, hn, ht⟩)
    · simp only at h2; subst h2
      exact .inr (.inr ⟨p, h1, w, v, u, hn, ht⟩)
  · rintro (⟨p, hp, w, v, u, hn, ht⟩ | ⟨p, hp, w, v, u, hn, ht⟩ | ⟨p, hp, w, v, u, hn, ht⟩)
    · have hall : ∀ p ∈ [['0', 'o'], ['0', 'O']], (p, 8, Radix.octal) ∈ prefixes ∧ p.length = 2 := by decide
      exact ⟨p, _, _, w, v, u, (hall p hp).1, (hall p hp).2, hn, ht⟩
    · have hall : ∀ p ∈ [['0', 'x'], ['0', 'X']], (p, 16, Radix.hex) ∈ prefixes ∧ p.length = 2 := by decide
      exact ⟨p, _, _, w, v, u, (hall p hp).1, (hall p hp).2, hn, ht⟩
    · have hall : ∀ p ∈ [['0', 'b'], ['0', 'B']], (p, 2, Radix.binary) ∈ prefixes ∧ p.length = 2 := by decide
      exact ⟨p, _, _, w, v, u, (hall p hp).1, (hall p hp).2, hn, ht⟩

/-- What is matched is a token. -/
theorem matchToken_sound {t w : Text} {r : Res Tok} (h : matchToken t = some (w, r)) :
    ∃ rest, t = w ++ rest ∧ Reads w rest r := by
  cases t with
  | nil => revert h; simp [show matchToken [] = none from by decide]
  | cons c cs =>
    by_cases hs : c ∈ special
    · rcases special_cases hs with ⟨k, hk⟩ | rfl | rfl | rfl | rfl | rfl
      · rw [matchToken_single cs hk] at h
        cases h
        obtain ⟨h1, h2⟩ := singles_symbols hk
        exact ⟨cs, rfl, .inl ⟨k, rfl, .symbol h1 (fun e => absurd e h2)⟩⟩
      · rw [matchToken_percent] at h
        rcases findSome_cons_some h with h | ⟨_, h⟩
        · simp only [macroIdentMatcher, Option.map_eq_some_iff] at h
          obtain ⟨v, hv, he⟩ := h
          cases he
          obtain ⟨rest, rfl, h1, h2⟩ := matchIdent_some hv
          exact ⟨rest, rfl, .inl ⟨_, rfl, .macroIdent h1 h2⟩⟩
        · rcases findSome_cons_some h with h | ⟨_, h⟩
          · obtain ⟨p, hp, ds, v, rest, rfl, ht, hn, hm, rfl⟩ := numberMatcher_some h
            simp only [List.mem_singleton] at hp
            subst hp
            exact ⟨rest, ht, reads_number ⟨['%'], 2, ds, by decide, rfl, hn, hm, fun e => nomatch e⟩⟩
          · cases h
      · rw [matchToken_colon] at h
        split at h
        · rename_i hd
          cases h
          obtain ⟨u, rfl⟩ : ∃ u, cs = ':' :: u := by
            cases cs with
            | nil => cases hd
            | cons d u => cases hd; exact ⟨u, rfl⟩
          exact ⟨u, rfl, .inl ⟨_, rfl, .symbol (by decide) (fun e => nomatch e)⟩⟩
        · rename_i hd
          cases h
          exact ⟨cs, rfl, .inl ⟨_, rfl, .symbol (by decide) (fun _ => hd)⟩⟩
      · rw [matchToken_quote] at h
        simp only [stringMatcher, Option.map_eq_some_iff] at h
        obtain ⟨v, hv, he⟩ := h
        cases he
        obtain ⟨src, s, rest, rfl, rfl, h3, h4⟩ := matchStringBody_some hv
        refine ⟨rest, rfl, .inl ⟨_, rfl, ?_⟩⟩
        rw [cleanStr_quoted, h4]
        exact .string h3
      · obtain ⟨k, rest, rfl, hk, he⟩ := matchToken_at_some h
        obtain ⟨h1, h2⟩ := ats_symbols hk
        exact ⟨rest, he, .inl ⟨k, rfl, .symbol h1 (fun e => absurd e h2)⟩⟩
      · rw [matchToken_dollar] at h
        obtain ⟨p, hp, ds, v, rest, rfl, ht, hn, hm, rfl⟩ := numberMatcher_some h
        simp only [List.mem_singleton] at hp
        subst hp
        exact ⟨rest, ht, reads_number ⟨['$'], 16, ds, by decide, rfl, hn, hm, fun e => nomatch e⟩⟩
    · rw [matchToken_plain hs] at h
      rcases findSome_cons_some h with h | ⟨hml, h⟩
      · unfold macroLabelMatcher at h
        split at h
        · rename_i v hv
          obtain ⟨rest, he, h1, h2⟩ := matchIdent_some hv
          split at h
          · rename_i hp
            cases h
            rw [he, List.drop_left] at hp
            obtain ⟨u, rfl⟩ : ∃ u, rest = '%' :: u := by
              cases rest with
              | nil => cases hp
              | cons d u => cases hp; exact ⟨u, rfl⟩
            exact ⟨u, by rw [he, List.append_assoc]; rfl, .inl ⟨_, rfl, .macroLabel h1⟩⟩
          · cases h
        · cases h
      · rcases findSome_cons_some h with h | ⟨hnm, h⟩
        · simp only [nameMatcher, Option.map_eq_some_iff] at h
          obtain ⟨v, hv, he⟩ := h
          cases he
          obtain ⟨rest, he, h1, h2⟩ := matchIdent_some hv
          refine ⟨rest, he, .inl ⟨_, rfl, .name h1 (fun d hd => ⟨h2 d hd, ?_⟩)⟩⟩
          rintro rfl
          unfold macroLabelMatcher at hml
          simp only [hv] at hml
          rw [he, List.drop_left, if_pos (Option.mem_def.mp hd)] at hml
          cases hml
        · rcases findSome_cons_some h with h | ⟨h8, h⟩
          · obtain ⟨p, hp, ds, v, rest, rfl, ht, hn, hm, rfl⟩ := numberMatcher_some h
            have hall : ∀ p ∈ [['0', 'o'], ['0', 'O']], (p, 8, Radix.octal) ∈ prefixes ∧ p ≠ [] := by decide
            exact ⟨rest, ht, reads_number ⟨p, 8, ds, (hall p hp).1, rfl, hn, hm, fun e => absurd e (hall p hp).2⟩⟩
          · rcases findSome_cons_some h with h | ⟨h16, h⟩
            · obtain ⟨p, hp, ds, v, rest, rfl, ht, hn, hm, rfl⟩ := numberMatcher_some h
              have hall : ∀ p ∈ [['0', 'x'], ['0', 'X']], (p, 16, Radix.hex) ∈ prefixes ∧ p ≠ [] := by decide
              exact ⟨rest, ht, reads_number ⟨p, 16, ds, (hall p hp).1, rfl, hn, hm, fun e => absurd e (hall p hp).2⟩⟩
            · rcases findSome_cons_some h with h | ⟨h2, h⟩
              · obtain ⟨p, hp, ds, v, rest, rfl, ht, hn, hm, rfl⟩ := numberMatcher_some h
                have hall : ∀ p ∈ [['0', 'b'], ['0', 'B']], (p, 2, Radix.binary) ∈ prefixes ∧ p ≠ [] := by decide
                exact ⟨rest, ht, reads_number ⟨p, 2, ds, (hall p hp).1, rfl, hn, hm, fun e => absurd e (hall p hp).2⟩⟩
              · rcases findSome_cons_some h with h | ⟨_, h⟩
                · obtain ⟨p, hp, ds, v, rest, rfl, ht, hn, hm, rfl⟩ := numberMatcher_some h
                  simp only [List.mem_singleton] at hp
                  subst hp
                  refine ⟨rest, ht, reads_number ⟨[], 10, ds, by decide, rfl, hn, hm, fun _ hpre => ?_⟩⟩
                  rw [← ht] at hpre
                  rcases prefixed_iff.mp hpre with ⟨p, hp, ds, v, u, hn, he⟩ | ⟨p, hp, ds, v, u, hn, he⟩ | ⟨p, hp, ds, v, u, hn, he⟩
                  · exact numberMatcher_two_none h8 p hp ds v u hn he
                  · exact numberMatcher_two_none h16 p hp ds v u hn he
                  · exact numberMatcher_two_none h2 p hp ds v u hn he
                · cases h

theorem matchToken_number {w rest : Text} {v : Nat} {radix : Radix} (h : NumberToken w rest v radix) :
    matchToken (w ++ rest) = some (w, if v ≤ 2147483647 then .ok (.number v radix) else .panic) := by
  obtain ⟨p, base, ds, hp, rfl, hn, hm, hpre⟩ := h
  simp only [prefixes, List.mem_cons, Prod.mk.injEq, List.not_mem_nil, or_false] at hp
  have hzero : ∀ (d : Char) (u : Text), matchIdent ('0' :: u) = none := fun d u => matchIdent_ne (by decide)
  have hml : ∀ (u : Text), macroLabelMatcher ('0' :: u) = none := fun u => macroLabelMatcher_ne (by decide)
  have hnm : ∀ (u : Text), nameMatcher ('0' :: u) = none := fun u => nameMatcher_ne (by decide)
  have hsp : ('0' : Char) ∉ special := by decide
  have hdisj : ∀ {a b c d : Char} {base : Nat} {radix : Radix} {u : Text}, a ≠ c → a ≠ d →
      numberMatcher [['0', c], ['0', d]] base radix ('0' :: a :: u) = none := by
    intro a b c d base radix u h1 h2
    simp [numberMatcher, h1.symm, h2.symm]
  rcases hp with ⟨rfl, rfl, rfl⟩ | ⟨rfl, rfl, rfl⟩ | ⟨rfl, rfl, rfl⟩ | ⟨rfl, rfl, rfl⟩ | ⟨rfl, rfl, rfl⟩ |
    ⟨rfl, rfl, rfl⟩ | ⟨rfl, rfl, rfl⟩ | ⟨rfl, rfl, rfl⟩ | ⟨rfl, rfl, rfl⟩
  · rw [show ("$".toList : Text) ++ ds ++ rest = '$' :: (ds ++ rest) from rfl, matchToken_dollar]
    exact numberMatcher_of (p := ['$']) (by simp) hn hm
  · have := numberMatcher_of (ps := [['0', 'x'], ['0', 'X']]) (p := ['0', 'x']) (radix := .hex) (by simp) hn hm
    rw [show ("0x".toList : Text) = ['0', 'x'] from rfl]
    rw [show ['0', 'x'] ++ ds ++ rest = '0' :: 'x' :: (ds ++ rest) from rfl] at this ⊢
    rw [matchToken_plain hsp]
    simp only [List.findSome?_cons, hml, hnm, hdisj (b := 'o') (show 'x' ≠ 'o' by decide) (show 'x' ≠ 'O' by decide), this]
  · have := numberMatcher_of (ps := [['0', 'x'], ['0', 'X']]) (p := ['0', 'X']) (radix := .hex) (by simp) hn hm
    rw [show ("0X".toList : Text) = ['0', 'X'] from rfl]
    rw [show ['0', 'X'] ++ ds ++ rest = '0' :: 'X' :: (ds ++ rest) from rfl] at this ⊢
    rw [matchToken_plain hsp]
    simp only [List.findSome?_cons, hml, hnm, hdisj (b := 'o') (show 'X' ≠ 'o' by decide) (show 'X' ≠ 'O' by decide), this]
  · rw [show ("%".toList : Text) ++ ds ++ rest = '%' :: (ds ++ rest) from rfl, matchToken_percent]
    have hmi : macroIdentMatcher ('%' :: (ds ++ rest)) = none := by
      obtain ⟨c, d, w', rfl, hd, hl, _⟩ := numeral_cons hn
      simp only [macroIdentMatcher, List.cons_append]
      rw [matchIdent_ne (digit_not_identStart hd (by omega))]
      rfl
    have := numberMatcher_of (ps := [['%']]) (p := ['%']) (radix := .binary) (by simp) hn hm
    rw [show ['%'] ++ ds ++ rest = '%' :: (ds ++ rest) from rfl] at this
    simp only [List.findSome?_cons, hmi, this]
    rfl
  · have := numberMatcher_of (ps := [['0', 'b'], ['0', 'B']]) (p := ['0', 'b']) (radix := .binary) (by simp) hn hm
    rw [show ("0b".toList : Text) = ['0', 'b'] from rfl]
    rw [show ['0', 'b'] ++ ds ++ rest = '0' :: 'b' :: (ds ++ rest) from rfl] at this ⊢
    rw [matchToken_plain hsp]
    simp only [List.findSome?_cons, hml, hnm, hdisj (b := 'o') (show 'b' ≠ 'o' by decide) (show 'b' ≠ 'O' by decide),
      hdisj (b := 'o') (show 'b' ≠ 'x' by decide) (show 'b' ≠ 'X' by decide), this]
  · have := numberMatcher_of (ps := [['0', 'b'], ['0', 'B']]) (p := ['0', 'B']) (radix := .binary) (by simp) hn hm
    rw [show ("0B".toList : Text) = ['0', 'B'] from rfl]
    rw [show ['0', 'B'] ++ ds ++ rest = '0' :: 'B' :: (ds ++ rest) from rfl] at this ⊢
    rw [matchToken_plain hsp]
    simp only [List.findSome?_cons, hml, hnm, hdisj (b := 'o') (show 'B' ≠ 'o' by decide) (show 'B' ≠ 'O' by decide),
      hdisj (b := 'o') (show 'B' ≠ 'x' by decide) (show 'B' ≠ 'X' by decide), this]
  · have := numberMatcher_of (ps := [['0', 'o'], ['0', 'O']]) (p := ['0', 'o']) (radix := .octal) (by simp) hn hm
    rw [show ("0o".toList : Text) = ['0', 'o'] from rfl]
    rw [show ['0', 'o'] ++ ds ++ rest = '0' :: 'o' :: (ds ++ rest) from rfl] at this ⊢
    rw [matchToken_plain hsp]
    simp only [List.findSome?_cons, hml, hnm, this]
  · have := numberMatcher_of (ps := [['0', 'o'], ['0', 'O']]) (p := ['0', 'O']) (radix := .octal) (by simp) hn hm
    rw [show ("0O".toList : Text) = ['0', 'O'] from rfl]
    rw [show ['0', 'O'] ++ ds ++ rest = '0' :: 'O' :: (ds ++ rest) from rfl] at this ⊢
    rw [matchToken_plain hsp]
    simp only [List.findSome?_cons, hml, hnm, this]
  · have hpre := hpre rfl
    have hthis := numberMatcher_of (ps := [[]]) (p := []) (radix := .decimal) (by simp) hn hm
    have hnone : ∀ {d e : Char} {base : Nat} {radix : Radix},
        (∀ p ∈ [['0', d], ['0', e]], (p, base, radix) ∈ prefixes) →
        numberMatcher [['0', d], ['0', e]] base radix (ds ++ rest) = none := by
      intro d e base radix hp
      cases hq : numberMatcher [['0', d], ['0', e]] base radix (ds ++ rest) with
      | none => rfl
      | some x =>
        obtain ⟨w, r⟩ := x
        obtain ⟨p, hp', ds', v', rest', rfl, ht, hn', _, _⟩ := numberMatcher_some hq
        exfalso
        refine hpre ⟨p, base, radix, ds', v', rest', hp p hp', ?_, hn', ?_⟩
        · simp only [List.mem_cons, List.not_mem_nil, or_false] at hp'
          rcases hp' with rfl | rfl <;> rfl
        · exact ht
    have e8 := hnone (d := 'o') (e := 'O') (base := 8) (radix := .octal) (by decide)
    have e16 := hnone (d := 'x') (e := 'X') (base := 16) (radix := .hex) (by decide)
    have e2 := hnone (d := 'b') (e := 'B') (base := 2) (radix := .binary) (by decide)
    rw [show ("".toList : Text) = [] from rfl, List.nil_append]
    rw [List.nil_append] at hthis
    obtain ⟨c, d, w', rfl, hd, hl, _⟩ := numeral_cons hn
    rw [List.cons_append] at hthis e8 e16 e2 ⊢
    rw [matchToken_plain (digit_not_special hd)]
    have hi := digit_not_identStart hd hl
    simp only [List.findSome?_cons, macroLabelMatcher_ne hi, nameMatcher_ne hi, e8, e16, e2, hthis]

/-- Every token is matched. -/
theorem matchToken_complete {w rest : Text} {k : Tok} (h : Spells w rest k) :
    matchToken (w ++ rest) = some (w, .ok k) := by
  cases h with
  | symbol hm hc =>
    rcases symbols_cases hm with ⟨c, rfl, h⟩ | ⟨rfl, rfl⟩ | ⟨rfl, rfl⟩ | h
    · exact matchToken_single rest h
    · rw [List.cons_append, matchToken_colon]; rfl
    · rw [List.cons_append, List.nil_append, matchToken_colon, if_neg (hc rfl)]
    · exact matchToken_at_of h
  | name hi hr =>
    have hm := matchIdent_of hi (fun c hc => (hr c hc).1)
    obtain ⟨c, cs, rfl, hc, hcs⟩ := hi
    rw [List.cons_append] at hm ⊢
    rw [matchToken_plain (identStart_not_special hc)]
    have h1 : macroLabelMatcher (c :: (cs ++ rest)) = none := by
      unfold macroLabelMatcher
      simp only [hm]
      rw [if_neg]
      intro hh
      rw [← List.cons_append, List.drop_left] at hh
      exact (hr '%' hh).2 rfl
    simp only [List.findSome?_cons, h1, nameMatcher, hm, Option.map_some]
  | @macroLabel w _ hi =>
    have hm := matchIdent_of (rest := '%' :: rest) hi (fun c hc => by
      cases hc
      intro hh
      have := isIdentChar_iff.mpr hh
      revert this
      decide)
    obtain ⟨c, cs, rfl, hc, hcs⟩ := hi
    rw [List.append_assoc, List.singleton_append]
    rw [List.cons_append] at hm ⊢
    rw [matchToken_plain (identStart_not_special hc)]
    have h1 : macroLabelMatcher (c :: (cs ++ '%' :: rest)) =
        some (c :: cs ++ ['%'], .ok (.macroLabel (lower (c :: cs ++ ['%'])))) := by
      unfold macroLabelMatcher
      simp only [hm]
      rw [if_pos]
      rw [← List.cons_append, List.drop_left]
      rfl
    simp only [List.findSome?_cons, h1]
  | macroIdent hi hr =>
    rw [List.cons_append, matchToken_percent]
    simp only [List.findSome?_cons, macroIdentMatcher, matchIdent_of hi hr, Option.map_some]
  | @string src s _ hq =>
    rw [List.append_assoc, List.singleton_append, List.cons_append, matchToken_quote]
    obtain ⟨h1, h2⟩ := matchStringBody_of (rest := rest) hq
    simp only [stringMatcher, h1, Option.map_some]
    rw [cleanStr_quoted, h2]
    rfl
  | number hn hv =>
    rw [matchToken_number hn, if_pos (by omega)]

theorem matchToken_iff {t w : Text} {k : Tok} :
    matchToken t = some (w, .ok k) ↔ ∃ rest, t = w ++ rest ∧ Spells w rest k := by
  constructor
  · intro h
    obtain ⟨rest, ht, hr | hr⟩ := matchToken_sound h
    · obtain ⟨k', he, hs⟩ := hr
      cases he
      exact ⟨rest, ht, hs⟩
    · obtain ⟨_, _, he, _⟩ := hr
      cases he
  · rintro ⟨rest, rfl, hs⟩
    exact matchToken_complete hs

theorem matchToken_panic_iff {t w : Text} :
    matchToken t = some (w, .panic) ↔ ∃ rest v radix, t = w ++ rest ∧ NumberToken w rest v radix ∧ 2 ^ 31 ≤ v := by
  constructor
  · intro h
    obtain ⟨rest, ht, hr | hr⟩ := matchToken_sound h
    · obtain ⟨k', he, hs⟩ := hr
      cases he
    · obtain ⟨v, radix, _, hn, hv⟩ := hr
      exact ⟨rest, v, radix, ht, hn, hv⟩
  · rintro ⟨rest, v, radix, rfl, hn, hv⟩
    rw [matchToken_number hn, if_neg (by omega)]

end Verif
