import Verif.Lemmas.Recase
import Verif.Lemmas.ParseProgram
import Verif.Model.Print
/-
Reading texts piece by piece: the tokens of a text with the lines they are on.
-/
namespace Verif
open Verif.Spec

/-- The line of the next character. -/
def lineAt (before : Text) : Nat := 1 + before.count '\n'

/-- The text, after `before`, consists of these tokens, which are on these lines. -/
def Lx (file : Nat) (before text : Text) (L : List (Tok × Nat)) : Prop :=
  ∃ toks e, LexesTo file before text (toks ++ [e]) ∧ e.tok = .eof ∧
    (∀ l ∈ (toks.map (·.stop)).getLast?, e.start = l ∧ e.stop = l) ∧
    toks.map (fun t => (t.tok, t.start.line)) = L ∧
    (∀ t ∈ toks, t.stop.line = t.start.line ∧ t.start.file = file ∧ t.stop.file = file) ∧
    (toks = [] → e.start = placeIn file before ∧ e.stop = placeIn file before)

/-- What may follow a word or number. -/
def Boundary (rest : Text) : Prop := ∀ c ∈ rest.head?, ¬ identChar c ∧ c ≠ '%' ∧ c ≠ '\''

theorem lx_nil (file : Nat) (before : Text) : Lx file before [] [] := by
  refine ⟨[], ⟨.eof, placeIn file before, placeIn file before⟩, ?_, rfl, by simp, rfl, by simp, fun _ => ⟨rfl, rfl⟩⟩
  refine LexesTo.done ⟨.nil, ?_⟩
  simp [Stuck]

/-- Blank text in front. -/
theorem lx_gap {file before g0 rest L} (hg : ∀ g r, rest = g ++ r → Gap (before ++ g0) g r → Gap before (g0 ++ g) r)
    (h : Lx file (before ++ g0) rest L) : Lx file before (g0 ++ rest) L := by
  obtain ⟨toks, e, h1, h2, h3, h4, h5, h6⟩ := h
  cases toks with
  | nil =>
    cases L with
    | cons => simp at h4
    | nil =>
    refine ⟨[], ⟨.eof, placeIn file before, placeIn file before⟩, ?_, rfl, by simp, rfl, by simp, fun _ => ⟨rfl, rfl⟩⟩
    generalize hx : [] ++ [e] = x at h1
    cases h1 with
    | done hgap => exact LexesTo.done (hg _ [] (by simp) hgap)
    | token a b c => 
      simp only [List.nil_append, List.cons.injEq] at hx
      rw [← hx.2] at c; cases c
  | cons t ts =>
    refine ⟨t :: ts, e, ?_, h2, h3, h4, h5, by simp⟩
    generalize hx : t :: ts ++ [e] = x at h1
    cases h1 with
    | done hgap => simp at hx
    | @token _ g w rest k toks a b c =>
      have := LexesTo.token (file := file) (before := before) (g := g0 ++ g) (hg g (w ++ rest) (by simp) a) b
        (by simpa [List.append_assoc] using c)
      simpa [List.append_assoc] using this

theorem lx_space {file before rest L} {c : Char} (hc : isSpace c = true) (h : Lx file (before ++ [c]) rest L) :
    Lx file before (c :: rest) L := by
  refine lx_gap (g0 := [c]) ?_ h
  intro g r _ hg
  refine ⟨.space hc ?_, by simpa [List.append_assoc] using hg.2⟩
  have := hg.1
  rwa [lineStart_snoc] at this

theorem lineStart_no_newline {b t : Text} (ht : t ≠ []) (hn : '\n' ∉ t) : lineStart (b ++ t) = false := by
  obtain ⟨u, c, rfl⟩ := List.eq_nil_or_concat t |>.resolve_left ht
  rw [List.concat_eq_append] at *
  rw [← List.append_assoc, lineStart_snoc]
  have : c ≠ '\n' := by rintro rfl; simp at hn
  simp [this]

theorem lx_comment {file before t rest L} (hn : '\n' ∉ t) (he : atEol rest) (h : Lx file (before ++ ';' :: t) rest L) :
    Lx file before (';' :: t ++ rest) L := by
  refine lx_gap (g0 := ';' :: t) ?_ h
  intro g r hr hg
  have hl : lineStart (before ++ ';' :: t) = false := lineStart_no_newline (by simp) (by simpa using hn)
  refine ⟨?_, by simpa [List.append_assoc] using hg.2⟩
  have := hg.1
  rw [hl] at this
  exact .comment (.inl rfl) hn (hr ▸ he) this

theorem lineAt_append {a b : Text} (h : '\n' ∉ b) : lineAt (a ++ b) = lineAt a := by
  simp [lineAt, List.count_append, List.count_eq_zero.mpr h]

/-- A token in front. -/
theorem lx_token {file before w rest k L} (hs : Spells w rest k) (hn : '\n' ∉ w)
    (hh : ∀ c ∈ w.head?, isSpace c = false ∧ c ≠ ';' ∧ (lineStart before = true → c ≠ '*'))
    (h : Lx file (before ++ w) rest L) : Lx file before (w ++ rest) ((k, lineAt before) :: L) := by
  obtain ⟨toks, e, h1, h2, h3, h4, h5, h6⟩ := h
  have hne : w ≠ [] := by
    obtain ⟨w', c, rfl, _⟩ := spells_last hs; simp
  refine ⟨⟨k, placeIn file before, placeIn file (before ++ w)⟩ :: toks, e, ?_, h2, ?_, ?_, ?_, by simp⟩
  · have := LexesTo.token (file := file) (before := before) (g := []) (w := w) (rest := rest) (k := k) (toks := toks ++ [e])
      ⟨.nil, by
        intro c hc
        obtain ⟨d, u, rfl⟩ := List.exists_cons_of_ne_nil hne
        simp only [List.append_nil]
        exact hh c (by simpa using hc)⟩ hs (by simpa using h1)
    simpa using this
  · intro l hl
    cases toks with
    | nil => simp at hl; subst hl; exact h6 rfl
    | cons t ts => 
      apply h3
      rw [List.map_cons, List.map_cons, List.getLast?_cons_cons] at hl
      exact hl
  · simp [h4, placeIn, lineAt]
  · intro t ht
    rcases List.mem_cons.mp ht with rfl | ht
    · refine ⟨?_, rfl, rfl⟩
      have := lineAt_append (a := before) hn
      simpa [placeIn, lineAt] using this
    · exact h5 t ht

theorem boundary_nil : Boundary [] := by simp [Boundary]

theorem not_identChar {c : Char} (h1 : c.isAlpha = false) (h2 : c.isDigit = false) (h3 : c ≠ '_') (h4 : c ≠ '.')
    (h5 : c ≠ '$') : ¬ identChar c := by
  simp [identChar, identStart, h1, h2, h3, h4, h5]

theorem boundary_cons {c : Char} {t : Text} (h : c ∈ " ,()#:=+-*/&|^<>\n;".toList) : Boundary (c :: t) := by
  have : ∀ c ∈ " ,()#:=+-*/&|^<>\n;".toList, c.isAlpha = false ∧ c.isDigit = false ∧ c ≠ '_' ∧ c ≠ '.' ∧ c ≠ '$' ∧
      c ≠ '%' ∧ c ≠ '\'' := by decide +kernel
  obtain ⟨a1, a2, a3, a4, a5, a6, a7⟩ := this c h
  intro d hd
  simp at hd; subst hd
  exact ⟨not_identChar a1 a2 a3 a4 a5, a6, a7⟩

theorem identChar_bounds {c : Char} (h : identChar c) : 36 ≤ c.toNat ∧ c.toNat ≤ 122 := by
  unfold identChar identStart at h
  simp only [Char.isAlpha, Char.isUpper, Char.isLower, Char.isDigit, Bool.or_eq_true, Bool.and_eq_true,
  decide_eq_true_eq, UInt32.le_iff_toNat_le] at h
  have a1 : 'A'.val.toNat = 65 := rfl
  have a2 : 'Z'.val.toNat = 90 := rfl
  have a3 : 'a'.val.toNat = 97 := rfl
  have a4 : 'z'.val.toNat = 122 := rfl
  have a5 : '0'.val.toNat = 48 := rfl
  have a6 : '9'.val.toNat = 57 := rfl
  have hc : c.toNat = c.val.toNat := rfl
  rcases h with (((h | h) | h | h) | h | h)
  · have h1 : 'A'.val.toNat ≤ c.val.toNat := h.1
    have h2 : c.val.toNat ≤ 'Z'.val.toNat := h.2
    omega
  · have h1 : 'a'.val.toNat ≤ c.val.toNat := h.1
    have h2 : c.val.toNat ≤ 'z'.val.toNat := h.2
    omega
  · subst h; decide
  · subst h; decide
  · have h1 : '0'.val.toNat ≤ c.val.toNat := h.1
    have h2 : c.val.toNat ≤ '9'.val.toNat := h.2
    omega
  · subst h; decide

/-- The characters of words are not blank. -/
theorem identChar_solid {c : Char} (h : identChar c) : isSpace c = false ∧ c ≠ ';' ∧ c ≠ '*' ∧ c ≠ '\n' := by
  have hx : ∀ x : Char, ¬ identChar x → c ≠ x := fun x hx e => hx (e ▸ h)
  have k : ∀ x ∈ ";*\n".toList, ¬ identChar x := by
    have : ∀ x ∈ ";*\n".toList, x.isAlpha = false ∧ x.isDigit = false ∧ x ≠ '_' ∧ x ≠ '.' ∧ x ≠ '$' := by decide +kernel
    intro x hx
    obtain ⟨a1, a2, a3, a4, a5⟩ := this x hx
    exact not_identChar a1 a2 a3 a4 a5
  refine ⟨?_, hx _ (k _ (by decide)), hx _ (k _ (by decide)), hx _ (k _ (by decide))⟩
  have hb := identChar_bounds h
  rw [Bool.eq_false_iff]
  intro hx
  simp only [isSpace, Bool.or_eq_true, decide_eq_true_eq] at hx
  omega

theorem lx_sym {file before w rest k L} (hw : (w, k) ∈ symbols) (hk : k ≠ .colon ∨ rest.head? ≠ some ':')
    (hl : w.head? = some '*' → lineStart before = false)
    (h : Lx file (before ++ w) rest L) : Lx file before (w ++ rest) ((k, lineAt before) :: L) := by
  have hs : ∀ p ∈ symbols, '\n' ∉ p.1 ∧ ∀ c ∈ p.1.head?, isSpace c = false ∧ c ≠ ';' := by decide +kernel
  obtain ⟨h1, h2⟩ := hs _ hw
  refine lx_token (.symbol hw fun e => hk.resolve_left fun hn => hn e) h1 ?_ h
  intro c hc
  refine ⟨(h2 c hc).1, (h2 c hc).2, fun hb he => ?_⟩
  subst he
  rw [hl hc] at hb
  cases hb

theorem ident_chars {w : Text} (h : Ident w) : ∀ c ∈ w, identChar c := by
  obtain ⟨c, cs, rfl, h1, h2⟩ := h
  intro d hd
  rcases List.mem_cons.mp hd with rfl | hd
  · exact .inl h1
  · exact h2 d hd

theorem lx_name {file before w rest L} (hw : Ident w) (hb : Boundary rest)
    (h : Lx file (before ++ w) rest L) : Lx file before (w ++ rest) ((.name (lower w), lineAt before) :: L) := by
  refine lx_token (.name hw fun c hc => ⟨(hb c hc).1, (hb c hc).2.1⟩) ?_ ?_ h
  · intro hn; exact (identChar_solid (ident_chars hw _ hn)).2.2.2 rfl
  · intro c hc
    have := identChar_solid (ident_chars hw c (List.mem_of_mem_head? hc))
    exact ⟨this.1, this.2.1, fun _ => this.2.2.1⟩

theorem lx_macroLabel {file before w rest L} (hw : Ident w)
    (h : Lx file (before ++ (w ++ ['%'])) rest L) :
    Lx file before (w ++ ['%'] ++ rest) ((.macroLabel (lower (w ++ ['%'])), lineAt before) :: L) := by
  refine lx_token (.macroLabel hw) ?_ ?_ h
  · intro hn
    rcases List.mem_append.mp hn with hn | hn
    · exact (identChar_solid (ident_chars hw _ hn)).2.2.2 rfl
    · simp at hn
  · intro c hc
    obtain ⟨d, ds, rfl, h1, h2⟩ := hw
    simp at hc; subst hc
    have := identChar_solid (c := d) (.inl h1)
    exact ⟨this.1, this.2.1, fun _ => this.2.2.1⟩

theorem lx_macroIdent {file before w rest L} (hw : Ident w) (hb : Boundary rest)
    (h : Lx file (before ++ '%' :: w) rest L) :
    Lx file before ('%' :: w ++ rest) ((.macroIdent (lower ('%' :: w)), lineAt before) :: L) := by
  refine lx_token (.macroIdent hw fun c hc => (hb c hc).1) ?_ ?_ h
  · intro hn
    rcases List.mem_cons.mp hn with hn | hn
    · cases hn
    · exact (identChar_solid (ident_chars hw _ hn)).2.2.2 rfl
  · intro c hc
    simp at hc; subst hc
    exact ⟨by decide, by decide, fun _ => by decide⟩

/-! Numbers -/

theorem digits_snoc {base acc w v} (h : Digits base acc w v) {c : Char} {d : Nat} (hc : digit c d) (hd : d < base) :
    Digits base acc (w ++ [c]) (v * base + d) := by
  induction h with
  | nil => exact .digit hc hd .nil
  | digit a b _ ih => exact .digit a b ih
  | quote a b _ ih => exact .quote a b ih

theorem digitChar_digit {d : Nat} (h : d < 16) : digit (digitChar d) d := by
  refine .inr ?_
  have : ∀ d < 16, "0123456789ABCDEF".toList[d]? = some (digitChar d) := by decide +kernel
  exact this d h

theorem digitsLoop_digits {base : Nat} (hb : 2 ≤ base) (hb' : base ≤ 16) : ∀ f n, n ≤ f →
    Digits base 0 (digitsLoop base f n) n := by
  intro f
  induction f with
  | zero =>
    intro n hn
    obtain rfl : n = 0 := by omega
    have := Digits.digit (base := base) (acc := 0) (digitChar_digit (d := 0) (by omega)) (by omega) .nil
    simpa [digitsLoop] using this
  | succ f ih =>
    intro n hn
    unfold digitsLoop
    split
    · rename_i hlt
      have := Digits.digit (base := base) (acc := 0) (digitChar_digit (d := n) (by omega)) hlt .nil
      simpa using this
    · rename_i hge
      have h1 : n / base < n := Nat.div_lt_self (by omega) (by omega)
      have := digits_snoc (ih (n / base) (by omega)) (digitChar_digit (d := n % base) (by have := Nat.mod_lt n (show base > 0 by omega); omega))
        (Nat.mod_lt n (by omega))
      rwa [Nat.mul_comm, Nat.div_add_mod] at this

theorem digitsLoop_ne {base f n} : digitsLoop base f n ≠ [] := by
  cases f with
  | zero => simp [digitsLoop]
  | succ f => unfold digitsLoop; split <;> simp

theorem digits_zeros {base w v} (hb : 2 ≤ base) (h : Digits base 0 w v) : ∀ n, Digits base 0 (List.replicate n '0' ++ w) v := by
  intro n
  induction n with
  | zero => simpa
  | succ n ih =>
    rw [List.replicate_succ, List.cons_append]
    refine .digit (d := 0) ?_ (by omega) (by simpa using ih)
    exact .inl (by decide)

theorem digits_numeral {base w v} (h : Digits base 0 w v) (hw : w.head? ≠ some '\'') (hne : w ≠ []) : Numeral base w v := by
  refine ⟨h, ?_⟩
  cases h with
  | nil => exact absurd rfl hne
  | digit a => exact ⟨_, _, rfl, a⟩
  | quote => simp at hw

theorem digitChar_plain (d : Nat) : digitChar d ∈ "0123456789ABCDEF".toList := by
  unfold digitChar
  by_cases h : d < 16
  · have : ∀ d < 16, "0123456789ABCDEF".toList.getD d '0' ∈ "0123456789ABCDEF".toList := by decide +kernel
    exact this d h
  · have : "0123456789ABCDEF".toList[d]? = none := List.getElem?_eq_none (by simp; omega)
    rw [List.getD_eq_getElem?_getD, this]
    decide

theorem digitsLoop_chars {base f n} : ∀ c ∈ digitsLoop base f n, c ∈ "0123456789ABCDEF".toList := by
  induction f generalizing n with
  | zero => intro c hc; simp only [digitsLoop, List.mem_singleton] at hc; rw [hc]; exact digitChar_plain _
  | succ f ih =>
    unfold digitsLoop
    split
    · intro c hc; rw [List.mem_singleton] at hc; rw [hc]; exact digitChar_plain _
    · intro c hc
      rcases List.mem_append.mp hc with hc | hc
      · exact ih c hc
      · rw [List.mem_singleton] at hc; rw [hc]; exact digitChar_plain _

theorem zeroPad_chars {width base n} : ∀ c ∈ zeroPad width (digitsOf base n), c ∈ "0123456789ABCDEF".toList := by
  intro c hc
  unfold zeroPad at hc
  rcases List.mem_append.mp hc with hc | hc
  · rw [(List.mem_replicate.mp hc).2]; decide
  · exact digitsLoop_chars c hc

theorem padded_numeral {base width n} (hb : 2 ≤ base) (hb' : base ≤ 16) : Numeral base (zeroPad width (digitsOf base n)) n := by
  refine digits_numeral (digits_zeros hb (digitsLoop_digits hb hb' n n (Nat.le_refl _)) _) ?_ ?_
  · intro h
    have := zeroPad_chars _ (List.mem_of_mem_head? h)
    revert this
    decide
  · have := @digitsLoop_ne base n n
    simp [zeroPad, digitsOf, this]

theorem digit_identChar {c : Char} {d : Nat} (h : digit c d) : identChar c := by
  have k : ∀ c ∈ "0123456789abcdef0123456789ABCDEF".toList, c.isAlpha = true ∨ c.isDigit = true := by decide +kernel
  have : c ∈ "0123456789abcdef0123456789ABCDEF".toList := by
    rcases h with h | h
    · exact (List.mem_append.mpr (.inl (List.mem_of_getElem? h)) : c ∈ "0123456789abcdef".toList ++ "0123456789ABCDEF".toList)
    · exact (List.mem_append.mpr (.inr (List.mem_of_getElem? h)) : c ∈ "0123456789abcdef".toList ++ "0123456789ABCDEF".toList)
  rcases k c this with h | h
  · exact .inl (.inl h)
  · exact .inr (.inl h)

theorem boundary_noDigits {base rest} (h : Boundary rest) : ¬ moreDigits base rest := by
  rintro ⟨c, d, h1, _, h2 | ⟨u, rfl⟩⟩
  · exact (h c h2).1 (digit_identChar h1)
  · exact (h _ rfl).2.2 rfl

theorem hexDigits_solid : ∀ c ∈ "0123456789ABCDEF$%".toList, isSpace c = false ∧ c ≠ ';' ∧ c ≠ '*' ∧ c ≠ '\n' := by
  decide +kernel

/-- Numbers with a prefix of one character. -/
theorem lx_padded {file before p base radix width n rest L} (hp : ([p], base, radix) ∈ prefixes) (hb : 2 ≤ base)
    (hb' : base ≤ 16) (hs : p ∈ "$%".toList) (hn : n < 2 ^ 31) (hr : Boundary rest)
    (h : Lx file (before ++ p :: zeroPad width (digitsOf base n)) rest L) :
    Lx file before (p :: zeroPad width (digitsOf base n) ++ rest) ((.number n radix, lineAt before) :: L) := by
  refine lx_token (.number ⟨[p], base, zeroPad width (digitsOf base n), hp, rfl, padded_numeral hb hb', boundary_noDigits hr,
    by simp⟩ hn) ?_ ?_ h
  · intro hx
    rcases List.mem_cons.mp hx with rfl | hx
    · revert hs; decide
    · exact (hexDigits_solid _ (List.mem_append.mpr (.inl (zeroPad_chars _ hx)) : _ ∈ "0123456789ABCDEF".toList ++ "$%".toList)).2.2.2 rfl
  · intro c hc
    simp at hc; subst hc
    have := hexDigits_solid _ (List.mem_append.mpr (.inr hs) : _ ∈ "0123456789ABCDEF".toList ++ "$%".toList)
    exact ⟨this.1, this.2.1, fun _ => this.2.2.1⟩

theorem digitsLoop_head {base : Nat} (hb : 2 ≤ base) (hb' : base ≤ 16) : ∀ f n, n ≤ f → 0 < n → (digitsLoop base f n).head? ≠ some '0' := by
  have k : ∀ d < 16, 0 < d → digitChar d ≠ '0' := by decide +kernel
  intro f
  induction f with
  | zero => intro n h1 h2; omega
  | succ f ih =>
    intro n h1 h2
    unfold digitsLoop
    split
    · rename_i hlt
      simpa using k n (by omega) h2
    · have h3 : n / base < n := Nat.div_lt_self (by omega) (by omega)
      have h4 : 0 < n / base := Nat.div_pos (by omega) (by omega)
      have := ih (n / base) (by omega) h4
      have hne := @digitsLoop_ne base f (n / base)
      generalize digitsLoop base f (n / base) = w at *
      cases w with
      | nil => exact absurd rfl hne
      | cons c w => simpa using this

/-- Decimal numbers. -/
theorem lx_decimal {file before n rest L} (hn : n < 2 ^ 31) (hr : Boundary rest)
    (h : Lx file (before ++ digitsOf 10 n) rest L) :
    Lx file before (digitsOf 10 n ++ rest) ((.number n .decimal, lineAt before) :: L) := by
  have hne : digitsOf 10 n ≠ [] := digitsLoop_ne
  have hc := @digitsLoop_chars 10 n n
  refine lx_token (.number ⟨[], 10, digitsOf 10 n, by decide, rfl, ?_, boundary_noDigits hr, ?_⟩ hn) ?_ ?_ h
  · refine digits_numeral (digitsLoop_digits (by omega) (by omega) n n (Nat.le_refl _)) ?_ hne
    intro h
    have := hc _ (List.mem_of_mem_head? h)
    revert this
    decide
  · rintro - ⟨p, base, radix, ds, v, u, h1, h2, h3, h4⟩
    have hk : ∀ q ∈ prefixes, q.1.length = 2 → ∃ x ∈ "xXbBoO".toList, q.1 = ['0', x] := by decide +kernel
    obtain ⟨x, hx, hp⟩ := hk _ h1 h2
    have hx' : identChar x := by
      have : ∀ x ∈ "xXbBoO".toList, x.isAlpha = true := by decide +kernel
      exact .inl (.inl (this x hx))
    dsimp only at hp
    subst hp
    rcases Nat.eq_zero_or_pos n with rfl | hpos
    · have : digitsOf 10 0 = ['0'] := by decide
      rw [this] at h4
      simp only [List.nil_append, List.cons_append, List.cons.injEq, true_and] at h4
      exact (hr x (by rw [h4]; rfl)).1 hx'
    · have := digitsLoop_head (base := 10) (by omega) (by omega) n n (Nat.le_refl _) hpos
      change (digitsOf 10 n).head? ≠ _ at this
      generalize digitsOf 10 n = w at *
      cases w with
      | nil => exact absurd rfl hne
      | cons c w =>
        simp only [List.nil_append, List.cons_append, List.cons.injEq] at h4
        exact this (by rw [h4.1]; rfl)
  · intro hx; exact (hexDigits_solid _ (List.mem_append.mpr (.inl (hc _ hx)) : _ ∈ "0123456789ABCDEF".toList ++ "$%".toList)).2.2.2 rfl
  · intro c hx
    have := hexDigits_solid _ (List.mem_append.mpr (.inl (hc _ (List.mem_of_mem_head? hx))) : _ ∈ "0123456789ABCDEF".toList ++ "$%".toList)
    exact ⟨this.1, this.2.1, fun _ => this.2.2.1⟩

end Verif
