import Verif.Lemmas.Reading
import Verif.Spec.Printing
/-
Printed expressions read back.
-/
namespace Verif
open Verif.Spec

/-- In parentheses, if the flag is set. -/
def parenToks (b : Bool) (w : List Tok) : List Tok := if b then .leftParen :: (w ++ [.rightParen]) else w

/-- The tokens of a printed expression. -/
def printedToks : Expr → List Tok
  | .bxor l r => parenToks l.complex (printedToks l) ++ .caret :: parenToks r.complex (printedToks r)
  | .band l r => parenToks l.complex (printedToks l) ++ .ampersand :: parenToks r.complex (printedToks r)
  | .bor l r => parenToks l.complex (printedToks l) ++ .pipe :: parenToks r.complex (printedToks r)
  | .name n => [.name (lower n)]
  | .plus l r => parenToks l.complex (printedToks l) ++ .plus :: parenToks r.complex (printedToks r)
  | .minus l r => parenToks l.complex (printedToks l) ++ .minus :: parenToks r.complex (printedToks r)
  | .uminus e => .minus :: parenToks e.complex (printedToks e)
  | .times l r => parenToks l.complex (printedToks l) ++ .times :: parenToks r.complex (printedToks r)
  | .divide l r => parenToks l.complex (printedToks l) ++ .divide :: parenToks r.complex (printedToks r)
  | .number v radix => if v < 0 then [.minus, .number (-v) radix] else [.number v radix]
  | .upperByte e => .upperByte :: parenToks e.complex (printedToks e)
  | .lowerByte e => .lowerByte :: parenToks e.complex (printedToks e)
  | .macroLabel n => [.macroLabel (lower n)]
  | .macroArg n => [.macroIdent (lower n)]

/-- What a printed expression is read back as. -/
def reread : Expr → Expr
  | .bxor l r => .bxor (reread l) (reread r)
  | .band l r => .band (reread l) (reread r)
  | .bor l r => .bor (reread l) (reread r)
  | .name n => .name (lower n)
  | .plus l r => .plus (reread l) (reread r)
  | .minus l r => .minus (reread l) (reread r)
  | .uminus e => .uminus (reread e)
  | .times l r => .times (reread l) (reread r)
  | .divide l r => .divide (reread l) (reread r)
  | .number v radix => if v < 0 then .uminus (.number (-v) radix) else .number v radix
  | .upperByte e => .upperByte (reread e)
  | .lowerByte e => .lowerByte (reread e)
  | .macroLabel n => .macroLabel (lower n)
  | .macroArg n => .macroArg (lower n)

theorem printed_sentence (e : Expr) : Sentence (if e.complex then .bitwise else .unary) (printedToks e) (reread e) := by
  have op : ∀ e : Expr, Sentence (if e.complex then .bitwise else .unary) (printedToks e) (reread e) →
      Sentence .unary (parenToks e.complex (printedToks e)) (reread e) := by
    intro e h
    cases hc : e.complex
    · rw [hc] at h; exact h
    · rw [hc] at h; exact .tight (.paren h)
  have bin : ∀ {t lv f} {l r : Expr}, BinOp t lv f →
      Sentence (if l.complex then .bitwise else .unary) (printedToks l) (reread l) →
      Sentence (if r.complex then .bitwise else .unary) (printedToks r) (reread r) →
      Sentence .bitwise (parenToks l.complex (printedToks l) ++ t :: parenToks r.complex (printedToks r)) (f (reread l) (reread r)) := by
    intro t lv f l r hb hl hr
    have h1 := op l hl
    have h2 := op r hr
    have : Sentence lv (parenToks l.complex (printedToks l) ++ t :: parenToks r.complex (printedToks r)) (f (reread l) (reread r)) := by
      refine .binary hb (h1.loosen ?_) (h2.loosen ?_) <;> cases hb <;> decide
    exact this.loosen (by cases hb <;> decide)
  have pre : ∀ {t f} {e : Expr}, PreOp t f → Sentence (if e.complex then .bitwise else .unary) (printedToks e) (reread e) →
      Sentence .bitwise (t :: parenToks e.complex (printedToks e)) (f (reread e)) := by
    intro t f e hp h
    exact (Sentence.pre hp (op e h)).loosen (by decide)
  induction e with
  | bxor l r hl hr => exact bin .bxor hl hr
  | band l r hl hr => exact bin .band hl hr
  | bor l r hl hr => exact bin .bor hl hr
  | plus l r hl hr => exact bin .plus hl hr
  | minus l r hl hr => exact bin .minus hl hr
  | times l r hl hr => exact bin .times hl hr
  | divide l r hl hr => exact bin .divide hl hr
  | uminus e h => exact pre .minus h
  | upperByte e h => exact pre .upper h
  | lowerByte e h => exact pre .lower h
  | name n => exact .tight (.atom .name)
  | macroLabel n => exact .tight (.atom .label)
  | macroArg n => exact .tight (.atom .param)
  | number v radix =>
    simp only [printedToks, reread, Expr.complex, Bool.false_eq_true, ↓reduceIte]
    split
    · exact .pre .minus (.tight (.atom .number))
    · exact .tight (.atom .number)

theorem printed_syntax (e : Expr) : ExprSyntax (printedToks e) (reread e) := by
  have := printed_sentence e
  exact this.loosen (by cases e.complex <;> decide)

theorem digits_no_newline {t : Text} (h : ∀ c ∈ t, c ∈ "0123456789ABCDEF".toList) : '\n' ∉ t := by
  intro hx
  have := h _ hx
  revert this
  decide

theorem numberText_no_newline (v : Int) (radix : Radix) : '\n' ∉ numberText v radix := by
  have h1 : ∀ w b n, '\n' ∉ zeroPad w (digitsOf b n) := fun w b n => digits_no_newline zeroPad_chars
  have h2 : ∀ b n, '\n' ∉ digitsOf b n := fun b n => digits_no_newline digitsLoop_chars
  have k1 : '\n' ≠ '$' := by decide
  have k2 : '\n' ≠ '-' := by decide
  have k3 : '\n' ≠ '%' := by decide
  cases radix <;> simp only [numberText, decimalText]
  · split
    · exact fun h => (List.mem_cons.mp h).elim k2 (h2 _ _)
    · exact h2 _ _
  · split <;> exact fun h => (List.mem_cons.mp h).elim k1 (h1 _ _ _)
  · exact fun h => (List.mem_cons.mp h).elim k3 (h1 _ _ _)
  · exact fun h => (List.mem_cons.mp h).elim k1 (h1 _ _ _)

theorem ident_no_newline {w : Text} (h : Ident w) : '\n' ∉ w :=
  fun hn => (identChar_solid (ident_chars h _ hn)).2.2.2 rfl

theorem parenIf_no_newline {b t} (h : '\n' ∉ t) : '\n' ∉ parenIf b t := by
  cases b <;> simp [parenIf, h]

theorem print_no_newline {e : Expr} (h : Printable e) : '\n' ∉ e.print := by
  have bin : ∀ {a b c : Text} (p q), '\n' ∉ a → '\n' ∉ b → '\n' ∉ c → '\n' ∉ parenIf p a ++ b ++ parenIf q c := by
    intro a b c p q h1 h2 h3
    simp [parenIf_no_newline h1, h2, parenIf_no_newline h3]
  have un : ∀ {c : Char} {a : Text} (p), '\n' ≠ c → '\n' ∉ a → '\n' ∉ c :: parenIf p a := by
    intro c a p h1 h2
    simp [h1, parenIf_no_newline h2]
  induction e with
  | bxor l r hl hr => exact bin _ _ (hl h.1) (by decide) (hr h.2)
  | band l r hl hr => exact bin _ _ (hl h.1) (by decide) (hr h.2)
  | bor l r hl hr => exact bin _ _ (hl h.1) (by decide) (hr h.2)
  | plus l r hl hr => exact bin _ _ (hl h.1) (by decide) (hr h.2)
  | minus l r hl hr => exact bin _ _ (hl h.1) (by decide) (hr h.2)
  | times l r hl hr => exact bin _ _ (hl h.1) (by decide) (hr h.2)
  | divide l r hl hr => exact bin _ _ (hl h.1) (by decide) (hr h.2)
  | uminus e ih => exact un _ (by decide) (ih h)
  | upperByte e ih => exact un _ (by decide) (ih h)
  | lowerByte e ih => exact un _ (by decide) (ih h)
  | name n => exact ident_no_newline h
  | macroLabel n => obtain ⟨w, h, rfl⟩ := h; simp [Expr.print, ident_no_newline h]
  | macroArg n => obtain ⟨w, h, rfl⟩ := h; simp [Expr.print, ident_no_newline h]
  | number v radix => exact numberText_no_newline v radix

/-- How pieces of text on a line are read. -/
def Piece (t : Text) (ks : List Tok) : Prop := '\n' ∉ t ∧ ∀ file before rest L, Boundary rest →
  Lx file (before ++ t) rest L → Lx file before (t ++ rest) (ks.map (·, lineAt before) ++ L)

theorem piece_paren {t ks} (b : Bool) (h : Piece t ks) : Piece (parenIf b t) (parenToks b ks) := by
  cases b
  · exact h
  · refine ⟨parenIf_no_newline h.1, ?_⟩
    intro file before rest L hr hl
    simp only [parenIf, ↓reduceIte, parenToks] at hl ⊢
    have h3 := lx_sym (file := file) (before := before ++ '(' :: t) (w := ")".toList) (k := .rightParen) (by decide)
      (.inl (by simp)) (fun e => absurd e (by decide)) (by simpa using hl)
    have h2 := h.2 file (before ++ ['(']) (")".toList ++ rest) _ (boundary_cons (by decide)) (by simpa using h3)
    have h1 := lx_sym (file := file) (before := before) (w := "(".toList) (k := .leftParen) (by decide)
      (.inl (by simp)) (fun e => absurd e (by decide)) h2
    have hl1 : lineAt (before ++ ['(']) = lineAt before := lineAt_append (by decide)
    have hl2 : lineAt (before ++ '(' :: t) = lineAt before := lineAt_append (by simpa using h.1)
    rw [hl1, hl2] at h1
    simpa using h1

theorem piece_binary {t ks u js} {op : Char} {k : Tok} (hs : ([op], k) ∈ symbols) (hk : k ≠ .colon) (hn : op ≠ '\n')
    (h1 : Piece t ks) (h2 : Piece u js) : Piece (t ++ [' ', op, ' '] ++ u) (ks ++ k :: js) := by
  refine ⟨by simp [h1.1, h2.1, hn.symm], ?_⟩
  intro file before rest L hr hl
  have a1 := h2.2 file (before ++ t ++ [' ', op, ' ']) rest L hr (by simpa using hl)
  have l1 : lineAt (before ++ t ++ [' ', op, ' ']) = lineAt before := by
    rw [List.append_assoc]; exact lineAt_append (by simp [h1.1, hn.symm])
  rw [l1] at a1
  have a2 := lx_space (file := file) (before := before ++ t ++ [' ', op]) (c := ' ') (by decide) (by simpa using a1)
  have a3 := lx_sym (file := file) (before := before ++ t ++ [' ']) (w := [op]) hs (.inl hk) (fun _ => by
    rw [lineStart_snoc]; decide) (by simpa using a2)
  have a4 := lx_space (file := file) (before := before ++ t) (c := ' ') (by decide) a3
  have a5 := h1.2 file before _ _ (boundary_cons (by decide)) a4
  have l2 : lineAt (before ++ t ++ [' ']) = lineAt before := by
    rw [List.append_assoc]; exact lineAt_append (by simp [h1.1])
  rw [l2] at a5
  simpa using a5

theorem piece_prefix {t ks} {op : Char} {k : Tok} (hs : ([op], k) ∈ symbols) (hk : k ≠ .colon) (hn : op ≠ '\n')
    (ho : op ≠ '*') (h : Piece t ks) : Piece (op :: t) (k :: ks) := by
  refine ⟨by simp [h.1, hn.symm], ?_⟩
  intro file before rest L hr hl
  have a1 := h.2 file (before ++ [op]) rest L hr (by simpa using hl)
  have a2 := lx_sym (file := file) (before := before) (w := [op]) hs (.inl hk) (fun e => absurd (by simpa using e) ho) a1
  have l1 : lineAt (before ++ [op]) = lineAt before := lineAt_append (by simp [hn.symm])
  rw [l1] at a2
  simpa using a2

theorem piece_expr {e : Expr} (h : Printable e) : Piece e.print (printedToks e) := by
  have bin : ∀ {op : Char} {k : Tok} {l r : Expr}, ([op], k) ∈ symbols → k ≠ .colon → op ≠ '\n' →
      Piece l.print (printedToks l) → Piece r.print (printedToks r) →
      Piece (parenIf l.complex l.print ++ [' ', op, ' '] ++ parenIf r.complex r.print)
        (parenToks l.complex (printedToks l) ++ k :: parenToks r.complex (printedToks r)) := fun a b c d e =>
    piece_binary a b c (piece_paren _ d) (piece_paren _ e)
  induction e with
  | bxor l r hl hr => exact bin (by decide) (by simp) (by decide) (hl h.1) (hr h.2)
  | band l r hl hr => exact bin (by decide) (by simp) (by decide) (hl h.1) (hr h.2)
  | bor l r hl hr => exact bin (by decide) (by simp) (by decide) (hl h.1) (hr h.2)
  | plus l r hl hr => exact bin (by decide) (by simp) (by decide) (hl h.1) (hr h.2)
  | minus l r hl hr => exact bin (by decide) (by simp) (by decide) (hl h.1) (hr h.2)
  | times l r hl hr => exact bin (by decide) (by simp) (by decide) (hl h.1) (hr h.2)
  | divide l r hl hr => exact bin (by decide) (by simp) (by decide) (hl h.1) (hr h.2)
  | uminus e ih => exact piece_prefix (by decide) (by simp) (by decide) (by decide) (piece_paren _ (ih h))
  | upperByte e ih => exact piece_prefix (by decide) (by simp) (by decide) (by decide) (piece_paren _ (ih h))
  | lowerByte e ih => exact piece_prefix (by decide) (by simp) (by decide) (by decide) (piece_paren _ (ih h))
  | name n => exact ⟨print_no_newline h, fun file before rest L hr hl => lx_name h hr hl⟩
  | macroLabel n =>
    refine ⟨print_no_newline h, fun file before rest L hr hl => ?_⟩
    obtain ⟨w, h, rfl⟩ := h
    exact lx_macroLabel h hl
  | macroArg n =>
    refine ⟨print_no_newline h, fun file before rest L hr hl => ?_⟩
    obtain ⟨w, h, rfl⟩ := h
    exact lx_macroIdent h hr hl
  | number v radix =>
    refine ⟨print_no_newline h, fun file before rest L hr hl => ?_⟩
    have ht : ∀ v : Int, 0 ≤ v → v < 2 ^ 31 → toU32 v = v.toNat := by intro v a b; simp only [toU32]; omega
    cases radix with
    | octal => exact h.elim
    | hex =>
      obtain ⟨n, rfl⟩ := Int.eq_ofNat_of_zero_le h.1
      have hn : n < 2 ^ 31 := by have := h.2; omega
      have h0 : ¬ ((n : Int) < 0) := by omega
      simp only [Expr.print, numberText, ht _ h.1 h.2, Int.toNat_natCast, printedToks, h0, ↓reduceIte] at hl ⊢
      split at hl <;> simp only [*, ↓reduceIte] <;> exact lx_padded (by decide) (by decide) (by decide) (by decide) hn hr hl
    | binary =>
      obtain ⟨n, rfl⟩ := Int.eq_ofNat_of_zero_le h.1
      have hn : n < 2 ^ 31 := by have := h.2; omega
      have h0 : ¬ ((n : Int) < 0) := by omega
      simp only [Expr.print, numberText, ht _ h.1 h.2, Int.toNat_natCast, printedToks, h0, ↓reduceIte] at hl ⊢
      exact lx_padded (by decide) (by decide) (by decide) (by decide) hn hr hl
    | decimal =>
      simp only [Expr.print, numberText, decimalText, printedToks] at hl ⊢
      have h1 : -2 ^ 31 < v := h.1
      have h2 : v < 2 ^ 31 := h.2
      split
      · rename_i hneg
        simp only [hneg, ↓reduceIte] at hl
        have hd : Piece (digitsOf 10 v.natAbs) [.number (-v) .decimal] := by
          refine ⟨digits_no_newline digitsLoop_chars, fun file before rest L hr hl => ?_⟩
          have := lx_decimal (n := v.natAbs) (by omega) hr hl
          have e : ((v.natAbs : Nat) : Int) = -v := by omega
          rw [e] at this
          simpa using this
        exact (piece_prefix (op := '-') (k := .minus) (by decide) (by simp) (by decide) (by decide) hd).2 _ _ _ _ hr hl
      · rename_i hneg
        simp only [hneg, ↓reduceIte] at hl
        have := lx_decimal (n := v.toNat) (by omega) hr hl
        have e : ((v.toNat : Nat) : Int) = v := by omega
        rw [e] at this
        simpa using this

theorem reread_normal {e : Expr} (h : Normal e) : reread e = e := by
  induction e with
  | bxor l r hl hr => simp only [reread, hl h.1, hr h.2]
  | band l r hl hr => simp only [reread, hl h.1, hr h.2]
  | bor l r hl hr => simp only [reread, hl h.1, hr h.2]
  | plus l r hl hr => simp only [reread, hl h.1, hr h.2]
  | minus l r hl hr => simp only [reread, hl h.1, hr h.2]
  | times l r hl hr => simp only [reread, hl h.1, hr h.2]
  | divide l r hl hr => simp only [reread, hl h.1, hr h.2]
  | uminus e ih => simp only [reread, ih h]
  | upperByte e ih => simp only [reread, ih h]
  | lowerByte e ih => simp only [reread, ih h]
  | name n => simp only [reread]; rw [h]
  | macroLabel n => simp only [reread]; rw [h]
  | macroArg n => simp only [reread]; rw [h]
  | number v radix =>
    have : ¬ v < 0 := by have : 0 ≤ v := h; omega
    simp only [reread, this, ↓reduceIte]

theorem lower_lower (n : Text) : lower (lower n) = lower n := by
  simp only [lower, List.map_map]
  refine List.map_congr_left fun c _ => ?_
  rcases toLower_cases c with h | ⟨k, hk, h1, h2⟩
  · simp only [Function.comp, h]
  · have : ∀ n < 26, (Char.ofNat (97 + n)).toLower = Char.ofNat (97 + n) := by decide +kernel
    simp only [Function.comp, h2, this k hk]

theorem bind2_iff {x x' y y' : Res Int} {f : Int → Int → Res Int} (hx : ∀ v, x = .ok v ↔ x' = .ok v)
    (hy : ∀ v, y = .ok v ↔ y' = .ok v) (v : Int) :
    ((do let a ← x; let b ← y; f a b) = .ok v) ↔ ((do let a ← x'; let b ← y'; f a b) = .ok v) := by
  simp only [Res.bind_eq_ok, hx, hy]

theorem bind1_iff {x x' : Res Int} {f : Int → Res Int} (hx : ∀ v, x = .ok v ↔ x' = .ok v) (v : Int) :
    ((do let a ← x; f a) = .ok v) ↔ ((do let a ← x'; f a) = .ok v) := by
  simp only [Res.bind_eq_ok, hx]

theorem reread_eval {e : Expr} (h : Printable e) (m : Mode) (env : Env) (v : Int) :
    e.eval m env = .ok v ↔ (reread e).eval m env = .ok v := by
  induction e generalizing v with
  | bxor l r hl hr => exact bind2_iff (hl h.1) (hr h.2) v
  | band l r hl hr => exact bind2_iff (hl h.1) (hr h.2) v
  | bor l r hl hr => exact bind2_iff (hl h.1) (hr h.2) v
  | plus l r hl hr => exact bind2_iff (hl h.1) (hr h.2) v
  | minus l r hl hr => exact bind2_iff (hl h.1) (hr h.2) v
  | times l r hl hr => exact bind2_iff (hl h.1) (hr h.2) v
  | divide l r hl hr => exact bind2_iff (hl h.1) (hr h.2) v
  | uminus e ih => exact bind1_iff (ih h) v
  | upperByte e ih => exact bind1_iff (ih h) v
  | lowerByte e ih => exact bind1_iff (ih h) v
  | name n =>
    simp only [reread, Expr.eval, lower_lower]
    cases env (lower n) <;> simp
  | macroLabel n => simp [reread, Expr.eval]
  | macroArg n => simp [reread, Expr.eval]
  | number w radix =>
    simp only [reread]
    split
    · rename_i hn
      have hb : inI32 w := by
        cases radix with
        | decimal => have h1 : -2 ^ 31 < w ∧ w < 2 ^ 31 := h; exact ⟨by omega, by omega⟩
        | hex => have h1 : 0 ≤ w ∧ w < 2 ^ 31 := h; omega
        | binary => have h1 : 0 ≤ w ∧ w < 2 ^ 31 := h; omega
        | octal => exact h.elim
      have e : -1 * -w = w := by omega
      simp only [Expr.eval, Res.ok_bind, e, Mode.norm_of_inI32 m hb]
    · rfl

theorem lx_lex {file : Nat} {text : Text} {L : List (Tok × Nat)} (h : Lx file [] text L) {seg : Seg} (hp : Plain seg text) :
    ∃ toks, lexInput seg (Input.new file text) = .ok toks ∧ tokKinds toks = L.map (·.1) ++ [.eof] := by
  obtain ⟨toks, e, h1, h2, _, h4, _⟩ := h
  refine ⟨_, (lexInput_ok_iff hp).mpr h1, ?_⟩
  rw [← h4]
  simp [tokKinds, h2]

/-- Texts of ASCII characters. -/
def Ascii (t : Text) : Prop := ∀ c ∈ t, c.toNat < 128

theorem Ascii.append {a b : Text} (h : Ascii a) (h' : Ascii b) : Ascii (a ++ b) := by
  intro c hc
  exact (List.mem_append.mp hc).elim (h c) (h' c)

theorem Ascii.cons {c : Char} {t : Text} (h : c.toNat < 128) (h' : Ascii t) : Ascii (c :: t) := by
  intro d hd
  rcases List.mem_cons.mp hd with rfl | hd
  · exact h
  · exact h' d hd

theorem Ascii.nil : Ascii [] := by simp [Ascii]

theorem ascii_ident {w : Text} (h : Ident w) : Ascii w := fun c hc => by
  have := identChar_bounds (ident_chars h c hc); omega

theorem ascii_digits {t : Text} (h : ∀ c ∈ t, c ∈ "0123456789ABCDEF".toList) : Ascii t := by
  have : ∀ c ∈ "0123456789ABCDEF".toList, c.toNat < 128 := by decide
  exact fun c hc => this c (h c hc)

theorem ascii_parenIf {b t} (h : Ascii t) : Ascii (parenIf b t) := by
  cases b
  · exact h
  · exact .cons (by decide) (h.append (.cons (by decide) .nil))

theorem ascii_numberText (v radix) : Ascii (numberText v radix) := by
  have h1 : ∀ w b n, Ascii (zeroPad w (digitsOf b n)) := fun w b n => ascii_digits zeroPad_chars
  have h2 : ∀ b n, Ascii (digitsOf b n) := fun b n => ascii_digits digitsLoop_chars
  cases radix <;> simp only [numberText, decimalText]
  · split
    · exact .cons (by decide) (h2 _ _)
    · exact h2 _ _
  · split <;> exact .cons (by decide) (h1 _ _ _)
  · exact .cons (by decide) (h1 _ _ _)
  · exact .cons (by decide) (h1 _ _ _)

theorem ascii_print {e : Expr} (h : Printable e) : Ascii e.print := by
  have bin : ∀ {a b c : Text} (p q), Ascii a → Ascii b → Ascii c → Ascii (parenIf p a ++ b ++ parenIf q c) :=
    fun p q h1 h2 h3 => ((ascii_parenIf h1).append h2).append (ascii_parenIf h3)
  have un : ∀ {c : Char} {a : Text} (p), c.toNat < 128 → Ascii a → Ascii (c :: parenIf p a) :=
    fun p h1 h2 => .cons h1 (ascii_parenIf h2)
  induction e with
  | bxor l r hl hr => exact bin _ _ (hl h.1) (by unfold Ascii; decide) (hr h.2)
  | band l r hl hr => exact bin _ _ (hl h.1) (by unfold Ascii; decide) (hr h.2)
  | bor l r hl hr => exact bin _ _ (hl h.1) (by unfold Ascii; decide) (hr h.2)
  | plus l r hl hr => exact bin _ _ (hl h.1) (by unfold Ascii; decide) (hr h.2)
  | minus l r hl hr => exact bin _ _ (hl h.1) (by unfold Ascii; decide) (hr h.2)
  | times l r hl hr => exact bin _ _ (hl h.1) (by unfold Ascii; decide) (hr h.2)
  | divide l r hl hr => exact bin _ _ (hl h.1) (by unfold Ascii; decide) (hr h.2)
  | uminus e ih => exact un _ (by decide) (ih h)
  | upperByte e ih => exact un _ (by decide) (ih h)
  | lowerByte e ih => exact un _ (by decide) (ih h)
  | name n => exact ascii_ident h
  | macroLabel n => obtain ⟨w, h, rfl⟩ := h; exact (ascii_ident h).append (.cons (by decide) .nil)
  | macroArg n => obtain ⟨w, h, rfl⟩ := h; exact .cons (by decide) (ascii_ident h)
  | number v radix => exact ascii_numberText v radix

end Verif
