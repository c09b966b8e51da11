import Verif.Lemmas.LexSwap
/-
C37–C41: the tokens of a source file.  The specification is in Spec/Lexing.lean: `Spells` says what the
tokens look like, `Gap` what stands between them, `placeIn` where they are.
-/
namespace Verif.Props
open Verif.Spec

/-- The tokKinds of the tokens of a text, for the examples. -/
def lexed (text : String) : Option (List Tok) :=
  match lexInput plainSeg (Input.new 0 text.toList) with
  | .ok toks => some (tokKinds toks)
  | _ => none

/-! C37: lexing terminates and makes progress -/

/-- **C37**: ASCII texts have no combining characters; the theorems on tokens hold for all texts without combining
characters. -/
theorem C37_ascii {seg : Seg} (hs : AsciiSeg seg) {text : Text} (ha : ∀ c ∈ text, c.toNat < 128) : Plain seg text :=
  plain_of_ascii hs ha

/-- **C37**: on a text without combining characters the lexer always stops. -/
theorem C37_terminates {seg : Seg} (file : Nat) (text : Text) (hp : Plain seg text) :
    lexInput seg (Input.new file text) ≠ .loop :=
  lexInput_not_loop hp

/-- **C37**: every token but the end of the file takes at least one character. -/
theorem C37_progress {seg : Seg} {file : Nat} {text : Text} (hp : Plain seg text)
    {toks : List Token} (h : lexInput seg (Input.new file text) = .ok toks) :
    ∀ t ∈ toks, t.tok ≠ .eof → t.start.pos < t.stop.pos :=
  (lexesTo_order ((lexInput_ok_iff hp).mp h)).2.2

example : AsciiSeg plainSeg := plainSeg_ascii

/-- **C37**, the limits: an identifier whose last letter carries a combining accent is read for ever, so
the lexer does not stop after any number of steps. -/
theorem C37_combining_hang (seg : Seg) (file : Nat) (h : seg ['a', Char.ofNat 0x301] = 2) (fuel : Nat) :
    lexLoop seg (asmSkip seg) fuel (Input.new file ['a', Char.ofNat 0x301]) = .loop := by
  have hu : ∀ n < 3, (Input.new file ['a', Char.ofNat 0x301]).update seg n = Input.new file ['a', Char.ofNat 0x301] := by
    intro n hn
    have hb : byteLen ['a', Char.ofNat 0x301] = 3 := by decide
    simp only [Input.update, Input.new, Input.updateLoop, List.length_cons, List.length_nil, h, List.take, hb]
    rw [if_pos (by omega)]
  have hskip : skipBlank seg (Input.new file ['a', Char.ofNat 0x301]) = Input.new file ['a', Char.ofNat 0x301] := by
    have hw : (Input.new file ['a', Char.ofNat 0x301]).skipWhitespace seg = Input.new file ['a', Char.ofNat 0x301] :=
      hu 0 (by decide)
    have hn : skipComment seg (skipStarComment seg (Input.new file ['a', Char.ofNat 0x301])) =
        Input.new file ['a', Char.ofNat 0x301] := rfl
    unfold skipBlank
    show skipBlankLoop seg 3 _ = _
    unfold skipBlankLoop
    simp only [hw, hn, Nat.lt_irrefl, gt_iff_lt, ↓reduceIte]
  have hm : matchToken ['a', Char.ofNat 0x301] = some (['a'], .ok (.name ['a'])) := by decide +kernel
  induction fuel with
  | zero => rfl
  | succ fuel ih =>
    have hread : readToken seg (asmSkip seg) (Input.new file ['a', Char.ofNat 0x301]) =
        .ok (some (Input.new file ['a', Char.ofNat 0x301], ⟨.name ['a'], placeIn file [], placeIn file []⟩)) := by
      unfold readToken asmSkip
      rw [hskip, Res.ok_bind]
      simp only [Input.new, hm]
      have := hu (byteLen ['a']) (by decide)
      simp only [Input.new] at this
      simp only [this, Res.ok_bind]
      rfl
    rw [lexLoop, hread]
    simp only [Res.ok_bind]
    rw [if_neg (by decide), ih]
    rfl

/-! C38: tokens tile the source -/

/-- **C38**: what the lexer accepts is a sequence of tokens with white space and comments between them,
and the tokens are at their places. -/
theorem C38_tiles {seg : Seg} {file : Nat} {text : Text} (hp : Plain seg text)
    {toks : List Token} : lexInput seg (Input.new file text) = .ok toks ↔ LexesTo file [] text toks :=
  lexInput_ok_iff hp

/-- **C38**: the spans of the tokens are in order and do not overlap. -/
theorem C38_ordered {seg : Seg} {file : Nat} {text : Text} (hp : Plain seg text)
    {toks : List Token} (h : lexInput seg (Input.new file text) = .ok toks) :
    toks.Pairwise (fun a b => a.stop.pos ≤ b.start.pos) :=
  (lexesTo_order ((lexInput_ok_iff hp).mp h)).2.1

/-- **C38**: the lexer rejects a text if, and only if, somewhere after some tokens there is something else
than a token or the end. -/
theorem C38_rejects {seg : Seg} {file : Nat} {text : Text} (hp : Plain seg text)
    {e : Err} : lexInput seg (Input.new file text) = .err e ↔
      ∃ ks b t, LexReaches [] text ks b t ∧ NoToken b t ∧
        e = .unexpectedChar (placeIn file b).pos (placeIn file b).line (placeIn file b).column :=
  lexInput_err_iff hp

example : lexed "start: mov #$1f, acc ; set up\n* a line of comment\n  br start%" = some
    [.name "start".toList, .colon, .name "mov".toList, .hash, .number 31 .hex, .comma, .name "acc".toList,
     .name "br".toList, .macroLabel "start%".toList, .eof] := by decide +kernel

/-! C39: number literals -/

/-- **C39**: a literal with any of the prefixes is one number token with the positional value of its
digits. -/
theorem C39_value {seg : Seg} {file : Nat} {p ds : Text} {base : Nat} {radix : Radix} {v : Nat}
    (hp : (p, base, radix) ∈ prefixes) (hn : Numeral base ds v) (hv : v < 2 ^ 31) (hs : AsciiSeg seg) :
    lexInput seg (Input.new file (p ++ ds)) = .ok
      [⟨.number v radix, placeIn file [], placeIn file (p ++ ds)⟩, ⟨.eof, placeIn file (p ++ ds), placeIn file (p ++ ds)⟩] := by
  have hascii : ∀ q ∈ prefixes, ∀ c ∈ q.1, c.toNat < 128 ∧ isSpace c = false ∧ c ≠ ';' ∧ c ≠ '*' := by decide
  refine (lexInput_ok_iff (plain_of_ascii hs ?_)).mpr (lexesTo_one (.number ⟨p, base, ds, hp, rfl, hn, not_moreDigits_nil, ?_⟩ hv)
    (gap_nil ?_))
  · intro c hc
    rcases List.mem_append.mp hc with hc | hc
    · exact (hascii _ hp c hc).1
    · exact digits_ascii hn.1 c hc
  · rintro rfl
    have hten : ∀ q ∈ prefixes, q.1 = [] → q.2.1 = 10 := by decide
    have := hten _ hp rfl
    simp only at this
    subst this
    exact decimal_not_prefixed hn
  · intro c hc
    cases p with
    | nil =>
      obtain ⟨a, d, w', rfl, hd, hd', hw⟩ := numeral_cons hn
      cases hc
      obtain ⟨_, h1, h2, h3, _⟩ := digit_ascii hd
      exact ⟨h1, h2, h3⟩
    | cons a p =>
      cases hc
      exact (hascii _ hp c (by simp)).2

/-- **C39**: a literal of 2³¹ or more makes the assembler panic, and nothing else in the lexer does. -/
theorem C39_too_big {seg : Seg} {file : Nat} {text : Text} (hp : Plain seg text) :
    lexInput seg (Input.new file text) = .panic ↔ ∃ ks b t, LexReaches [] text ks b t ∧ TooBig b t :=
  lexInput_panic_iff hp

example : Numeral 16 "1'F".toList 31 :=
  ⟨.digit (d := 1) (.inl rfl) (by decide) (.quote (d := 15) (.inr rfl) (by decide) .nil), '1', 1, rfl, .inl rfl⟩

/-! C40: comments -/

/-- **C40**: exchanging a comment for another one, or removing it, does not change the tokens.  The
comment starts after the tokens `ks` and the blank text `g`, that is, not within a string or a comment. -/
theorem C40_comments {seg : Seg} {file : Nat} {b g t post d : Text} {c : Char} {ks : List Tok}
    (hc : c = ';' ∨ (c = '*' ∧ lineStart (b ++ g) = true)) (ht : '\n' ∉ t) (hp : atEol post)
    (hr : LexReaches [] (b ++ g ++ c :: t ++ post) ks b (g ++ c :: t ++ post))
    (hb : Blank (lineStart b) g (c :: t ++ post))
    (hd : d = [] ∨ ∃ c' t', d = c' :: t' ∧ (c' = ';' ∨ (c' = '*' ∧ lineStart (b ++ g) = true)) ∧ '\n' ∉ t')
    (h1 : Plain seg (b ++ g ++ c :: t ++ post)) (h2 : Plain seg (b ++ g ++ d ++ post)) {ks' : List Tok} :
    (∃ toks, lexInput seg (Input.new file (b ++ g ++ c :: t ++ post)) = .ok toks ∧ tokKinds toks = ks') ↔
    ∃ toks, lexInput seg (Input.new file (b ++ g ++ d ++ post)) = .ok toks ∧ tokKinds toks = ks' := by
  simp only [lexInput_ok_iff h1, lexInput_ok_iff h2]
  exact lexes_comment hc ht hp hr hb hd

/-- A comment after a token meets the hypotheses. -/
example : LexReaches [] "nop ;wait\n ret".toList [.name "nop".toList] "nop".toList " ;wait\n ret".toList ∧
    Blank (lineStart "nop".toList) " ".toList ";wait\n ret".toList :=
  ⟨.token (g := []) (w := "nop".toList) (gap_nil (fun c hc => by cases hc; decide))
    (.name ⟨'n', ['o', 'p'], rfl, .inl (by decide), fun d hd => by
      simp only [List.mem_cons, List.not_mem_nil, or_false] at hd
      rcases hd with rfl | rfl <;> exact .inl (.inl (by decide))⟩
      (fun c hc => by cases hc; exact ⟨fun h => by have := isIdentChar_iff.mpr h; revert this; decide, by decide⟩)) .here,
   .space (by decide) .nil⟩

example : lexed "nop ;wait\n ret" = lexed "nop ;\n ret" ∧ lexed "nop ;wait\n ret" = lexed "nop \n ret" ∧
    (lexed "nop ;wait\n ret").isSome = true := by decide +kernel

/-! C41: string escapes -/

/-- **C41**: a string literal stands for its contents, with the escape sequences replaced. -/
theorem C41_value {seg : Seg} {file : Nat} {src s : Text} (hq : Quoted src s) (hp : Plain seg ('"' :: src ++ ['"'])) :
    lexInput seg (Input.new file ('"' :: src ++ ['"'])) = .ok
      [⟨.string s, placeIn file [], placeIn file ('"' :: src ++ ['"'])⟩,
       ⟨.eof, placeIn file ('"' :: src ++ ['"']), placeIn file ('"' :: src ++ ['"'])⟩] := by
  refine (lexInput_ok_iff hp).mpr (lexesTo_one (.string hq) (gap_nil ?_))
  intro c hc
  cases hc
  decide

/-- **C41**: every string token comes from a literal with this value. -/
theorem C41_tokens {seg : Seg} {file : Nat} {text : Text} (hp : Plain seg text)
    {toks : List Token} (h : lexInput seg (Input.new file text) = .ok toks) {t : Token} (ht : t ∈ toks) {s : Text}
    (hk : t.tok = .string s) : ∃ a src rest, text = a ++ ('"' :: src ++ ['"']) ++ rest ∧ Quoted src s ∧
      t.start = placeIn file a ∧ t.stop = placeIn file (a ++ ('"' :: src ++ ['"'])) := by
  rcases lexesTo_tokens ((lexInput_ok_iff hp).mp h) t ht with he | ⟨a, w, rest, h1, h2, h3, h4⟩
  · rw [hk] at he; cases he
  · rw [hk] at h2
    cases h2 with
    | symbol hm _ =>
      simp [symbols] at hm
    | string hq => exact ⟨a, _, rest, h1, hq, h3, h4⟩

/-- The escape sequences. -/
example : Quoted "a\\n\\\"\\q".toList "a\n\"q".toList :=
  .plain (by decide) (by decide) (.escape (c := 'n') (by decide) (.escape (c := '"') (by decide)
    (.escape (c := 'q') (by decide) .nil)))

/-! C62: positions -/

/-- **C62**: the start and the end of every token are given by byte offset, line (one more than the line
ends before it) and column (the characters since the last line end). -/
theorem C62_tokens {seg : Seg} {file : Nat} {text : Text} (hp : Plain seg text)
    {toks : List Token} (h : lexInput seg (Input.new file text) = .ok toks) {t : Token} (ht : t ∈ toks) :
    ∃ a w rest, text = a ++ w ++ rest ∧
      t.start = ⟨file, byteLen a, 1 + a.count '\n', (a.reverse.takeWhile (· ≠ '\n')).length⟩ ∧
      t.stop = ⟨file, byteLen (a ++ w), 1 + (a ++ w).count '\n', ((a ++ w).reverse.takeWhile (· ≠ '\n')).length⟩ :=
  lexesTo_places ((lexInput_ok_iff hp).mp h) t ht

/-- **C62**: so is the place of the error for a character that starts no token, which is the end of the
token before it. -/
theorem C62_unexpected {seg : Seg} {file : Nat} {text : Text} (hp : Plain seg text)
    {pos line col : Nat} (h : lexInput seg (Input.new file text) = .err (.unexpectedChar pos line col)) :
    ∃ a rest ks, text = a ++ rest ∧ LexReaches [] text ks a rest ∧ NoToken a rest ∧
      pos = byteLen a ∧ line = 1 + a.count '\n' ∧ col = (a.reverse.takeWhile (· ≠ '\n')).length := by
  obtain ⟨ks, b, t, h1, h2, h3⟩ := (lexInput_err_iff hp).mp h
  cases h3
  exact ⟨b, t, ks, (reaches_length h1).2.2, h1, h2, rfl, rfl, rfl⟩

/-- **C62**: moving over any text, from the place after `before`, leads to the place after both. -/
theorem C62_update {seg : Seg} (file : Nat) (w before rest : Text)
    (hp : Plain seg (w ++ rest)) (hcr : ¬ (w.getLast? = some '\r' ∧ rest.head? = some '\n')) :
    ((⟨file, before, w ++ rest, 1 + before.count '\n', column before⟩ : Input).update seg (byteLen w)).location =
      placeIn file (before ++ w) := by
  have := update_plain file w before rest hp hcr
  unfold inputAt at this
  rw [this]
  rfl

example : (match lexInput plainSeg (Input.new 7 "ld 1\r\n  st 2".toList) with
    | .ok toks => toks.map (fun t => (t.start.pos, t.start.line, t.start.column))
    | _ => []) = [(0, 1, 0), (3, 1, 3), (8, 2, 2), (11, 2, 5), (12, 2, 6)] := by decide +kernel

/-- Letters that are not ASCII, in a comment and in a string: offsets count bytes, columns count characters. -/
example : Plain plainSeg "ld 1 ; été\n .byte \"ボタン\", 2".toList ∧
    (match lexInput plainSeg (Input.new 7 "ld 1 ; été\n .byte \"ボタン\", 2".toList) with
    | .ok toks => toks.map (fun t => (t.start.pos, t.start.line, t.start.column))
    | _ => []) = [(0, 1, 0), (3, 1, 3), (14, 2, 1), (20, 2, 7), (31, 2, 12), (33, 2, 14), (34, 2, 15)] :=
  ⟨plain_plainSeg _, by decide +kernel⟩

end Verif.Props
