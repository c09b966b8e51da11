import Verif.Lemmas.LexToken
/-
The lexer finds exactly the specified tokens.
-/
namespace Verif
open Spec

theorem ident_last {w : Text} (h : Ident w) : ∃ w' c, w = w' ++ [c] ∧ identChar c := by
  obtain ⟨c, cs, rfl, hc, hcs⟩ := h
  rcases List.eq_nil_or_concat cs with rfl | ⟨cs', d, rfl⟩
  · exact ⟨[], c, rfl, .inl hc⟩
  · exact ⟨c :: cs', d, by simp, hcs d (by simp)⟩

theorem digits_last {base acc : Nat} {w : Text} {v : Nat} (h : Digits base acc w v) :
    w = [] ∨ ∃ w' c d, w = w' ++ [c] ∧ digit c d := by
  induction h with
  | nil => exact .inl rfl
  | @digit acc c d w v hd _ _ ih =>
    rcases ih with rfl | ⟨w', c', d', rfl, hd'⟩
    · exact .inr ⟨[], c, d, rfl, hd⟩
    · exact .inr ⟨c :: w', c', d', rfl, hd'⟩
  | @quote acc c d w v hd _ _ ih =>
    rcases ih with rfl | ⟨w', c', d', rfl, hd'⟩
    · exact .inr ⟨['\''], c, d, rfl, hd⟩
    · exact .inr ⟨'\'' :: c :: w', c', d', rfl, hd'⟩

theorem numeral_last {base : Nat} {w : Text} {v : Nat} (h : Numeral base w v) :
    ∃ w' c d, w = w' ++ [c] ∧ digit c d := by
  rcases digits_last h.1 with rfl | h'
  · obtain ⟨_, c, d, hc, _⟩ := h
    cases hc
  · exact h'

theorem digit_not_cr {c : Char} {d : Nat} (h : digit c d) : c ≠ '\r' := by
  rintro rfl
  have := digitValue_iff.mpr h
  revert this
  simp [show digitValue '\r' = none from by decide]

/-- A token is not empty and does not end with a carriage return. -/
theorem spells_last {w rest : Text} {k : Tok} (h : Spells w rest k) : ∃ w' c, w = w' ++ [c] ∧ c ≠ '\r' := by
  cases h with
  | symbol hm _ =>
    have hall : ∀ p ∈ symbols, p.1 ≠ [] ∧ p.1.getLast? ≠ some '\r' := by decide
    obtain ⟨h1, h2⟩ := hall _ hm
    rcases List.eq_nil_or_concat w with rfl | ⟨w', c, rfl⟩
    · exact absurd rfl h1
    · exact ⟨w', c, by simp, by simpa using h2⟩
  | name hi _ =>
    obtain ⟨w', c, rfl, hc⟩ := ident_last hi
    refine ⟨w', c, rfl, ?_⟩
    rintro rfl
    have := isIdentChar_iff.mpr hc
    revert this
    decide
  | macroLabel hi => exact ⟨_, '%', rfl, by decide⟩
  | macroIdent hi _ =>
    obtain ⟨w', c, rfl, hc⟩ := ident_last hi
    refine ⟨'%' :: w', c, rfl, ?_⟩
    rintro rfl
    have := isIdentChar_iff.mpr hc
    revert this
    decide
  | string hq => exact ⟨_, '"', rfl, by decide⟩
  | number hn _ =>
    obtain ⟨p, base, ds, _, rfl, hn, _⟩ := hn
    obtain ⟨w', c, d, rfl, hd⟩ := numeral_last hn
    exact ⟨p ++ w', c, by rw [List.append_assoc], digit_not_cr hd⟩

theorem spells_not_eof {w rest : Text} {k : Tok} (h : Spells w rest k) : k ≠ .eof := by
  cases h with
  | symbol hm _ =>
    have hall : ∀ p ∈ symbols, p.2 ≠ .eof := by decide
    exact hall _ hm
  | _ => intro e; cases e

theorem spells_unique {w rest w' rest' : Text} {k k' : Tok} (h : Spells w rest k) (h' : Spells w' rest' k')
    (he : w ++ rest = w' ++ rest') : w = w' ∧ rest = rest' ∧ k = k' := by
  have h1 := matchToken_complete h
  have h2 := matchToken_complete h'
  rw [he, h2] at h1
  simp only [Option.some.injEq, Prod.mk.injEq, Res.ok.injEq] at h1
  obtain ⟨rfl, rfl⟩ := h1
  exact ⟨rfl, List.append_cancel_left he, rfl⟩

/-- One step of the lexer, after skipping `g`. -/
theorem lexLoop_step_of {seg : Seg} {skip : Input → Res Input} {file : Nat} {before g rest : Text} {fuel : Nat}
    (hp : Plain seg (g ++ rest))
    (hskip : skip (inputAt file before (g ++ rest)) = .ok (inputAt file (before ++ g) rest)) :
    lexLoop seg skip (fuel + 1) (inputAt file before (g ++ rest)) =
      if rest = [] then .ok [⟨.eof, placeIn file before, placeIn file before⟩]
      else (match matchToken rest with
        | none => .err (.unexpectedChar (placeIn file before).pos (placeIn file before).line (placeIn file before).column)
        | some (w, conv) => conv >>= fun k =>
          lexLoop seg skip fuel (inputAt file (before ++ g ++ w) (rest.drop w.length)) >>= fun toks =>
          .ok (⟨k, placeIn file (before ++ g), placeIn file (before ++ g ++ w)⟩ :: toks)) := by
  have hread : readToken seg skip (inputAt file before (g ++ rest)) =
      if rest = [] then .ok (some (inputAt file (before ++ g) rest, ⟨.eof, placeIn file (before ++ g), placeIn file (before ++ g)⟩))
      else (match matchToken rest with
        | none => .ok none
        | some (w, conv) => conv >>= fun k => .ok (some ((inputAt file (before ++ g) rest).update seg (byteLen w),
            ⟨k, placeIn file (before ++ g), ((inputAt file (before ++ g) rest).update seg (byteLen w)).location⟩))) := by
    unfold readToken
    rw [hskip, Res.ok_bind]
    cases rest with
    | nil => rfl
    | cons c cs =>
      rw [if_neg (by simp)]
      rfl
  rw [lexLoop, hread]
  cases rest with
  | nil => rfl
  | cons c cs =>
    rw [if_neg (by simp), if_neg (by simp)]
    cases hm : matchToken (c :: cs) with
    | none => rfl
    | some x =>
      obtain ⟨w, conv⟩ := x
      obtain ⟨rest', ht, hr⟩ := matchToken_sound hm
      rcases hr with ⟨k, rfl, hk⟩ | ⟨_, _, rfl, _⟩
      · have hu : (inputAt file (before ++ g) (c :: cs)).update seg (byteLen w) =
            inputAt file (before ++ g ++ w) rest' := by
          rw [ht]
          obtain ⟨w', d, rfl, hd⟩ := spells_last hk
          apply update_plain
          · rw [← ht]; exact hp.suffix
          · simp [hd]
        simp only [Res.ok_bind, hu]
        rw [if_neg (spells_not_eof hk), ht, List.drop_left]
        rfl
      · rfl

/-- One step of the lexer. -/
theorem lexLoop_step {seg : Seg} {file : Nat} {before g rest : Text} {fuel : Nat}
    (hp : Plain seg (g ++ rest)) (hg : Gap before g rest) :
    lexLoop seg (asmSkip seg) (fuel + 1) (inputAt file before (g ++ rest)) =
      if rest = [] then .ok [⟨.eof, placeIn file before, placeIn file before⟩]
      else (match matchToken rest with
        | none => .err (.unexpectedChar (placeIn file before).pos (placeIn file before).line (placeIn file before).column)
        | some (w, conv) => conv >>= fun k =>
          lexLoop seg (asmSkip seg) fuel (inputAt file (before ++ g ++ w) (rest.drop w.length)) >>= fun toks =>
          .ok (⟨k, placeIn file (before ++ g), placeIn file (before ++ g ++ w)⟩ :: toks)) :=
  lexLoop_step_of hp (by rw [asmSkip, skipBlank_gap (seg := seg) file hp hg])

theorem gap_exists (before text : Text) : ∃ g rest, text = g ++ rest ∧ Gap before g rest := by
  obtain ⟨g, rest, h1, h2, _⟩ := skipBlank_plain (seg := plainSeg) 0 before text (plain_plainSeg text)
  exact ⟨g, rest, h1, h2⟩

/-- What the lexer does with a plain text. -/
def Outcome (file : Nat) (before text : Text) : Res (List Token) → Prop
  | .ok toks => LexesTo file before text toks
  | .err e => ∃ ks b t, LexReaches before text ks b t ∧ NoToken b t ∧
      e = .unexpectedChar (placeIn file b).pos (placeIn file b).line (placeIn file b).column
  | .panic => ∃ ks b t, LexReaches before text ks b t ∧ TooBig b t
  | .loop => False

theorem lexLoop_outcome {seg : Seg} {file : Nat} : ∀ (fuel : Nat) (before text : Text), text.length < fuel →
    Plain seg text → Outcome file before text (lexLoop seg (asmSkip seg) fuel (inputAt file before text)) := by
  intro fuel
  induction fuel with
  | zero => intro _ text h; exact absurd h (Nat.not_lt_zero _)
  | succ fuel ih =>
    intro before text hlen hp
    obtain ⟨g, rest, rfl, hg⟩ := gap_exists before text
    rw [lexLoop_step hp hg]
    split
    · rename_i hr
      subst hr
      rw [List.append_nil]
      exact .done hg
    · rename_i hr
      cases hm : matchToken rest with
      | none =>
        refine ⟨[], before, _, .here, ⟨g, rest, rfl, hg, hr, ?_⟩, rfl⟩
        rintro w rest' rfl
        constructor
        · intro k hk
          rw [matchToken_complete hk] at hm
          cases hm
        · intro v radix hn
          rw [matchToken_number hn] at hm
          cases hm
      | some x =>
        obtain ⟨w, conv⟩ := x
        obtain ⟨rest', rfl, hr'⟩ := matchToken_sound hm
        rcases hr' with ⟨k, rfl, hk⟩ | ⟨v, radix, rfl, hn, hv⟩
        · simp only [Res.ok_bind, List.drop_left]
          have hw : w ≠ [] := by
            obtain ⟨w', c, rfl, _⟩ := spells_last hk
            simp
          have hl := List.length_pos_iff.mpr hw
          have := ih (before ++ g ++ w) rest' (by simp only [List.length_append] at hlen; omega)
            ((hp.suffix).suffix)
          rw [← List.append_assoc]
          cases hx : lexLoop seg (asmSkip seg) fuel (inputAt file (before ++ g ++ w) rest') with
          | ok toks =>
            rw [hx] at this
            exact .token hg hk this
          | err e =>
            rw [hx] at this
            obtain ⟨ks, b, t, h1, h2⟩ := this
            exact ⟨_, b, t, .token hg hk h1, h2⟩
          | panic =>
            rw [hx] at this
            obtain ⟨ks, b, t, h1, h2⟩ := this
            exact ⟨_, b, t, .token hg hk h1, h2⟩
          | loop =>
            rw [hx] at this
            exact this
        · exact ⟨[], before, _, .here, g, w, rest', v, radix, (List.append_assoc _ _ _).symm, hg, hn, hv⟩

theorem lexesTo_complete {seg : Seg} {file : Nat} {before text : Text} {toks : List Token}
    (h : LexesTo file before text toks) (hp : Plain seg text) : ∀ fuel, text.length < fuel →
    lexLoop seg (asmSkip seg) fuel (inputAt file before text) = .ok toks := by
  induction h with
  | @done before g hg =>
    intro fuel hf
    obtain ⟨fuel, rfl⟩ : ∃ n, fuel = n + 1 := ⟨fuel - 1, by omega⟩
    have := lexLoop_step (seg := seg) (file := file) (fuel := fuel) (before := before) (g := g) (rest := [])
      (by rwa [List.append_nil]) hg
    rw [List.append_nil] at this
    rw [this, if_pos rfl]
  | @token before g w rest k toks hg hk _ ih =>
    intro fuel hf
    obtain ⟨fuel, rfl⟩ : ∃ n, fuel = n + 1 := ⟨fuel - 1, by omega⟩
    have hw : w ≠ [] := by
      obtain ⟨w', c, rfl, _⟩ := spells_last hk
      simp
    have hl := List.length_pos_iff.mpr hw
    rw [List.append_assoc] at hp ⊢
    rw [lexLoop_step hp hg, if_neg (by simp [hw]), matchToken_complete hk]
    simp only [Res.ok_bind, List.drop_left]
    rw [ih hp.suffix.suffix fuel (by simp only [List.length_append] at hf; omega)]
    rfl

theorem reaches_length {b t b' t' : Text} {ks : List Tok} (h : LexReaches b t ks b' t') : b'.length + t'.length = b.length + t.length ∧
    t'.length ≤ t.length ∧ b ++ t = b' ++ t' := by
  induction h with
  | here => exact ⟨rfl, Nat.le_refl _, rfl⟩
  | token _ _ _ ih =>
    obtain ⟨h1, h2, h3⟩ := ih
    simp only [List.length_append] at *
    refine ⟨by omega, by omega, ?_⟩
    rw [← h3]; simp

/-- From a place that cannot be passed, the lexer gives the same outcome as from where it started. -/
theorem reaches_stops {seg : Seg} {file : Nat} {before text b t : Text} {ks : List Tok} (h : LexReaches before text ks b t)
    (hp : Plain seg text) {r : Res (List Token)} (hr : ∀ toks, r ≠ .ok toks)
    (hstop : ∀ fuel, t.length < fuel → lexLoop seg (asmSkip seg) fuel (inputAt file b t) = r) :
    ∀ fuel, text.length < fuel → lexLoop seg (asmSkip seg) fuel (inputAt file before text) = r := by
  induction h with
  | here => exact hstop
  | @token before g w rest k ks b t hg hk _ ih =>
    intro fuel hf
    obtain ⟨fuel, rfl⟩ : ∃ n, fuel = n + 1 := ⟨fuel - 1, by omega⟩
    have hw : w ≠ [] := by
      obtain ⟨w', c, rfl, _⟩ := spells_last hk
      simp
    have hl := List.length_pos_iff.mpr hw
    rw [List.append_assoc] at hp ⊢
    rw [lexLoop_step hp hg, if_neg (by simp [hw]), matchToken_complete hk]
    simp only [Res.ok_bind, List.drop_left]
    rw [ih hp.suffix.suffix hstop fuel (by simp only [List.length_append] at hf; omega)]
    cases r with
    | ok toks => exact absurd rfl (hr toks)
    | err e => rfl
    | panic => rfl
    | loop => rfl

theorem tooBig_panics {seg : Seg} {file : Nat} {b t : Text} (h : TooBig b t) (hp : Plain seg t) :
    ∀ fuel, t.length < fuel → lexLoop seg (asmSkip seg) fuel (inputAt file b t) = .panic := by
  obtain ⟨g, w, rest, v, radix, rfl, hg, hn, hv⟩ := h
  intro fuel hf
  obtain ⟨fuel, rfl⟩ : ∃ n, fuel = n + 1 := ⟨fuel - 1, by omega⟩
  have hw : w ++ rest ≠ [] := by
    obtain ⟨p, base, ds, _, rfl, hn, _⟩ := hn
    obtain ⟨w', c, d, rfl, hd⟩ := numeral_last hn
    simp
  rw [List.append_assoc] at hp ⊢
  rw [lexLoop_step hp hg, if_neg hw, matchToken_number hn, if_neg (by omega)]
  rfl

theorem noToken_errs {seg : Seg} {file : Nat} {b t : Text} (h : NoToken b t) (hp : Plain seg t) :
    ∀ fuel, t.length < fuel → lexLoop seg (asmSkip seg) fuel (inputAt file b t) =
      .err (.unexpectedChar (placeIn file b).pos (placeIn file b).line (placeIn file b).column) := by
  obtain ⟨g, rest, rfl, hg, hr, hno⟩ := h
  intro fuel hf
  obtain ⟨fuel, rfl⟩ : ∃ n, fuel = n + 1 := ⟨fuel - 1, by omega⟩
  rw [lexLoop_step hp hg, if_neg hr]
  cases hm : matchToken rest with
  | none => rfl
  | some x =>
    obtain ⟨w, conv⟩ := x
    obtain ⟨rest', rfl, hr'⟩ := matchToken_sound hm
    obtain ⟨h1, h2⟩ := hno w rest' rfl
    rcases hr' with ⟨k, rfl, hk⟩ | ⟨v, radix, rfl, hn, hv⟩
    · exact absurd hk (h1 k)
    · exact absurd hn (h2 v radix)

theorem input_new (file : Nat) (text : Text) : Input.new file text = inputAt file [] text := rfl

theorem lexInput_ok_iff {seg : Seg} {file : Nat} {text : Text} (hp : Plain seg text) {toks : List Token} :
    lexInput seg (Input.new file text) = .ok toks ↔ LexesTo file [] text toks := by
  unfold lexInput lexForWs
  rw [input_new]
  constructor
  · intro h
    have := lexLoop_outcome (file := file) (text.length + 2) [] text (by omega) hp
    rw [show (inputAt file [] text).rest = text from rfl] at h
    rw [h] at this
    exact this
  · intro h
    exact lexesTo_complete h hp _ (by show text.length < text.length + 2; omega)

theorem lexInput_panic_iff {seg : Seg} {file : Nat} {text : Text} (hp : Plain seg text) :
    lexInput seg (Input.new file text) = .panic ↔ ∃ ks b t, LexReaches [] text ks b t ∧ TooBig b t := by
  unfold lexInput lexForWs
  rw [input_new]
  constructor
  · intro h
    have := lexLoop_outcome (file := file) (text.length + 2) [] text (by omega) hp
    rw [show (inputAt file [] text).rest = text from rfl] at h
    rw [h] at this
    exact this
  · rintro ⟨ks, b, t, h1, h2⟩
    have hpt : Plain seg t := by
      have := (reaches_length h1).2.2
      rw [List.nil_append] at this
      rw [this] at hp
      exact hp.suffix
    exact reaches_stops (r := .panic) h1 hp (fun _ e => nomatch e) (tooBig_panics h2 hpt) _ (by show text.length < text.length + 2; omega)

theorem lexInput_err_iff {seg : Seg} {file : Nat} {text : Text} (hp : Plain seg text) {e : Err} :
    lexInput seg (Input.new file text) = .err e ↔ ∃ ks b t, LexReaches [] text ks b t ∧ NoToken b t ∧
      e = .unexpectedChar (placeIn file b).pos (placeIn file b).line (placeIn file b).column := by
  unfold lexInput lexForWs
  rw [input_new]
  constructor
  · intro h
    have := lexLoop_outcome (file := file) (text.length + 2) [] text (by omega) hp
    rw [show (inputAt file [] text).rest = text from rfl] at h
    rw [h] at this
    exact this
  · rintro ⟨ks, b, t, h1, h2, rfl⟩
    have hpt : Plain seg t := by
      have := (reaches_length h1).2.2
      rw [List.nil_append] at this
      rw [this] at hp
      exact hp.suffix
    exact reaches_stops (r := .err _) h1 hp (fun _ e => nomatch e) (noToken_errs h2 hpt) _ (by show text.length < text.length + 2; omega)

theorem lexInput_not_loop {seg : Seg} {file : Nat} {text : Text} (hp : Plain seg text) :
    lexInput seg (Input.new file text) ≠ .loop := by
  unfold lexInput lexForWs
  rw [input_new]
  intro h
  have := lexLoop_outcome (file := file) (text.length + 2) [] text (by omega) hp
  rw [show (inputAt file [] text).rest = text from rfl] at h
  rw [h] at this
  exact this

theorem lexesTo_unique {file : Nat} {text : Text} {t1 t2 : List Token} (h1 : LexesTo file [] text t1)
    (h2 : LexesTo file [] text t2) : t1 = t2 := by
  have e1 := (lexInput_ok_iff (plain_plainSeg text)).mpr h1
  have e2 := (lexInput_ok_iff (plain_plainSeg text)).mpr h2
  rw [e1] at e2
  exact Res.ok.inj e2

end Verif
