import Verif.Lemmas.Located.Scan
/-
The lines read by `scanLine` are those with the shape of a line.
-/
namespace Verif.Located
open Verif.Spec Verif.Spec.Syntax

variable {α β : Type}

theorem ended_iff {ts : List Token} : Ended ts ↔ LineEnd (toks ts) := isEmpty_iff

theorem toks_cons {w : List Token} {k ks} (h : toks w = k :: ks) : ∃ t w', w = t :: w' ∧ t.tok = k ∧ toks w' = ks := by
  obtain ⟨t, w', e, h1, h2⟩ := List.map_eq_cons_iff.mp h
  exact ⟨t, w', e, h1, h2⟩

theorem toks_nil {w : List Token} (h : toks w = []) : w = [] := List.map_eq_nil_iff.mp h

theorem toks_append {w : List Token} {a b} (h : toks w = a ++ b) : ∃ w1 w2, w = w1 ++ w2 ∧ toks w1 = a ∧ toks w2 = b := by
  obtain ⟨w1, w2, e, h1, h2⟩ := List.map_eq_append_iff.mp h
  exact ⟨w1, w2, e, h1, h2⟩

/-- What is read without places is read with them, and the same tokens are left. -/
theorem read_complete {f : List Token → Res (α × List Token)} {F} {p : Toks → Verif.Res (β × Toks)} {k : α → β}
    (he : ∀ ts, (f ts).erase (parsed k) = p (toks ts)) {w r : List Token} (hs : SteadyAt f F (w ++ r)) {b}
    (hp : p (toks w ++ toks r) = .ok (b, toks r)) : ∃ a, f (w ++ r) = .ok (a, r) ∧ k a = b := by
  have h := he (w ++ r)
  rw [show toks (w ++ r) = toks w ++ toks r from List.map_append, hp] at h
  unfold SteadyAt at hs
  cases hf : f (w ++ r) with
  | ok y =>
    obtain ⟨a, r'⟩ := y
    rw [hf] at h hs
    injection h with h
    injection h with h1 h2
    obtain ⟨w', e, _⟩ := hs
    have hl : r'.length = r.length := by
      have := congrArg List.length h2
      simpa using this
    obtain ⟨_, rfl⟩ := List.append_inj' e hl.symm
    exact ⟨a, rfl, h1⟩
  | err _ => rw [hf] at h; cases h
  | panic => rw [hf] at h; cases h
  | loop => rw [hf] at h; cases h

theorem read_sound {f : List Token → Res (α × List Token)} {F} {p : Toks → Verif.Res (β × Toks)} {k : α → β}
    (he : ∀ ts, (f ts).erase (parsed k) = p (toks ts)) {ts a rest} (hs : SteadyAt f F ts) (hf : f ts = .ok (a, rest)) :
    p (toks ts) = .ok (k a, toks rest) ∧ ∃ w, ts = w ++ rest := by
  refine ⟨?_, ?_⟩
  · rw [← he, hf]; rfl
  · unfold SteadyAt at hs
    rw [hf] at hs
    obtain ⟨w, e, _⟩ := hs
    exact ⟨w, e⟩

theorem expr_read {ts e rest} (h : parseExpr ts = .ok (e, rest)) : ∃ w, ts = w ++ rest ∧ ExprSyntax (toks w) e.erase := by
  obtain ⟨h1, w, hw⟩ := read_sound erase_parseExpr (expr_steady ts) h
  obtain ⟨w', e', s, _⟩ := parseExpr_iff.mp h1
  rw [hw, show toks (w ++ rest) = toks w ++ toks rest from List.map_append] at e'
  have := List.append_cancel_right e'
  exact ⟨w, hw, this ▸ s⟩

theorem expr_scan {w r : List Token} {e} (h : ExprSyntax (toks w) e) (hr : Upto 0 r) : ∃ e', parseExpr (w ++ r) = .ok (e', r) := by
  have : Verif.parseExpr (toks w ++ toks r) = .ok (e, toks r) :=
    parseExpr_iff.mpr ⟨toks w, rfl, h, noOperator_iff.mpr (Nat.le_zero.mp hr)⟩
  obtain ⟨a, ha, _⟩ := read_complete erase_parseExpr (expr_steady _) this
  exact ⟨a, ha⟩

theorem list_read {item : List Token → Res (α × List Token)} (hi : Steady item (Upto 0)) {p : Toks → Verif.Res (β × Toks)}
    {k : α → β} (he : ∀ ts, (item ts).erase (parsed k) = p (toks ts)) {Syn} (hp : ItemReads p Syn) {ts as rest}
    (h : parseList item ts = .ok (as, rest)) : ∃ w, ts = w ++ rest ∧ OptListed Syn (toks w) (as.map k) ∧ Ended rest := by
  obtain ⟨h1, w, hw⟩ := read_sound (fun ts => erase_parseList he ts) (list_steady hi ts) h
  obtain ⟨w', e', s, l⟩ := list_sound hp h1
  rw [hw, show toks (w ++ rest) = toks w ++ toks rest from List.map_append] at e'
  have := List.append_cancel_right e'
  exact ⟨w, hw, this ▸ s, ended_iff.mpr l⟩

theorem list_scan {item : List Token → Res (α × List Token)} (hi : Steady item (Upto 0)) {p : Toks → Verif.Res (β × Toks)}
    {k : α → β} (he : ∀ ts, (item ts).erase (parsed k) = p (toks ts)) {Syn} (hp : ItemReads p Syn) {w r : List Token} {as}
    (h : OptListed Syn (toks w) as) (hr : Ended r) : ∃ as', parseList item (w ++ r) = .ok (as', r) ∧ as'.map k = as :=
  read_complete (fun ts => erase_parseList he ts) (list_steady hi _) (list_complete hp h (ended_iff.mp hr))

theorem unit_ok {f : List Token → Res (α × List Token)} {ts rest} (h : unit f ts = .ok ((), rest)) : ∃ a, f ts = .ok (a, rest) := by
  unfold unit at h
  cases hf : f ts with
  | ok y =>
    rw [hf] at h
    injection h with h
    injection h with _ h
    obtain ⟨a, r⟩ := y
    exact ⟨a, by rw [← h]⟩
  | err _ => rw [hf] at h; cases h
  | panic => rw [hf] at h; cases h
  | loop => rw [hf] at h; cases h

theorem unit_of {f : List Token → Res (α × List Token)} {ts a rest} (h : f ts = .ok (a, rest)) : unit f ts = .ok ((), rest) := by
  unfold unit; rw [h]; rfl

theorem bind_ok {x : Res α} {f : α → Res β} {b} (h : (x >>= f) = .ok b) : ∃ a, x = .ok a ∧ f a = .ok b := by
  cases x with
  | ok a => exact ⟨a, rfl, h⟩
  | err _ => cases h
  | panic => cases h
  | loop => cases h

theorem string_ok {ts a rest} (h : readString ts = .ok (a, rest)) : ∃ t, ts = t :: rest ∧ t.tok = .string a.2 := by
  cases ts with
  | nil => cases h
  | cons t ts =>
    obtain ⟨k, x, y⟩ := t
    cases k <;> first | (cases h; exact ⟨_, rfl, rfl⟩) | cases h

theorem number_ok {ts a rest} (h : readNumber ts = .ok (a, rest)) : ∃ t radix, ts = t :: rest ∧ t.tok = .number a.2 radix := by
  cases ts with
  | nil => cases h
  | cons t ts =>
    obtain ⟨k, x, y⟩ := t
    cases k <;> first | (cases h; exact ⟨_, _, rfl, rfl⟩) | cases h

theorem kind_ok {ts a rest} (h : readIncludeType ts = .ok (a, rest)) :
    ∃ t n, ts = t :: rest ∧ t.tok = .name n ∧ n ∈ ["asm", "bytes", "cpp"].map String.toList := by
  cases ts with
  | nil => cases h
  | cons t ts =>
    unfold readIncludeType at h
    dsimp only at h
    split at h
    · cases h; exact ⟨_, _, rfl, ‹_›, by simp⟩
    · split at h
      · cases h; exact ⟨_, _, rfl, ‹_›, by simp⟩
      · split at h
        · cases h; exact ⟨_, _, rfl, ‹_›, by simp⟩
        · cases h

theorem take_ok {k what ts u rest} (h : take k what ts = .ok (u, rest)) : ∃ t, ts = t :: rest ∧ t.tok = k := by
  cases ts with
  | nil => cases h
  | cons t ts =>
    rw [take_eq] at h
    split at h
    · cases h; exact ⟨t, rfl, ‹_›⟩
    · cases h

/-! ### What is read has the shape of a line -/

theorem image_shape {ts rest} (h : scanImage ts = .ok ((), rest)) :
    ∃ path w ps, ts = path :: (w ++ rest) ∧ (∃ s, path.tok = .string s) ∧ OptListed PropSyntax (toks w) ps := by
  obtain ⟨⟨s, r⟩, h1, h2⟩ := bind_ok h
  obtain ⟨t, e, ht⟩ := string_ok h1
  obtain ⟨ps, h3⟩ := unit_ok h2
  obtain ⟨w, e', hw, _⟩ := list_read steady_keyVal erase_parseKeyVal reads_prop h3
  dsimp only at e'
  exact ⟨t, w, _, by rw [e, e'], ⟨_, ht⟩, hw⟩

theorem typed_shape {ts rest} (h : scanTyped ts = .ok ((), rest)) :
    ∃ t path n s, ts = t :: path :: rest ∧ t.tok = .name n ∧ n ∈ ["asm", "bytes", "cpp"].map String.toList ∧
      path.tok = .string s := by
  obtain ⟨⟨s, r⟩, h1, h2⟩ := bind_ok h
  obtain ⟨t, n, e, ht, hn⟩ := kind_ok h1
  obtain ⟨ps, h3⟩ := unit_ok h2
  obtain ⟨path, e', hp⟩ := string_ok h3
  dsimp only at e'
  exact ⟨t, path, n, _, by rw [e, e'], ht, hn, hp⟩

theorem incl_shape {ts rest} (h : scanIncl ts = .ok ((), rest)) :
    ∃ w, ts = w ++ rest ∧ Shaped (.name ".include".toList :: toks w) := by
  have htyped : ∀ {ts}, scanTyped ts = .ok ((), rest) → ∃ w, ts = w ++ rest ∧ Shaped (.name ".include".toList :: toks w) := by
    intro ts h
    obtain ⟨t, path, n, s, e, ht, hn, hp⟩ := typed_shape h
    refine ⟨[t, path], by rw [e]; rfl, ?_⟩
    simp only [toks, List.map_cons, List.map_nil, ht, hp]
    exact .typed hn
  cases ts with
  | nil => exact htyped h
  | cons t ts =>
    unfold scanIncl at h
    dsimp only at h
    split at h
    next s hs =>
      cases h
      refine ⟨[t], rfl, ?_⟩
      simp only [toks, List.map_cons, List.map_nil, hs]
      exact .incl
    next n hn =>
      split at h
      next hk =>
        obtain ⟨path, w, ps, e, ⟨s, hs⟩, hw⟩ := image_shape h
        refine ⟨t :: path :: w, by rw [e]; rfl, ?_⟩
        simp only [toks, List.map_cons, hn, hs]
        exact .image (by rcases hk with rfl | rfl <;> simp) hw
      · exact htyped h
    · exact htyped h

theorem sized_shape {ts rest} (h : scanSized ts = .ok ((), rest)) :
    ∃ t u v radix s, ts = t :: u :: rest ∧ t.tok = .number v radix ∧ u.tok = .string s := by
  obtain ⟨⟨s, r⟩, h1, h2⟩ := bind_ok h
  obtain ⟨t, n, e, ht⟩ := number_ok h1
  obtain ⟨ps, h3⟩ := unit_ok h2
  obtain ⟨u, e', hu⟩ := string_ok h3
  dsimp only at e'
  exact ⟨t, u, _, n, _, by rw [e, e'], ht, hu⟩

theorem dir_shape {n : Text} {f} (hd : scanDir n = some f) {ts rest} (h : f ts = .ok ((), rest)) :
    ∃ w, ts = w ++ rest ∧ Shaped (.name n :: toks w) := by
  unfold scanDir at hd
  split at hd
  next hn =>
    cases hd
    obtain ⟨a, h⟩ := unit_ok h
    obtain ⟨w, e, hw, _⟩ := list_read steady_byte erase_parseByteValue reads_byte h
    exact ⟨w, e, hn ▸ .byte hw⟩
  split at hd
  next hn =>
    cases hd
    obtain ⟨a, h⟩ := unit_ok h
    obtain ⟨t, radix, e, ht⟩ := number_ok h
    refine ⟨[t], by rw [e]; rfl, ?_⟩
    simp only [toks, List.map_cons, List.map_nil, ht, hn]
    exact .org
  split at hd
  next hn =>
    cases hd
    obtain ⟨a, h⟩ := unit_ok h
    obtain ⟨w, e, hw, _⟩ := list_read steady_expr erase_parseExpr reads_expr h
    exact ⟨w, e, hn ▸ .word hw⟩
  split at hd
  next hn =>
    cases hd
    obtain ⟨t, u, v, radix, s, e, ht, hu⟩ := sized_shape h
    refine ⟨[t, u], by rw [e]; rfl, ?_⟩
    simp only [toks, List.map_cons, List.map_nil, ht, hu, hn]
    exact .text
  split at hd
  next hn =>
    cases hd
    obtain ⟨t, u, v, radix, s, e, ht, hu⟩ := sized_shape h
    refine ⟨[t, u], by rw [e]; rfl, ?_⟩
    simp only [toks, List.map_cons, List.map_nil, ht, hu, hn]
    exact .string
  split at hd
  next hn =>
    cases hd
    obtain ⟨w, e, hw⟩ := incl_shape h
    exact ⟨w, e, hn ▸ hw⟩
  split at hd
  next hn =>
    cases hd
    obtain ⟨⟨a, r⟩, h1, h⟩ := bind_ok h
    obtain ⟨⟨u, r2⟩, h2, h⟩ := bind_ok h
    obtain ⟨b, h3⟩ := unit_ok h
    obtain ⟨w, e, hw⟩ := expr_read h1
    obtain ⟨t, e2, ht⟩ := take_ok h2
    obtain ⟨w', e', hw'⟩ := expr_read h3
    dsimp only at e2 e'
    refine ⟨w ++ t :: w', by rw [e, e2, e']; simp, ?_⟩
    simp only [toks, List.map_append, List.map_cons, ht, hn]
    exact .cnop hw hw'
  cases hd

theorem scanDir_none {n : Text} : scanDir n = none ↔ n ∉ directives.map String.toList := by
  unfold scanDir directives
  simp only [List.map_cons, List.map_nil, List.mem_cons, List.not_mem_nil, or_false, not_or]
  constructor
  · intro h
    repeat' split at h
    all_goals first
      | cases h; done
      | exact ⟨‹_›, ‹_›, ‹_›, ‹_›, ‹_›, ‹_›, ‹_›⟩
  · rintro ⟨h1, h2, h3, h4, h5, h6, h7⟩
    rw [if_neg h1, if_neg h3, if_neg h2, if_neg h4, if_neg h5, if_neg h6, if_neg h7]

theorem other_shape {n : Text} (hn : n ∉ directives.map String.toList) {ts rest} (h : scanOther n ts = .ok ((), rest))
    (hr : Ended rest) : ∃ w, ts = w ++ rest ∧ Shaped (.name n :: toks w) := by
  have halone : Shaped [.name n] := by
    by_cases hd : Dotted n
    · exact .localLabel hd hn
    · exact .operation hd (.inl ⟨rfl, rfl⟩) (by simp)
  cases ts with
  | nil => cases h; exact ⟨[], rfl, halone⟩
  | cons t ts =>
    unfold scanOther at h
    dsimp only at h
    split at h
    next ht =>
      obtain ⟨a, h⟩ := unit_ok h
      obtain ⟨w, e, hw⟩ := expr_read h
      refine ⟨t :: w, by rw [e]; rfl, ?_⟩
      simp only [toks, List.map_cons, ht]
      exact .alias hn hw
    next h1 =>
      split at h
      next ht =>
        obtain ⟨a, h⟩ := unit_ok h
        obtain ⟨w, e, hw⟩ := expr_read h
        refine ⟨t :: w, by rw [e]; rfl, ?_⟩
        simp only [toks, List.map_cons, ht]
        exact .variable hn hw
      next h2 =>
        split at h
        · cases h
          exact ⟨[], rfl, halone⟩
        next hd =>
          obtain ⟨a, h⟩ := unit_ok h
          obtain ⟨w, e, hw, _⟩ := list_read steady_arg erase_parseArg reads_arg h
          refine ⟨w, e, .operation (fun hn => hd (isDotted_iff.mpr hn)) hw ?_⟩
          cases w with
          | nil => simp
          | cons u w =>
            rw [List.cons_append] at e
            injection e with e _
            subst e
            simpa using h1

theorem labelled_shape {ts rest} (h : scanLabelled ts = .ok ((), rest)) (hr : Ended rest) (n : Text) :
    ∃ w, ts = w ++ rest ∧ Shaped (.name n :: .colon :: toks w) := by
  cases ts with
  | nil => cases h; exact ⟨[], rfl, .label⟩
  | cons t ts =>
    unfold scanLabelled at h
    dsimp only at h
    split at h
    next m hm =>
      split at h
      · cases h; exact ⟨[], rfl, .label⟩
      next hd =>
        obtain ⟨a, h⟩ := unit_ok h
        obtain ⟨w, e, hw, _⟩ := list_read steady_arg erase_parseArg reads_arg h
        refine ⟨t :: w, by rw [e]; rfl, ?_⟩
        simp only [toks, List.map_cons, hm]
        exact .labelled (fun hn => hd (isDotted_iff.mpr hn)) hw
    · cases h; exact ⟨[], rfl, .label⟩

theorem named_shape {n : Text} {ts rest} (h : scanNamed n ts = .ok ((), rest)) (hr : Ended rest) :
    ∃ w, ts = w ++ rest ∧ Shaped (.name n :: toks w) := by
  unfold scanNamed at h
  cases hd : scanDir n with
  | some f => rw [hd] at h; exact dir_shape hd h
  | none => rw [hd] at h; exact other_shape (scanDir_none.mp hd) h hr

theorem line_shape {ts rest} (h : scanLine ts = .ok ((), rest)) (hr : Ended rest) : ∃ w, ts = w ++ rest ∧ Shaped (toks w) := by
  cases ts with
  | nil => cases h; exact ⟨[], rfl, .empty⟩
  | cons t ts =>
    unfold scanLine at h
    dsimp only at h
    split at h
    next n hn =>
      have hstep : ∀ ts, scanNamed n ts = .ok ((), rest) → ∃ w, t :: ts = w ++ rest ∧ Shaped (toks w) := by
        intro ts h
        obtain ⟨w, e, hw⟩ := named_shape h hr
        refine ⟨t :: w, by rw [e]; rfl, ?_⟩
        simp only [toks, List.map_cons, hn]
        exact hw
      cases ts with
      | nil => exact hstep [] h
      | cons c cs =>
        unfold scanName at h
        dsimp only at h
        split at h
        next hc =>
          obtain ⟨w, e, hw⟩ := labelled_shape h hr n
          refine ⟨t :: c :: w, by rw [e]; rfl, ?_⟩
          simp only [toks, List.map_cons, hn, hc]
          exact hw
        · exact hstep _ h
    · cases h; exact ⟨[], rfl, .empty⟩

/-! ### A line with the right shape is read -/

theorem optListed_head {w : List Tok} {as} (h : OptListed ArgSyntax w as) : w.head? ≠ some .colon ∧ w.head? ≠ some .equals := by
  rcases optListed_first h with rfl | ⟨t, w', rfl, h1, h2⟩
  · simp
  · simp [h1, h2]

theorem args_scan {w r : List Token} {as} (h : OptListed ArgSyntax (toks w) as) (hr : Ended r) :
    unit (parseList parseArg) (w ++ r) = .ok ((), r) := by
  obtain ⟨a, ha, _⟩ := list_scan steady_arg erase_parseArg reads_arg h hr
  exact unit_of ha

/-- The first token of what is left of a line -/
theorem ended_tok {r : List Token} (hr : Ended r) : r = [] ∨ ∃ t ts, r = t :: ts ∧ t.tok = .eof := by
  cases r with
  | nil => exact .inl rfl
  | cons t r => exact .inr ⟨t, r, rfl, (atEnd_cons t r).mp hr⟩

theorem scanName_named {n : Text} {ts : List Token} (h : (toks ts).head? ≠ some .colon) : scanName n ts = scanNamed n ts := by
  cases ts with
  | nil => rfl
  | cons c cs =>
    unfold scanName
    refine if_neg fun e => h ?_
    simp [e]

theorem head_not {w r : List Token} {k : Tok} (h : (toks w).head? ≠ some k) (hr : Ended r) (hk : k ≠ .eof) :
    (toks (w ++ r)).head? ≠ some k := by
  cases w with
  | nil =>
    rcases ended_tok hr with rfl | ⟨t, ts, rfl, ht⟩
    · simp
    · simp [ht, Ne.symm hk]
  | cons t w => simpa using h

theorem scanLine_name {t : Token} {n : Text} (h : t.tok = .name n) (ts : List Token) : scanLine (t :: ts) = scanName n ts := by
  unfold scanLine; dsimp only; rw [h]

theorem scanOther_args {n : Text} {ts : List Token} (hd : ¬ Dotted n) (h1 : (toks ts).head? ≠ some (.name "equ".toList))
    (h2 : (toks ts).head? ≠ some .equals) : scanOther n ts = unit (parseList parseArg) ts := by
  cases ts with
  | nil => rfl
  | cons t ts =>
    unfold scanOther
    dsimp only
    rw [if_neg (fun e => h1 (by simp [e])), if_neg (fun e => h2 (by simp [e])), if_neg fun e => hd (isDotted_iff.mp e)]

theorem sd_byte : scanDir ".byte".toList = some (unit (parseList parseByteValue)) := if_pos rfl
theorem sd_org : scanDir ".org".toList = some (unit readNumber) := by
  unfold scanDir; rw [if_neg (by decide), if_pos rfl]
theorem sd_word : scanDir ".word".toList = some (unit (parseList parseExpr)) := by
  unfold scanDir; rw [if_neg (by decide), if_neg (by decide), if_pos rfl]
theorem sd_text : scanDir ".text".toList = some scanSized := by
  unfold scanDir; rw [if_neg (by decide), if_neg (by decide), if_neg (by decide), if_pos rfl]
theorem sd_string : scanDir ".string".toList = some scanSized := by
  unfold scanDir; rw [if_neg (by decide), if_neg (by decide), if_neg (by decide), if_neg (by decide), if_pos rfl]
theorem sd_include : scanDir ".include".toList = some scanIncl := by
  unfold scanDir
  rw [if_neg (by decide), if_neg (by decide), if_neg (by decide), if_neg (by decide), if_neg (by decide), if_pos rfl]
theorem sd_cnop : scanDir ".cnop".toList = some scanCnop := by
  unfold scanDir
  rw [if_neg (by decide), if_neg (by decide), if_neg (by decide), if_neg (by decide), if_neg (by decide),
    if_neg (by decide), if_pos rfl]

theorem scanNamed_dir {n : Text} {f} (h : scanDir n = some f) (ts : List Token) : scanNamed n ts = f ts := by
  unfold scanNamed; rw [h]

theorem scanNamed_other {n : Text} (h : n ∉ directives.map String.toList) (ts : List Token) : scanNamed n ts = scanOther n ts := by
  unfold scanNamed; rw [scanDir_none.mpr h]

theorem not_directive {n : Text} (h : ¬ Dotted n) : n ∉ directives.map String.toList := fun hn => h (directive_dotted hn)

theorem string_tok {t : Token} {s} (h : t.tok = .string s) (ts : List Token) : readString (t :: ts) = .ok ((t.span, s), ts) := by
  unfold readString; dsimp only; rw [h]

theorem number_tok {t : Token} {v radix} (h : t.tok = .number v radix) (ts : List Token) :
    readNumber (t :: ts) = .ok ((t.span, v), ts) := by
  unfold readNumber; dsimp only; rw [h]

theorem byte_head {w : List Tok} {vs} (h : OptListed ByteSyntax w vs) : w.head? ≠ some .colon := by
  rcases h with ⟨rfl, _⟩ | h
  · simp
  · cases h with
    | one hi => obtain ⟨t, w', rfl, h1⟩ := byteSyntax_first hi; simpa using h1
    | cons hi _ => obtain ⟨t, w', rfl, h1⟩ := byteSyntax_first hi; simpa using h1

theorem expr_head {w : List Tok} {e} (h : ExprSyntax w e) : ∃ t w', w = t :: w' ∧ t ≠ .colon ∧ t ≠ .equals := by
  obtain ⟨t, w', e1, h1, _⟩ := argSyntax_first (argOf_syntax h)
  obtain ⟨_, _, e2, _, h2⟩ := argSyntax_first (argOf_syntax h)
  rw [e1] at e2
  injection e2 with e2 _
  exact ⟨t, w', e1, h1, e2 ▸ h2⟩

theorem exprs_head {w : List Tok} {vs} (h : OptListed ExprSyntax w vs) : w.head? ≠ some .colon := by
  rcases h with ⟨rfl, _⟩ | h
  · simp
  · cases h with
    | one hi => obtain ⟨t, w', rfl, h1, _⟩ := expr_head hi; simpa using h1
    | cons hi _ => obtain ⟨t, w', rfl, h1, _⟩ := expr_head hi; simpa using h1

theorem line_scan {l : List Tok} (h : Shaped l) : ∀ {w r : List Token}, toks w = l → Ended r → scanLine (w ++ r) = .ok ((), r) := by
  intro w r hw hr
  have hend : scanLine r = .ok ((), r) := by
    rcases ended_tok hr with rfl | ⟨t, ts, rfl, ht⟩
    · rfl
    · unfold scanLine; dsimp only; rw [ht]
  cases h with
  | empty => rw [toks_nil hw]; exact hend
  | label =>
    obtain ⟨t, w, rfl, ht, hw⟩ := toks_cons hw
    obtain ⟨c, w, rfl, hc, hw⟩ := toks_cons hw
    rw [toks_nil hw]
    show scanLine (t :: c :: r) = _
    rw [scanLine_name ht]
    unfold scanName
    dsimp only
    rw [if_pos hc]
    exact labelled_end hr
  | labelled hd ha =>
    obtain ⟨t, w, rfl, ht, hw⟩ := toks_cons hw
    obtain ⟨c, w, rfl, hc, hw⟩ := toks_cons hw
    obtain ⟨m, w, rfl, hm, hw⟩ := toks_cons hw
    show scanLine (t :: c :: m :: (w ++ r)) = _
    rw [scanLine_name ht]
    unfold scanName
    dsimp only
    rw [if_pos hc]
    unfold scanLabelled
    dsimp only
    rw [hm]
    dsimp only
    rw [if_neg fun e => hd (isDotted_iff.mp e)]
    rw [← hw] at ha
    exact args_scan ha hr
  | localLabel hd hn =>
    obtain ⟨t, w, rfl, ht, hw⟩ := toks_cons hw
    rw [toks_nil hw]
    show scanLine (t :: r) = _
    rw [scanLine_name ht, scanName_named (ts := r) (head_not (w := []) (by simp) hr (by decide)), scanNamed_other hn]
    exact other_end hr
  | operation hd ha he =>
    obtain ⟨t, w, rfl, ht, hw⟩ := toks_cons hw
    rw [← hw] at ha he
    show scanLine (t :: (w ++ r)) = _
    rw [scanLine_name ht, scanName_named (head_not (optListed_head ha).1 hr (by decide)),
      scanNamed_other (not_directive hd), scanOther_args hd (head_not he hr (by decide))
        (head_not (optListed_head ha).2 hr (by decide))]
    exact args_scan ha hr
  | alias hn hx =>
    obtain ⟨t, w, rfl, ht, hw⟩ := toks_cons hw
    obtain ⟨c, w, rfl, hc, hw⟩ := toks_cons hw
    rw [← hw] at hx
    show scanLine (t :: c :: (w ++ r)) = _
    rw [scanLine_name ht, scanName_named (by simp [hc]), scanNamed_other hn]
    unfold scanOther
    dsimp only
    rw [if_pos hc]
    obtain ⟨e, he⟩ := expr_scan hx (ended_upto hr)
    exact unit_of he
  | «variable» hn hx =>
    obtain ⟨t, w, rfl, ht, hw⟩ := toks_cons hw
    obtain ⟨c, w, rfl, hc, hw⟩ := toks_cons hw
    rw [← hw] at hx
    show scanLine (t :: c :: (w ++ r)) = _
    rw [scanLine_name ht, scanName_named (by simp [hc]), scanNamed_other hn]
    unfold scanOther
    dsimp only
    rw [if_neg (by rw [hc]; decide), if_pos hc]
    obtain ⟨e, he⟩ := expr_scan hx (ended_upto hr)
    exact unit_of he
  | byte hb =>
    obtain ⟨t, w, rfl, ht, hw⟩ := toks_cons hw
    rw [← hw] at hb
    show scanLine (t :: (w ++ r)) = _
    rw [scanLine_name ht, scanName_named (head_not (byte_head hb) hr (by decide)), scanNamed_dir sd_byte]
    obtain ⟨a, ha, _⟩ := list_scan steady_byte erase_parseByteValue reads_byte hb hr
    exact unit_of ha
  | word hb =>
    obtain ⟨t, w, rfl, ht, hw⟩ := toks_cons hw
    rw [← hw] at hb
    show scanLine (t :: (w ++ r)) = _
    rw [scanLine_name ht, scanName_named (head_not (exprs_head hb) hr (by decide)), scanNamed_dir sd_word]
    obtain ⟨a, ha, _⟩ := list_scan steady_expr erase_parseExpr reads_expr hb hr
    exact unit_of ha
  | org =>
    obtain ⟨t, w, rfl, ht, hw⟩ := toks_cons hw
    obtain ⟨c, w, rfl, hc, hw⟩ := toks_cons hw
    rw [toks_nil hw]
    show scanLine (t :: c :: r) = _
    rw [scanLine_name ht, scanName_named (by simp [hc]), scanNamed_dir sd_org]
    exact unit_of (number_tok hc r)
  | text =>
    obtain ⟨t, w, rfl, ht, hw⟩ := toks_cons hw
    obtain ⟨c, w, rfl, hc, hw⟩ := toks_cons hw
    obtain ⟨d, w, rfl, hd, hw⟩ := toks_cons hw
    rw [toks_nil hw]
    show scanLine (t :: c :: d :: r) = _
    rw [scanLine_name ht, scanName_named (by simp [hc]), scanNamed_dir sd_text]
    unfold scanSized
    rw [number_tok hc]
    exact unit_of (string_tok hd r)
  | string =>
    obtain ⟨t, w, rfl, ht, hw⟩ := toks_cons hw
    obtain ⟨c, w, rfl, hc, hw⟩ := toks_cons hw
    obtain ⟨d, w, rfl, hd, hw⟩ := toks_cons hw
    rw [toks_nil hw]
    show scanLine (t :: c :: d :: r) = _
    rw [scanLine_name ht, scanName_named (by simp [hc]), scanNamed_dir sd_string]
    unfold scanSized
    rw [number_tok hc]
    exact unit_of (string_tok hd r)
  | cnop ha hb =>
    obtain ⟨t, w, rfl, ht, hw⟩ := toks_cons hw
    obtain ⟨w1, w2, rfl, h1, hw⟩ := toks_append hw
    obtain ⟨c, w2, rfl, hc, hw⟩ := toks_cons hw
    rw [← h1] at ha
    rw [← hw] at hb
    rw [show (t :: (w1 ++ c :: w2)) ++ r = t :: (w1 ++ c :: (w2 ++ r)) by simp]
    have hh : (toks (w1 ++ c :: (w2 ++ r))).head? ≠ some .colon := by
      obtain ⟨u, w', hu, hne, _⟩ := expr_head ha
      obtain ⟨x, w'', rfl, hx, _⟩ := toks_cons hu
      simpa [hx] using hne
    rw [scanLine_name ht, scanName_named hh, scanNamed_dir sd_cnop]
    unfold scanCnop
    obtain ⟨a, ha⟩ := expr_scan (r := c :: (w2 ++ r)) ha (by show infixPrec c.tok ≤ 0; rw [hc]; exact Nat.le_refl 0)
    obtain ⟨b, hb⟩ := expr_scan hb (ended_upto hr)
    rw [ha]
    show (take .comma commaName (c :: (w2 ++ r)) >>= fun y => unit parseExpr y.2) = _
    rw [take_eq, if_pos hc]
    exact unit_of hb
  | incl =>
    obtain ⟨t, w, rfl, ht, hw⟩ := toks_cons hw
    obtain ⟨c, w, rfl, hc, hw⟩ := toks_cons hw
    rw [toks_nil hw]
    show scanLine (t :: c :: r) = _
    rw [scanLine_name ht, scanName_named (by simp [hc]), scanNamed_dir sd_include]
    unfold scanIncl
    dsimp only
    rw [hc]
  | typed hk =>
    obtain ⟨t, w, rfl, ht, hw⟩ := toks_cons hw
    obtain ⟨c, w, rfl, hc, hw⟩ := toks_cons hw
    obtain ⟨d, w, rfl, hd, hw⟩ := toks_cons hw
    rw [toks_nil hw]
    show scanLine (t :: c :: d :: r) = _
    rw [scanLine_name ht, scanName_named (by simp [hc]), scanNamed_dir sd_include, incl_typed]
    · unfold scanTyped
      obtain ⟨k, hk⟩ := kind_tok hc hk (d :: r)
      rw [hk]
      exact unit_of (string_tok hd r)
    · intro s e; rw [hc] at e; cases e
    · intro n e hn
      rw [hc] at e
      injection e with e
      subst e
      rcases hn with rfl | rfl <;> exact absurd hk (by decide)
  | image hk hp =>
    obtain ⟨t, w, rfl, ht, hw⟩ := toks_cons hw
    obtain ⟨c, w, rfl, hc, hw⟩ := toks_cons hw
    obtain ⟨d, w, rfl, hd, hw⟩ := toks_cons hw
    rw [← hw] at hp
    show scanLine (t :: c :: d :: (w ++ r)) = _
    rw [scanLine_name ht, scanName_named (by simp [hc]), scanNamed_dir sd_include]
    unfold scanIncl
    dsimp only
    rw [hc]
    dsimp only
    rw [if_pos (by simpa using hk)]
    unfold scanImage
    rw [string_tok hd]
    obtain ⟨a, ha, _⟩ := list_scan steady_keyVal erase_parseKeyVal reads_prop hp hr
    exact unit_of ha

end Verif.Located
