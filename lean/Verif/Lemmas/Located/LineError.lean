import Verif.Lemmas.Located.ScanShape
import Verif.Lemmas.Located.ExprPlace
import Verif.Lemmas.StringText
/-
What is wrong with a line that is not parsed.
-/
namespace Verif.Located
open Verif.Spec Verif.Spec.Syntax

variable {α β : Type}

/-! ### Lists with their tokens -/

/-- The tokens are these items with commas between them. -/
inductive ListAt (Q : List Token → α → Prop) : List Token → List α → Prop where
  | one {w a} : Q w a → ListAt Q w [a]
  | cons {w a c w' as} : Q w a → c.tok = .comma → ListAt Q w' as → ListAt Q (w ++ c :: w') (a :: as)

theorem rest_listAt {item : List Token → Res (α × List Token)} (hi : Steady item (Upto 0)) {Q : List Token → α → Prop}
    (hq : ∀ ts a rest, item ts = .ok (a, rest) → ∃ w, ts = w ++ rest ∧ Q w a) (n : Nat) :
    ∀ ts as rest, ts.length ≤ n → readRest item ts = .ok (as, rest) →
      Ended rest ∧ ((ts = rest ∧ as = []) ∨ ∃ c w, c.tok = .comma ∧ ts = c :: (w ++ rest) ∧ ListAt Q w as) := by
  induction n with
  | zero =>
    intro ts as rest hn h
    cases ts with
    | nil => rw [readRest_end ended_nil] at h; cases h; exact ⟨ended_nil, .inl ⟨rfl, rfl⟩⟩
    | cons t ts => simp at hn
  | succ n ih =>
    intro ts as rest hn h
    by_cases he : Ended ts
    · rw [readRest_end he] at h; cases h; exact ⟨he, .inl ⟨rfl, rfl⟩⟩
    · rw [readRest_eq hi he] at h
      obtain ⟨⟨u, r1⟩, h1, h⟩ := bind_ok h
      obtain ⟨⟨a, r2⟩, h2, h⟩ := bind_ok h
      obtain ⟨⟨as', r3⟩, h3, h⟩ := bind_ok h
      dsimp only at h2 h3 h
      cases h
      obtain ⟨c, e1, hc⟩ := take_ok h1
      obtain ⟨w, e2, hw⟩ := hq _ _ _ h2
      have hl := hi.less _ _ _ h2
      obtain ⟨hr, ⟨e3, e4⟩ | ⟨d, w', hd, e3, hw'⟩⟩ := ih r2 as' rest (by rw [e1] at hn; simp at hn; omega) h3
      · subst e3 e4
        exact ⟨hr, .inr ⟨c, w, hc, by rw [e1, e2], .one hw⟩⟩
      · exact ⟨hr, .inr ⟨c, w ++ d :: w', hc, by rw [e1, e2, e3]; simp, .cons hw hd hw'⟩⟩

theorem list_listAt {item : List Token → Res (α × List Token)} (hi : Steady item (Upto 0)) {Q : List Token → α → Prop}
    (hq : ∀ ts a rest, item ts = .ok (a, rest) → ∃ w, ts = w ++ rest ∧ Q w a) {ts as rest}
    (h : parseList item ts = .ok (as, rest)) :
    Ended rest ∧ ∃ w, ts = w ++ rest ∧ ((w = [] ∧ as = []) ∨ ListAt Q w as) := by
  by_cases he : Ended ts
  · rw [list_end he] at h; cases h; exact ⟨he, [], rfl, .inl ⟨rfl, rfl⟩⟩
  · rw [list_items he] at h
    obtain ⟨⟨a, r1⟩, h1, h⟩ := bind_ok h
    obtain ⟨⟨as', r2⟩, h2, h⟩ := bind_ok h
    dsimp only at h2 h
    cases h
    obtain ⟨w, e1, hw⟩ := hq _ _ _ h1
    obtain ⟨hr, ⟨e2, e3⟩ | ⟨c, w', hc, e2, hw'⟩⟩ := rest_listAt hi hq _ _ _ _ (Nat.le_refl _) h2
    · subst e2 e3
      exact ⟨hr, w, e1, .inr (.one hw)⟩
    · exact ⟨hr, w ++ c :: w', by rw [e1, e2]; simp, .inr (.cons hw hc hw')⟩

theorem ListAt.mem {Q : List Token → α → Prop} {w as} (h : ListAt Q w as) {a} (ha : a ∈ as) :
    ∃ w', (∀ t ∈ w', t ∈ w) ∧ Q w' a := by
  induction h with
  | one hw => rw [List.mem_singleton] at ha; subst ha; exact ⟨_, fun t h => h, hw⟩
  | cons hw _ _ ih =>
    rcases List.mem_cons.mp ha with rfl | ha
    · exact ⟨_, fun t h => List.mem_append_left _ h, hw⟩
    · obtain ⟨w', h1, h2⟩ := ih ha
      exact ⟨w', fun t h => List.mem_append_right _ (List.mem_cons_of_mem _ (h1 t h)), h2⟩

theorem ListAt.last {Q : List Token → α → Prop} {w as} (h : ListAt Q w as) :
    ∃ w1 w2 a, w = w1 ++ w2 ∧ as.getLast? = some a ∧ Q w2 a := by
  induction h with
  | one hw => exact ⟨[], _, _, rfl, rfl, hw⟩
  | @cons w a c w' as hw _ h ih =>
    obtain ⟨w1, w2, b, rfl, h1, h2⟩ := ih
    refine ⟨w ++ c :: w1, w2, b, by simp, ?_, h2⟩
    cases as with
    | nil => cases h1
    | cons a' as => rw [List.getLast?_cons_cons]; exact h1

/-! ### Lines that are stuck -/

theorem words_map_bare (l : List Tok) : words (l.map bare) = l := by
  induction l with
  | nil => rfl
  | cons t l ih => show t :: words (l.map bare) = _; rw [ih]

theorem stuck_of {f : List Token → Res (α × List Token)} {F} {L : List Tok → Prop} (hF : F [])
    (hs : ∀ ts a, f ts = .ok (a, []) → L (toks ts)) (hc : ∀ w r, L (toks w) → Ended r → ∃ a, f (w ++ r) = .ok (a, r))
    {ts x p} (hst : SteadyAt f F ts) (h : f ts = .err ⟨x, p⟩) : Stuck L ts x p := by
  unfold SteadyAt at hst
  rw [h] at hst
  have hc0 : ∀ {w : List Tok} {w' : List Token}, toks w' = w → L w → ∃ a, f w' = .ok (a, []) := fun e hw => by
    subst e
    have := hc _ [] hw ended_nil
    rwa [List.append_nil] at this
  rcases hst with ⟨rfl, rfl, m, ms, a, _, _, _, h4⟩ | ⟨w, t, rest, rfl, rfl, hbad, honly, m, ms, a, h1, _, _, h4⟩
  · refine .short ⟨m.tok, toks ms, ?_⟩ fun hl => ?_
    · have := h4 [] hF
      rw [List.append_nil] at this
      have := hs _ _ this
      rwa [show toks (ts ++ m :: ms) = toks ts ++ m.tok :: toks ms from List.map_append] at this
    · obtain ⟨a, ha⟩ := hc0 rfl hl
      rw [h] at ha
      cases ha
  · refine .token ⟨⟨m.tok, h1, toks ms, ?_⟩, fun u hu => ?_⟩ ?_ ?_
    · have := h4 [] hF
      rw [List.append_nil] at this
      have := hs _ _ this
      rwa [show toks (w ++ m :: ms) = toks w ++ m.tok :: toks ms from List.map_append] at this
    · apply Classical.byContradiction
      intro hm
      obtain ⟨more, hu⟩ := hu
      obtain ⟨e, he⟩ := honly (bare u) (more.map bare) hm
      obtain ⟨a, ha⟩ := hc0 (w' := w ++ bare u :: more.map bare) (by
        rw [show toks (w ++ bare u :: more.map bare) = toks w ++ u :: words (more.map bare) from List.map_append,
          words_map_bare]) hu
      rw [he] at ha
      cases ha
    · rintro ⟨more, hu⟩
      obtain ⟨a, ha⟩ := hc0 (w' := w ++ t :: more.map bare) (by
        rw [show toks (w ++ t :: more.map bare) = toks w ++ t.tok :: words (more.map bare) from List.map_append,
          words_map_bare]) hu
      rw [hbad] at ha
      cases ha
    · intro ht hl
      obtain ⟨a, ha⟩ := hc w (t :: rest) hl ((atEnd_cons _ _).mpr ht)
      rw [hbad] at ha
      cases ha

theorem scan_sound {ts : List Token} {a} (h : scanLine ts = .ok (a, [])) : Shaped (toks ts) := by
  obtain ⟨w, e, hw⟩ := line_shape h ended_nil
  rw [List.append_nil] at e
  rw [e]; exact hw

theorem scan_stuck {ts : List Token} {x p} (h : scanLine ts = .err ⟨x, p⟩) : LineError ts x p := by
  refine .stuck ?_ (stuck_of ended_nil (fun _ _ => scan_sound) (fun w r hw hr => ⟨(), line_scan hw rfl hr⟩) (scanLine_at ts) h)
  cases ts with
  | nil => cases h
  | cons t ts =>
    cases ht : t.tok with
    | name n =>
      rw [scanLine_name ht] at h
      refine ⟨t, n, ts, rfl, ht, fun c u more e hc => ?_⟩
      subst e
      unfold scanName at h
      dsimp only at h
      rw [if_pos hc] at h
      unfold scanLabelled at h
      dsimp only at h
      split at h
      next m hm =>
        refine ⟨m, hm, fun hd => ?_⟩
        rw [if_pos (isDotted_iff.mpr hd)] at h
        cases h
      · cases h
    | _ => unfold scanLine at h; dsimp only at h; rw [ht] at h; cases h

/-- The arguments of an operation are stuck. -/
theorem args_stuck {ts : List Token} {x p} (h : parseList parseArg ts = .err ⟨x, p⟩) :
    Stuck (fun w => ∃ args, OptListed ArgSyntax w args) ts x p := by
  refine stuck_of ended_nil (fun ts a h => ?_) (fun w r ⟨as, hw⟩ hr => ?_) (list_steady steady_arg ts) h
  · obtain ⟨w, e, hw, _⟩ := list_read steady_arg erase_parseArg reads_arg h
    rw [List.append_nil] at e
    subst e
    exact ⟨_, hw⟩
  · obtain ⟨a, ha, _⟩ := list_scan steady_arg erase_parseArg reads_arg hw hr
    exact ⟨a, ha⟩

/-! ### Lines with something after them -/

/-- What a function reads does not depend on what follows, unless it is an operator. -/
def Free (f : List Token → Res (Unit × List Token)) (ts rest : List Token) : Prop :=
  ∃ w, ts = w ++ rest ∧ ∀ r, Upto 0 r → f (w ++ r) = .ok ((), r)

theorem Steady.free {f : List Token → Res (Unit × List Token)} {F} (h : Steady f F) (hF : ∀ r, Upto 0 r → F r) {ts rest}
    (hr : f ts = .ok ((), rest)) : Free f ts rest := by
  have := h.at_ ts
  unfold SteadyAt at this
  rw [hr] at this
  obtain ⟨w, e, hw⟩ := this
  exact ⟨w, e, fun r hr => hw r (.inr (hF r hr))⟩

theorem Free.cons {f g : List Token → Res (Unit × List Token)} {t ts rest} (h : Free g ts rest) (hf : ∀ r, f (t :: r) = g r) :
    Free f (t :: ts) rest := by
  obtain ⟨w, e, hw⟩ := h
  exact ⟨t :: w, by rw [e]; rfl, fun r hr => by rw [List.cons_append, hf, hw r hr]⟩

theorem unit_list_ended {item : List Token → Res (α × List Token)} (hi : Steady item (Upto 0)) {ts rest}
    (h : unit (parseList item) ts = .ok ((), rest)) : Ended rest := by
  obtain ⟨a, ha⟩ := unit_ok h
  exact (list_listAt (Q := fun _ _ => True) hi (fun ts a rest h => by
    have := hi.at_ ts
    unfold SteadyAt at this
    rw [h] at this
    obtain ⟨w, e, _⟩ := this
    exact ⟨w, e, trivial⟩) ha).1

theorem image_ended {ts rest} (h : scanImage ts = .ok ((), rest)) : Ended rest := by
  obtain ⟨⟨s, r⟩, _, h2⟩ := bind_ok h
  exact unit_list_ended steady_keyVal h2

theorem incl_free {ts rest} (h : scanIncl ts = .ok ((), rest)) (hr : ¬ Ended rest) : Free scanIncl ts rest ∧ ts ≠ rest := by
  cases ts with
  | nil => cases h
  | cons t ts =>
    by_cases hs : ∃ s, t.tok = .string s
    · obtain ⟨s, hs⟩ := hs
      have he : ∀ r, scanIncl (t :: r) = .ok ((), r) := fun r => by unfold scanIncl; dsimp only; rw [hs]
      rw [he] at h
      cases h
      exact ⟨⟨[t], rfl, fun r _ => he r⟩, fun h => by simpa using congrArg List.length h⟩
    · by_cases hi : ∃ n, t.tok = .name n ∧ (n = "icon".toList ∨ n = "sprite".toList)
      · obtain ⟨n, hn, hi⟩ := hi
        rw [show scanIncl (t :: ts) = scanImage ts by unfold scanIncl; dsimp only; rw [hn]; exact if_pos hi] at h
        exact absurd (image_ended h) hr
      · have he := incl_typed (t := t) (fun s h => hs ⟨s, h⟩) fun n hn hc => hi ⟨n, hn, hc⟩
        rw [he] at h
        obtain ⟨w, e, hw⟩ := steady_typed.free (fun _ _ => trivial) h
        cases w with
        | nil => exact absurd (by rw [h, show rest = t :: ts from e.symm]) (steady_typed.ne (t :: ts) ())
        | cons u w =>
          injection e with e1 e2
          subst e1
          refine ⟨⟨t :: w, by rw [e2]; rfl, fun r hr => by rw [List.cons_append, he]; exact hw r hr⟩, fun hx => ?_⟩
          subst hx
          exact steady_typed.ne _ _ h

theorem dir_free {n : Text} {f} (hd : scanDir n = some f) {ts rest} (h : f ts = .ok ((), rest)) (hr : ¬ Ended rest) :
    Free f ts rest ∧ ts ≠ rest := by
  unfold scanDir at hd
  repeat' split at hd
  all_goals first
    | (injection hd with hd; subst hd; first
        | exact absurd (unit_list_ended steady_byte h) hr
        | exact ⟨steady_number.unit.free (fun _ _ => trivial) h, fun e => steady_number.unit.ne _ _ (e ▸ h)⟩
        | exact absurd (unit_list_ended steady_expr h) hr
        | exact ⟨steady_sized.free (fun _ _ => trivial) h, fun e => steady_sized.ne _ _ (e ▸ h)⟩
        | exact incl_free h hr
        | exact ⟨steady_cnop.free (fun _ h => h) h, fun e => steady_cnop.ne _ _ (e ▸ h)⟩)
    | cases hd

/-- A line with something after it, which is no error of its own kind -/
theorem excess_of {ts t rest} (h : scanLine ts = .ok ((), t :: rest)) (ht : t.tok ≠ .eof) (hf : Free scanLine ts (t :: rest)) :
    LineError ts .unexpectedToken (.span t.span) := by
  obtain ⟨w, rfl, hw⟩ := hf
  have hst := scanLine_at (w ++ t :: rest)
  unfold SteadyAt at hst
  rw [h] at hst
  obtain ⟨w', e, hst⟩ := hst
  have := List.append_cancel_right e
  subst this
  refine .excess (scan_sound (a := ()) ?_) ht ?_ ?_
  · have := hw [] (Nat.zero_le 0)
    rwa [List.append_nil] at this
  · rintro ⟨more, hm⟩
    have h1 := line_scan hm (w := w ++ t :: more.map bare) (r := []) (by
      rw [show toks (w ++ t :: more.map bare) = toks w ++ t.tok :: words (more.map bare) from List.map_append, words_map_bare])
      ended_nil
    rw [List.append_nil, hst (t :: more.map bare) (.inl rfl)] at h1
    cases h1
  · rintro x u hx ⟨more, hm⟩
    have h1 := line_scan hm (w := w ++ bare u :: more.map bare) (r := []) (by
      rw [show toks (w ++ bare u :: more.map bare) = toks w ++ u :: words (more.map bare) from List.map_append, words_map_bare])
      ended_nil
    have h0 : infixPrec u = 0 := by cases hx <;> rfl
    rw [List.append_nil, hw _ (by show infixPrec u ≤ 0; omega)] at h1
    cases h1

theorem other_free {n : Text} {ts : List Token} {rest} (h : scanOther n ts = .ok ((), rest)) (hr : ¬ Ended rest) :
    (Free (scanOther n) ts rest ∧ ts ≠ rest) ∨ ∃ u more, isDotted n = true ∧ ts = u :: more ∧ rest = ts ∧ u.tok ≠ .equals ∧
      u.tok ≠ .name "equ".toList := by
  cases ts with
  | nil => cases h; exact absurd ended_nil hr
  | cons t ts =>
    by_cases h1 : t.tok = .name "equ".toList
    · have he : ∀ r, scanOther n (t :: r) = unit parseExpr r := fun r => by unfold scanOther; exact if_pos h1
      rw [he] at h
      exact .inl ⟨(steady_expr.unit.free (fun _ h => h) h).cons he, fun hx => by
        have := steady_expr.unit.less _ _ _ h
        rw [← hx] at this
        simp at this; omega⟩
    · by_cases h2 : t.tok = .equals
      · have he : ∀ r, scanOther n (t :: r) = unit parseExpr r := fun r => by
          unfold scanOther; dsimp only; rw [if_neg h1]; exact if_pos h2
        rw [he] at h
        exact .inl ⟨(steady_expr.unit.free (fun _ h => h) h).cons he, fun hx => by
        have := steady_expr.unit.less _ _ _ h
        rw [← hx] at this
        simp at this; omega⟩
      · by_cases hd : isDotted n = true
        · unfold scanOther at h
          dsimp only at h
          rw [if_neg h1, if_neg h2, if_pos hd] at h
          cases h
          exact .inr ⟨t, ts, hd, rfl, rfl, h2, h1⟩
        · unfold scanOther at h
          dsimp only at h
          rw [if_neg h1, if_neg h2, if_neg hd] at h
          exact absurd (unit_list_ended steady_arg h) hr

theorem Free.name {n : Text} {t : Token} {ts rest} (h : Free (scanNamed n) ts rest) (ht : t.tok = .name n)
    (hc : (toks ts).head? ≠ some .colon) (hr : ts = rest → False) : Free scanLine (t :: ts) rest := by
  obtain ⟨w, e, hw⟩ := h
  cases w with
  | nil => exact (hr e).elim
  | cons c w =>
    refine ⟨t :: c :: w, by rw [e]; rfl, fun r hr => ?_⟩
    rw [List.cons_append, scanLine_name ht, scanName_named, hw r hr]
    rw [e] at hc
    exact hc

/-! ### The parser and the scanner -/

theorem instrOrCall_err {s : Span} {n : Text} {args : List Arg} {x p} (h : instrOrCall s n args = .err ⟨x, p⟩) :
    Mnemonic n ∧ (¬ ∃ i, Writes n (args.map Arg.erase) i) ∧ x = .wrongInstructionArgs n ∧ p = .span s := by
  unfold instrOrCall at h
  split at h
  next hn =>
    rcases Res.bind_eq_err.mp h with h | ⟨i, _, h⟩
    · have he := erase_makeInstr s n args
      rw [h] at he
      have hw : ¬ ∃ i, Writes n (args.map Arg.erase) i := by
        rintro ⟨i, hi⟩
        rw [makeInstr_ok_iff.mpr hi] at he
        cases he
      refine ⟨mnemonic_iff.mp hn, hw, ?_⟩
      rw [makeInstr_wrong hn fun i hi => hw ⟨i, hi⟩] at he
      unfold makeInstr at h
      split at h
      · split at h
        · cases h
        · cases h; exact ⟨rfl, rfl⟩
      · cases h; cases he
    · cases h
  · cases h

theorem spanTo_start (s : Span) (items : List Span) (h : s.parents = []) :
    (spanTo s items).start = s.start ∧ (spanTo s items).parents = [] := by
  unfold spanTo
  split
  · exact ⟨rfl, rfl⟩
  · exact ⟨rfl, h⟩

/-- An instruction or a macro call after its name -/
theorem parseInstr_args {t : Token} {n : Text} {ts : List Token} (ht : t.tok = .name n) (hd : ¬ Dotted n) :
    parseInstr (t :: ts) = parseList parseArg ts >>= fun y =>
      instrOrCall (spanTo t.span (y.1.map Arg.span)) n y.1 >>= fun st => .ok (some (st, y.2)) := by
  unfold parseInstr
  dsimp only
  rw [ht]
  dsimp only
  rw [if_neg (by
    intro h
    rw [Bool.and_eq_true] at h
    exact hd (isDotted_iff.mp h.2))]
  unfold parseGenInstr readName
  dsimp only
  rw [ht]
  dsimp only
  rw [Res.ok_bind]
  dsimp only
  unfold parseArgs
  cases parseList parseArg ts <;> rfl

theorem instr_err {t : Token} {n : Text} {ts : List Token} (ht : t.tok = .name n) (hd : ¬ Dotted n) {x p}
    (h : parseInstr (t :: ts) = .err ⟨x, p⟩) :
    unit (parseList parseArg) ts = .err ⟨x, p⟩ ∨ Meaningless (t :: ts) x p := by
  rw [parseInstr_args ht hd] at h
  rcases Res.bind_eq_err.mp h with h | ⟨⟨args, rest⟩, hp, h⟩
  · left
    unfold unit
    rw [h]
    rfl
  · right
    rcases Res.bind_eq_err.mp h with h | ⟨i, _, h⟩
    · dsimp only at h
      obtain ⟨h1, h2, rfl, rfl⟩ := instrOrCall_err h
      obtain ⟨w, rfl, hw, hr⟩ := list_read steady_arg erase_parseArg reads_arg hp
      refine .operands ht h1 hw h2 (ended_iff.mp hr) ⟨(spanTo_start _ _ rfl).2, (spanTo_start _ _ rfl).1, ?_⟩
      obtain ⟨_, w', e', hl⟩ := list_listAt (Q := fun w (a : Arg) => ArgPlace w a.erase a.span.range ∧ a.span.parents = [])
        steady_arg (fun _ _ _ => parseArg_lit) hp
      have := List.append_cancel_right e'
      subst this
      rcases hl with ⟨rfl, rfl⟩ | hl
      · exact .inl ⟨rfl, rfl⟩
      · obtain ⟨w1, w2, a, h3, h4, h5, _⟩ := hl.last
        refine .inr ⟨w1, w2, a.erase, _, h3, ?_, h5, ?_⟩
        · rw [List.getLast?_map, h4]; rfl
        · unfold spanTo
          rw [List.getLast?_map, h4]
          rfl
    · cases h

theorem instr_ok {t : Token} {n : Text} {ts : List Token} (ht : t.tok = .name n) (hd : ¬ Dotted n) {r}
    (h : parseInstr (t :: ts) = .ok r) : ∃ i rest, r = some (i, rest) ∧ Ended rest := by
  rw [parseInstr_args ht hd] at h
  obtain ⟨⟨args, rest⟩, hp, h⟩ := Res.bind_eq_ok.mp h
  obtain ⟨i, _, h⟩ := Res.bind_eq_ok.mp h
  cases h
  exact ⟨i, rest, rfl, unit_list_ended steady_arg (unit_of hp)⟩

/-- A parser and a scanner of the operands of the directive `t` -/
structure Scans (t : Token) (p : List Token → Res (Directive × List Token)) (f : List Token → Res (Unit × List Token)) : Prop where
  err : ∀ {ts x q}, p ts = .err ⟨x, q⟩ → f ts = .err ⟨x, q⟩ ∨ Meaningless (t :: ts) x q
  ok : ∀ {ts d rest}, p ts = .ok (d, rest) → f ts = .ok ((), rest)

theorem scans_map {t : Token} {g : List Token → Res (α × List Token)} {k : α → Directive} :
    Scans t (fun ts => g ts >>= fun x => .ok (k x.1, x.2)) (unit g) where
  err h := by
    rcases Res.bind_eq_err.mp h with h | ⟨y, _, h⟩
    · left; unfold unit; rw [h]; rfl
    · cases h
  ok h := by
    obtain ⟨y, h1, h⟩ := Res.bind_eq_ok.mp h
    cases h
    exact unit_of h1

theorem no_listed {R : List Tok → α → Prop} {w} (h : Listed R w []) : False := by
  generalize hn : ([] : List α) = l at h
  cases h <;> cases hn

theorem scans_byte {t : Token} (ht : t.tok = .name ".byte".toList) :
    Scans t (parseByteDir t.span) (unit (parseList parseByteValue)) where
  err {ts x q} h := by
    rcases Res.bind_eq_err.mp h with h | ⟨⟨vs, rest⟩, hp, h⟩
    · left; unfold unit; rw [h]; rfl
    · right
      dsimp only at h
      split at h
      next he =>
        cases h
        obtain ⟨w, rfl, hw, hr⟩ := list_read steady_byte erase_parseByteValue reads_byte hp
        rw [List.isEmpty_iff.mp he] at hw
        rcases hw with ⟨hw, _⟩ | hw
        · rw [List.map_eq_nil_iff.mp hw]; exact .bytes ht (ended_iff.mp hr)
        · exact (no_listed hw).elim
      · cases h
  ok h := by
    obtain ⟨⟨vs, rest⟩, hp, h⟩ := Res.bind_eq_ok.mp h
    dsimp only at h
    split at h
    · cases h
    · cases h; exact unit_of hp

theorem scans_word {t : Token} (ht : t.tok = .name ".word".toList) :
    Scans t (parseWordDir t.span) (unit (parseList parseExpr)) where
  err {ts x q} h := by
    rcases Res.bind_eq_err.mp h with h | ⟨⟨vs, rest⟩, hp, h⟩
    · left; unfold unit; rw [h]; rfl
    · right
      dsimp only at h
      split at h
      next he =>
        cases h
        obtain ⟨w, rfl, hw, hr⟩ := list_read steady_expr erase_parseExpr reads_expr hp
        rw [List.isEmpty_iff.mp he] at hw
        rcases hw with ⟨hw, _⟩ | hw
        · rw [List.map_eq_nil_iff.mp hw]; exact .words ht (ended_iff.mp hr)
        · exact (no_listed hw).elim
      · cases h
  ok h := by
    obtain ⟨⟨vs, rest⟩, hp, h⟩ := Res.bind_eq_ok.mp h
    dsimp only at h
    split at h
    · cases h
    · cases h; exact unit_of hp

theorem sized_scan (s : Span) (ts : List Token) : unit (parseSized s) ts = scanSized ts := by
  unfold unit parseSized scanSized
  cases readNumber ts with
  | ok y =>
    rw [Res.ok_bind, Res.ok_bind]
    dsimp only
    unfold unit
    cases readString y.2 <;> rfl
  | err _ => rfl
  | panic => rfl
  | loop => rfl

theorem cnop_scan (s : Span) (ts : List Token) : unit (parseCnopDir s) ts = scanCnop ts := by
  unfold unit parseCnopDir scanCnop
  cases parseExpr ts with
  | ok y =>
    rw [Res.ok_bind, Res.ok_bind]
    dsimp only
    rw [consume_take]
    cases take .comma commaName y.2 with
    | ok z =>
      rw [Res.ok_bind, Res.ok_bind]
      unfold unit
      cases parseExpr z.2 <;> rfl
    | err _ => rfl
    | panic => rfl
    | loop => rfl
  | err _ => rfl
  | panic => rfl
  | loop => rfl

theorem typed_scan (s : Span) (ts : List Token) : unit (parseTypedInclude s) ts = scanTyped ts := by
  unfold unit parseTypedInclude scanTyped
  cases readIncludeType ts with
  | ok y =>
    rw [Res.ok_bind, Res.ok_bind]
    dsimp only
    unfold unit
    cases readString y.2 <;> rfl
  | err _ => rfl
  | panic => rfl
  | loop => rfl

theorem scans_same {t : Token} {p : List Token → Res (Directive × List Token)} {f : List Token → Res (Unit × List Token)}
    (h : ∀ ts, unit p ts = f ts) : Scans t p f where
  err {ts x q} he := by
    left
    rw [← h]
    unfold unit
    rw [he]
    rfl
  ok {ts d rest} he := by
    rw [← h]
    exact unit_of he

/-- The properties of an image -/
theorem keyVals_err {ts x q} (h : parseKeyVals ts = .err ⟨x, q⟩) : unit (parseList parseKeyVal) ts = .err ⟨x, q⟩ := by
  rcases Res.bind_eq_err.mp h with h | ⟨y, _, h⟩
  · unfold unit; rw [h]; rfl
  · cases h

theorem keyVals_ok {ts ps rest} (h : parseKeyVals ts = .ok (ps, rest)) : parseList parseKeyVal ts = .ok (ps.reverse, rest) := by
  obtain ⟨⟨qs, r⟩, h1, h⟩ := Res.bind_eq_ok.mp h
  cases h
  rw [List.reverse_reverse]
  exact h1

theorem image_scan {ts : List Token} {s : Span × Text} {r} (hs : readString ts = .ok (s, r)) :
    scanImage ts = unit (parseList parseKeyVal) r := by
  unfold scanImage
  rw [hs]
  rfl

theorem mem_of_look {k : Text} {ps : List (Text × β)} {v : β} (h : ps.lookup k = some v) : (k, v) ∈ ps := by
  induction ps with
  | nil => cases h
  | cons y ps ih =>
    obtain ⟨k', v'⟩ := y
    rw [List.lookup_cons] at h
    split at h
    next he => cases h; rw [eq_of_beq he]; exact List.mem_cons_self
    next => exact List.mem_cons_of_mem _ (ih h)

theorem keyVal_lit {ts : List Token} {a rest} (h : parseKeyVal ts = .ok (a, rest)) :
    ∃ w, ts = w ++ rest ∧ ValuePlace w a.2.erase a.2.span := by
  obtain ⟨⟨⟨sp, n⟩, r⟩, h1, hv⟩ := Res.bind_eq_ok.mp h
  clear h
  dsimp only at hv
  cases ts with
  | nil => cases h1
  | cons t ts =>
    have hr : r = ts := by
      unfold readName at h1
      dsimp only at h1
      split at h1
      · cases h1; rfl
      · cases h1
    subst hr
    cases r with
    | nil => cases hv
    | cons e r =>
      unfold parseVal at hv
      dsimp only at hv
      split at hv
      · obtain ⟨⟨v, r'⟩, h2, hv⟩ := Res.bind_eq_ok.mp hv
        cases hv
        obtain ⟨w, rfl, hl⟩ := parseByte_lit h2
        exact ⟨t :: e :: w, rfl, valuePlace_mono hl ⟨[t, e], [], by simp⟩⟩
      · cases hv

theorem ListAt.infix {Q : List Token → α → Prop} {w as} (h : ListAt Q w as) {a} (ha : a ∈ as) : ∃ w', w' <:+: w ∧ Q w' a := by
  induction h with
  | one hw => rw [List.mem_singleton] at ha; subst ha; exact ⟨_, List.infix_refl _, hw⟩
  | @cons w a c w' as hw _ _ ih =>
    rcases List.mem_cons.mp ha with rfl | ha
    · exact ⟨_, ⟨[], c :: w', rfl⟩, hw⟩
    · obtain ⟨u, ⟨x, y, rfl⟩, h2⟩ := ih ha
      exact ⟨u, ⟨w ++ c :: x, y, by simp⟩, h2⟩

theorem property_lit {ts} {ps : List (Text × ByteValue)} {rest w} (h : parseList parseKeyVal ts = .ok (ps.reverse, rest)) (e : ts = w ++ rest) {k : String} {v : ByteValue}
    (hv : ps.lookup k.toList = some v) :
    property (ps.reverse.map keyVal) k = some v.erase ∧ ValuePlace w v.erase v.span := by
  constructor
  · rw [← lookup_property, ← List.map_reverse, List.reverse_reverse, keyVal_lookup, hv]
    rfl
  · obtain ⟨_, w', e', hl⟩ := list_listAt steady_keyVal (fun _ _ _ => keyVal_lit) h
    have : w' = w := List.append_cancel_right (e'.symm.trans e)
    subst this
    have hm : (k.toList, v) ∈ ps.reverse := List.mem_reverse.mpr (mem_of_look hv)
    rcases hl with ⟨_, he⟩ | hl
    · rw [he] at hm; cases hm
    · obtain ⟨w2, hsub, hq⟩ := hl.infix hm
      exact valuePlace_mono hq hsub

/-- What is written about a value in messages -/
def Says : ByteValue → Text → Prop
  | .str _ b, y => y = stringText b
  | .expr e, y => y = e.erase.print

theorem worded_of {v : ByteValue} {y : Text} {w s} (h : Says v y) (h' : ValuePlace w v.erase s) : Worded v.erase y := by
  cases v with
  | str sp b =>
    obtain ⟨u, -, t, -, h1, -⟩ := h'
    have h1 : b = utf8 t := h1
    subst h1
    have h : y = stringText (utf8 t) := h
    rw [stringText_utf8] at h
    subst h
    rfl
  | expr e => exact h

theorem scans_include {t : Token} (ht : t.tok = .name ".include".toList) : Scans t (parseIncludeDir t.span) scanIncl where
  err {ts x q} h := by
    cases ts with
    | nil => exact (scans_same (typed_scan t.span)).err h
    | cons k ts =>
      by_cases hs : ∃ s, k.tok = .string s
      · obtain ⟨s, hs⟩ := hs
        unfold parseIncludeDir at h
        dsimp only at h
        rw [hs] at h
        cases h
      · by_cases hi : k.tok = .name "icon".toList
        · have hp : parseIncludeDir t.span (k :: ts) = parseIconInclude ts := by
            unfold parseIncludeDir; dsimp only; rw [hi]; exact if_pos rfl
          have hf : scanIncl (k :: ts) = scanImage ts := by
            unfold scanIncl; dsimp only; rw [hi]; exact if_pos (.inl rfl)
          rw [hp] at h
          rw [hf]
          rcases Res.bind_eq_err.mp h with h | ⟨⟨⟨sp, path⟩, r⟩, h1, ha⟩
          · left; unfold scanImage; rw [h]; rfl
          · clear h
            rcases Res.bind_eq_err.mp ha with h | ⟨⟨ps, rest⟩, h2, h⟩
            · left; rw [image_scan h1]; exact keyVals_err h
            · right
              clear ha
              dsimp only at h2 h
              obtain ⟨pt, rfl, hpt⟩ := string_ok h1
              have h3 := keyVals_ok h2
              obtain ⟨w, e, hw, hr⟩ := list_read steady_keyVal erase_parseKeyVal reads_prop h3
              rcases Res.bind_eq_err.mp h with h | ⟨_, _, h⟩
              · unfold iconSpeed at h
                split at h
                · cases h
                next sp b hsp =>
                  cases h
                  obtain ⟨h4, u, hu, s, hus, h5, h6⟩ := property_lit h3 e hsp
                  rw [show sp = u.span from h6, e]
                  exact .speed ht hi ⟨_, hpt⟩ hw (ended_iff.mp hr) (by rw [h4, ← h5]; rfl) hu hus
                · cases h
              · cases h
        · by_cases hi2 : k.tok = .name "sprite".toList
          · have hp : parseIncludeDir t.span (k :: ts) = parseSpriteInclude ts := by
              unfold parseIncludeDir; dsimp only; rw [hi2]; rfl
            have hf : scanIncl (k :: ts) = scanImage ts := by
              unfold scanIncl; dsimp only; rw [hi2]; exact if_pos (.inr rfl)
            rw [hp] at h
            rw [hf]
            rcases Res.bind_eq_err.mp h with h | ⟨⟨⟨sp, path⟩, r⟩, h1, ha⟩
            · left; unfold scanImage; rw [h]; rfl
            · clear h
              rcases Res.bind_eq_err.mp ha with h | ⟨⟨ps, rest⟩, h2, h⟩
              · left; rw [image_scan h1]; exact keyVals_err h
              · right
                clear ha
                dsimp only at h2 h
                obtain ⟨pt, rfl, hpt⟩ := string_ok h1
                have h3 := keyVals_ok h2
                obtain ⟨w, rfl, hw, hr⟩ := list_read steady_keyVal erase_parseKeyVal reads_prop h3
                rcases Res.bind_eq_err.mp h with h | ⟨y, hy, h⟩
                · have he := erase_spriteTypeOf ps
                  rw [h, ← List.reverse_reverse (ps.map keyVal), ← List.map_reverse] at he
                  have hq : ∃ v y, ps.lookup "type".toList = some v ∧ q = .span v.span ∧ x = .invalidSpriteType y ∧ Says v y := by
                    unfold spriteTypeOf at h
                    split at h
                    next sp b hl =>
                      split at h
                      · cases h
                      · split at h
                        · cases h
                        · cases h; exact ⟨_, _, hl, rfl, rfl, rfl⟩
                    next ex hl => cases h; exact ⟨_, _, hl, rfl, rfl, rfl⟩
                    · cases h
                  obtain ⟨v, y, hv, rfl, rfl, hy⟩ := hq
                  obtain ⟨h4, h5⟩ := property_lit h3 rfl hv
                  refine .spriteType ht hi2 ⟨_, hpt⟩ hw (ended_iff.mp hr) ?_ h4 h5 (worded_of hy h5)
                  rintro ⟨k, hk⟩
                  rw [spriteType_ok.mpr hk] at he
                  cases he
                · have ho : ∃ k, SpriteTypeIs (ps.reverse.map keyVal) k := by
                    have he := erase_spriteTypeOf ps
                    rw [hy, ← List.reverse_reverse (ps.map keyVal), ← List.map_reverse] at he
                    exact ⟨_, spriteType_ok.mp he.symm⟩
                  rcases Res.bind_eq_err.mp h with h | ⟨z, _, h⟩
                  · have he := erase_spriteHeaderOf ps
                    rw [h, ← List.reverse_reverse (ps.map keyVal), ← List.map_reverse] at he
                    have hq : ∃ v y, ps.lookup "header".toList = some v ∧ q = .span v.span ∧ x = .invalidSpriteHeader y ∧ Says v y := by
                      unfold spriteHeaderOf at h
                      split at h
                      next sp b hl =>
                        split at h
                        · cases h
                        · split at h
                          · cases h
                          · cases h; exact ⟨_, _, hl, rfl, rfl, rfl⟩
                      next ex hl => cases h; exact ⟨_, _, hl, rfl, rfl, rfl⟩
                      · cases h
                    obtain ⟨v, y, hv, rfl, rfl, hy⟩ := hq
                    obtain ⟨h4, h5⟩ := property_lit h3 rfl hv
                    refine .spriteHeader ht hi2 ⟨_, hpt⟩ hw (ended_iff.mp hr) ho ?_ h4 h5 (worded_of hy h5)
                    rintro ⟨k, hk⟩
                    rw [spriteHeader_ok.mpr hk] at he
                    cases he
                  · cases h
          · left
            have hp : parseIncludeDir t.span (k :: ts) = parseTypedInclude t.span (k :: ts) := by
              unfold parseIncludeDir
              dsimp only
              split
              next s h => exact absurd ⟨s, h⟩ hs
              next n hn =>
                rw [if_neg (by rintro rfl; exact hi hn), if_neg (by rintro rfl; exact hi2 hn)]
              · rfl
            have hf := incl_typed (t := k) (fun s h => hs ⟨s, h⟩)
              (fun n hn hc => hc.elim (fun e => hi (e ▸ hn)) (fun e => hi2 (e ▸ hn))) ts
            rw [hp] at h
            rw [hf, ← typed_scan t.span]
            unfold unit
            rw [h]
            rfl
  ok {ts d rest} h := by
    cases ts with
    | nil => exact (scans_same (t := t) (typed_scan t.span)).ok h
    | cons k ts =>
      by_cases hs : ∃ s, k.tok = .string s
      · obtain ⟨s, hs⟩ := hs
        unfold parseIncludeDir at h
        dsimp only at h
        rw [hs] at h
        cases h
        unfold scanIncl
        dsimp only
        rw [hs]
      · by_cases hi : k.tok = .name "icon".toList
        · have hp : parseIncludeDir t.span (k :: ts) = parseIconInclude ts := by
            unfold parseIncludeDir; dsimp only; rw [hi]; exact if_pos rfl
          have hf : scanIncl (k :: ts) = scanImage ts := by
            unfold scanIncl; dsimp only; rw [hi]; exact if_pos (.inl rfl)
          rw [hp] at h
          rw [hf]
          obtain ⟨⟨⟨sp, path⟩, r⟩, h1, h⟩ := Res.bind_eq_ok.mp h
          obtain ⟨⟨ps, rest'⟩, h2, h⟩ := Res.bind_eq_ok.mp h
          obtain ⟨_, _, h⟩ := Res.bind_eq_ok.mp h
          cases h
          rw [image_scan h1]
          exact unit_of (keyVals_ok h2)
        · by_cases hi2 : k.tok = .name "sprite".toList
          · have hp : parseIncludeDir t.span (k :: ts) = parseSpriteInclude ts := by
              unfold parseIncludeDir; dsimp only; rw [hi2]; rfl
            have hf : scanIncl (k :: ts) = scanImage ts := by
              unfold scanIncl; dsimp only; rw [hi2]; exact if_pos (.inr rfl)
            rw [hp] at h
            rw [hf]
            obtain ⟨⟨⟨sp, path⟩, r⟩, h1, h⟩ := Res.bind_eq_ok.mp h
            obtain ⟨⟨ps, rest'⟩, h2, h⟩ := Res.bind_eq_ok.mp h
            obtain ⟨_, _, h⟩ := Res.bind_eq_ok.mp h
            obtain ⟨_, _, h⟩ := Res.bind_eq_ok.mp h
            cases h
            rw [image_scan h1]
            exact unit_of (keyVals_ok h2)
          · have hp : parseIncludeDir t.span (k :: ts) = parseTypedInclude t.span (k :: ts) := by
              unfold parseIncludeDir
              dsimp only
              split
              next s h => exact absurd ⟨s, h⟩ hs
              next n hn =>
                rw [if_neg (by rintro rfl; exact hi hn), if_neg (by rintro rfl; exact hi2 hn)]
              · rfl
            have hf := incl_typed (t := k) (fun s h => hs ⟨s, h⟩)
              (fun n hn hc => hc.elim (fun e => hi (e ▸ hn)) (fun e => hi2 (e ▸ hn))) ts
            rw [hp] at h
            rw [hf, ← typed_scan t.span]
            exact unit_of h

theorem scans_dir {t : Token} {n : Text} (ht : t.tok = .name n) {p} (hp : directiveParser n = some p) :
    ∃ f, scanDir n = some f ∧ Scans t (p t.span) f := by
  unfold directiveParser at hp
  split at hp
  next hn => cases hp; subst hn; exact ⟨_, sd_byte, scans_byte ht⟩
  split at hp
  next hn =>
    cases hp; subst hn
    exact ⟨_, sd_org, scans_map (k := fun (y : Span × Int) => Directive.org (.from t.span y.1) (toUsize y.2))⟩
  split at hp
  next hn => cases hp; subst hn; exact ⟨_, sd_word, scans_word ht⟩
  split at hp
  next hn =>
    cases hp; subst hn
    refine ⟨_, sd_text, ?_⟩
    have := scans_map (t := t) (g := parseSized t.span) (k := fun y => Directive.text y.1 y.2.1 y.2.2)
    rwa [show unit (parseSized t.span) = scanSized from funext (sized_scan t.span)] at this
  split at hp
  next hn =>
    cases hp; subst hn
    refine ⟨_, sd_string, ?_⟩
    have := scans_map (t := t) (g := parseSized t.span) (k := fun y => Directive.string y.1 y.2.1 y.2.2)
    rwa [show unit (parseSized t.span) = scanSized from funext (sized_scan t.span)] at this
  split at hp
  next hn => cases hp; subst hn; exact ⟨_, sd_include, scans_include ht⟩
  split at hp
  next hn => cases hp; subst hn; exact ⟨_, sd_cnop, scans_same (cnop_scan t.span)⟩
  cases hp

theorem scanDir_directive {n : Text} : directiveParser n = none ↔ scanDir n = none := by
  unfold directiveParser scanDir
  constructor
  · intro h
    repeat' split at h
    all_goals first | (cases h; done) | skip
    rw [if_neg ‹_›, if_neg ‹_›, if_neg ‹_›, if_neg ‹_›, if_neg ‹_›, if_neg ‹_›, if_neg ‹_›]
  · intro h
    repeat' split at h
    all_goals first | (cases h; done) | skip
    rw [if_neg ‹_›, if_neg ‹_›, if_neg ‹_›, if_neg ‹_›, if_neg ‹_›, if_neg ‹_›, if_neg ‹_›]

/-! ### Lines -/

theorem dirOrOther_dir {t : Token} {n : Text} (ht : t.tok = .name n) {p} (hp : directiveParser n = some p) (ts : List Token) :
    parseDirOrOther (t :: ts) = p t.span ts >>= fun y => .ok (.dir y.1, y.2) := by
  unfold parseDirOrOther parseDirective
  dsimp only
  rw [ht]
  dsimp only
  rw [hp]
  dsimp only
  cases p t.span ts <;> rfl

theorem dirOrOther_none {t : Token} {n : Text} (ht : t.tok = .name n) (hp : directiveParser n = none) (ts : List Token) :
    parseDirOrOther (t :: ts) = parseOther t ts := by
  unfold parseDirOrOther parseDirective
  dsimp only
  rw [ht]
  dsimp only
  rw [hp]
  rfl

theorem meaning_dir {t : Token} {n : Text} (ht : t.tok = .name n) (hn : Dotted n) {ts x p} (h : Meaningless (t :: ts) x p) :
    LineError (t :: ts) x p := by
  refine .meaning (fun t' u rest e hu => ?_) h
  injection e with e1 e2
  subst e1 e2
  generalize hl : t :: u :: rest = l at h
  cases h with
  | operands h1 h2 =>
    injection hl with e1 e2
    subst e1
    rw [ht] at h1
    cases h1
    exact mnemonic_not_dotted h2 hn
  | bytes h1 h2 =>
    injection hl with e1 e2
    subst e2
    rcases h2 with h2 | ⟨_, h2⟩
    · cases h2
    · injection h2 with h2
      rw [hu] at h2
      cases h2
  | words h1 h2 =>
    injection hl with e1 e2
    subst e2
    rcases h2 with h2 | ⟨_, h2⟩
    · cases h2
    · injection h2 with h2
      rw [hu] at h2
      cases h2
  | speed h1 h2 =>
    injection hl with e1 e2
    injection e2 with e2 e3
    subst e2
    rw [hu] at h2
    cases h2
  | spriteType h1 h2 =>
    injection hl with e1 e2
    injection e2 with e2 e3
    subst e2
    rw [hu] at h2
    cases h2
  | spriteHeader h1 h2 =>
    injection hl with e1 e2
    injection e2 with e2 e3
    subst e2
    rw [hu] at h2
    cases h2

theorem scan_named_err {t : Token} {n : Text} (ht : t.tok = .name n) {ts : List Token} (hc : (toks ts).head? ≠ some .colon) {x p}
    (h : scanNamed n ts = .err ⟨x, p⟩) : LineError (t :: ts) x p := by
  apply scan_stuck
  rw [scanLine_name ht, scanName_named hc]
  exact h

theorem other_scan {t : Token} {n : Text} (ht : t.tok = .name n) {ts : List Token}
    (hx : definesNext (toks ts) = true ∨ Dotted n) :
    (∀ x p, parseOther t ts = .err ⟨x, p⟩ → scanOther n ts = .err ⟨x, p⟩ ∨
      (Dotted n ∧ x = .unknownDirective n ∧ p = .span t.span ∧
        ∃ u rest, ts = u :: rest ∧ u.tok ≠ .equals ∧ u.tok ≠ .name "equ".toList ∧ u.tok ≠ .eof)) ∧
    (∀ s rest, parseOther t ts = .ok (s, rest) → scanOther n ts = .ok ((), rest) ∧
      (s.isLabel = true → Ended rest) ∧ (Dotted n → Ended rest ∨ ∃ u more, ts = u :: more ∧ (u.tok = .equals ∨ u.tok = .name "equ".toList))) := by
  unfold parseOther
  rw [ht]
  dsimp only
  by_cases he : (atEnd ts && isDotted n) = true
  · rw [if_pos he]
    rw [Bool.and_eq_true] at he
    refine ⟨fun x p h => (by cases h), fun s rest h => ?_⟩
    cases h
    exact ⟨other_end he.1, fun _ => he.1, fun _ => .inl he.1⟩
  · rw [if_neg he]
    cases ts with
    | nil =>
      exfalso
      rcases hx with hx | hx
      · cases hx
      · exact he (by rw [isDotted_iff.mpr hx]; rfl)
    | cons u ts =>
      dsimp only
      by_cases h1 : u.tok = .name "equ".toList
      · rw [if_pos h1]
        have hs : scanOther n (u :: ts) = unit parseExpr ts := if_pos h1
        rw [hs]
        refine ⟨fun x p h => ?_, fun s rest h => ?_⟩
        · rcases Res.bind_eq_err.mp h with h | ⟨_, _, h⟩
          · left; unfold unit; rw [h]; rfl
          · cases h
        · obtain ⟨y, hy, h⟩ := bind_ok h
          cases h
          exact ⟨unit_of hy, fun h => (by cases h), fun _ => .inr ⟨u, ts, rfl, .inr h1⟩⟩
      · rw [if_neg h1]
        by_cases h2 : u.tok = .equals
        · rw [if_pos h2]
          have hs : scanOther n (u :: ts) = unit parseExpr ts := by
            unfold scanOther; dsimp only; rw [if_neg h1]; exact if_pos h2
          rw [hs]
          refine ⟨fun x p h => ?_, fun s rest h => ?_⟩
          · rcases Res.bind_eq_err.mp h with h | ⟨_, _, h⟩
            · left; unfold unit; rw [h]; rfl
            · cases h
          · obtain ⟨y, hy, h⟩ := bind_ok h
            cases h
            exact ⟨unit_of hy, fun h => (by cases h), fun _ => .inr ⟨u, ts, rfl, .inl h2⟩⟩
        · rw [if_neg h2]
          have hd : Dotted n := by
            rcases hx with hx | hx
            · obtain ⟨k, r, e, hx⟩ := definesNext_iff.mp hx
              injection e with e _
              rw [← e] at hx
              exact (hx.elim h1 h2).elim
            · exact hx
          rw [if_pos (isDotted_iff.mpr hd)]
          refine ⟨fun x p h => ?_, fun s rest h => (by cases h)⟩
          cases h
          refine .inr ⟨hd, rfl, rfl, u, ts, rfl, h2, h1, fun h => he ?_⟩
          rw [isDotted_iff.mpr hd, (atEnd_cons _ _).mpr h]
          rfl

theorem named_err {t : Token} {n : Text} (ht : t.tok = .name n) {ts : List Token} (hc : (toks ts).head? ≠ some .colon) {x p}
    (h : parseNamed t n ts = .err ⟨x, p⟩) : LineError (t :: ts) x p := by
  unfold parseNamed at h
  split at h
  next hx =>
    cases hp : directiveParser n with
    | some q =>
      obtain ⟨f, hf, hs⟩ := scans_dir ht hp
      rw [dirOrOther_dir ht hp] at h
      rcases Res.bind_eq_err.mp h with h | ⟨_, _, h⟩
      · rcases hs.err h with h | h
        · exact scan_named_err ht hc (by rw [scanNamed_dir hf]; exact h)
        · refine meaning_dir ht (directive_dotted (Classical.byContradiction fun hn => ?_)) h
          rw [scanDir_none.mpr hn] at hf
          cases hf
      · cases h
    | none =>
      have hn := scanDir_none.mp (scanDir_directive.mp hp)
      rw [dirOrOther_none ht hp] at h
      rw [Bool.or_eq_true, isDotted_iff] at hx
      rcases (other_scan ht hx).1 x p h with h | ⟨hd, rfl, rfl, u, rest, rfl, h1, h2, h3⟩
      · exact scan_named_err ht hc (by rw [scanNamed_other hn]; exact h)
      · exact .directive ht hd hn (fun h => hc (congrArg some h)) h1 h2 h3
  next hx =>
    rw [Bool.or_eq_true, not_or, isDotted_iff] at hx
    rcases Res.bind_eq_err.mp h with h | ⟨r, hr, h⟩
    · have h1 : (toks ts).head? ≠ some (.name "equ".toList) := fun h => hx.1 (by
        cases ts with
        | nil => cases h
        | cons u ts => exact definesNext_iff.mpr ⟨_, _, rfl, .inl (Option.some.inj h)⟩)
      have h2 : (toks ts).head? ≠ some .equals := fun h => hx.1 (by
        cases ts with
        | nil => cases h
        | cons u ts => exact definesNext_iff.mpr ⟨_, _, rfl, .inr (Option.some.inj h)⟩)
      rcases instr_err ht hx.2 h with h | h
      · exact scan_named_err ht hc (by rw [scanNamed_other (not_directive hx.2), scanOther_args hx.2 h1 h2]; exact h)
      · refine .meaning (fun t' u rest e hu => ?_) h
        injection e with e1 e2
        subst e2
        exact h1 (congrArg some hu)
    · obtain ⟨i, rest, rfl, _⟩ := instr_ok ht hx.2 hr
      cases h

theorem named_ok {t : Token} {n : Text} (ht : t.tok = .name n) {ts : List Token} {s rest}
    (h : parseNamed t n ts = .ok (s, rest)) :
    (s.isLabel = true → Ended rest) ∧
      (Ended rest ∨ scanNamed n ts = .ok ((), rest) ∧ Free (scanNamed n) ts rest ∧ ts ≠ rest) := by
  unfold parseNamed at h
  split at h
  next hx =>
    cases hp : directiveParser n with
    | some q =>
      obtain ⟨f, hf, hs⟩ := scans_dir ht hp
      rw [dirOrOther_dir ht hp] at h
      obtain ⟨y, hy, h⟩ := bind_ok h
      cases h
      refine ⟨fun h => (by cases h), ?_⟩
      by_cases hr : Ended y.2
      · exact .inl hr
      · obtain ⟨h1, h2⟩ := dir_free hf (hs.ok hy) hr
        rw [show scanNamed n = f from funext (scanNamed_dir hf)]
        exact .inr ⟨hs.ok hy, h1, h2⟩
    | none =>
      have hn := scanDir_none.mp (scanDir_directive.mp hp)
      rw [dirOrOther_none ht hp] at h
      rw [Bool.or_eq_true, isDotted_iff] at hx
      obtain ⟨h1, h2, h3⟩ := (other_scan ht hx).2 s rest h
      refine ⟨h2, ?_⟩
      by_cases hr : Ended rest
      · exact .inl hr
      · rw [show scanNamed n = scanOther n from funext (scanNamed_other hn)]
        rcases other_free h1 hr with hf | ⟨u, more, hd, rfl, rfl, h4, h5⟩
        · exact .inr ⟨h1, hf.1, hf.2⟩
        · exfalso
          rcases h3 (isDotted_iff.mp hd) with h | ⟨u', more', e, h | h⟩
          · exact hr h
          · cases e; exact h4 h
          · cases e; exact h5 h
  next hx =>
    rw [Bool.or_eq_true, not_or, isDotted_iff] at hx
    obtain ⟨r, hr, h⟩ := bind_ok h
    obtain ⟨i, rest', rfl, he⟩ := instr_ok ht hx.2 hr
    cases h
    exact ⟨fun _ => he, .inl he⟩

theorem not_atEnd {ts : List Token} (h : ¬ Ended ts) : ∃ t rest, ts = t :: rest ∧ t.tok ≠ .eof := by
  cases ts with
  | nil => exact absurd ended_nil h
  | cons t ts => exact ⟨t, ts, rfl, fun e => h ((atEnd_cons _ _).mpr e)⟩

theorem endOfLine_err {ss : List Stmt} {ts x p} (h : endOfLine ss ts = .err ⟨x, p⟩) :
    ∃ t rest, ts = t :: rest ∧ t.tok ≠ .eof ∧ x = .unexpectedToken ∧ p = .span t.span := by
  unfold endOfLine at h
  split at h
  · cases h
  next he =>
    obtain ⟨t, rest, rfl, ht⟩ := not_atEnd he
    cases h
    exact ⟨t, rest, rfl, ht, rfl, rfl⟩

theorem line_err {l : List Token} {x p} (h : parseLine l = .err ⟨x, p⟩) : LineError l x p := by
  unfold parseLine at h
  split at h
  · cases h
  next he =>
  obtain ⟨t, ts, rfl, hte⟩ := not_atEnd he
  cases ht : t.tok with
  | name n =>
    by_cases hc : (toks ts).head? = some .colon
    · cases ts with
      | nil => cases hc
      | cons c cs =>
        replace hc : c.tok = .colon := Option.some.inj hc
        have hs : parseStatement (t :: c :: cs) = .ok (.label (.from t.span c.span) n, cs) := by
          unfold parseStatement
          dsimp only
          rw [ht]
          exact if_pos hc
        rw [hs, Res.ok_bind] at h
        dsimp only at h
        by_cases hx : ((Stmt.label (t.span.from c.span) n).isLabel && !atEnd cs) = true
        · rw [if_pos hx] at h
          rw [show (Stmt.label (t.span.from c.span) n).isLabel = true from rfl, Bool.true_and, Bool.not_eq_true'] at hx
          obtain ⟨u, us, rfl, hu⟩ := not_atEnd (ts := cs) (fun e => by rw [e] at hx; cases hx)
          by_cases hn : ∃ m, u.tok = .name m ∧ ¬ Dotted m
          · obtain ⟨m, hm, hd⟩ := hn
            rcases Res.bind_eq_err.mp h with h | ⟨r, hr, h⟩
            · rcases instr_err hm hd h with h | h
              · apply scan_stuck
                rw [scanLine_name ht]
                unfold scanName
                dsimp only
                rw [if_pos hc]
                unfold scanLabelled
                dsimp only
                rw [hm]
                dsimp only
                rw [if_neg (fun h => hd (isDotted_iff.mp h))]
                exact h
              · exact .labelled ht hc (fun u' e => ⟨m, by cases e; exact hm, hd⟩) h
            · obtain ⟨i, rest, rfl, he⟩ := instr_ok hm hd hr
              dsimp only at h
              obtain ⟨v, vs, rfl, hv, _⟩ := endOfLine_err h
              exact absurd ((atEnd_cons _ _).mp he) hv
          · have hr : parseInstr (u :: us) = .ok none := by
              unfold parseInstr
              dsimp only
              split
              next m hm =>
                have hd : Dotted m := Classical.byContradiction fun hd => hn ⟨m, hm, hd⟩
                refine if_pos ?_
                rw [Bool.and_eq_true, Bool.not_eq_true', isDotted_iff]
                refine ⟨?_, hd⟩
                cases hi : instrExists m with
                | false => rfl
                | true => exact absurd hd (mnemonic_not_dotted (mnemonic_iff.mp hi))
              · rfl
            rw [hr, Res.ok_bind] at h
            dsimp only at h
            cases h
            exact .label ht hc (fun m hm => Classical.byContradiction fun hd => hn ⟨m, hm, hd⟩) hu
        · rw [if_neg hx] at h
          obtain ⟨v, vs, rfl, hv, _⟩ := endOfLine_err h
          exfalso
          apply hx
          rw [show (Stmt.label (t.span.from c.span) n).isLabel = true from rfl, Bool.true_and, Bool.not_eq_true']
          exact Bool.eq_false_iff.mpr fun e => hv ((atEnd_cons _ _).mp e)
    · have hs : parseStatement (t :: ts) = parseNamed t n ts := by
        unfold parseStatement
        dsimp only
        rw [ht]
        cases ts with
        | nil => rfl
        | cons c cs =>
          dsimp only
          exact if_neg fun e => hc (congrArg some e)
      rw [hs] at h
      rcases Res.bind_eq_err.mp h with h | ⟨⟨s, rest⟩, hr, h⟩
      · exact named_err ht hc h
      · obtain ⟨h1, h2⟩ := named_ok ht hr
        dsimp only at h
        split at h
        next hx =>
          rw [Bool.and_eq_true, Bool.not_eq_true'] at hx
          have := h1 hx.1
          unfold Ended at this
          rw [this] at hx
          cases hx.2
        next =>
          obtain ⟨v, vs, rfl, hv, rfl, rfl⟩ := endOfLine_err h
          rcases h2 with h2 | ⟨h2, h3, h4⟩
          · exact absurd ((atEnd_cons _ _).mp h2) hv
          · refine excess_of ?_ hv (h3.name ht hc h4)
            rw [scanLine_name ht, scanName_named hc]
            exact h2
  | eof => exact absurd ht hte
  | _ =>
    have hs : parseStatement (t :: ts) = .fail .unexpectedToken t.span := by
      unfold parseStatement
      dsimp only
      rw [ht]
      unfold parseDirOrOther parseDirective parseOther
      dsimp only
      rw [ht]
      rfl
    rw [hs] at h
    cases h
    exact .start (fun n hn => by rw [ht] at hn; cases hn) hte

end Verif.Located
