import Verif.Lemmas.Located.SteadyExpr
/-
Arguments, items and lists are read from left to right.
-/
namespace Verif.Located
open Verif.Spec Verif.Spec.Syntax

variable {α β : Type}

/-- A function that reads at least a token, from left to right -/
structure Steady (f : List Token → Res (α × List Token)) (F : List Token → Prop) : Prop where
  at_ : ∀ ts, SteadyAt f F ts
  less : ∀ ts a rest, f ts = .ok (a, rest) → rest.length < ts.length
  sample : Sample f F

/-- The end of the line -/
def Ended (ts : List Token) : Prop := atEnd ts = true

theorem atEnd_cons (t : Token) (ts : List Token) : atEnd (t :: ts) = true ↔ t.tok = .eof := by
  obtain ⟨k, a, b⟩ := t
  cases k <;> simp [atEnd, Toks.isEmpty]

theorem ended_upto {ts : List Token} (h : Ended ts) : Upto 0 ts := by
  cases ts with
  | nil => exact Nat.zero_le 0
  | cons t ts =>
    obtain ⟨k, a, b⟩ := t
    cases k <;> first | exact Nat.le_refl 0 | cases h

theorem ended_nil : Ended [] := rfl

theorem ended_head {r ts : List Token} (h : r.head? = ts.head?) (he : Ended ts) : Ended r := by
  cases r with
  | nil => rfl
  | cons t r =>
    cases ts with
    | nil => cases h
    | cons u ts => injection h with h; rw [h]; exact (atEnd_cons u r).mpr ((atEnd_cons u ts).mp he)

theorem steady_expr : Steady parseExpr (Upto 0) where
  at_ := expr_steady
  less _ _ _ h := prec_length h
  sample := expr_sample 0

theorem SteadyAt.le {f : List Token → Res (α × List Token)} {F ts a rest} (h : SteadyAt f F ts)
    (hr : f ts = .ok (a, rest)) : rest.length ≤ ts.length := h.length hr

theorem Steady.map {f : List Token → Res (α × List Token)} {F} (h : Steady f F) (k : α → β) :
    Steady (fun ts => f ts >>= fun x => .ok (k x.1, x.2)) F where
  at_ ts := (h.at_ ts).map k
  less ts a rest he := by
    cases hf : f ts with
    | ok y =>
      rw [hf] at he
      injection he with he
      have := h.less ts y.1 y.2 hf
      injection he with _ he
      rw [← he]
      exact this
    | err _ => rw [hf] at he; cases he
    | panic => rw [hf] at he; cases he
    | loop => rw [hf] at he; cases he
  sample := by
    obtain ⟨m, ms, a, h1, h2, h3⟩ := h.sample
    exact ⟨m, ms, k a, h1, h2, fun rest hr => by dsimp only; rw [h3 rest hr]; rfl⟩

theorem Steady.ne {f : List Token → Res (α × List Token)} {F} (h : Steady f F) (ts a) : f ts ≠ .ok (a, ts) :=
  fun e => Nat.lt_irrefl _ (h.less _ _ _ e)

theorem steady_exprArg : Steady parseExprArg (Upto 0) := steady_expr.map argOf

theorem wanted_arg {x : Err} {t : Tok} (h : Wanted x t) : imOf t = none ∧ t ≠ .hash := by
  cases h with
  | _ => exact ⟨rfl, by simp⟩

theorem parseArg_expr {t : Token} (h1 : imOf t.tok = none) (h2 : t.tok ≠ .hash) (r : List Token) :
    parseArg (t :: r) = parseExprArg (t :: r) := by
  unfold parseArg
  dsimp only
  rw [h1]
  dsimp only
  rw [if_neg h2]

theorem sample_arg : Sample parseArg (Upto 0) := by
  refine ⟨aParam, [], argOf (.macroArg aParam.span []), rfl, by decide, fun rest hr => ?_⟩
  rw [List.cons_append, parseArg_expr rfl (by decide)]
  unfold parseExprArg
  rw [parseExpr_eq, ← List.cons_append, expr_param hr]
  rfl

/-- A token that starts no expression -/
theorem expr_first_err {t : Token} {x : Err} (h : parseExpr [t] = .err ⟨x, about x t⟩) : x = .invalidExpression := by
  have hnot : Res.err (α := Expr × List Token) ⟨.unexpectedEof, .nowhere⟩ ≠ .err ⟨x, about x t⟩ := by
    intro e
    injection e with e
    injection e with _ e
    unfold about at e
    split at e <;> cases e
  rw [parseExpr_eq, readExpr_cons, readOperand_eq] at h
  split at h
  · rw [Res.ok_bind, readMore_nil] at h; cases h
  · split at h
    · rw [readExpr_nil] at h; exact absurd h hnot
    · split at h
      · rw [readExpr_nil] at h; exact absurd h hnot
      · injection h with h
        injection h with h _
        exact h.symm

theorem map_first_err {f : List Token → Res (α × List Token)} {k : α → β} {ts e}
    (h : (f ts >>= fun x => Res.ok (k x.1, x.2)) = .err e) : f ts = .err e := by
  cases hf : f ts with
  | ok y => rw [hf] at h; cases h
  | err _ => rw [hf] at h; exact congrArg Res.err (Res.err.inj h)
  | panic => rw [hf] at h; cases h
  | loop => rw [hf] at h; cases h

theorem exprArg_first_err {t : Token} {x : Err} (h : parseExprArg [t] = .err ⟨x, about x t⟩) : x = .invalidExpression :=
  expr_first_err (map_first_err (k := argOf) h)

theorem exprByte_first_err {t : Token} {x : Err} (h : parseExprByte [t] = .err ⟨x, about x t⟩) : x = .invalidExpression :=
  expr_first_err (map_first_err (k := ByteValue.expr) h)

theorem steady_arg : Steady parseArg (Upto 0) where
  at_ ts := by
    cases ts with
    | nil => exact .eof rfl sample_arg
    | cons t ts =>
      cases hi : imOf t.tok with
      | some r =>
        exact .cons (g := fun rest => .ok (.im t.span r, rest)) (fun rest => by
          unfold parseArg; dsimp only; rw [hi]) (.stop fun _ _ => rfl)
      | none =>
        by_cases hh : t.tok = .hash
        · refine .cons (g := fun rest => parseExpr rest >>= fun x => .ok (Arg.imm x.1, x.2)) (fun rest => ?_)
            ((steady_expr.map Arg.imm).at_ ts)
          unfold parseArg; dsimp only; rw [hi]; dsimp only; rw [if_pos hh]
        · exact .head (steady_exprArg.at_ _) (Nat.zero_le 0) (parseArg_expr hi hh) (.inl fun a => steady_exprArg.ne _ a)
            (fun m x _ _ _ hw _ _ _ r => parseArg_expr (wanted_arg hw).1 (wanted_arg hw).2 r)
            fun x hx m _ hm => absurd (exprArg_first_err (hx []) ▸ .expression) hm
  less ts a rest h := by
    cases ts with
    | nil => cases h
    | cons t ts =>
      cases hi : imOf t.tok with
      | some r =>
        unfold parseArg at h; dsimp only at h; rw [hi] at h
        injection h with h
        injection h with _ h
        rw [← h]
        exact Nat.lt_succ_self _
      | none =>
        by_cases hh : t.tok = .hash
        · have : parseArg (t :: ts) = parseExpr ts >>= fun x => .ok (Arg.imm x.1, x.2) := by
            unfold parseArg; dsimp only; rw [hi]; dsimp only; rw [if_pos hh]
          rw [this] at h
          exact Nat.lt_succ_of_lt ((steady_expr.map Arg.imm).less ts a rest h)
        · rw [parseArg_expr hi hh] at h
          exact steady_exprArg.less _ _ _ h
  sample := sample_arg

theorem steady_exprByte : Steady parseExprByte (Upto 0) := steady_expr.map ByteValue.expr

theorem parseByte_expr {t : Token} (h : ∀ s, t.tok ≠ .string s) (r : List Token) :
    parseByteValue (t :: r) = parseExprByte (t :: r) := by
  obtain ⟨k, a, b⟩ := t
  cases k <;> first | rfl | exact absurd rfl (h _)

theorem sample_byte : Sample parseByteValue (Upto 0) := by
  refine ⟨aParam, [], .expr (.macroArg aParam.span []), rfl, by decide, fun rest hr => ?_⟩
  rw [List.cons_append, parseByte_expr (fun s => by intro h; cases h)]
  unfold parseExprByte
  rw [parseExpr_eq, ← List.cons_append, expr_param hr]
  rfl

theorem exprByte_string {t : Token} {s} (h : t.tok = .string s) (r : List Token) :
    parseExprByte (t :: r) = .err ⟨.invalidExpression, .location t.start⟩ := by
  unfold parseExprByte
  rw [parseExpr_eq, readExpr_cons, readOperand_eq]
  obtain ⟨k, a, b⟩ := t
  dsimp only at h
  subst h
  rfl

theorem steady_byte : Steady parseByteValue (Upto 0) where
  at_ ts := by
    cases ts with
    | nil => exact .eof (by
        show parseExprByte [] = _
        unfold parseExprByte; rw [parseExpr_eq, readExpr_nil]; rfl) sample_byte
    | cons t ts =>
      by_cases hs : ∃ s, t.tok = .string s
      · obtain ⟨s, hs⟩ := hs
        exact .cons (g := fun rest => .ok (.str t.span (utf8 s), rest)) (fun rest => by
          unfold parseByteValue; dsimp only; rw [hs]) (.stop fun _ _ => rfl)
      · refine .head (steady_exprByte.at_ _) (Nat.zero_le 0) (parseByte_expr fun s h => hs ⟨s, h⟩)
          (.inl fun a => steady_exprByte.ne _ a) ?_
          fun x hx m _ hm => absurd (exprByte_first_err (hx []) ▸ .expression) hm
        intro m x r a r' _ _ _ hok r
        refine parseByte_expr (fun s hms => ?_) r
        rw [exprByte_string hms] at hok
        cases hok
  less ts a rest h := by
    cases ts with
    | nil => exact steady_exprByte.less _ _ _ h
    | cons t ts =>
      by_cases hs : ∃ s, t.tok = .string s
      · obtain ⟨s, hs⟩ := hs
        have : parseByteValue (t :: ts) = .ok (.str t.span (utf8 s), ts) := by
          unfold parseByteValue; dsimp only; rw [hs]
        rw [this] at h
        injection h with h
        injection h with _ h
        rw [← h]
        exact Nat.lt_succ_self _
      · rw [parseByte_expr fun s h => hs ⟨s, h⟩] at h
        exact steady_exprByte.less _ _ _ h
  sample := sample_byte

/-! ### Reading one token -/

theorem steady_one {f : List Token → Res (α × List Token)} {x : Err} {k : Token → Option α}
    (hnil : f [] = .err ⟨.unexpectedEof, .nowhere⟩)
    (hc : ∀ t ts, f (t :: ts) = match k t with | some a => .ok (a, ts) | none => .err ⟨x, about x t⟩)
    (hmay : ∀ t a, k t = some a → May x t.tok) (m : Tok) (hm : ∃ a, k (bare m) = some a) (hw : Wanted x m) (h0 : infixPrec m = 0) (he : Ordinary m) : Steady f Any where
  at_ ts := by
    obtain ⟨a, ha⟩ := hm
    have hs : ∀ r, f (bare m :: [] ++ r) = .ok (a, r) := fun r => by rw [List.cons_append, hc, ha]; rfl
    cases ts with
    | nil => exact .eof hnil ⟨bare m, [], a, h0, he, fun r _ => hs r⟩
    | cons t ts =>
      cases hk : k t with
      | some b => exact .cons (g := fun r => .ok (b, r)) (fun r => by rw [hc, hk]) (.stop fun _ _ => rfl)
      | none =>
        refine .token (x := x) (fun r => by rw [hc, hk]) (fun u r hu => ?_) ⟨bare m, [], a, hw, h0, he, fun r _ => hs r⟩
        rw [hc]
        cases hk' : k u with
        | some b => exact absurd (hmay u b hk') hu
        | none => exact ⟨_, rfl⟩
  less ts a rest h := by
    cases ts with
    | nil => rw [hnil] at h; cases h
    | cons t ts =>
      rw [hc] at h
      split at h
      · injection h with h
        injection h with _ h
        rw [← h]
        exact Nat.lt_succ_self _
      · cases h
  sample := by
    obtain ⟨a, ha⟩ := hm
    exact ⟨bare m, [], a, h0, he, fun r _ => by rw [List.cons_append, hc, ha]; rfl⟩

theorem steady_name : Steady readName Any :=
  steady_one (x := .expectedTokenNotFound "Name".toList)
    (k := fun t => match t.tok with | .name n => some (t.span, n) | _ => none) rfl
    (fun t ts => by obtain ⟨k, a, b⟩ := t; cases k <;> rfl) (fun t a h => by obtain ⟨k, u, v⟩ := t; cases k <;> first | exact .name | cases h) (.name []) ⟨_, rfl⟩
    (.name (by decide)) rfl (by decide)

theorem steady_number : Steady readNumber Any :=
  steady_one (x := .expectedTokenNotFound "Number".toList)
    (k := fun t => match t.tok with | .number n _ => some (t.span, n) | _ => none) rfl
    (fun t ts => by obtain ⟨k, a, b⟩ := t; cases k <;> rfl) (fun t a h => by obtain ⟨k, u, v⟩ := t; cases k <;> first | exact .wanted .number | cases h) (.number 0 .decimal)
    ⟨_, rfl⟩ .number rfl (by decide)

theorem steady_string : Steady readString Any :=
  steady_one (x := .expectedTokenNotFound "String".toList)
    (k := fun t => match t.tok with | .string n => some (t.span, n) | _ => none) rfl
    (fun t ts => by obtain ⟨k, a, b⟩ := t; cases k <;> rfl) (fun t a h => by obtain ⟨k, u, v⟩ := t; cases k <;> first | exact .wanted .string | cases h) (.string []) ⟨_, rfl⟩ .string rfl (by decide)

theorem steady_kind : Steady readIncludeType Any :=
  steady_one (x := .expectedTokenNotFound "Include Type".toList)
    (k := fun t => if t.tok = .name "asm".toList then some IncludeType.asm
      else if t.tok = .name "bytes".toList then some .bytes
      else if t.tok = .name "cpp".toList then some .cHeader else none) rfl
    (fun t ts => by
      show (if t.tok = .name "asm".toList then _ else _) = _
      split
      · rfl
      · split
        · rfl
        · split <;> rfl)
    (fun t a h => by
      split at h
      next e => rw [e]; exact .wanted (.kind (by simp))
      · split at h
        next e => rw [e]; exact .wanted (.kind (by simp))
        · split at h
          next e => rw [e]; exact .wanted (.kind (by simp))
          · cases h) (.name "asm".toList) ⟨_, rfl⟩ (.kind (by simp)) rfl (by decide)

theorem steady_take {k : Tok} {what : Text} (h1 : infixPrec k = 0) (h2 : Ordinary k)
    (hw : Wanted (.expectedTokenNotFound what) k) : Steady (take k what) Any where
  at_ := take_steady h1 h2 hw
  less ts a rest h := by
    cases ts with
    | nil => cases h
    | cons t ts =>
      rw [take_eq] at h
      split at h
      · injection h with h
        injection h with _ h
        rw [← h]
        exact Nat.lt_succ_self _
      · cases h
  sample := ⟨bare k, [], (), h1, h2, fun r _ => by rw [List.cons_append, take_bare]; rfl⟩

theorem steady_comma : Steady (take .comma commaName) Any := steady_take rfl (by decide) .comma

/-- One after another, for functions that both read something -/
theorem Steady.bind {f : List Token → Res (α × List Token)} {g : α → List Token → Res (β × List Token)} {F G}
    (hf : Steady f F) (hn : Neutral F) (hg : ∀ a, Steady (g a) G) :
    Steady (fun ts => f ts >>= fun x => g x.1 x.2) G where
  at_ ts := by
    refine SteadyAt.bind (hf.at_ ts) hn (fun a rest _ => (hg a).at_ rest) ?_ ?_
    · intro a
      obtain ⟨m, ms, b, h1, _, h3⟩ := (hg a).sample
      exact ⟨m :: ms, b, fun rest hr => ⟨hn _ _ h1, h3 rest hr⟩⟩
    · intro a b rest _ he
      exact absurd he ((hg a).ne rest b)
  less ts a rest h := by
    cases hf' : f ts with
    | ok y =>
      rw [hf'] at h
      have h1 := hf.less ts y.1 y.2 hf'
      have h2 := (hg y.1).less _ _ _ h
      omega
    | err _ => rw [hf'] at h; cases h
    | panic => rw [hf'] at h; cases h
    | loop => rw [hf'] at h; cases h
  sample := by
    obtain ⟨m, ms, a, h1, h2, h3⟩ := hf.sample
    obtain ⟨m', ms', b, h1', _, h3'⟩ := (hg a).sample
    refine ⟨m, ms ++ m' :: ms', b, h1, h2, fun rest hr => ?_⟩
    dsimp only
    have := h3 (m' :: ms' ++ rest) (hn _ _ h1')
    simp only [List.cons_append, List.append_assoc] at this ⊢
    rw [this]
    exact h3' rest hr

theorem steady_val (n : Text) : Steady (parseVal n) (Upto 0) := by
  have h := steady_take (k := .equals) (what := "=".toList) rfl (by decide) .equals
  have := h.bind any_neutral fun _ => steady_byte.map (fun v => (n, v))
  have heq : (fun ts => take .equals "=".toList ts >>= fun x => parseByteValue x.2 >>= fun y => .ok ((n, y.1), y.2)) =
      parseVal n := by
    funext ts
    cases ts with
    | nil => rfl
    | cons t ts =>
      rw [take_eq]
      show _ = if t.tok = .equals then _ else _
      split <;> rfl
  rw [← heq]
  exact this

theorem steady_keyVal : Steady parseKeyVal (Upto 0) :=
  steady_name.bind (g := fun (a : Span × Text) r => parseVal a.2 r) any_neutral fun a => steady_val a.2

/-! ### Lists -/

theorem listLoop_fuel {item : List Token → Res (α × List Token)} {F} (hi : Steady item F) (f : Nat) :
    ∀ g ts, ts.length < f → ts.length < g → parseListLoop item f ts = parseListLoop item g ts := by
  induction f with
  | zero => intro g ts h; omega
  | succ f ih =>
    intro g ts h1 h2
    obtain ⟨g, rfl⟩ : ∃ g', g = g' + 1 := ⟨g - 1, by omega⟩
    rw [parseListLoop, parseListLoop, consume_take, consume_take]
    split
    · rfl
    · cases hc : take .comma commaName ts with
      | ok y =>
        have hl := steady_comma.less _ _ _ hc
        show (item y.2 >>= fun z => parseListLoop item f z.2 >>= fun v => .ok (z.1 :: v.1, v.2)) =
          (item y.2 >>= fun z => parseListLoop item g z.2 >>= fun v => .ok (z.1 :: v.1, v.2))
        cases hit : item y.2 with
        | ok z =>
          have hl2 := hi.less _ _ _ hit
          show (parseListLoop item f z.2 >>= _) = (parseListLoop item g z.2 >>= _)
          rw [ih g z.2 (by omega) (by omega)]
        | err _ => rfl
        | panic => rfl
        | loop => rfl
      | err _ => rfl
      | panic => rfl
      | loop => rfl

/-- The rest of a list -/
def readRest (item : List Token → Res (α × List Token)) (ts : List Token) : Res (List α × List Token) :=
  parseListLoop item (ts.length + 1) ts

theorem readRest_end {item : List Token → Res (α × List Token)} {ts} (h : Ended ts) : readRest item ts = .ok ([], ts) := by
  unfold readRest
  rw [parseListLoop]; exact if_pos h

theorem readRest_eq {item : List Token → Res (α × List Token)} {F} (hi : Steady item F) {ts} (h : ¬ Ended ts) :
    readRest item ts = take .comma commaName ts >>= fun x => item x.2 >>= fun y => readRest item y.2 >>= fun z =>
      .ok (y.1 :: z.1, z.2) := by
  unfold readRest
  rw [parseListLoop, show atEnd ts = false from Bool.eq_false_iff.mpr h]
  simp only [Bool.false_eq_true, if_false]
  rw [consume_take]
  cases hc : take .comma commaName ts with
  | ok y =>
    have hl := steady_comma.less _ _ _ hc
    show (item y.2 >>= fun z => parseListLoop item ts.length z.2 >>= fun v => .ok (z.1 :: v.1, v.2)) =
      (item y.2 >>= fun z => parseListLoop item (z.2.length + 1) z.2 >>= fun v => .ok (z.1 :: v.1, v.2))
    cases hit : item y.2 with
    | ok z =>
      have hl2 := hi.less _ _ _ hit
      show (parseListLoop item ts.length z.2 >>= _) = (parseListLoop item (z.2.length + 1) z.2 >>= _)
      rw [listLoop_fuel hi ts.length (z.2.length + 1) z.2 (by omega) (by omega)]
    | err _ => rfl
    | panic => rfl
    | loop => rfl
  | err _ => rfl
  | panic => rfl
  | loop => rfl

/-- An item and the rest of the list -/
def readItems (item : List Token → Res (α × List Token)) (ts : List Token) : Res (List α × List Token) :=
  item ts >>= fun y => readRest item y.2 >>= fun z => .ok (y.1 :: z.1, z.2)

theorem items_at {item : List Token → Res (α × List Token)} (hi : Steady item (Upto 0)) {ts}
    (h : ∀ a rest, item ts = .ok (a, rest) → SteadyAt (readRest item) Ended rest) : SteadyAt (readItems item) Ended ts := by
  refine SteadyAt.bind (g := fun a r => readRest item r >>= fun z => .ok (a :: z.1, z.2)) (hi.at_ ts) (upto_neutral 0)
    (fun a rest hr => (h a rest hr).map (fun l => a :: l)) ?_ ?_
  · intro a
    exact ⟨[], [a], fun rest hr => ⟨ended_upto hr, by rw [List.nil_append, readRest_end hr]; rfl⟩⟩
  · intro a b rest hr _
    exact ended_upto hr

theorem items_sample {item : List Token → Res (α × List Token)} (hi : Steady item (Upto 0)) :
    Sample (readItems item) Ended := by
  obtain ⟨m, ms, a, h1, h2, h3⟩ := hi.sample
  refine ⟨m, ms, [a], h1, h2, fun rest hr => ?_⟩
  unfold readItems
  rw [h3 rest (ended_upto hr)]
  show (readRest item rest >>= _) = _
  rw [readRest_end hr]
  rfl

theorem rest_at {item : List Token → Res (α × List Token)} (hi : Steady item (Upto 0)) (n : Nat) :
    ∀ ts : List Token, ts.length ≤ n → SteadyAt (readRest item) Ended ts := by
  induction n with
  | zero =>
    intro ts h
    cases ts with
    | nil => exact .stop fun r hr => readRest_end (hr.elim (fun e => ended_head e ended_nil) id)
    | cons t ts => simp at h
  | succ n ih =>
    intro ts h
    by_cases he : Ended ts
    · exact .stop fun r hr => readRest_end (hr.elim (fun e => ended_head e he) id)
    · cases ts with
      | nil => exact absurd ended_nil he
      | cons t ts =>
        have ht : t.tok ≠ .eof := fun e => he ((atEnd_cons t ts).mpr e)
        have hg : SteadyAt (fun ts => take .comma commaName ts >>= fun x => readItems item x.2) Ended (t :: ts) := by
          refine SteadyAt.bind (g := fun _ r => readItems item r) (steady_comma.at_ _) any_neutral ?_ ?_ ?_
          · intro a rest hr
            have h1 := steady_comma.less _ _ _ hr
            refine items_at hi fun b rest' hr' => ih rest' ?_
            have h2 := hi.less _ _ _ hr'
            omega
          · intro _
            obtain ⟨m, ms, b, _, _, h3⟩ := items_sample hi
            exact ⟨m :: ms, b, fun rest hr => ⟨trivial, h3 rest hr⟩⟩
          · intro _ _ _ _ _; trivial
        refine .head hg ended_nil (fun r => readRest_eq hi fun e => ht ((atEnd_cons t r).mp e)) ?_
          (fun m x _ _ _ _ _ hm _ r => readRest_eq hi fun e => hm.1 ((atEnd_cons m r).mp e))
          fun x _ m r hm => readRest_eq hi fun e => hm (((atEnd_cons m r).mp e) ▸ .eof)
        refine .inl fun a hne => ?_
        cases hc : take .comma commaName (t :: ts) with
        | ok y =>
          rw [hc] at hne
          have h1 := steady_comma.less _ _ _ hc
          have h2 : SteadyAt (readItems item) Ended y.2 := items_at hi fun b rest' hr' => ih rest' (by
            have h2 := hi.less _ _ _ hr'
            omega)
          have := h2.length hne
          omega
        | err _ => rw [hc] at hne; cases hne
        | panic => rw [hc] at hne; cases hne
        | loop => rw [hc] at hne; cases hne

theorem items_steady {item : List Token → Res (α × List Token)} (hi : Steady item (Upto 0)) (ts) :
    SteadyAt (readItems item) Ended ts :=
  items_at hi fun _ rest _ => rest_at hi _ rest (Nat.le_refl _)

theorem items_less {item : List Token → Res (α × List Token)} (hi : Steady item (Upto 0)) {ts a rest}
    (h : readItems item ts = .ok (a, rest)) : rest.length < ts.length := by
  unfold readItems at h
  cases hit : item ts with
  | ok y =>
    rw [hit] at h
    have h1 := hi.less _ _ _ hit
    have h2 := ((rest_at hi _ y.2 (Nat.le_refl _)).map (fun l => y.1 :: l)).length h
    omega
  | err _ => rw [hit] at h; cases h
  | panic => rw [hit] at h; cases h
  | loop => rw [hit] at h; cases h

theorem list_end {item : List Token → Res (α × List Token)} {ts} (h : Ended ts) : parseList item ts = .ok ([], ts) := by
  unfold parseList; exact if_pos h

theorem list_items {item : List Token → Res (α × List Token)} {ts} (h : ¬ Ended ts) : parseList item ts = readItems item ts := by
  unfold parseList; rw [show atEnd ts = false from Bool.eq_false_iff.mpr h]; rfl

theorem list_steady {item : List Token → Res (α × List Token)} (hi : Steady item (Upto 0)) (ts) :
    SteadyAt (parseList item) Ended ts := by
  by_cases he : Ended ts
  · exact .stop fun r hr => list_end (hr.elim (fun e => ended_head e he) id)
  · cases ts with
    | nil => exact absurd ended_nil he
    | cons t ts =>
      have ht : t.tok ≠ .eof := fun e => he ((atEnd_cons t ts).mpr e)
      refine .head (items_steady hi (t :: ts)) ended_nil (fun r => list_items fun e => ht ((atEnd_cons t r).mp e)) ?_
        (fun m x _ _ _ _ _ hm _ r => list_items fun e => hm.1 ((atEnd_cons m r).mp e))
        fun x _ m r hm => list_items fun e => hm (((atEnd_cons m r).mp e) ▸ .eof)
      refine .inl fun a hne => ?_
      exact Nat.lt_irrefl _ (items_less hi hne)

end Verif.Located
