import Verif.Lemmas.Located.SteadyItems
/-
A line read for its shape only, without the checks of meaning, from left to right.
-/
namespace Verif.Located
open Verif.Spec Verif.Spec.Syntax

variable {α β : Type}

/-- Read and forget -/
def unit (f : List Token → Res (α × List Token)) (ts : List Token) : Res (Unit × List Token) :=
  f ts >>= fun x => .ok ((), x.2)

theorem SteadyAt.unit {f : List Token → Res (α × List Token)} {F ts} (h : SteadyAt f F ts) : SteadyAt (unit f) F ts :=
  h.map fun _ => ()

theorem Steady.unit {f : List Token → Res (α × List Token)} {F} (h : Steady f F) : Steady (unit f) F :=
  h.map fun _ => ()

/-- The path and the properties of an image -/
def scanImage (ts : List Token) : Res (Unit × List Token) := readString ts >>= fun x => unit (parseList parseKeyVal) x.2

/-- `.include` with an include type -/
def scanTyped (ts : List Token) : Res (Unit × List Token) := readIncludeType ts >>= fun x => unit readString x.2

/-- The operands of `.include` -/
def scanIncl : List Token → Res (Unit × List Token)
  | [] => scanTyped []
  | t :: ts =>
    match t.tok with
    | .string _ => .ok ((), ts)
    | .name n => if n = "icon".toList ∨ n = "sprite".toList then scanImage ts else scanTyped (t :: ts)
    | _ => scanTyped (t :: ts)

/-- The operands of `.text` and `.string` -/
def scanSized (ts : List Token) : Res (Unit × List Token) := readNumber ts >>= fun x => unit readString x.2

/-- The operands of `.cnop` -/
def scanCnop (ts : List Token) : Res (Unit × List Token) :=
  parseExpr ts >>= fun x => take .comma commaName x.2 >>= fun y => unit parseExpr y.2

/-- The operands of a directive -/
def scanDir (n : Text) : Option (List Token → Res (Unit × List Token)) :=
  if n = ".byte".toList then some (unit (parseList parseByteValue))
  else if n = ".org".toList then some (unit readNumber)
  else if n = ".word".toList then some (unit (parseList parseExpr))
  else if n = ".text".toList then some scanSized
  else if n = ".string".toList then some scanSized
  else if n = ".include".toList then some scanIncl
  else if n = ".cnop".toList then some scanCnop
  else none

/-- After the name at the start of a line, if it is neither a label nor a directive -/
def scanOther (n : Text) : List Token → Res (Unit × List Token)
  | [] => .ok ((), [])
  | t :: ts =>
    if t.tok = .name "equ".toList then unit parseExpr ts
    else if t.tok = .equals then unit parseExpr ts
    else if isDotted n then .ok ((), t :: ts)
    else unit (parseList parseArg) (t :: ts)

/-- After the name at the start of a line, if it is no label -/
def scanNamed (n : Text) (ts : List Token) : Res (Unit × List Token) :=
  match scanDir n with
  | some f => f ts
  | none => scanOther n ts

/-- After a label -/
def scanLabelled : List Token → Res (Unit × List Token)
  | [] => .ok ((), [])
  | t :: ts =>
    match t.tok with
    | .name n => if isDotted n then .ok ((), t :: ts) else unit (parseList parseArg) ts
    | _ => .ok ((), t :: ts)

/-- After the name at the start of a line -/
def scanName (n : Text) : List Token → Res (Unit × List Token)
  | [] => scanNamed n []
  | c :: cs => if c.tok = .colon then scanLabelled cs else scanNamed n (c :: cs)

/-- A line -/
def scanLine : List Token → Res (Unit × List Token)
  | [] => .ok ((), [])
  | t :: ts =>
    match t.tok with
    | .name n => scanName n ts
    | _ => .ok ((), t :: ts)

theorem list_sample (item : List Token → Res (α × List Token)) : ∃ w b, ∀ rest, Ended rest →
    parseList item (w ++ rest) = .ok (b, rest) := ⟨[], [], fun _ h => list_end h⟩

theorem scanImage_at (ts : List Token) : SteadyAt scanImage Ended ts := by
  refine SteadyAt.bind (g := fun _ r => unit (parseList parseKeyVal) r) (steady_string.at_ ts) any_neutral
    (fun _ rest _ => (list_steady steady_keyVal rest).unit) ?_ ?_
  · intro _
    exact ⟨[], (), fun rest hr => ⟨trivial, by unfold unit; rw [List.nil_append, list_end hr]; rfl⟩⟩
  · intro _ _ _ _ _; trivial

theorem steady_typed : Steady scanTyped Any :=
  steady_kind.bind (g := fun _ r => unit readString r) any_neutral fun _ => steady_string.unit

theorem steady_sized : Steady scanSized Any :=
  steady_number.bind (g := fun _ r => unit readString r) any_neutral fun _ => steady_string.unit

theorem steady_cnop : Steady scanCnop (Upto 0) :=
  steady_expr.bind (g := fun _ r => take .comma commaName r >>= fun y => unit parseExpr y.2) (upto_neutral 0) fun _ =>
    steady_comma.bind (g := fun _ r => unit parseExpr r) any_neutral fun _ => steady_expr.unit

theorem kind_tok {t : Token} {n : Text} (h : t.tok = .name n) (hn : n ∈ ["asm", "bytes", "cpp"].map String.toList)
    (ts : List Token) : ∃ k, readIncludeType (t :: ts) = .ok (k, ts) := by
  unfold readIncludeType
  dsimp only
  rw [h]
  simp only [List.map_cons, List.map_nil, List.mem_cons, List.not_mem_nil, or_false] at hn
  rcases hn with rfl | rfl | rfl
  · exact ⟨_, if_pos rfl⟩
  · exact ⟨_, by rw [if_neg (by decide), if_pos rfl]⟩
  · exact ⟨_, by rw [if_neg (by decide), if_neg (by decide), if_pos rfl]⟩

theorem typed_not {t : Token} (h : ¬ ∃ n, n ∈ ["asm", "bytes", "cpp"].map String.toList ∧ t.tok = .name n) (r : List Token) :
    scanTyped (t :: r) = .err ⟨.expectedTokenNotFound "Include Type".toList, .span t.span⟩ := by
  have h1 : t.tok ≠ .name "asm".toList := fun e => h ⟨_, by simp, e⟩
  have h2 : t.tok ≠ .name "bytes".toList := fun e => h ⟨_, by simp, e⟩
  have h3 : t.tok ≠ .name "cpp".toList := fun e => h ⟨_, by simp, e⟩
  unfold scanTyped readIncludeType
  dsimp only
  rw [if_neg h1, if_neg h2, if_neg h3]
  rfl

/-- `.include` with a first operand that is no string and does not name an image -/
theorem incl_typed {t : Token} (h1 : ∀ s, t.tok ≠ .string s)
    (h2 : ∀ n, t.tok = .name n → ¬ (n = "icon".toList ∨ n = "sprite".toList)) (r : List Token) :
    scanIncl (t :: r) = scanTyped (t :: r) := by
  obtain ⟨k, a, b⟩ := t
  unfold scanIncl
  dsimp only
  cases k with
  | string s => exact absurd rfl (h1 s)
  | name n => exact if_neg (h2 n rfl)
  | _ => rfl

theorem scanIncl_at (ts : List Token) : SteadyAt scanIncl Ended ts := by
  cases ts with
  | nil =>
    obtain ⟨m, ms, a, h1, h2, h3⟩ := steady_typed.sample
    refine .eof rfl ⟨bare (.string []), [], (), rfl, by decide, fun r _ => rfl⟩
  | cons t ts =>
    by_cases hs : ∃ s, t.tok = .string s
    · obtain ⟨s, hs⟩ := hs
      exact .cons (g := fun r => .ok ((), r)) (fun r => by unfold scanIncl; dsimp only; rw [hs]) (.stop fun _ _ => rfl)
    · by_cases hi : ∃ n, t.tok = .name n ∧ (n = "icon".toList ∨ n = "sprite".toList)
      · obtain ⟨n, hn, hi⟩ := hi
        exact .cons (g := scanImage) (fun r => by unfold scanIncl; dsimp only; rw [hn]; exact if_pos hi) (scanImage_at ts)
      · refine .head ((steady_typed.at_ _).weaken fun _ _ => trivial) ended_nil
          (incl_typed (fun s h => hs ⟨s, h⟩) fun n hn hc => hi ⟨n, hn, hc⟩) (.inl fun a => steady_typed.ne _ a) ?_ ?_
        rotate_left
        · intro x hx m r hm
          have hx : x = .expectedTokenNotFound "Include Type".toList := by
            have := hx []
            by_cases hk : ∃ n, n ∈ ["asm", "bytes", "cpp"].map String.toList ∧ t.tok = .name n
            · obtain ⟨n, hn, ht⟩ := hk
              unfold scanTyped at this
              obtain ⟨k, hk⟩ := kind_tok ht hn []
              rw [hk] at this
              injection this with this
              injection this with _ this
              unfold about at this
              split at this <;> cases this
            · rw [typed_not hk] at this
              injection this with this
              injection this with this _
              exact this.symm
          subst hx
          refine incl_typed (fun s hs => hm (hs ▸ .path)) (fun n hn hc => hm (hn ▸ .kind ?_)) r
          rcases hc with rfl | rfl <;> decide
        intro m x r a r' _ _ _ hok
        refine incl_typed (fun s hs => ?_) fun n hn hc => ?_
        · rw [typed_not (by rintro ⟨n, _, e⟩; rw [hs] at e; cases e)] at hok
          cases hok
        · rw [typed_not] at hok
          · cases hok
          · rintro ⟨n', hn', e⟩
            rw [hn] at e
            injection e with e
            subst e
            rcases hc with rfl | rfl <;> exact absurd hn' (by decide)

theorem scanDir_at {n : Text} {f} (h : scanDir n = some f) (ts : List Token) : SteadyAt f Ended ts := by
  unfold scanDir at h
  repeat' split at h
  all_goals first
    | (injection h with h; subst h; first
        | exact (list_steady steady_byte ts).unit
        | exact (steady_number.unit.at_ ts).weaken fun _ _ => trivial
        | exact (list_steady steady_expr ts).unit
        | exact (steady_sized.at_ ts).weaken fun _ _ => trivial
        | exact scanIncl_at ts
        | exact (steady_cnop.at_ ts).weaken fun _ h => ended_upto h)
    | cases h

theorem other_end {n : Text} {r : List Token} (h : Ended r) : scanOther n r = .ok ((), r) := by
  cases r with
  | nil => rfl
  | cons t r =>
    have ht := (atEnd_cons t r).mp h
    unfold scanOther
    dsimp only
    rw [ht, if_neg (by decide), if_neg (by decide)]
    split
    · rfl
    · unfold unit; rw [list_end h]; rfl

theorem wanted_colon {x : Err} (h : Wanted x .colon) : False := by
  cases h

theorem args_first_err {t : Token} {x : Err} (h : readItems parseArg [t] = .err ⟨x, about x t⟩) : x = .invalidExpression := by
  have hstop : ∀ (a : Arg), (Res.ok (a, ([] : List Token)) >>= fun y => readRest parseArg y.2 >>= fun z => .ok (y.1 :: z.1, z.2)) ≠
      .err ⟨x, about x t⟩ := fun a e => by
    rw [Res.ok_bind, readRest_end ended_nil] at e
    cases e
  have hitem : ∀ e, parseArg [t] = .err e → readItems parseArg [t] = .err e := fun e he => by
    unfold readItems; rw [he]; rfl
  have hexpr : parseExpr [] = .err ⟨.unexpectedEof, .nowhere⟩ := by rw [parseExpr_eq, readExpr_nil]
  cases hi : imOf t.tok with
  | some r =>
    unfold readItems parseArg at h
    dsimp only at h
    rw [hi] at h
    exact absurd h (hstop _)
  | none =>
    by_cases hh : t.tok = .hash
    · have : parseArg [t] = .err ⟨.unexpectedEof, .nowhere⟩ := by
        unfold parseArg; dsimp only; rw [hi]; dsimp only; rw [if_pos hh, hexpr]; rfl
      rw [hitem _ this] at h
      injection h with h
      injection h with _ h
      unfold about at h
      split at h <;> cases h
    · have he := parseArg_expr hi hh []
      cases hx : parseExprArg [t] with
      | ok y =>
        have hl := steady_exprArg.less _ _ _ hx
        obtain ⟨y1, y2⟩ := y
        cases y2 with
        | cons _ _ => simp at hl
        | nil =>
          unfold readItems at h
          rw [he, hx] at h
          exact absurd h (hstop _)
      | err e =>
        rw [hitem e (he.trans hx)] at h
        injection h with h
        exact exprArg_first_err (h ▸ hx)
      | panic =>
        have := steady_exprArg.at_ [t]
        unfold SteadyAt at this
        rw [hx] at this
        exact this.elim
      | loop =>
        have := steady_exprArg.at_ [t]
        unfold SteadyAt at this
        rw [hx] at this
        exact this.elim

theorem scanOther_at (n : Text) (ts : List Token) : SteadyAt (scanOther n) Ended ts := by
  by_cases he : Ended ts
  · exact .stop fun r hr => other_end (hr.elim (fun e => ended_head e he) id)
  · cases ts with
    | nil => exact absurd ended_nil he
    | cons t ts =>
      have ht : t.tok ≠ .eof := fun e => he ((atEnd_cons t ts).mpr e)
      by_cases h1 : t.tok = .name "equ".toList
      · exact .cons (g := unit parseExpr) (fun r => by unfold scanOther; exact if_pos h1)
          ((steady_expr.unit.at_ ts).weaken fun _ h => ended_upto h)
      · by_cases h2 : t.tok = .equals
        · exact .cons (g := unit parseExpr) (fun r => by unfold scanOther; dsimp only; rw [if_neg h1]; exact if_pos h2)
            ((steady_expr.unit.at_ ts).weaken fun _ h => ended_upto h)
        · by_cases hd : isDotted n = true
          · refine .stop (a := ()) fun r hr => ?_
            rcases hr with hr | hr
            · cases r with
              | nil => rfl
              | cons u r =>
                injection hr with hr
                subst hr
                unfold scanOther
                dsimp only
                rw [if_neg h1, if_neg h2, if_pos hd]
            · exact other_end hr
          · have heq : ∀ (m : Token) r, m.tok ≠ .name "equ".toList → m.tok ≠ .equals →
                scanOther n (m :: r) = unit (parseList parseArg) (m :: r) := fun m r h1 h2 => by
              unfold scanOther
              dsimp only
              rw [if_neg h1, if_neg h2, if_neg hd]
            refine .head ((list_steady steady_arg (t :: ts)).unit) ended_nil (fun r => heq t r h1 h2) (.inr fun r hr => ?_) ?_ ?_
            · rw [other_end hr]
              unfold unit
              rw [list_end hr]
              rfl
            · intro m x r a r' hw _ hm hok r
              refine heq m r hm.2.1 fun e => ?_
              have hne : ¬ Ended (m :: r) := fun e => hm.1 ((atEnd_cons m _).mp e)
              unfold unit at hok
              rw [list_items fun e => hm.1 ((atEnd_cons m _).mp e)] at hok
              unfold readItems parseArg at hok
              obtain ⟨k, a, b⟩ := m
              dsimp only at e
              subst e
              dsimp only [imOf] at hok
              unfold parseExprArg at hok
              rw [if_neg (by decide), parseExpr_eq, readExpr_cons, readOperand_eq] at hok
              cases hok
            · intro x hx m r hm
              have := hx []
              unfold unit at this
              rw [list_items fun e => ht ((atEnd_cons t []).mp e)] at this
              exact absurd (args_first_err (map_first_err (k := fun _ => ()) this) ▸ .expression) hm

theorem named_end {n : Text} (hd : scanDir n = none) {r : List Token} (h : Ended r) : scanNamed n r = .ok ((), r) := by
  unfold scanNamed
  rw [hd]
  exact other_end h

theorem scanNamed_at (n : Text) (ts : List Token) : SteadyAt (scanNamed n) Ended ts := by
  cases hd : scanDir n with
  | some f => rw [show scanNamed n = f from funext fun r => by unfold scanNamed; rw [hd]]; exact scanDir_at hd ts
  | none =>
    rw [show scanNamed n = scanOther n from funext fun r => by unfold scanNamed; rw [hd]]
    exact scanOther_at n ts

theorem labelled_end {r : List Token} (h : Ended r) : scanLabelled r = .ok ((), r) := by
  cases r with
  | nil => rfl
  | cons t r =>
    unfold scanLabelled
    dsimp only
    rw [(atEnd_cons t r).mp h]

theorem scanLabelled_at (ts : List Token) : SteadyAt scanLabelled Ended ts := by
  cases ts with
  | nil => exact .stop fun r hr => labelled_end (hr.elim (fun e => ended_head e ended_nil) id)
  | cons t ts =>
    by_cases h : ∃ n, t.tok = .name n ∧ ¬ isDotted n = true
    · obtain ⟨n, hn, hd⟩ := h
      exact .cons (g := unit (parseList parseArg)) (fun r => by unfold scanLabelled; dsimp only; rw [hn]; exact if_neg hd)
        (list_steady steady_arg ts).unit
    · refine .stop (a := ()) fun r hr => ?_
      rcases hr with hr | hr
      · cases r with
        | nil => cases hr
        | cons u r =>
          injection hr with hr
          subst hr
          unfold scanLabelled
          dsimp only
          split
          next n hn =>
            rw [if_pos]
            exact Classical.byContradiction fun hd => h ⟨n, hn, hd⟩
          · rfl
      · exact labelled_end hr

theorem scanName_at (n : Text) (ts : List Token) : SteadyAt (scanName n) Ended ts := by
  have hend : ∀ r, Ended r → scanName n r = scanNamed n r := fun r hr => by
    cases r with
    | nil => rfl
    | cons t r =>
      unfold scanName
      dsimp only
      rw [(atEnd_cons t r).mp hr]
      rfl
  have hne : ∀ (m : Token) r, m.tok ≠ .colon → scanName n (m :: r) = scanNamed n (m :: r) := fun m r h => by
    unfold scanName
    exact if_neg h
  cases ts with
  | nil => exact .empty (scanNamed_at n []) rfl hend fun m r hm => hne m r hm.2.2
  | cons c cs =>
    by_cases hc : c.tok = .colon
    · exact .cons (g := scanLabelled) (fun r => by unfold scanName; exact if_pos hc) (scanLabelled_at cs)
    · exact .head (scanNamed_at n _) ended_nil (fun r => hne c r hc) (.inr hend)
        (fun m x _ _ _ hw _ _ _ r => hne m r fun e => wanted_colon (e ▸ hw)) fun x _ m r hm => hne m r fun e => hm (e ▸ .colon)

theorem scanLine_at (ts : List Token) : SteadyAt scanLine Ended ts := by
  have hend : ∀ r, Ended r → scanLine r = .ok ((), r) := fun r hr => by
    cases r with
    | nil => rfl
    | cons t r =>
      unfold scanLine
      dsimp only
      rw [(atEnd_cons t r).mp hr]
  cases ts with
  | nil => exact .stop fun r hr => hend _ (hr.elim (fun e => ended_head e ended_nil) id)
  | cons t ts =>
    by_cases h : ∃ n, t.tok = .name n
    · obtain ⟨n, hn⟩ := h
      exact .cons (g := scanName n) (fun r => by unfold scanLine; dsimp only; rw [hn]) (scanName_at n ts)
    · refine .stop (a := ()) fun r hr => ?_
      rcases hr with hr | hr
      · cases r with
        | nil => cases hr
        | cons u r =>
          injection hr with hr
          subst hr
          unfold scanLine
          dsimp only
          split
          next n hn => exact absurd ⟨n, hn⟩ h
          · rfl
      · exact hend _ hr

end Verif.Located
