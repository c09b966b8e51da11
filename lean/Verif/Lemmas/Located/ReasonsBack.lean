import Verif.Lemmas.Located.Reasons
/-
The first thing that is wrong with a program is reported: the other direction.
-/
namespace Verif.Located
open Verif.Spec Verif.Spec.Places
open Verif.Spec.Reasons hiding Defines

theorem erase_eq_ok {α β : Type} {f : α → β} {r : Res α} {b : β} (h : r.erase f = .ok b) : ∃ a, r = .ok a ∧ f a = b := by
  cases r with
  | ok a => exact ⟨a, rfl, Verif.Res.ok.inj h⟩
  | err => cases h
  | panic => cases h
  | loop => cases h

theorem runSteps_append {σ : Type} {step : σ → Stmt → Res σ} : ∀ {xs ys : List Stmt} {s s' : σ},
    runSteps step xs s = .ok s' → runSteps step (xs ++ ys) s = runSteps step ys s'
  | [], _, _, _, h => by cases h; rfl
  | x :: xs, ys, s, s', h => by
    simp only [runSteps] at h
    obtain ⟨s1, h1, h2⟩ := Res.bind_eq_ok.mp h
    simp only [List.cons_append, runSteps, h1, Res.ok_bind]
    exact runSteps_append h2

theorem runSteps_fail {σ : Type} {step : σ → Stmt → Res σ} {before after : List Stmt} {d : Stmt} {s s' : σ} {e : Error}
    (h : runSteps step before s = .ok s') (hd : step s' d = .err e) : runSteps step (before ++ d :: after) s = .err e := by
  rw [runSteps_append h]
  simp only [runSteps, hd]
  rfl

/-! ### Labels -/

/-- The labels so far are known, with their places. -/
structure LabelsFound (pre : List Stmt) (s : LabelState) : Prop where
  globals : ∀ sp n, .label sp n ∈ pre → dotted n = false → ∃ v, s.globals.lookup (lower n) = some ⟨sp, v⟩
  locals : ∀ a sp n b, pre = a ++ .label sp n :: b → dotted n = true → (∀ sp g, Stmt.label sp g ∈ b → dotted g = true) →
    ∃ v, s.local_.lookup (lower n) = some ⟨sp, v⟩

theorem addName_lookup {n : Text} {v : NameValue} {l l' : List (Text × NameValue)} (h : addName n v l = .ok l') :
    l'.lookup n = some v ∧ ∀ k w, l.lookup k = some w → l'.lookup k = some w := by
  unfold addName at h
  split at h
  · cases h
  · rename_i hn
    cases h
    refine ⟨by simp, fun k w hk => ?_⟩
    rw [List.lookup_cons]
    split
    · rename_i he
      rw [beq_iff_eq] at he
      subst he
      rw [hn] at hk
      cases hk
    · exact hk

theorem split_last {pre a b : List Stmt} {x y : Stmt} (h : pre ++ [x] = a ++ y :: b) :
    (b = [] ∧ pre = a ∧ x = y) ∨ ∃ b', b = b' ++ [x] ∧ pre = a ++ y :: b' := by
  rcases List.eq_nil_or_concat b with rfl | ⟨b', z, rfl⟩
  · obtain ⟨h1, h2⟩ := List.append_inj' h rfl
    exact .inl ⟨rfl, h1, by simpa using h2⟩
  · rw [List.concat_eq_append] at h ⊢
    rw [← List.cons_append, ← List.append_assoc] at h
    obtain ⟨h1, h2⟩ := List.append_inj' h rfl
    have : x = z := by simpa using h2
    subst this
    exact .inr ⟨b', rfl, h1⟩

theorem LabelsFound.same {pre : List Stmt} {s s' : LabelState} {x : Stmt} (h : LabelsFound pre s)
    (hx : ∀ sp n, x ≠ .label sp n) (hg : s'.globals = s.globals) (hl : s'.local_ = s.local_) :
    LabelsFound (pre ++ [x]) s' := by
  constructor
  · intro sp n hm hd
    rw [hg]
    rcases List.mem_append.mp hm with hm | hm
    · exact h.globals sp n hm hd
    · exact absurd (List.mem_singleton.mp hm).symm (hx _ _)
  · intro a sp n b he hd hb
    rw [hl]
    rcases split_last he with ⟨_, _, h1⟩ | ⟨b', rfl, rfl⟩
    · exact absurd h1 (hx _ _)
    · exact h.locals a sp n b' rfl hd fun sp g hm => hb sp g (by simp [hm])

theorem labelStep_found {m : Mode} {pre : List Stmt} {x : Stmt} {s s' : LabelState} (hi : LabelsFound pre s)
    (h : labelStep m s x = .ok s') : LabelsFound (pre ++ [x]) s' := by
  cases x with
  | dir d =>
    simp only [labelStep] at h
    obtain ⟨size, _, h⟩ := Res.bind_eq_ok.mp h
    obtain ⟨pos, _, h⟩ := Res.bind_eq_ok.mp h
    cases h
    exact hi.same (by simp) rfl rfl
  | label sp n =>
    simp only [labelStep, isDotted_eq] at h
    split at h
    · rename_i hd
      obtain ⟨l, h1, h⟩ := Res.bind_eq_ok.mp h
      cases h
      obtain ⟨h2, h3⟩ := addName_lookup h1
      constructor
      · intro sp' n' hm hd'
        rcases List.mem_append.mp hm with hm | hm
        · exact hi.globals sp' n' hm hd'
        · cases List.mem_singleton.mp hm
          rw [hd] at hd'
          cases hd'
      · intro a sp' n' b he hd' hb
        rcases split_last he with ⟨_, _, h4⟩ | ⟨b', rfl, rfl⟩
        · cases h4
          exact ⟨_, h2⟩
        · obtain ⟨v, hv⟩ := hi.locals a sp' n' b' rfl hd' fun sp g hm => hb sp g (by simp [hm])
          exact ⟨v, h3 _ _ hv⟩
    · rename_i hd
      obtain ⟨l, h1, h⟩ := Res.bind_eq_ok.mp h
      cases h
      obtain ⟨h2, h3⟩ := addName_lookup h1
      constructor
      · intro sp' n' hm hd'
        rcases List.mem_append.mp hm with hm | hm
        · obtain ⟨v, hv⟩ := hi.globals sp' n' hm hd'
          exact ⟨v, h3 _ _ hv⟩
        · cases List.mem_singleton.mp hm
          exact ⟨_, h2⟩
      · intro a sp' n' b he hd' hb
        exfalso
        rcases split_last he with ⟨_, _, h4⟩ | ⟨b', rfl, rfl⟩
        · cases h4
          exact hd hd'
        · exact hd (hb sp n (by simp))
  | instr sp i =>
    simp only [labelStep] at h
    obtain ⟨pos, _, h⟩ := Res.bind_eq_ok.mp h
    cases h
    exact hi.same (by simp) rfl rfl
  | «variable» | «alias» | comment => cases h; exact hi.same (by simp) rfl rfl
  | macroCall => cases h

theorem labels_found {m : Mode} {xs : List Stmt} {s : LabelState}
    (h : runSteps (labelStep m) xs ⟨[], [], [], [], 0⟩ = .ok s) : LabelsFound xs s :=
  runSteps_inv (I := LabelsFound) (pre := []) (fun _ _ _ _ => labelStep_found)
    ⟨fun _ _ hm => by (cases hm), fun a _ _ _ he => by simp at he⟩ h

theorem run_of_laidOut {m : Mode} {xs : List Stmt} {ps : List Placed} (hs : Source (bare xs)) (hl : LaidOut xs ps)
    (hf : Fits ps) : ∃ s', runSteps (labelStep m) xs ⟨[], [], [], [], 0⟩ = .ok s' := by
  have he := erase_runSteps (erase_labelStep m) xs ⟨[], [], [], [], 0⟩
  rcases label_run m (bare xs) 0 [] [] ps _ LInv.init hs.1 hl.1 (by omega) hf with ⟨s', _, h2, _⟩ | ⟨n, h1, h2⟩
  · obtain ⟨a, ha, _⟩ := erase_eq_ok (he.trans h2)
    exact ⟨a, ha⟩
  · exact absurd hl.2 (not_distinct (by simpa using h1))

theorem evalCnopExpr_number {e : Expr} (h : IsNumber e) : ∃ v, evalCnopExpr e = .ok v := by
  obtain ⟨s, v, r, rfl⟩ := h
  exact ⟨_, rfl⟩

theorem evalCnopExpr_other {e : Expr} (h : ¬ IsNumber e) : evalCnopExpr e = .err ⟨.mustBeLiteralNumber, .span e.span⟩ := by
  cases e <;> first | rfl | exact absurd ⟨_, _, _, rfl⟩ h

theorem wrong_cnop {m : Mode} {pos : Int} {s : Span} {a k e : Expr} (h : e = a ∨ (IsNumber a ∧ e = k)) (hn : ¬ IsNumber e) :
    (Directive.cnop s a k).size m pos = .err ⟨.mustBeLiteralNumber, .span e.span⟩ := by
  simp only [Directive.size, evalCnop]
  rcases h with rfl | ⟨ha, rfl⟩
  · rw [evalCnopExpr_other hn]; rfl
  · obtain ⟨v, hv⟩ := evalCnopExpr_number ha
    rw [hv, Res.ok_bind, evalCnopExpr_other hn]; rfl

theorem computeLabels_err {m : Mode} {stmts : List Stmt} {e : Error}
    (h : runSteps (labelStep m) stmts ⟨[], [], [], [], 0⟩ = .err e) : assemble m stmts = .err e := by
  unfold assemble computeNames computeLabels
  rw [h]; rfl

theorem source_front {before after : List Stmt} (h : Source (bare (before ++ after))) : Source (bare before) := by
  rw [bare_append] at h
  exact source_left h

theorem assemble_label {m : Mode} {stmts : List Stmt} {x : Err} {p : Place} {before after : List Stmt} {d : Stmt}
    {ps : List Placed} (hs : Source (bare stmts)) (hb : Below stmts) (he : stmts = before ++ d :: after)
    (hl : LaidOut before ps) (h : ∀ s, LabelsFound before s → labelStep m s d = .err ⟨x, p⟩) :
    assemble m stmts = .err ⟨x, p⟩ := by
  subst he
  obtain ⟨s', hr⟩ := run_of_laidOut (m := m) (source_front hs) hl (hb before _ ps rfl hl.1)
  exact computeLabels_err (runSteps_fail hr (h s' (labels_found hr)))

/-! ### Variables -/

/-- The names so far are known, with their places. -/
def NamesFound (all pre : List Stmt) (s : NameState) : Prop :=
  (∀ sp n, .label sp n ∈ all → dotted n = false → ∃ v, s.globals.lookup (lower n) = some ⟨sp, v⟩) ∧
  ∀ d sp n e, d ∈ pre → Reasons.Defines d sp n e → ∃ v, s.globals.lookup (lower n) = some ⟨sp, v⟩

theorem NamesFound.more {all pre : List Stmt} {s s' : NameState} (h : NamesFound all pre s) {x : Stmt}
    (hx : ∀ sp n e, ¬ Reasons.Defines x sp n e) (hs : s'.globals = s.globals) : NamesFound all (pre ++ [x]) s' := by
  unfold NamesFound
  rw [hs]
  refine ⟨h.1, fun d sp n e hd hd' => ?_⟩
  rcases List.mem_append.mp hd with hd | hd
  · exact h.2 d sp n e hd hd'
  · cases List.mem_singleton.mp hd
    exact absurd hd' (hx _ _ _)

theorem nameStep_found {m : Mode} {all pre : List Stmt} {x : Stmt} {s s' : NameState} (hi : NamesFound all pre s)
    (h : nameStep m s x = .ok s') : NamesFound all (pre ++ [x]) s' := by
  have define : ∀ {sp n e}, Reasons.Defines x sp n e → defineName m s sp n e = .ok s' → NamesFound all (pre ++ [x]) s' := by
    intro sp n e hd h
    unfold defineName at h
    obtain ⟨v, _, h⟩ := Res.bind_eq_ok.mp h
    obtain ⟨g, h1, h⟩ := Res.bind_eq_ok.mp h
    cases h
    obtain ⟨h2, h3⟩ := addName_lookup h1
    unfold NamesFound
    rw [moveTo_globals]
    refine ⟨fun sp n hm hn => ?_, fun d sp' n' e' hm hd' => ?_⟩
    · obtain ⟨v, hv⟩ := hi.1 sp n hm hn
      exact ⟨v, h3 _ _ hv⟩
    · rcases List.mem_append.mp hm with hm | hm
      · obtain ⟨v, hv⟩ := hi.2 d sp' n' e' hm hd'
        exact ⟨v, h3 _ _ hv⟩
      · cases List.mem_singleton.mp hm
        have : sp' = sp ∧ n' = n := by cases hd <;> cases hd' <;> exact ⟨rfl, rfl⟩
        obtain ⟨rfl, rfl⟩ := this
        exact ⟨_, h2⟩
  cases x with
  | dir d =>
    simp only [nameStep] at h
    obtain ⟨size, _, h⟩ := Res.bind_eq_ok.mp h
    obtain ⟨pos, _, h⟩ := Res.bind_eq_ok.mp h
    cases h
    exact hi.more (by intro _ _ _ h; cases h) rfl
  | instr sp i =>
    simp only [nameStep] at h
    obtain ⟨pos, _, h⟩ := Res.bind_eq_ok.mp h
    cases h
    exact hi.more (by intro _ _ _ h; cases h) rfl
  | label | comment => cases h; exact hi.more (by intro _ _ _ h; cases h) rfl
  | macroCall => cases h
  | «variable» sp n e => exact define .variable h
  | «alias» sp n e => exact define .alias h

theorem labels_of_laidOut {m : Mode} {stmts : List Stmt} {ps : List Placed} (hs : Source (bare stmts)) (hl : LaidOut stmts ps)
    (hf : Fits ps) : ∃ labels, computeLabels m stmts = .ok labels ∧ eraseNames labels.1 = (globalLabels ps).reverse ∧
      NamesFound stmts [] ⟨labels.1, 0, 0⟩ ∧
      ∀ q ∈ ps, (labels.2.map fun x => (x.1, eraseNames x.2)).lookup q.scope = some (localLabels q.scope ps).reverse := by
  obtain ⟨s', hr⟩ := run_of_laidOut (m := m) hs hl hf
  have hfound := labels_found hr
  have he := erase_computeLabels m stmts
  rcases computeLabels_spec m hs.1 hl.1 hf with ⟨_, locals, h2, hlk⟩ | ⟨n, h1, h2⟩
  rotate_left
  · exact absurd hl.2 (not_distinct h1)
  obtain ⟨labels, h3, h4⟩ := erase_eq_ok (he.trans h2)
  have hlab : labels.1 = s'.globals := by
    have h5 := h3
    unfold computeLabels at h5
    rw [hr, Res.ok_bind] at h5
    split at h5 <;> (cases h5; rfl)
  refine ⟨labels, h3, congrArg Prod.fst h4, ⟨?_, fun d _ _ _ hd => by cases hd⟩, ?_⟩
  · intro sp n hm hd
    show ∃ v, labels.1.lookup (lower n) = some ⟨sp, v⟩
    rw [hlab]
    exact hfound.globals sp n hm hd
  · have h5 : (labels.2.map fun x => (x.1, eraseNames x.2)) = locals := congrArg Prod.snd h4
    rw [h5]
    exact hlk

/-- The run over the statements before a definition. -/
theorem names_of_valued {m : Mode} {before after : List Stmt} {ps : List Placed} {g : List (Text × NameValue)}
    {vars : List (Text × Int)} (hl : LaidOut (before ++ after) ps) (hf : Fits ps) (hv : Valued m ps before vars)
    (hg : eraseNames g = (globalLabels ps).reverse) (hn : NamesFound (before ++ after) [] ⟨g, 0, 0⟩) :
    ∃ s, runSteps (nameStep m) before ⟨g, 0, 0⟩ = .ok s ∧ mapEnv s.globals = (fun y => (globalLabels ps ++ vars).lookup y) ∧
      NamesFound (before ++ after) before s := by
  have hlay := hl.1
  rw [bare_append] at hlay
  obtain ⟨ps1, ps2, sc', hl1, hl2, hps, _⟩ := place_append hlay
  have hf1 : Fits ps1 := fun q hq => hf q (by simp [hps, hq])
  obtain ⟨p', hrun⟩ := name_run_init m hl1 hf1 (globalLabels ps).reverse
  rw [(varsF_env hl.2).mpr ⟨vars, hv.1, hv.2, rfl⟩, Verif.Res.ok_bind] at hrun
  have he := erase_runSteps (erase_nameStep m) before ⟨g, 0, 0⟩
  have hz : (⟨g, 0, 0⟩ : NameState).erase = ⟨(globalLabels ps).reverse, 0, 0⟩ := by
    show (⟨eraseNames g, 0, 0⟩ : Verif.NameState) = _
    rw [hg]
  rw [hz] at he
  obtain ⟨s, h1, h2⟩ := erase_eq_ok (he.trans hrun)
  refine ⟨s, h1, ?_, ?_⟩
  · have : eraseNames s.globals = (globalLabels ps ++ vars).reverse := congrArg Verif.NameState.globals h2
    rw [erase_mapEnv, this, mapEnv_reverse hv.2]
  · have := runSteps_inv (I := NamesFound (before ++ after)) (pre := []) (fun _ _ _ _ => nameStep_found) hn h1
    simpa using this

theorem assemble_name {m : Mode} {before after : List Stmt} {d : Stmt} {x : Err} {p : Place} {ps : List Placed}
    {vars : List (Text × Int)} {sp : Span} {n : Text} {e : Expr} (hs : Source (bare (before ++ d :: after)))
    (hb : Below (before ++ d :: after)) (hd : Reasons.Defines d sp n e) (hl : LaidOut (before ++ d :: after) ps)
    (hv : Valued m ps before vars)
    (h : ∀ s, mapEnv s.globals = (fun y => (globalLabels ps ++ vars).lookup y) → NamesFound (before ++ d :: after) before s →
      defineName m s sp n e = .err ⟨x, p⟩) : assemble m (before ++ d :: after) = .err ⟨x, p⟩ := by
  have hf := hb _ [] ps (by simp) hl.1
  obtain ⟨labels, h1, h2, h3, _⟩ := labels_of_laidOut (m := m) hs hl hf
  obtain ⟨s, h4, h5, h6⟩ := names_of_valued hl hf hv h2 h3
  have h7 : nameStep m s d = .err ⟨x, p⟩ := by
    cases hd <;> exact h s h5 h6
  unfold assemble computeNames
  rw [h1, Res.ok_bind, runSteps_fail h4 h7]
  rfl

theorem names_of_all {m : Mode} {stmts : List Stmt} {ps : List Placed} {vars : List (Text × Int)} (hs : Source (bare stmts))
    (hl : LaidOut stmts ps) (hf : Fits ps) (hv : Valued m ps stmts vars) :
    ∃ locals, computeNames m stmts = .ok ((reach ps : Int) + 1, ⟨(globalLabels ps ++ vars).reverse, locals⟩) ∧
      ∀ q ∈ ps, locals.lookup q.scope = some (localLabels q.scope ps).reverse := by
  have he := erase_computeNames m stmts
  rcases computeNames_spec m hs.1 hl.1 hf with ⟨_, locals, hlk, h2⟩ | ⟨n, h1, h2⟩
  rotate_left
  · exact absurd hl.2 (not_distinct h1)
  rw [(varsF_env hl.2).mpr ⟨vars, hv.1, hv.2, rfl⟩, Verif.Res.ok_bind] at h2
  obtain ⟨a, h3, h4⟩ := erase_eq_ok (he.trans h2)
  exact ⟨locals, by rw [h3]; exact congrArg Res.ok h4, hlk⟩

/-! ### Bytes -/

theorem inExpr_err {m : Mode} {env : Env} {unfit : Int → Err → Prop} {e : Expr} {x : Err} {p : Place}
    (h : InExpr m env unfit e x p) : e.eval m env = .err ⟨x, p⟩ ∨ ∃ v, e.eval m env = .ok v ∧ unfit v x ∧ p = .span e.span := by
  rcases h with h | ⟨v, h1, h2⟩
  · exact .inl (eval_err_iff.mpr h)
  · exact .inr ⟨v, eval_of_erased h1, h2⟩

theorem writeByteValues_fail {m : Mode} {env : Env} {e : Expr} {after : List ByteValue} {x : Err} {p : Place}
    (he : InExpr m env UnfitByte e x p) : ∀ {before : List ByteValue} {bs out : List UInt8} {pos : Nat},
    ByteItems m env (before.map ByteValue.erase) bs → pos + byteCount (before.map ByteValue.erase) ≤ out.length →
    writeByteValues m env out pos (before ++ .expr e :: after) = .err ⟨x, p⟩
  | [], _, out, pos, _, _ => by
    simp only [List.nil_append, writeByteValues]
    rcases inExpr_err he with h | ⟨v, h, hu, rfl⟩
    · rw [h]; rfl
    · cases hu with
      | mk hu => rw [h, Res.ok_bind, if_pos (by omega)]; rfl
  | .expr e' :: before, _, out, pos, hb, hr => by
    simp only [List.map_cons, ByteValue.erase] at hb hr
    cases hb with
    | expr h1 h2 h3 _ h5 =>
      simp only [byteCount] at hr
      simp only [List.cons_append, writeByteValues, eval_of_erased h1, Res.ok_bind]
      rw [if_neg (by omega), Verif.writeByte, if_pos (by omega)]
      exact writeByteValues_fail he h5 (by simp; omega)
  | .str sp s :: before, _, out, pos, hb, hr => by
    simp only [List.map_cons, ByteValue.erase] at hb hr
    cases hb with
    | str h5 =>
      simp only [byteCount] at hr
      simp only [List.cons_append, writeByteValues]
      rw [writeBytes_eq _ _ _ (by omega)]
      exact writeByteValues_fail he h5 (by simp; omega)

theorem writeWords_fail {m : Mode} {env : Env} {e : Expr} {after : List Expr} {x : Err} {p : Place}
    (he : InExpr m env UnfitWord e x p) : ∀ {before : List Expr} {bs out : List UInt8} {pos : Nat},
    WordItems m env (before.map Expr.erase) bs → pos + 2 * before.length ≤ out.length →
    writeWords m env out pos (before ++ e :: after) = .err ⟨x, p⟩
  | [], _, out, pos, _, _ => by
    simp only [List.nil_append, writeWords]
    rcases inExpr_err he with h | ⟨v, h, hu, rfl⟩
    · rw [h]; rfl
    · cases hu with
      | mk hu => rw [h, Res.ok_bind, if_pos (by omega)]; rfl
  | e' :: before, _, out, pos, hb, hr => by
    simp only [List.map_cons] at hb
    simp only [List.length_cons] at hr
    cases hb with
    | cons h1 h2 h3 _ h5 =>
      simp only [List.cons_append, writeWords, eval_of_erased h1, Res.ok_bind]
      rw [if_neg (by omega), Verif.writeByte, if_pos (by omega)]
      simp only [Res.lift, Res.ok_bind]
      rw [Verif.writeByte, if_pos (by simp; omega)]
      exact writeWords_fail he h5 (by simp; omega)

theorem byteCount_front : ∀ (a b : List Verif.ByteValue), byteCount a ≤ byteCount (a ++ b)
  | [], _ => Nat.zero_le _
  | .expr e :: a, b => by
    have := byteCount_front a b
    simp only [List.cons_append, byteCount]; omega
  | .str s :: a, b => by
    have := byteCount_front a b
    simp only [List.cons_append, byteCount]; omega

theorem genStep_fail {m : Mode} {names : Names} {locals : List (Text × Int)} {p p' : Nat} {sc : Text} {d : Stmt}
    {out : List UInt8} {x : Err} {pl : Place} (ha : advance p d.erase = some p')
    (hp' : p' < 2147483648) (hlk : names.locals.lookup sc = some locals) (hout : p' ≤ out.length)
    (h : Unemittable m (namesGet names.globals locals) p d x pl) : genStep m names ⟨p, sc, out⟩ d = .err ⟨x, pl⟩ := by
  have henv : names.asEnv sc = .ok (namesGet names.globals locals) := by
    unfold Names.asEnv; rw [hlk]
  have lift_ok : ∀ {α : Type} (a : α), (Res.lift (.ok a) : Res α) = .ok a := fun a => rfl
  cases h with
  | @byte s before e after bs x q h1 h2 =>
    simp only [Stmt.erase, Directive.erase, advance, Option.some.injEq, List.map_append] at ha
    have := byteCount_front (before.map ByteValue.erase) ((ByteValue.expr e :: after).map ByteValue.erase)
    simp only [genStep, henv, lift_ok, Res.ok_bind]
    rw [writeByteValues_fail h2 h1 (by omega)]; rfl
  | @word s before e after bs x q h1 h2 =>
    simp only [Stmt.erase, Directive.erase, advance, Option.some.injEq, List.length_map, List.length_append] at ha
    simp only [genStep, henv, lift_ok, Res.ok_bind]
    rw [writeWords_fail h2 h1 (by omega)]; rfl
  | text h1 => simp only [genStep, writePadded]; rw [if_pos h1]; rfl
  | string h1 => simp only [genStep, writePadded]; rw [if_pos h1]; rfl
  | org h1 => simp only [genStep]; rw [if_pos h1]; rfl
  | @instr s i x q h1 =>
    simp only [Stmt.erase, advance, Option.some.injEq, form_erase] at ha
    have hsz : (row i.form).size = i.size := by rw [docSize_eq, size_eq]
    rw [hsz] at ha h1
    simp only [genStep]
    rw [addUsize_nat m (by omega), lift_ok, Res.ok_bind]
    unfold evalInstr
    rw [henv, lift_ok, Res.ok_bind, (evalInstr_err_iff (by omega)).mpr h1]
    rfl

theorem assemble_bytes {m : Mode} {before after : List Stmt} {d : Stmt} {x : Err} {p : Place} {ps qs rest : List Placed}
    {q : Placed} {vars : List (Text × Int)} {ws : List (Nat × List UInt8)} (hs : Source (bare (before ++ d :: after)))
    (hb : Below (before ++ d :: after)) (hc : m = .wrapping ∨ CnopForward ps) (hl : LaidOut (before ++ d :: after) ps)
    (hv : Valued m ps (before ++ d :: after) vars) (hps : ps = qs ++ q :: rest) (hqs : qs.map (·.stmt) = bare before)
    (hw : EmitsAll m (globalLabels ps ++ vars) ps qs ws)
    (h : Unemittable m (meaning (globalLabels ps ++ vars) (localLabels q.scope ps)) q.addr d x p) :
    assemble m (before ++ d :: after) = .err ⟨x, p⟩ := by
  have hf := hb _ [] ps (by simp) hl.1
  obtain ⟨locals, h1, hlk⟩ := names_of_all hs hl hf hv
  have hlay := hl.1
  have hs1 := hs
  rw [bare_append] at hlay hs1
  obtain ⟨ps1, ps2, sc', hl1, hl2, hps', hsc⟩ := place_append hlay
  obtain ⟨p', rest', ha, _, rfl⟩ := place_cons hl2
  have hlen : qs.length = ps1.length := by
    have e1 := congrArg List.length hqs
    have e2 := congrArg List.length (place_stmts hl1)
    simp only [List.length_map] at e1 e2
    omega
  obtain ⟨rfl, hcons⟩ := List.append_inj (hps.symm.trans hps') hlen
  injection hcons with hq hrest
  subst hq hrest
  have hf1 : Fits qs := fun q hq => hf q (by simp [hps, hq])
  have henv : ∀ s, namesGet (globalLabels ps ++ vars).reverse (localLabels s ps).reverse =
    meaning (globalLabels ps ++ vars) (localLabels s ps) := fun s => namesGet_reverse hv.2 (hl.2.2 s)
  obtain ⟨sc2, hrun⟩ := gen_run m ⟨(globalLabels ps ++ vars).reverse, locals⟩
    (fun s => (localLabels s ps).reverse) (bare before) 0 [] qs (List.replicate (reach ps) 0) (source_left hs1).1 hl1 (by omega) hf1
    (fun q hq => hlk q (by simp [hps, hq]))
    (fun q hq => by rw [List.length_replicate]; exact le_reach (by simp [hps, hq]))
    (hc.imp id fun hc q hq => hc q (by simp [hps, hq]))
  rw [(emitAllF_ok m henv _ _).mpr hw, Verif.Res.ok_bind] at hrun
  obtain ⟨_, _, e, _⟩ := gen_run_ok m ⟨(globalLabels ps ++ vars).reverse, locals⟩
    (fun s => (localLabels s ps).reverse) (bare before) 0 [] qs _ _ (source_left hs1).1 hl1 (by omega) hf1
    (fun q hq => hlk q (by simp [hps, hq]))
    (fun q hq => by rw [List.length_replicate]; exact le_reach (by simp [hps, hq])) hrun
  injection e with _ e _
  subst e
  have he := erase_runSteps (f := fun s => s) (erase_genStep m ⟨(globalLabels ps ++ vars).reverse, locals⟩) before
      ⟨0, [], List.replicate (reach ps) 0⟩
  obtain ⟨s', h2, rfl⟩ := erase_eq_ok (he.trans hrun)
  have hend : (⟨stop 0 qs, sc', d.erase⟩ : Placed).end_ = p' := end_eq ha
  have hq : (⟨stop 0 qs, sc', d.erase⟩ : Placed) ∈ ps := by simp [hps]
  have hp' : p' < 2147483648 := by
    have := hf _ hq
    rw [hend] at this
    omega
  rw [← henv] at h
  unfold assemble
  rw [h1, Res.ok_bind]
  simp only
  rw [if_neg (by omega), show ((reach ps : Int) + 1 - 1).toNat = reach ps by omega]
  rw [runSteps_fail h2 (genStep_fail (names := ⟨(globalLabels ps ++ vars).reverse, locals⟩) (sc := bare before |>.foldl nextScope []) ha hp' (hsc ▸ hlk _ hq) ?_ h)]
  · rfl
  · have := le_reach hq
    rw [hend] at this
    simpa using this

/-- The first thing that is wrong with a program is reported. -/
theorem wrong_assemble {m : Mode} {stmts : List Stmt} {x : Err} {p : Place} (hs : Source (bare stmts)) (hb : Below stmts)
    (hc : m = .wrapping ∨ ∀ ps, layout (bare stmts) = some ps → CnopForward ps) (h : Wrong m stmts x p) :
    assemble m stmts = .err ⟨x, p⟩ := by
  cases h with
  | @cnop before s a k after e ps h1 h2 h3 h4 =>
    refine assemble_label hs hb h1 h2 fun st _ => ?_
    simp only [labelStep]
    rw [wrong_cnop h3 h4]; rfl
  | @label before s n between s' n' after ps h1 h2 h3 h4 =>
    refine assemble_label (before := before ++ .label s n :: between) (d := .label s' n') (after := after) hs hb (by rw [h1]; simp) h2 fun st hf => ?_
    simp only [labelStep, isDotted_eq]
    rcases h4 with ⟨h4, h5⟩ | ⟨h4, h5, h6⟩
    · rw [h5, if_neg (by simp)]
      obtain ⟨v, hv⟩ := hf.globals s n (by simp) h4
      rw [h3] at hv
      unfold addName
      rw [hv]; rfl
    · rw [h5, if_pos rfl]
      obtain ⟨v, hv⟩ := hf.locals before s n between rfl h4 h6
      rw [h3] at hv
      unfold addName
      rw [hv]; rfl
  | @value before d after s n e ps vars x p h1 h2 h3 h4 h5 =>
    subst h1
    refine assemble_name hs hb h2 h3 h4 fun st he _ => ?_
    unfold defineName
    rw [he, eval_err_iff.mpr h5]; rfl
  | @taken before d after s n e ps vars v s' h1 h2 h3 h4 h5 h6 =>
    subst h1
    refine assemble_name hs hb h2 h3 h4 fun st he hn => ?_
    unfold defineName
    rw [he, eval_of_erased h5, Res.ok_bind]
    have : ∃ v, st.globals.lookup (lower n) = some ⟨s', v⟩ := by
      rcases h6 with ⟨n', h6, h7, h8⟩ | ⟨d', n', e', h6, h7, h8⟩
      · rw [← h8]; exact hn.1 _ _ h6 h7
      · rw [← h8]; exact hn.2 _ _ _ _ h6 h7
    obtain ⟨w, hw⟩ := this
    unfold addName
    rw [hw]; rfl
  | @bytes before d after ps vars qs q rest ws x p h1 h2 h3 h4 h5 h6 h7 h8 =>
    subst h1
    exact assemble_bytes hs hb (hc.imp id fun hc => hc _ h2.1) h2 h3 h4 h5 h7 h8

end Verif.Located
