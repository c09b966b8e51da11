import Verif.Lemmas.AsmMore
/-
Helper lemmas: adding a definition whose name is fresh and unused.
-/
namespace Verif
open Spec

/-- Outcomes related by `R`: same kind of outcome, same error, related results. -/
def RelRes {α β : Type} (R : α → β → Prop) : Res α → Res β → Prop
  | .ok a, .ok b => R a b
  | .err e, .err e' => e = e'
  | .panic, .panic => True
  | .loop, .loop => True
  | _, _ => False

theorem RelRes.refl {α : Type} {R : α → α → Prop} (h : ∀ a, R a a) (x : Res α) : RelRes R x x := by
  cases x <;> simp [RelRes, h]

theorem RelRes.bind {α β γ δ : Type} {R : α → β → Prop} {S : γ → δ → Prop} {x : Res α} {y : Res β}
    {f : α → Res γ} {g : β → Res δ} (h : RelRes R x y) (hf : ∀ a b, R a b → RelRes S (f a) (g b)) :
    RelRes S (x >>= f) (y >>= g) := by
  cases x <;> cases y <;> simp_all [RelRes]

theorem RelRes.eq {α : Type} {x y : Res α} (h : RelRes (· = ·) x y) : x = y := by
  cases x <;> cases y <;> simp_all [RelRes]

theorem runSteps_rel {σ τ : Type} {R : σ → τ → Prop} {f : σ → Stmt → Res σ} {g : τ → Stmt → Res τ} :
    ∀ {xs : List Stmt}, (∀ x ∈ xs, ∀ s t, R s t → RelRes R (f s x) (g t x)) → ∀ {s t}, R s t →
    RelRes R (runSteps f xs s) (runSteps g xs t)
  | [], _, s, t, h => h
  | x :: xs, hx, s, t, h => by
    simp only [runSteps]
    exact RelRes.bind (hx x (by simp) s t h) fun a b hab => runSteps_rel (fun y hy => hx y (by simp [hy])) hab

/-- Bindings that agree except on `k`. -/
def AgreeOff (k : Text) (a b : List (Text × Int)) : Prop := ∀ x, x ≠ k → a.lookup x = b.lookup x

theorem AgreeOff.cons {k : Text} {a b : List (Text × Int)} (h : AgreeOff k a b) (n : Text) (v : Int) :
    AgreeOff k ((n, v) :: a) ((n, v) :: b) := by
  intro x hx
  simp only [List.lookup_cons, h x hx]

theorem AgreeOff.refl (k : Text) (a : List (Text × Int)) : AgreeOff k a a := fun _ _ => rfl

theorem AgreeOff.insert {k : Text} {a b : List (Text × Int)} (h : AgreeOff k a b) (v : Int) :
    AgreeOff k ((k, v) :: a) b := by
  intro x hx
  have : (x == k) = false := by simpa using hx
  rw [List.lookup_cons, this]
  exact h x hx

theorem addName_rel {k : Text} {a b : List (Text × Int)} (h : AgreeOff k a b) {n : Text} (hn : n ≠ k) (v : Int) :
    RelRes (AgreeOff k) (addName n v a) (addName n v b) := by
  unfold addName
  rw [h n hn]
  split
  · rfl
  · exact h.cons n v

/-- Related maps of scopes. -/
def ScopesAgree (k : Text) (a b : List (Text × List (Text × Int))) : Prop :=
  ∀ t, match a.lookup t, b.lookup t with
    | some x, some y => AgreeOff k x y
    | none, none => True
    | _, _ => False

theorem ScopesAgree.cons {k : Text} {a b : List (Text × List (Text × Int))} (h : ScopesAgree k a b) (s : Text)
    {x y : List (Text × Int)} (hxy : AgreeOff k x y) : ScopesAgree k ((s, x) :: a) ((s, y) :: b) := by
  intro t
  simp only [List.lookup_cons]
  by_cases ht : t = s
  · subst ht; simpa using hxy
  · have : (t == s) = false := by simpa using ht
    rw [this]; exact h t

theorem ScopesAgree.refl (k : Text) (a : List (Text × List (Text × Int))) : ScopesAgree k a a := by
  intro t
  cases a.lookup t <;> simp [AgreeOff]

/-- Expressions not using `k` evaluate the same. -/
theorem eval_agree {k : Text} {m : Mode} {env env' : Env} (he : ∀ x, x ≠ k → env x = env' x) {e : Expr}
    (hu : ∀ n, Occurs n e → lower n ≠ k) : e.eval m env = e.eval m env' :=
  eval_congr e fun n hn => he _ (hu n hn)

theorem evalField_congr {m : Mode} {env env' : Env} {next : Nat} {k : Kind} {o : Sum Expr IM}
    (h : ∀ e, o = .inl e → e.eval m env = e.eval m env') :
    evalField m env next k o = evalField m env' next k o := by
  unfold evalField
  split <;> first
    | rfl
    | simp only [evalBits, evalRel8, evalRel16, evalAbs12, h _ rfl]

theorem evalFields_congr {m : Mode} {env env' : Env} {next : Nat} : ∀ {ks : List Kind} {os : List (Sum Expr IM)},
    (∀ e, Sum.inl e ∈ os → e.eval m env = e.eval m env') →
    evalFields m env next ks os = evalFields m env' next ks os
  | [], _, _ => rfl
  | _ :: _, [], _ => rfl
  | k :: ks, o :: os, h => by
    simp only [evalFields]
    rw [evalField_congr (fun e he => h e (by simp [he])), evalFields_congr (fun e he => h e (by simp [he]))]

theorem writeByteValues_congr {m : Mode} {env env' : Env} : ∀ {vs : List ByteValue} {out : List UInt8} {p : Nat},
    (∀ e, ByteValue.expr e ∈ vs → e.eval m env = e.eval m env') →
    writeByteValues m env out p vs = writeByteValues m env' out p vs
  | [], _, _, _ => rfl
  | .expr e :: vs, out, p, h => by
    simp only [writeByteValues]
    rw [h e (by simp)]
    congr 1; funext v
    split
    · rfl
    · congr 1; funext w
      exact writeByteValues_congr (fun e he => h e (by simp [he]))
  | .str s :: vs, out, p, h => by
    simp only [writeByteValues]
    congr 1; funext w
    exact writeByteValues_congr (fun e he => h e (by simp [he]))

theorem writeWords_congr {m : Mode} {env env' : Env} : ∀ {es : List Expr} {out : List UInt8} {p : Nat},
    (∀ e ∈ es, e.eval m env = e.eval m env') →
    writeWords m env out p es = writeWords m env' out p es
  | [], _, _, _ => rfl
  | e :: es, out, p, h => by
    simp only [writeWords]
    rw [h e (by simp)]
    congr 1; funext v
    split
    · rfl
    · congr 1; funext w
      congr 1; funext w
      exact writeWords_congr (fun e he => h e (by simp [he]))

/-- The part of genStep for instructions after evaluation. -/
theorem gen_instr_congr {m : Mode} {env env' : Env} {next : Nat} {i : Instr Expr IM} (s : GenState)
    (h : ∀ e, Sum.inl e ∈ operands i → e.eval m env = e.eval m env') :
    (i.evalIn m env next >>= fun j => writeBytes s.out s.pos j.encode >>= fun w =>
      (.ok { s with out := w.1, pos := w.2 } : Res GenState)) =
    (i.evalIn m env' next >>= fun j => writeBytes s.out s.pos j.encode >>= fun w =>
      (.ok { s with out := w.1, pos := w.2 } : Res GenState)) := by
  have key : ∀ env, (i.evalIn m env next >>= fun j => writeBytes s.out s.pos j.encode >>= fun w =>
      (.ok { s with out := w.1, pos := w.2 } : Res GenState)) =
      ((i.evalIn m env next >>= fun j => .ok j.encode) >>= fun bs => writeBytes s.out s.pos bs >>= fun w =>
      (.ok { s with out := w.1, pos := w.2 } : Res GenState)) := by
    intro env
    rw [Res.bind_assoc]; rfl
  rw [key, key, emit_instr, emit_instr, evalFields_congr h]

/-- No statement uses the name `k`. -/
def Unused (k : Text) (stmts : List Stmt) : Prop :=
  ∀ x ∈ stmts, ∀ e ∈ exprsOf x, ∀ n, Occurs n e → lower n ≠ k

theorem genStep_congr {m : Mode} {n1 n2 : Names} {k : Text} (hg : AgreeOff k n1.globals n2.globals)
    (hl : ScopesAgree k n1.locals n2.locals) {x : Stmt}
    (hu : ∀ e ∈ exprsOf x, ∀ n, Occurs n e → lower n ≠ k) (s : GenState) :
    genStep m n1 s x = genStep m n2 s x := by
  have henv : RelRes (fun e1 e2 : Env => ∀ y, y ≠ k → e1 y = e2 y) (n1.asEnv s.currentGlobal) (n2.asEnv s.currentGlobal) := by
    have := hl s.currentGlobal
    unfold Names.asEnv
    cases h1 : n1.locals.lookup s.currentGlobal <;> cases h2 : n2.locals.lookup s.currentGlobal <;>
      simp only [h1, h2] at this ⊢
    · trivial
    · intro y hy
      unfold namesGet
      rw [this y hy, hg y hy]
  cases x with
  | dir d =>
    cases d with
    | byte vs =>
      apply RelRes.eq
      simp only [genStep]
      refine RelRes.bind henv fun e1 e2 he => ?_
      rw [writeByteValues_congr (env' := e2)]
      · exact RelRes.refl (fun _ => rfl) _
      · intro e hin
        refine eval_agree he (hu e ?_)
        simp only [exprsOf, List.mem_filterMap]
        exact ⟨_, hin, rfl⟩
    | word es =>
      apply RelRes.eq
      simp only [genStep]
      refine RelRes.bind henv fun e1 e2 he => ?_
      rw [writeWords_congr (env' := e2)]
      · exact RelRes.refl (fun _ => rfl) _
      · intro e hin
        exact eval_agree he (hu e hin)
    | _ => rfl
  | instr i =>
    apply RelRes.eq
    simp only [genStep]
    refine RelRes.bind (RelRes.refl (R := (· = ·)) (fun _ => rfl) _) ?_
    rintro nx _ rfl
    simp only [Instr.eval, Res.bind_assoc]
    refine RelRes.bind henv fun e1 e2 he => ?_
    have h := gen_instr_congr (env := e1) (env' := e2) (next := nx) (m := m) (i := i) s (fun e hin => by
      refine eval_agree he (hu e ?_)
      simp only [exprsOf, List.mem_filterMap]
      exact ⟨_, hin, rfl⟩)
    rw [h]
    exact RelRes.refl (fun _ => rfl) _
  | _ => rfl

/-- States of the label pass that differ only in the local name `k`. -/
structure LRel (k : Text) (s t : LabelState) : Prop where
  globals : s.globals = t.globals
  cur : s.currentGlobal = t.currentGlobal
  pos : s.pos = t.pos
  loc : AgreeOff k s.local_ t.local_
  locals : ScopesAgree k s.locals t.locals

theorem labelStep_rel {m : Mode} {k : Text} {x : Stmt} (hx : ∀ n, x = .label n → lower n ≠ k)
    {s t : LabelState} (h : LRel k s t) : RelRes (LRel k) (labelStep m s x) (labelStep m t x) := by
  cases x with
  | dir d =>
    simp only [labelStep, h.pos]
    refine RelRes.bind (RelRes.refl (R := (· = ·)) (fun _ => rfl) _) ?_
    rintro v _ rfl
    refine RelRes.bind (RelRes.refl (R := (· = ·)) (fun _ => rfl) _) ?_
    rintro w _ rfl
    exact ⟨h.globals, h.cur, rfl, h.loc, h.locals⟩
  | label n =>
    simp only [labelStep]
    split
    · rw [h.pos]
      refine RelRes.bind (addName_rel h.loc (hx n rfl) _) fun a b hab => ?_
      exact ⟨h.globals, h.cur, rfl, hab, h.locals⟩
    · rw [h.pos, h.globals]
      refine RelRes.bind (RelRes.refl (R := (· = ·)) (fun _ => rfl) _) ?_
      rintro v _ rfl
      refine ⟨rfl, rfl, rfl, AgreeOff.refl _ _, ?_⟩
      rw [h.cur]
      exact h.locals.cons _ h.loc
  | instr i =>
    simp only [labelStep, h.pos]
    refine RelRes.bind (RelRes.refl (R := (· = ·)) (fun _ => rfl) _) ?_
    rintro v _ rfl
    exact ⟨h.globals, h.cur, rfl, h.loc, h.locals⟩
  | «variable» n e => exact h
  | alias n e => exact h
  | comment n => exact h
  | macroCall n args => trivial

/-- Local names never defined are not bound. -/
theorem labelRun_absent {m : Mode} {k : Text} : ∀ {xs : List Stmt} {s s' : LabelState},
    (∀ n, Stmt.label n ∈ xs → lower n ≠ k) → s.local_.lookup k = none →
    runSteps (labelStep m) xs s = .ok s' → s'.local_.lookup k = none
  | [], s, s', _, h, hr => by cases hr; exact h
  | x :: xs, s, s', hx, h, hr => by
    simp only [runSteps] at hr
    obtain ⟨s1, h1, h2⟩ := Res.bind_eq_ok.mp hr
    refine labelRun_absent (fun n hn => hx n (by simp [hn])) ?_ h2
    cases x with
    | dir d =>
      simp only [labelStep] at h1
      obtain ⟨_, _, h1⟩ := Res.bind_eq_ok.mp h1
      obtain ⟨_, _, h1⟩ := Res.bind_eq_ok.mp h1
      cases h1; exact h
    | instr d =>
      simp only [labelStep] at h1
      obtain ⟨_, _, h1⟩ := Res.bind_eq_ok.mp h1
      cases h1; exact h
    | label n =>
      simp only [labelStep] at h1
      split at h1
      · obtain ⟨l, hl, h1⟩ := Res.bind_eq_ok.mp h1
        cases h1
        rw [addName_eq] at hl
        split at hl
        · cases hl
        · cases hl
          have : (k == lower n) = false := by
            have := hx n (by simp)
            simpa using fun h => this h.symm
          simp only [List.lookup_cons, this]
          exact h
      · obtain ⟨l, hl, h1⟩ := Res.bind_eq_ok.mp h1
        cases h1; rfl
    | «variable» n e => cases h1; exact h
    | alias n e => cases h1; exact h
    | comment n => cases h1; exact h
    | macroCall n args => cases h1

/-- The rest of assemble after the label pass. -/
def assembleTail (m : Mode) (stmts : List Stmt) (l : List (Text × Int) × List (Text × List (Text × Int))) :
    Res (List UInt8) := do
  let s ← runSteps (nameStep m) stmts ⟨l.1, 0, 0⟩
  let max ← m.norm (s.maxPos + 1)
  if max < 1 then .panic
  else do
    let g ← runSteps (genStep m ⟨s.globals, l.2⟩) stmts ⟨0, [], List.replicate (max - 1).toNat 0⟩
    .ok g.out

theorem assemble_tail (m : Mode) (stmts : List Stmt) :
    assemble m stmts = (computeLabels m stmts >>= assembleTail m stmts) := by
  unfold assemble computeNames assembleTail
  simp only [Res.bind_assoc, Res.ok_bind]

theorem RelRes.mono {α β : Type} {R S : α → β → Prop} {x : Res α} {y : Res β} (h : RelRes R x y)
    (hs : ∀ a b, R a b → S a b) : RelRes S x y := by
  cases x <;> cases y <;> simp_all [RelRes]

theorem computeLabels_rel {m : Mode} {k : Text} {xs ys : List Stmt}
    (h : RelRes (LRel k) (runSteps (labelStep m) xs ⟨[], [], [], [], 0⟩) (runSteps (labelStep m) ys ⟨[], [], [], [], 0⟩)) :
    RelRes (fun a b => a.1 = b.1 ∧ ScopesAgree k a.2 b.2) (computeLabels m xs) (computeLabels m ys) := by
  unfold computeLabels
  refine RelRes.bind h fun s t hst => ?_
  have := hst.locals s.currentGlobal
  rw [hst.cur] at this
  rw [hst.cur]
  cases h1 : s.locals.lookup t.currentGlobal <;> cases h2 : t.locals.lookup t.currentGlobal <;>
    simp only [h1, h2] at this ⊢
  · exact ⟨hst.globals, hst.locals.cons _ hst.loc⟩
  · exact ⟨hst.globals, hst.locals⟩

/-- A fresh, unused local label changes nothing. -/
theorem assemble_local_label (m : Mode) {pre post : List Stmt} {n : Text} (hd : dotted n = true)
    (hfresh : ∀ n', Stmt.label n' ∈ pre ++ post → lower n' ≠ lower n) (hu : Unused (lower n) (pre ++ post)) :
    assemble m (pre ++ .label n :: post) = assemble m (pre ++ post) := by
  rw [assemble_tail, assemble_tail]
  apply RelRes.eq
  have hlab : RelRes (LRel (lower n)) (runSteps (labelStep m) (pre ++ .label n :: post) ⟨[], [], [], [], 0⟩)
      (runSteps (labelStep m) (pre ++ post) ⟨[], [], [], [], 0⟩) := by
    rw [runSteps_append, runSteps_append]
    cases hp : runSteps (labelStep m) pre ⟨[], [], [], [], 0⟩ with
    | ok s =>
      simp only [Res.ok_bind, runSteps, labelStep, isDotted_eq, hd, if_true]
      have habs := labelRun_absent (k := lower n) (fun n' hn' => hfresh n' (by simp [hn'])) rfl hp
      rw [addName_eq, if_neg (lookup_none_iff.mp habs)]
      simp only [Res.ok_bind]
      refine runSteps_rel (R := LRel (lower n)) (f := labelStep m) (g := labelStep m) (xs := post)
        (fun x hx s t hst => labelStep_rel (x := x) (fun n' hn' => hfresh n' (by simp [← hn', hx])) hst) ?_
      exact ⟨rfl, rfl, rfl, (AgreeOff.refl _ _).insert _, ScopesAgree.refl _ _⟩
    | err e => simp [RelRes]
    | panic => simp [RelRes]
    | loop => simp [RelRes]
  refine RelRes.bind (computeLabels_rel hlab) ?_
  rintro ⟨a1, a2⟩ ⟨b1, b2⟩ ⟨rfl, hsc⟩
  unfold assembleTail
  simp only
  have e2 : runSteps (nameStep m) (pre ++ .label n :: post) ⟨a1, 0, 0⟩ = runSteps (nameStep m) (pre ++ post) ⟨a1, 0, 0⟩ := by
    rw [runSteps_append, runSteps_append]
    cases h : runSteps (nameStep m) pre ⟨a1, 0, 0⟩ with
    | ok s' =>
      simp only [Res.ok_bind, runSteps, nameStep]
      have : s'.moveTo s'.pos = s' := by
        have := nameRun_pos (by show (0 : Int) ≤ 0; omega) h
        unfold NameState.moveTo
        rw [if_neg (by omega)]
      rw [this]
    | err e => rfl
    | panic => rfl
    | loop => rfl
  rw [e2]
  refine RelRes.bind (RelRes.refl (R := (· = ·)) (fun _ => rfl) _) ?_
  rintro s _ rfl
  refine RelRes.bind (RelRes.refl (R := (· = ·)) (fun _ => rfl) _) ?_
  rintro mx _ rfl
  split
  · trivial
  · have e3 : ∀ s0, runSteps (genStep m ⟨s.globals, a2⟩) (pre ++ .label n :: post) s0 =
        runSteps (genStep m ⟨s.globals, b2⟩) (pre ++ post) s0 := by
      intro s0
      have key : ∀ xs, (∀ x ∈ xs, x ∈ pre ++ post) → ∀ s0, runSteps (genStep m ⟨s.globals, a2⟩) xs s0 =
          runSteps (genStep m ⟨s.globals, b2⟩) xs s0 := by
        intro xs hxs s0
        apply RelRes.eq
        refine runSteps_rel (R := (· = ·)) (fun x hx s1 t1 hst => ?_) rfl
        subst hst
        rw [genStep_congr (n1 := ⟨s.globals, a2⟩) (n2 := ⟨s.globals, b2⟩) (AgreeOff.refl _ _) hsc (hu x (hxs x hx)) s1]
        exact RelRes.refl (fun _ => rfl) _
      rw [runSteps_append, runSteps_append, key pre (by intro x hx; simp [hx])]
      congr 1; funext s1
      simp only [runSteps, genStep, isDotted_eq, hd, if_true, Res.ok_bind]
      exact key post (by intro x hx; simp [hx]) s1
    rw [e3]
    exact RelRes.refl (fun _ => rfl) _

/-- States of the name pass that differ only in the name `k`. -/
structure NRel (k : Text) (s t : NameState) : Prop where
  globals : AgreeOff k s.globals t.globals
  pos : s.pos = t.pos
  maxPos : s.maxPos = t.maxPos

theorem NRel.moveTo {k : Text} {s t : NameState} (h : NRel k s t) (p : Int) : NRel k (s.moveTo p) (t.moveTo p) := by
  rw [moveTo_eq, moveTo_eq, h.maxPos]
  exact ⟨h.globals, rfl, rfl⟩

theorem nameStep_rel {m : Mode} {k : Text} {x : Stmt} (hu : ∀ e ∈ exprsOf x, ∀ n, Occurs n e → lower n ≠ k)
    (hv : ∀ n e, x = .variable n e ∨ x = .alias n e → lower n ≠ k)
    {s t : NameState} (h : NRel k s t) : RelRes (NRel k) (nameStep m s x) (nameStep m t x) := by
  cases x with
  | dir d =>
    simp only [nameStep, h.pos]
    refine RelRes.bind (RelRes.refl (R := (· = ·)) (fun _ => rfl) _) ?_
    rintro v _ rfl
    refine RelRes.bind (RelRes.refl (R := (· = ·)) (fun _ => rfl) _) ?_
    rintro w _ rfl
    exact h.moveTo _
  | instr i =>
    simp only [nameStep, h.pos]
    refine RelRes.bind (RelRes.refl (R := (· = ·)) (fun _ => rfl) _) ?_
    rintro w _ rfl
    exact h.moveTo _
  | «variable» n e =>
    simp only [nameStep]
    rw [eval_agree (env := mapEnv s.globals) (env' := mapEnv t.globals) h.globals (hu e (by simp [exprsOf]))]
    refine RelRes.bind (RelRes.refl (R := (· = ·)) (fun _ => rfl) _) ?_
    rintro v _ rfl
    refine RelRes.bind (addName_rel h.globals (hv n e (.inl rfl)) v) fun a b hab => ?_
    rw [h.pos]
    exact NRel.moveTo (s := { s with globals := a, pos := t.pos }) (t := { t with globals := b }) ⟨hab, rfl, h.maxPos⟩ _
  | alias n e =>
    simp only [nameStep]
    rw [eval_agree (env := mapEnv s.globals) (env' := mapEnv t.globals) h.globals (hu e (by simp [exprsOf]))]
    refine RelRes.bind (RelRes.refl (R := (· = ·)) (fun _ => rfl) _) ?_
    rintro v _ rfl
    refine RelRes.bind (addName_rel h.globals (hv n e (.inr rfl)) v) fun a b hab => ?_
    rw [h.pos]
    exact NRel.moveTo (s := { s with globals := a, pos := t.pos }) (t := { t with globals := b }) ⟨hab, rfl, h.maxPos⟩ _
  | label n => simp only [nameStep, h.pos]; exact h.moveTo _
  | comment n => simp only [nameStep, h.pos]; exact h.moveTo _
  | macroCall n args => trivial

/-- Names never defined as variables stay unbound. -/
theorem nameRun_absent {m : Mode} {k : Text} : ∀ {xs : List Stmt} {s s' : NameState},
    (∀ n e, Stmt.variable n e ∈ xs ∨ Stmt.alias n e ∈ xs → lower n ≠ k) → s.globals.lookup k = none →
    runSteps (nameStep m) xs s = .ok s' → s'.globals.lookup k = none
  | [], s, s', _, h, hr => by cases hr; exact h
  | x :: xs, s, s', hx, h, hr => by
    simp only [runSteps] at hr
    obtain ⟨s1, h1, h2⟩ := Res.bind_eq_ok.mp hr
    refine nameRun_absent (fun n e hn => hx n e (by rcases hn with hn | hn <;> simp [hn])) ?_ h2
    have add : ∀ n v g, lower n ≠ k → addName (lower n) v s.globals = .ok g → g.lookup k = none := by
      intro n v g hn hg
      rw [addName_eq] at hg
      split at hg
      · cases hg
      · cases hg
        have : (k == lower n) = false := by simpa using fun h => hn h.symm
        simp only [List.lookup_cons, this]
        exact h
    cases x with
    | dir d =>
      simp only [nameStep] at h1
      obtain ⟨_, _, h1⟩ := Res.bind_eq_ok.mp h1
      obtain ⟨_, _, h1⟩ := Res.bind_eq_ok.mp h1
      cases h1; rw [moveTo_eq]; exact h
    | instr d =>
      simp only [nameStep] at h1
      obtain ⟨_, _, h1⟩ := Res.bind_eq_ok.mp h1
      cases h1; rw [moveTo_eq]; exact h
    | label n => cases h1; rw [moveTo_eq]; exact h
    | «variable» n e =>
      simp only [nameStep] at h1
      obtain ⟨v, _, h1⟩ := Res.bind_eq_ok.mp h1
      obtain ⟨g, hg, h1⟩ := Res.bind_eq_ok.mp h1
      cases h1; rw [moveTo_eq]
      exact add n v g (hx n e (by simp)) hg
    | alias n e =>
      simp only [nameStep] at h1
      obtain ⟨v, _, h1⟩ := Res.bind_eq_ok.mp h1
      obtain ⟨g, hg, h1⟩ := Res.bind_eq_ok.mp h1
      cases h1; rw [moveTo_eq]
      exact add n v g (hx n e (by simp)) hg
    | comment n => cases h1; rw [moveTo_eq]; exact h
    | macroCall n args => cases h1

/-- Global names never defined as labels are not bound by the label pass. -/
theorem labelRun_absentG {m : Mode} {k : Text} : ∀ {xs : List Stmt} {s s' : LabelState},
    (∀ n, Stmt.label n ∈ xs → lower n ≠ k) → s.globals.lookup k = none →
    runSteps (labelStep m) xs s = .ok s' → s'.globals.lookup k = none
  | [], s, s', _, h, hr => by cases hr; exact h
  | x :: xs, s, s', hx, h, hr => by
    simp only [runSteps] at hr
    obtain ⟨s1, h1, h2⟩ := Res.bind_eq_ok.mp hr
    refine labelRun_absentG (fun n hn => hx n (by simp [hn])) ?_ h2
    cases x with
    | dir d =>
      simp only [labelStep] at h1
      obtain ⟨_, _, h1⟩ := Res.bind_eq_ok.mp h1
      obtain ⟨_, _, h1⟩ := Res.bind_eq_ok.mp h1
      cases h1; exact h
    | instr d =>
      simp only [labelStep] at h1
      obtain ⟨_, _, h1⟩ := Res.bind_eq_ok.mp h1
      cases h1; exact h
    | label n =>
      simp only [labelStep] at h1
      split at h1
      · obtain ⟨l, hl, h1⟩ := Res.bind_eq_ok.mp h1
        cases h1; exact h
      · obtain ⟨l, hl, h1⟩ := Res.bind_eq_ok.mp h1
        cases h1
        rw [addName_eq] at hl
        split at hl
        · cases hl
        · cases hl
          have : (k == lower n) = false := by
            have := hx n (by simp)
            simpa using fun h => this h.symm
          simp only [List.lookup_cons, this]
          exact h
    | «variable» n e => cases h1; exact h
    | alias n e => cases h1; exact h
    | comment n => cases h1; exact h
    | macroCall n args => cases h1

/-- A fresh, unused variable whose expression has a value changes nothing. -/
theorem assemble_variable (m : Mode) {pre post : List Stmt} {n : Text} {e : Expr} {x : Stmt}
    (hx : x = .variable n e ∨ x = .alias n e)
    (hval : ∀ env, ∃ v, e.eval m env = .ok v)
    (hfresh : ∀ n', Stmt.label n' ∈ pre ++ post → lower n' ≠ lower n)
    (hfresh' : ∀ n' e', Stmt.variable n' e' ∈ pre ++ post ∨ Stmt.alias n' e' ∈ pre ++ post → lower n' ≠ lower n)
    (hu : Unused (lower n) (pre ++ post)) :
    assemble m (pre ++ x :: post) = assemble m (pre ++ post) := by
  have hstepL : ∀ s, labelStep m s x = .ok s := by rcases hx with rfl | rfl <;> intro s <;> rfl
  have hstepG : ∀ nm s, genStep m nm s x = .ok s := by rcases hx with rfl | rfl <;> intro nm s <;> rfl
  have hstepN : ∀ s : NameState, nameStep m s x = (e.eval m (mapEnv s.globals) >>= fun v =>
      addName (lower n) v s.globals >>= fun g => .ok ({ s with globals := g }.moveTo s.pos)) := by
    rcases hx with rfl | rfl <;> intro s <;> rfl
  have hcl : computeLabels m (pre ++ x :: post) = computeLabels m (pre ++ post) := by
    unfold computeLabels
    rw [runSteps_append, runSteps_append]
    simp only [runSteps, hstepL, Res.ok_bind]
  rw [assemble_tail, assemble_tail, hcl]
  cases hlab : computeLabels m (pre ++ post) with
  | ok l =>
    simp only [Res.ok_bind]
    have habsl : l.1.lookup (lower n) = none := by
      unfold computeLabels at hlab
      obtain ⟨s, hs, hlab⟩ := Res.bind_eq_ok.mp hlab
      have := labelRun_absentG (k := lower n) hfresh rfl hs
      split at hlab <;> cases hlab <;> exact this
    apply RelRes.eq
    unfold assembleTail
    have hnames : RelRes (NRel (lower n)) (runSteps (nameStep m) (pre ++ x :: post) ⟨l.1, 0, 0⟩)
        (runSteps (nameStep m) (pre ++ post) ⟨l.1, 0, 0⟩) := by
      rw [runSteps_append, runSteps_append]
      cases hp : runSteps (nameStep m) pre ⟨l.1, 0, 0⟩ with
      | ok s =>
        simp only [Res.ok_bind, runSteps, hstepN]
        obtain ⟨v, hv⟩ := hval (mapEnv s.globals)
        have habs := nameRun_absent (k := lower n)
          (fun n' e' hn => hfresh' n' e' (by rcases hn with hn | hn <;> simp [hn])) habsl hp
        rw [hv, Res.ok_bind, addName_eq, if_neg (lookup_none_iff.mp habs), Res.ok_bind, Res.ok_bind]
        have hm : ({ s with globals := (lower n, v) :: s.globals } : NameState).moveTo s.pos =
            { s with globals := (lower n, v) :: s.globals } := by
          have := nameRun_pos (by show (0 : Int) ≤ 0; omega) hp
          unfold NameState.moveTo
          simp only
          rw [if_neg (by omega)]
        rw [hm]
        refine runSteps_rel (fun y hy s t hst => nameStep_rel (hu y (by simp [hy]))
          (fun n' e' hn => hfresh' n' e' (by rcases hn with hn | hn <;> simp [← hn, hy])) hst) ?_
        exact ⟨(AgreeOff.refl _ _).insert _, rfl, rfl⟩
      | err e => simp [RelRes]
      | panic => simp [RelRes]
      | loop => simp [RelRes]
    refine RelRes.bind hnames fun s t hst => ?_
    rw [hst.maxPos]
    refine RelRes.bind (RelRes.refl (R := (· = ·)) (fun _ => rfl) _) ?_
    rintro mx _ rfl
    split
    · trivial
    · have e3 : ∀ s0, runSteps (genStep m ⟨s.globals, l.2⟩) (pre ++ x :: post) s0 =
          runSteps (genStep m ⟨t.globals, l.2⟩) (pre ++ post) s0 := by
        intro s0
        have key : ∀ xs, (∀ x ∈ xs, x ∈ pre ++ post) → ∀ s0, runSteps (genStep m ⟨s.globals, l.2⟩) xs s0 =
            runSteps (genStep m ⟨t.globals, l.2⟩) xs s0 := by
          intro xs hxs s0
          apply RelRes.eq
          refine runSteps_rel (R := (· = ·)) (fun y hy s1 t1 hst1 => ?_) rfl
          subst hst1
          rw [genStep_congr (n1 := ⟨s.globals, l.2⟩) (n2 := ⟨t.globals, l.2⟩) hst.globals (ScopesAgree.refl _ _) (hu y (hxs y hy)) s1]
          exact RelRes.refl (fun _ => rfl) _
        rw [runSteps_append, runSteps_append, key pre (by intro x hx; simp [hx])]
        congr 1; funext s1
        simp only [runSteps, hstepG, Res.ok_bind]
        exact key post (by intro x hx; simp [hx]) s1
      rw [e3]
      exact RelRes.refl (fun _ => rfl) _
  | err e => rfl
  | panic => rfl
  | loop => rfl

theorem cnop_hang_aux (f : Nat) : (do
    let a ← evalCnopExpr (.num 0)
    let k ← evalCnopExpr (.num 4)
    if k = 0 then .ok a
    else do
      let mult ← cnopLoop .wrapping 2147483647 k f 0
      Mode.wrapping.norm (mult + a)) = (.loop : Res Int) := by
  simp only [Expr.num, evalCnopExpr, Res.ok_bind]
  rw [if_neg (by omega), cnopLoop_hang _ _ (by omega) (by unfold inI32; omega), Res.loop_bind]

theorem evalCnop_hang : evalCnop .wrapping 2147483647 (.num 0) (.num 4) = .loop := by
  rw [evalCnop]; exact cnop_hang_aux cnopFuel

theorem loop_bind' (r : Res Int) (f : Int → Res Int) (h : r = .loop) : (r >>= f) = .loop := by
  rw [h, Res.loop_bind]

theorem size_hang : (Directive.cnop (.num 0) (.num 4)).size .wrapping 2147483647 = .loop :=
  loop_bind' _ _ evalCnop_hang

theorem labelStep_loop {m : Mode} {d : Directive} {s : LabelState} (h : d.size m s.pos = .loop) :
    labelStep m s (.dir d) = .loop := by
  simp only [labelStep, h, Res.loop_bind]

theorem assemble_loop {m : Mode} {x y : Stmt} {s : LabelState}
    (h1 : labelStep m ⟨[], [], [], [], 0⟩ x = .ok s) (h2 : labelStep m s y = .loop) :
    assemble m [x, y] = .loop := by
  unfold assemble computeNames computeLabels runSteps
  rw [h1, Res.ok_bind]
  unfold runSteps
  rw [h2]; rfl

theorem hang_step1 : labelStep .wrapping ⟨[], [], [], [], 0⟩ (.dir (.org 2147483647)) =
    .ok ⟨[], [], [], [], 2147483647⟩ := by decide +kernel

end Verif
