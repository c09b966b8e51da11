import Verif.Spec.Reasons
import Verif.Lemmas.GenMore
import Verif.Lemmas.AsmMore
import Verif.Lemmas.Located.EraseAsm
import Verif.Lemmas.Located.PlacesEval
/-
What is wrong with a program that the assembler rejects.
-/
namespace Verif.Located
open Verif.Spec Verif.Spec.Places
open Verif.Spec.Reasons hiding Defines

/-! ### Running over statements -/

/-- A failing run: some statements are all right, and the next one fails. -/
theorem runSteps_err {σ : Type} {step : σ → Stmt → Res σ} : ∀ {xs : List Stmt} {s : σ} {e : Error},
    runSteps step xs s = .err e →
    ∃ before x after s', xs = before ++ x :: after ∧ runSteps step before s = .ok s' ∧ step s' x = .err e
  | [], _, _, h => by cases h
  | x :: xs, s, e, h => by
    simp only [runSteps] at h
    rcases Res.bind_eq_err.mp h with h | ⟨s1, h1, h2⟩
    · exact ⟨[], x, xs, s, rfl, rfl, h⟩
    · obtain ⟨before, y, after, s', rfl, h3, h4⟩ := runSteps_err h2
      refine ⟨x :: before, y, after, s', rfl, ?_, h4⟩
      simp only [runSteps, h1, Res.ok_bind, h3]

/-- An invariant of the statements so far and the state. -/
theorem runSteps_inv {σ : Type} {step : σ → Stmt → Res σ} {I : List Stmt → σ → Prop}
    (hs : ∀ pre x s s', I pre s → step s x = .ok s' → I (pre ++ [x]) s') :
    ∀ {xs pre : List Stmt} {s s' : σ}, I pre s → runSteps step xs s = .ok s' → I (pre ++ xs) s'
  | [], pre, s, s', hi, h => by cases h; simpa using hi
  | x :: xs, pre, s, s', hi, h => by
    simp only [runSteps] at h
    obtain ⟨s1, h1, h2⟩ := Res.bind_eq_ok.mp h
    have := runSteps_inv hs (hs pre x s s1 hi h1) h2
    simpa using this

theorem erase_ok {α β : Type} {f : α → β} {r : Res α} {a : α} (h : r = .ok a) : r.erase f = .ok (f a) := by
  subst h; rfl

theorem lookup_mem {β : Type} {l : List (Text × β)} {k : Text} {v : β} (h : l.lookup k = some v) : (k, v) ∈ l :=
  lookup_some_mem h

theorem addName_err {n : Text} {v : NameValue} {l : List (Text × NameValue)} {e : Error} (h : addName n v l = .err e) :
    ∃ old, (n, old) ∈ l ∧ e = ⟨.nameAlreadyExists n, .spans v.span old.span⟩ := by
  unfold addName at h
  split at h
  · rename_i old ho
    cases h
    exact ⟨old, lookup_mem ho, rfl⟩
  · cases h

theorem addName_ok {n : Text} {v : NameValue} {l l' : List (Text × NameValue)} (h : addName n v l = .ok l') :
    l' = (n, v) :: l := by
  unfold addName at h
  split at h
  · cases h
  · cases h; rfl

/-! ### Labels -/

/-- Where the labels known so far are. -/
structure LabelPlaces (pre : List Stmt) (s : LabelState) : Prop where
  globals : ∀ n v, (n, v) ∈ s.globals → ∃ n', .label v.span n' ∈ pre ∧ dotted n' = false ∧ lower n' = n
  locals : ∀ n v, (n, v) ∈ s.local_ → ∃ a n' b, pre = a ++ .label v.span n' :: b ∧ dotted n' = true ∧ lower n' = n ∧
    ∀ sp g, Stmt.label sp g ∈ b → dotted g = true

theorem LabelPlaces.same {pre : List Stmt} {s s' : LabelState} {x : Stmt} (h : LabelPlaces pre s)
    (hx : ∀ sp n, x = .label sp n → dotted n = true) (hg : s'.globals = s.globals) (hl : s'.local_ = s.local_) :
    LabelPlaces (pre ++ [x]) s' := by
  constructor
  · intro n v hv
    rw [hg] at hv
    obtain ⟨n', h1, h2⟩ := h.globals n v hv
    exact ⟨n', by simp [h1], h2⟩
  · intro n v hv
    rw [hl] at hv
    obtain ⟨a, n', b, rfl, h2, h3, h4⟩ := h.locals n v hv
    refine ⟨a, n', b ++ [x], by simp, h2, h3, ?_⟩
    intro sp g hm
    rcases List.mem_append.mp hm with hm | hm
    · exact h4 sp g hm
    · exact hx sp g (List.mem_singleton.mp hm).symm

theorem labelStep_at {m : Mode} {pre : List Stmt} {x : Stmt} {s s' : LabelState} (hi : LabelPlaces pre s)
    (h : labelStep m s x = .ok s') : LabelPlaces (pre ++ [x]) s' := by
  cases x with
  | dir d =>
    simp only [labelStep] at h
    obtain ⟨size, _, h⟩ := Res.bind_eq_ok.mp h
    obtain ⟨pos, _, h⟩ := Res.bind_eq_ok.mp h
    cases h
    exact hi.same (by simp) rfl rfl
  | label sp n =>
    simp only [labelStep, isDotted_eq] at h
    split at h
    · rename_i hd
      obtain ⟨l, h1, h⟩ := Res.bind_eq_ok.mp h
      cases h
      cases addName_ok h1
      have hsame := hi.same (x := .label sp n) (s' := s) (by rintro sp n ⟨rfl, rfl⟩; exact hd) rfl rfl
      refine ⟨hsame.globals, fun k v hv => ?_⟩
      rcases List.mem_cons.mp hv with hv | hv
      · cases hv
        exact ⟨pre, n, [], rfl, hd, rfl, by simp⟩
      · exact hsame.locals k v hv
    · rename_i hd
      obtain ⟨l, h1, h⟩ := Res.bind_eq_ok.mp h
      cases h
      cases addName_ok h1
      refine ⟨fun k v hv => ?_, fun k v hv => by cases hv⟩
      rcases List.mem_cons.mp hv with hv | hv
      · cases hv
        exact ⟨n, by simp, by simpa using hd, rfl⟩
      · obtain ⟨n', h1, h2⟩ := hi.globals k v hv
        exact ⟨n', by simp [h1], h2⟩
  | instr sp i =>
    simp only [labelStep] at h
    obtain ⟨pos, _, h⟩ := Res.bind_eq_ok.mp h
    cases h
    exact hi.same (by simp) rfl rfl
  | «variable» | «alias» | comment => cases h; exact hi.same (by simp) rfl rfl
  | macroCall => cases h

theorem label_places {m : Mode} {xs : List Stmt} {s : LabelState}
    (h : runSteps (labelStep m) xs ⟨[], [], [], [], 0⟩ = .ok s) : LabelPlaces xs s :=
  runSteps_inv (I := LabelPlaces) (pre := []) (fun _ _ _ _ => labelStep_at)
    (by constructor <;> (intro n v h; cases h)) h

/-! ### The layout -/

theorem evalCnop_err {m : Mode} {pos : Int} {a k : Expr} {e : Error} (h : evalCnop m pos a k = .err e) :
    ∃ z, (z = a ∨ (IsNumber a ∧ z = k)) ∧ ¬ IsNumber z ∧ e = ⟨.mustBeLiteralNumber, .span z.span⟩ := by
  have one : ∀ {z : Expr} {e : Error}, evalCnopExpr z = .err e → ¬ IsNumber z ∧ e = ⟨.mustBeLiteralNumber, .span z.span⟩ := by
    intro z e h
    refine ⟨?_, ?_⟩
    · rintro ⟨s, v, r, rfl⟩; cases h
    · cases z <;> first | (cases h; done) | (cases h; rfl)
  have num : ∀ {z : Expr} {v : Int}, evalCnopExpr z = .ok v → IsNumber z := by
    intro z v h
    cases z <;> first | exact ⟨_, _, _, rfl⟩ | cases h
  unfold evalCnop at h
  rcases Res.bind_eq_err.mp h with h | ⟨x, h1, h⟩
  · exact ⟨a, .inl rfl, one h⟩
  rcases Res.bind_eq_err.mp h with h | ⟨y, h2, h⟩
  · exact ⟨k, .inr ⟨num h1, rfl⟩, one h⟩
  exfalso
  split at h
  · cases h
  · have hl : (Res.lift (cnopLoop m pos y cnopFuel 0) >>= fun mult => Res.lift (m.norm (mult + x))).All
        (fun _ _ => False) fun _ => True := by
      refine .bind (cnopLoop_noErr _ _ _ _ _).silent fun _ _ => norm_all
    rw [h] at hl
    exact hl

theorem lift_err {α : Type} {r : Verif.Res α} {e : Error} (h : Res.lift r = .err e) (hr : NoErr r) : False := by
  have hl : (Res.lift r).All (fun _ _ => False) fun _ => True := hr.silent
  rw [h] at hl
  exact hl

theorem size_err {m : Mode} {pos : Int} {d : Directive} {e : Error} (h : d.size m pos = .err e) :
    ∃ s a k z, d = .cnop s a k ∧ (z = a ∨ (IsNumber a ∧ z = k)) ∧ ¬ IsNumber z ∧
      e = ⟨.mustBeLiteralNumber, .span z.span⟩ := by
  cases d with
  | cnop s a k =>
    simp only [Directive.size] at h
    rcases Res.bind_eq_err.mp h with h | ⟨v, _, h⟩
    · obtain ⟨z, h1, h2, h3⟩ := evalCnop_err h
      exact ⟨s, a, k, z, rfl, h1, h2, h3⟩
    · have hl : (Res.lift (m.norm (v - pos))).All (fun _ _ => False) fun _ => True := norm_all
      rw [h] at hl
      exact hl.elim
  | org s l =>
    rw [Directive.size] at h
    exact (lift_err h (norm_noErr _ _)).elim
  | byte | word | text | string | incl =>
    unfold Directive.size at h
    cases h

theorem lift_norm_err {m : Mode} {v : Int} {e : Error} (h : (Res.lift (m.norm v)) = .err e) : False := by
  have hl : (Res.lift (m.norm v)).All (fun _ _ => False) fun _ => True := norm_all
  rw [h] at hl
  exact hl

theorem mem_bare {x : Stmt} {xs : List Stmt} (h : x ∈ xs) : x.erase ∈ bare xs := List.mem_map.mpr ⟨x, h, rfl⟩

theorem bare_append (a b : List Stmt) : bare (a ++ b) = bare a ++ bare b := List.map_append

theorem plain_left {a b : List Stmt} (h : Plain (a ++ b)) : Plain a :=
  ⟨fun s t p hm => h.1 s t p (by simp [hm]), fun s n as hm => h.2 s n as (by simp [hm])⟩

theorem source_left {a b : List Verif.Stmt} (h : Source (a ++ b)) : Source a :=
  ⟨fun n hn => h.1 n (by simp [hn]), fun x k hm => h.2 x k (by simp [hm])⟩

/-- Statements that the label pass goes through can be laid out. -/
theorem laid_of_run {m : Mode} {xs : List Stmt} {s s' : LabelState} (hp : Plain xs) (hs : SourceCnop (bare xs))
    (h : runSteps (labelStep m) xs s = .ok s') : ∃ ps, layout (bare xs) = some ps := by
  have hr : Verif.runSteps (Verif.labelStep m) (bare xs) s.erase = .ok s'.erase := by
    rw [← erase_runSteps (erase_labelStep m)]; exact erase_ok h
  apply place_some
  intro x hx p
  obtain ⟨y, hy, rfl⟩ := List.mem_map.mp hx
  cases y with
  | dir d =>
    cases d with
    | incl t path => exact absurd hy (hp.1 _ _ _)
    | cnop sp a k =>
      obtain ⟨s1, s2, h⟩ := runSteps_mem hr hx
      simp only [Stmt.erase, Directive.erase, Verif.labelStep, Verif.Directive.size] at h
      obtain ⟨d, hd, _⟩ := Verif.Res.bind_eq_ok.mp h
      obtain ⟨v, hv, _⟩ := Verif.Res.bind_eq_ok.mp hd
      obtain ⟨x, rx, y, ry, ha, hk⟩ := evalCnop_literals hv
      have hn := hs _ _ hx
      have h1 := hn.1 x rx ha
      have h2 := hn.2 y ry hk
      simp only [Stmt.erase, Directive.erase, ha, hk, advance]
      rw [if_neg (by omega)]
      split
      · exact ⟨_, rfl⟩
      · exact ⟨_, rfl⟩
    | _ => exact ⟨_, rfl⟩
  | macroCall n args => exact absurd hy (hp.2 _ _ _)
  | _ => exact ⟨_, rfl⟩

/-- … and no label is defined twice. -/
theorem laidOut_of_run {m : Mode} {xs : List Stmt} {s' : LabelState} (hp : Plain xs) (hs : Source (bare xs))
    (hf : ∀ ps, layout (bare xs) = some ps → Fits ps) (h : runSteps (labelStep m) xs ⟨[], [], [], [], 0⟩ = .ok s') :
    ∃ ps, LaidOut xs ps := by
  obtain ⟨ps, hl⟩ := laid_of_run hp hs.2 h
  have hr : Verif.runSteps (Verif.labelStep m) (bare xs) ⟨[], [], [], [], 0⟩ = .ok s'.erase := by
    have := erase_runSteps (erase_labelStep m) xs ⟨[], [], [], [], 0⟩
    rw [h] at this
    exact this.symm
  rcases label_run m (bare xs) 0 [] [] ps _ LInv.init hs.1 hl (by omega) (hf ps hl) with ⟨_, _, _, h2⟩ | ⟨n, _, h2⟩
  · exact ⟨ps, hl, by simpa using h2.distinct⟩
  · rw [hr] at h2; cases h2

theorem computeLabels_wrong {m : Mode} {stmts : List Stmt} {x : Err} {p : Place} (hp : Plain stmts)
    (hs : Source (bare stmts)) (hb : Below stmts) (h : computeLabels m stmts = .err ⟨x, p⟩) : Wrong m stmts x p := by
  unfold computeLabels at h
  rcases Res.bind_eq_err.mp h with h | ⟨s, _, h⟩
  rotate_left
  · split at h <;> cases h
  obtain ⟨before, d, after, s', rfl, h1, h2⟩ := runSteps_err h
  have hs1 : Source (bare before) := by rw [bare_append] at hs; exact source_left hs
  obtain ⟨ps, hl⟩ := laidOut_of_run (plain_left hp) hs1 (fun ps hl => hb before (d :: after) ps rfl hl) h1
  have hpl := label_places h1
  cases d with
  | dir d =>
    simp only [labelStep] at h2
    rcases Res.bind_eq_err.mp h2 with h2 | ⟨_, _, h2⟩
    · obtain ⟨sp, a, k, z, rfl, h3, h4, h5⟩ := size_err h2
      cases h5
      exact .cnop rfl hl h3 h4
    · rcases Res.bind_eq_err.mp h2 with h2 | ⟨_, _, h2⟩
      · exact (lift_norm_err h2).elim
      · cases h2
  | label sp n =>
    simp only [labelStep, isDotted_eq] at h2
    split at h2
    · rename_i hd
      rcases Res.bind_eq_err.mp h2 with h2 | ⟨_, _, h2⟩
      · obtain ⟨old, ho, he⟩ := addName_err h2
        cases he
        obtain ⟨a, n', b, rfl, h3, h4, h5⟩ := hpl.locals _ _ ho
        exact .label (before := a) (between := b) (after := after) (by simp) hl h4 (.inr ⟨h3, hd, h5⟩)
      · cases h2
    · rename_i hd
      rcases Res.bind_eq_err.mp h2 with h2 | ⟨_, _, h2⟩
      · obtain ⟨old, ho, he⟩ := addName_err h2
        cases he
        obtain ⟨n', h3, h4, h5⟩ := hpl.globals _ _ ho
        obtain ⟨a, b, rfl⟩ := List.append_of_mem h3
        exact .label (before := a) (between := b) (after := after) (by simp) hl h5 (.inl ⟨h4, by simpa using hd⟩)
      · cases h2
  | instr sp i =>
    simp only [labelStep] at h2
    rcases Res.bind_eq_err.mp h2 with h2 | ⟨_, _, h2⟩
    · exact (lift_norm_err h2).elim
    · cases h2
  | «variable» | «alias» | comment | macroCall => cases h2

/-! ### Variables -/

/-- Where the names known so far are. -/
def NamePlaces (all pre : List Stmt) (s : NameState) : Prop :=
  ∀ n v, (n, v) ∈ s.globals → (∃ n', .label v.span n' ∈ all ∧ dotted n' = false ∧ lower n' = n) ∨
    ∃ d n' e, d ∈ pre ∧ Reasons.Defines d v.span n' e ∧ lower n' = n

theorem NamePlaces.more {all pre : List Stmt} {s s' : NameState} (h : NamePlaces all pre s) (x : Stmt)
    (hs : s'.globals = s.globals) : NamePlaces all (pre ++ [x]) s' := by
  intro n v hv
  rw [hs] at hv
  refine (h n v hv).imp id ?_
  rintro ⟨d, n', e, h1, h2⟩
  exact ⟨d, n', e, by simp [h1], h2⟩

theorem moveTo_globals (s : NameState) (p : Int) : (s.moveTo p).globals = s.globals := rfl

theorem nameStep_at {m : Mode} {all pre : List Stmt} {x : Stmt} {s s' : NameState} (hi : NamePlaces all pre s)
    (h : nameStep m s x = .ok s') : NamePlaces all (pre ++ [x]) s' := by
  have define : ∀ {sp n e}, Reasons.Defines x sp n e → defineName m s sp n e = .ok s' → NamePlaces all (pre ++ [x]) s' := by
    intro sp n e hd h
    unfold defineName at h
    obtain ⟨v, _, h⟩ := Res.bind_eq_ok.mp h
    obtain ⟨g, h1, h⟩ := Res.bind_eq_ok.mp h
    cases h
    cases addName_ok h1
    intro k w hw
    rw [moveTo_globals] at hw
    rcases List.mem_cons.mp hw with hw | hw
    · cases hw
      exact .inr ⟨x, n, e, by simp, hd, rfl⟩
    · exact hi.more x rfl k w hw
  cases x with
  | dir d =>
    simp only [nameStep] at h
    obtain ⟨size, _, h⟩ := Res.bind_eq_ok.mp h
    obtain ⟨pos, _, h⟩ := Res.bind_eq_ok.mp h
    cases h
    exact hi.more _ rfl
  | instr sp i =>
    simp only [nameStep] at h
    obtain ⟨pos, _, h⟩ := Res.bind_eq_ok.mp h
    cases h
    exact hi.more _ rfl
  | label | comment => cases h; exact hi.more _ rfl
  | macroCall => cases h
  | «variable» sp n e => exact define .variable h
  | «alias» sp n e => exact define .alias h

theorem advance_cnop {p p' : Nat} {sp : Span} {a k : Expr} (h : advance p (Stmt.dir (.cnop sp a k)).erase = some p') :
    IsNumber a ∧ IsNumber k := by
  have num : ∀ {e : Expr} {v r}, e.erase = .number v r → IsNumber e := by
    intro e v r he
    cases e <;> first | exact ⟨_, _, _, rfl⟩ | cases he
  simp only [Stmt.erase, Directive.erase] at h
  unfold advance at h
  split at h <;> first | (rename_i he; cases he; done) | skip
  · rename_i he
    injection he with he
    injection he with h1 h2
    exact ⟨num h1, num h2⟩
  all_goals cases h

theorem define_wrong {m : Mode} {before after : List Stmt} {d : Stmt} {s : NameState} {sp : Span} {n : Text} {e : Expr}
    {ps : List Placed} {vars : List (Text × Int)} {x : Err} {p : Place} (hd : Reasons.Defines d sp n e)
    (hl : LaidOut (before ++ d :: after) ps) (hv : Valued m ps before vars)
    (hg : eraseNames s.globals = (globalLabels ps ++ vars).reverse) (hpl : NamePlaces (before ++ d :: after) before s)
    (h : defineName m s sp n e = .err ⟨x, p⟩) : Wrong m (before ++ d :: after) x p := by
  have henv : mapEnv s.globals = fun y => (globalLabels ps ++ vars).lookup y := by
    rw [erase_mapEnv, hg, mapEnv_reverse hv.2]
  unfold defineName at h
  rw [henv] at h
  rcases Res.bind_eq_err.mp h with h | ⟨v, h1, h⟩
  · exact .value rfl hd hl hv (eval_err_iff.mp h)
  rcases Res.bind_eq_err.mp h with h | ⟨g, _, h⟩
  rotate_left
  · cases h
  obtain ⟨old, ho, he⟩ := addName_err h
  cases he
  exact .taken rfl hd hl hv (eval_erased h1) (hpl _ _ ho)

theorem names_wrong {m : Mode} {stmts : List Stmt} {ps : List Placed} {g : List (Text × NameValue)} {x : Err} {p : Place}
    (hp : Plain stmts) (hl : LaidOut stmts ps) (hf : Fits ps) (hg : eraseNames g = (globalLabels ps).reverse)
    (hpl : NamePlaces stmts [] ⟨g, 0, 0⟩) (h : runSteps (nameStep m) stmts ⟨g, 0, 0⟩ = .err ⟨x, p⟩) :
    Wrong m stmts x p := by
  obtain ⟨before, d, after, s', rfl, h1, h2⟩ := runSteps_err h
  have hlay := hl.1
  rw [bare_append] at hlay
  obtain ⟨ps1, ps2, sc', hl1, hl2, hps, _⟩ := place_append hlay
  have hf1 : Fits ps1 := fun q hq => hf q (by simp [hps, hq])
  have hr : Verif.runSteps (Verif.nameStep m) (bare before) ⟨(globalLabels ps).reverse, 0, 0⟩ = .ok s'.erase := by
    have := erase_runSteps (erase_nameStep m) before ⟨g, 0, 0⟩
    rw [h1] at this
    rw [← hg]
    exact this.symm
  obtain ⟨p', hn⟩ := name_run_init m hl1 hf1 (globalLabels ps).reverse
  rw [hr] at hn
  obtain ⟨g', hv, hn⟩ := Verif.Res.bind_eq_ok.mp hn.symm
  obtain ⟨vars, hv1, hv2, rfl⟩ := (varsF_env hl.2).mp hv
  have hg' : eraseNames s'.globals = (globalLabels ps ++ vars).reverse := by
    have := congrArg Verif.NameState.globals (Verif.Res.ok.inj hn)
    exact this.symm
  have hpl' := runSteps_inv (I := NamePlaces (before ++ d :: after)) (pre := [])
    (fun _ _ _ _ => nameStep_at) hpl h1
  rw [List.nil_append] at hpl'
  cases d with
  | dir d =>
    exfalso
    simp only [nameStep] at h2
    rcases Res.bind_eq_err.mp h2 with h2 | ⟨_, _, h2⟩
    · obtain ⟨sp, a, k, z, rfl, h3, h4, _⟩ := size_err h2
      obtain ⟨p', rest, ha, _, _⟩ := place_cons hl2
      obtain ⟨n1, n2⟩ := advance_cnop ha
      rcases h3 with rfl | ⟨_, rfl⟩
      · exact h4 n1
      · exact h4 n2
    · rcases Res.bind_eq_err.mp h2 with h2 | ⟨_, _, h2⟩
      · exact lift_norm_err h2
      · cases h2
  | instr sp i =>
    exfalso
    simp only [nameStep] at h2
    rcases Res.bind_eq_err.mp h2 with h2 | ⟨_, _, h2⟩
    · exact lift_norm_err h2
    · cases h2
  | label | comment | macroCall => cases h2
  | «variable» sp n e => exact define_wrong .variable hl ⟨hv1, hv2⟩ hg' hpl' h2
  | «alias» sp n e => exact define_wrong .alias hl ⟨hv1, hv2⟩ hg' hpl' h2

/-! ### Bytes -/

theorem writeByteValues_wrong {m : Mode} {env : Env} : ∀ {vs : List ByteValue} {out : List UInt8} {pos : Nat} {x : Err}
    {p : Place}, writeByteValues m env out pos vs = .err ⟨x, p⟩ →
    ∃ before e after bs, vs = before ++ .expr e :: after ∧ ByteItems m env (before.map ByteValue.erase) bs ∧
      InExpr m env UnfitByte e x p
  | [], _, _, _, _, h => by cases h
  | .expr e :: vs, out, pos, x, p, h => by
    simp only [writeByteValues] at h
    have he := eval_inExpr (m := m) (env := env) (unfit := UnfitByte) e
    rcases Res.bind_eq_err.mp h with h | ⟨v, h1, h⟩
    · rw [h] at he
      exact ⟨[], e, vs, [], rfl, .nil, he⟩
    rw [h1] at he
    split at h
    · rename_i hv
      cases h
      exact ⟨[], e, vs, [], rfl, .nil, .inr ⟨v, he, .mk (by omega), rfl⟩⟩
    · rename_i hv
      rcases Res.bind_eq_err.mp h with h | ⟨o, _, h⟩
      · exact (lift_err h (writeByte_noErr _ _ _)).elim
      obtain ⟨before, e', after, bs, rfl, h2, h3⟩ := writeByteValues_wrong h
      exact ⟨.expr e :: before, e', after, lowByte v :: bs, rfl,
        .expr he (by omega) (by omega) (lowByte_toNat (by unfold inI32; omega)) h2, h3⟩
  | .str sp s :: vs, out, pos, x, p, h => by
    simp only [writeByteValues] at h
    rcases Res.bind_eq_err.mp h with h | ⟨o, _, h⟩
    · exact (lift_err h (writeBytes_noErr _ _ _)).elim
    obtain ⟨before, e', after, bs, rfl, h2, h3⟩ := writeByteValues_wrong h
    exact ⟨.str sp s :: before, e', after, s ++ bs, rfl, .str h2, h3⟩

theorem writeWords_wrong {m : Mode} {env : Env} : ∀ {es : List Expr} {out : List UInt8} {pos : Nat} {x : Err}
    {p : Place}, writeWords m env out pos es = .err ⟨x, p⟩ →
    ∃ before e after bs, es = before ++ e :: after ∧ WordItems m env (before.map Expr.erase) bs ∧
      InExpr m env UnfitWord e x p
  | [], _, _, _, _, h => by cases h
  | e :: es, out, pos, x, p, h => by
    simp only [writeWords] at h
    have he := eval_inExpr (m := m) (env := env) (unfit := UnfitWord) e
    rcases Res.bind_eq_err.mp h with h | ⟨v, h1, h⟩
    · rw [h] at he
      exact ⟨[], e, es, [], rfl, .nil, he⟩
    rw [h1] at he
    split at h
    · rename_i hv
      cases h
      exact ⟨[], e, es, [], rfl, .nil, .inr ⟨v, he, .mk (by omega), rfl⟩⟩
    · rename_i hv
      rcases Res.bind_eq_err.mp h with h | ⟨o, _, h⟩
      · exact (lift_err h (writeByte_noErr _ _ _)).elim
      rcases Res.bind_eq_err.mp h with h | ⟨o, _, h⟩
      · exact (lift_err h (writeByte_noErr _ _ _)).elim
      obtain ⟨before, e', after, bs, rfl, h2, h3⟩ := writeWords_wrong h
      exact ⟨e :: before, e', after, _ :: _ :: bs, rfl,
        .cons he (by omega) (by omega) (word_bytes (by unfold inI32; omega)) h2, h3⟩

theorem writePadded_wrong {s : GenState} {sp : Span} {n : Nat} {bs : List UInt8} {pad : UInt8} {x : Err} {p : Place}
    (h : writePadded s sp n bs pad = .err ⟨x, p⟩) : n < bs.length ∧ x = .bytesLongerThanLength n bs.length ∧ p = .span sp := by
  unfold writePadded at h
  split at h
  · rename_i hn
    cases h
    exact ⟨hn, rfl, rfl⟩
  · exfalso
    rcases Res.bind_eq_err.mp h with h | ⟨o, _, h⟩
    · exact lift_err h (writeBytes_noErr _ _ _)
    rcases Res.bind_eq_err.mp h with h | ⟨o, _, h⟩
    · exact lift_err h (writeBytes_noErr _ _ _)
    cases h

theorem addUsize_nat (m : Mode) {p n : Nat} (h : p + n < 2147483648) : addUsize m p (n : Int) = .ok (p + n) := by
  unfold addUsize
  have e : ((n : Nat) : Int) % 18446744073709551616 = ((n : Nat) : Int) := by omega
  rw [e]
  simp only [Int.toNat_natCast]
  rw [if_pos (by omega)]

theorem form_erase (i : Instr Expr IM) : (eraseInstr i).form = i.form := by
  cases i <;> rfl

/-- A statement that fails in generate_bytes has no bytes. -/
theorem genStep_wrong {m : Mode} {names : Names} {locals : List (Text × Int)} {p p' : Nat} {sc : Text} {d : Stmt}
    {out : List UInt8} {x : Err} {pl : Place} (ha : advance p d.erase = some p')
    (hp' : p' < 2147483648) (hlk : names.locals.lookup sc = some locals)
    (h : genStep m names ⟨p, sc, out⟩ d = .err ⟨x, pl⟩) :
    Unemittable m (namesGet names.globals locals) p d x pl := by
  have henv : names.asEnv sc = .ok (namesGet names.globals locals) := by
    unfold Names.asEnv; rw [hlk]
  have lift_ok : ∀ {α : Type} (a : α), (Res.lift (.ok a) : Res α) = .ok a := fun a => rfl
  cases d with
  | dir d =>
    cases d with
    | byte sp vs =>
      simp only [genStep, henv, lift_ok, Res.ok_bind] at h
      rcases Res.bind_eq_err.mp h with h | ⟨o, _, h⟩
      · obtain ⟨before, e, after, bs, rfl, h1, h2⟩ := writeByteValues_wrong h
        exact .byte h1 h2
      · cases h
    | word sp es =>
      simp only [genStep, henv, lift_ok, Res.ok_bind] at h
      rcases Res.bind_eq_err.mp h with h | ⟨o, _, h⟩
      · obtain ⟨before, e, after, bs, rfl, h1, h2⟩ := writeWords_wrong h
        exact .word h1 h2
      · cases h
    | text sp n bs =>
      obtain ⟨h1, rfl, rfl⟩ := writePadded_wrong h
      exact .text h1
    | string sp n bs =>
      obtain ⟨h1, rfl, rfl⟩ := writePadded_wrong h
      exact .string h1
    | org sp n =>
      simp only [genStep] at h
      split at h
      · rename_i hn
        cases h
        exact .org hn
      · cases h
    | incl => cases h
    | cnop sp a k =>
      exfalso
      simp only [genStep] at h
      rcases Res.bind_eq_err.mp h with h | ⟨o, _, h⟩
      · obtain ⟨_, _, _, z, he, h3, h4, _⟩ := size_err h
        cases he
        obtain ⟨n1, n2⟩ := advance_cnop ha
        rcases h3 with rfl | ⟨_, rfl⟩
        · exact h4 n1
        · exact h4 n2
      rcases Res.bind_eq_err.mp h with h | ⟨o, _, h⟩
      · exact lift_err h (addUsize_noErr _ _ _)
      cases h
  | label sp n =>
    simp only [genStep] at h
    split at h <;> cases h
  | instr sp i =>
    simp only [Stmt.erase, advance, Option.some.injEq, form_erase] at ha
    have hsz : (row i.form).size = i.size := by rw [docSize_eq, size_eq]
    rw [hsz] at ha
    simp only [genStep] at h
    rw [addUsize_nat m (by omega), lift_ok, Res.ok_bind] at h
    rcases Res.bind_eq_err.mp h with h | ⟨o, _, h⟩
    · unfold evalInstr at h
      rw [henv, lift_ok, Res.ok_bind] at h
      have := (evalInstr_err_iff (by omega)).mp h
      rw [← hsz] at this
      exact .instr this
    rcases Res.bind_eq_err.mp h with h | ⟨o, _, h⟩
    · exact (lift_err h (writeBytes_noErr _ _ _)).elim
    cases h
  | «variable» | «alias» | comment | macroCall => cases h

theorem bytes_wrong {m : Mode} {stmts : List Stmt} {ps : List Placed} {vars : List (Text × Int)}
    {locals : List (Text × List (Text × Int))} {x : Err} {p : Place} (hs : Source (bare stmts)) (hl : LaidOut stmts ps)
    (hf : Fits ps) (hv : Valued m ps stmts vars)
    (hlk : ∀ q ∈ ps, locals.lookup q.scope = some (localLabels q.scope ps).reverse)
    (h : runSteps (genStep m ⟨(globalLabels ps ++ vars).reverse, locals⟩) stmts
      ⟨0, [], List.replicate (reach ps) 0⟩ = .err ⟨x, p⟩) : Wrong m stmts x p := by
  obtain ⟨before, d, after, s', rfl, h1, h2⟩ := runSteps_err h
  have hlay := hl.1
  have hs1 := hs
  rw [bare_append] at hlay hs1
  obtain ⟨ps1, ps2, sc', hl1, hl2, hps, hsc⟩ := place_append hlay
  obtain ⟨p', rest, ha, _, rfl⟩ := place_cons hl2
  have hf1 : Fits ps1 := fun q hq => hf q (by simp [hps, hq])
  have hr : Verif.runSteps (Verif.genStep m ⟨(globalLabels ps ++ vars).reverse, locals⟩) (bare before)
      ⟨0, [], List.replicate (reach ps) 0⟩ = .ok s' := by
    have := erase_runSteps (f := fun s => s) (erase_genStep m ⟨(globalLabels ps ++ vars).reverse, locals⟩) before
      ⟨0, [], List.replicate (reach ps) 0⟩
    rw [h1] at this
    exact this.symm
  obtain ⟨ws, hw, rfl, hstop⟩ := gen_run_ok m ⟨(globalLabels ps ++ vars).reverse, locals⟩
    (fun s => (localLabels s ps).reverse) (bare before) 0 [] ps1 _ s' (source_left hs1).1 hl1 (by omega) hf1
    (fun q hq => hlk q (by simp [hps, hq]))
    (fun q hq => by rw [List.length_replicate]; exact le_reach (by simp [hps, hq])) hr
  have henv : ∀ s, namesGet (globalLabels ps ++ vars).reverse (localLabels s ps).reverse =
    meaning (globalLabels ps ++ vars) (localLabels s ps) := fun s => namesGet_reverse hv.2 (hl.2.2 s)
  have hend : (⟨stop 0 ps1, sc', d.erase⟩ : Placed).end_ = p' := end_eq ha
  have hq : (⟨stop 0 ps1, sc', d.erase⟩ : Placed) ∈ ps := by simp [hps]
  have hp' : p' < 2147483648 := by
    have := hf _ hq
    rw [hend] at this
    omega
  rw [← hsc] at h2
  have hu := genStep_wrong ha hp' (hlk _ hq) h2
  rw [henv] at hu
  exact .bytes rfl hl hv hps (place_stmts hl1) rfl ((emitAllF_ok m henv _ _).mp hw) hu

/-- What is wrong with a program that the assembler rejects. -/
theorem assemble_wrong {m : Mode} {stmts : List Stmt} {x : Err} {p : Place} (hp : Plain stmts)
    (hs : Source (bare stmts)) (hb : Below stmts) (h : assemble m stmts = .err ⟨x, p⟩) : Wrong m stmts x p := by
  have hcn := erase_computeNames m stmts
  unfold assemble at h
  rcases Res.bind_eq_err.mp h with h | ⟨⟨mx, names⟩, h1, h⟩
  · unfold computeNames at h
    rcases Res.bind_eq_err.mp h with h | ⟨labels, h1, h⟩
    · exact computeLabels_wrong hp hs hb h
    rcases Res.bind_eq_err.mp h with h | ⟨s, _, h⟩
    · have h1' := h1
      unfold computeLabels at h1'
      obtain ⟨s, hr, h1'⟩ := Res.bind_eq_ok.mp h1'
      obtain ⟨ps, hl⟩ := laidOut_of_run hp hs (fun ps hl => hb stmts [] ps (by simp) hl) hr
      have hf := hb stmts [] ps (by simp) hl.1
      have hpl := label_places hr
      have hlab : labels.1 = s.globals := by
        split at h1' <;> (cases h1'; rfl)
      have hg : eraseNames labels.1 = (globalLabels ps).reverse := by
        have he := erase_computeLabels m stmts
        rw [h1] at he
        rcases computeLabels_spec m hs.1 hl.1 hf with ⟨_, locals, h2, _⟩ | ⟨n, _, h2⟩
        · rw [h2] at he
          exact congrArg Prod.fst (Verif.Res.ok.inj he)
        · rw [h2] at he
          cases he
      refine names_wrong hp hl hf hg ?_ h
      intro n v hv
      rw [hlab] at hv
      exact .inl (hpl.globals n v hv)
    rcases Res.bind_eq_err.mp h with h | ⟨_, _, h⟩
    · exact (lift_norm_err h).elim
    cases h
  · have h1' := h1
    unfold computeNames at h1'
    obtain ⟨labels, h1', _⟩ := Res.bind_eq_ok.mp h1'
    unfold computeLabels at h1'
    obtain ⟨s, hr, _⟩ := Res.bind_eq_ok.mp h1'
    obtain ⟨ps, hl⟩ := laidOut_of_run hp hs (fun ps hl => hb stmts [] ps (by simp) hl) hr
    have hf := hb stmts [] ps (by simp) hl.1
    rw [h1] at hcn
    rcases computeNames_spec m hs.1 hl.1 hf with ⟨_, locals, hlk, h2⟩ | ⟨n, _, h2⟩
    rotate_left
    · rw [h2] at hcn
      cases hcn
    rw [h2] at hcn
    obtain ⟨g, hg, hcn⟩ := Verif.Res.bind_eq_ok.mp hcn.symm
    obtain ⟨vars, hv1, hv2, rfl⟩ := (varsF_env hl.2).mp hg
    cases hcn
    simp only at h
    split at h
    · cases h
    rcases Res.bind_eq_err.mp h with h | ⟨_, _, h⟩
    rotate_left
    · cases h
    rw [show ((reach ps : Int) + 1 - 1).toNat = reach ps by omega] at h
    exact bytes_wrong hs hl hf ⟨hv1, hv2⟩ hlk h

/-- A program that is laid out below 2 GiB is so as far as it can be laid out. -/
theorem below_of_fits {stmts : List Stmt} {ps : List Placed} (hl : layout (bare stmts) = some ps) (hf : Fits ps) :
    Below stmts := by
  intro before after qs e hq
  subst e
  unfold layout at hl hq
  rw [bare_append] at hl
  obtain ⟨ps1, ps2, _, h1, _, rfl, _⟩ := place_append hl
  rw [h1] at hq
  cases hq
  exact fun q hm => hf q (List.mem_append_left _ hm)

end Verif.Located
