import Verif.Lemmas.LabelPass
/-
Helper lemmas: the name pass (compute_names) against the specification of variables.
-/
namespace Verif
open Spec

/-- The variable definitions, evaluated in order with the newest binding first. -/
def varsF (m : Mode) : List (Text × Int) → List (Text × Expr) → Res (List (Text × Int))
  | g, [] => .ok g
  | g, (n, e) :: ds => do
    let v ← e.eval m (mapEnv g)
    let g' ← addName n v g
    varsF m g' ds

theorem moveTo_eq (s : NameState) (p : Int) : s.moveTo p = ⟨s.globals, p, max s.maxPos p⟩ := by
  unfold NameState.moveTo
  simp only [NameState.mk.injEq, true_and]
  split <;> omega

theorem name_run (m : Mode) : ∀ (stmts : List Stmt) (p : Nat) (sc : Text) (ps : List Placed) (s : NameState),
    s.pos = p → 0 ≤ s.maxPos → place p sc stmts = some ps → p < 2147483648 → Fits ps →
    ∃ p' : Int, runSteps (nameStep m) stmts s =
      (varsF m s.globals (definitions stmts) >>= fun g => .ok ⟨g, p', max s.maxPos (reach ps)⟩)
  | [], p, sc, ps, s, hs, hmx, hpl, _, _ => by
    simp only [place, Option.some.injEq] at hpl
    subst hpl
    refine ⟨s.pos, ?_⟩
    simp only [runSteps, definitions, varsF, Res.ok_bind, reach]
    have : max s.maxPos ((0 : Nat) : Int) = s.maxPos := by omega
    rw [this]
  | x :: xs, p, sc, ps, s, hs, hmx, hpl, hp, hfit => by
    obtain ⟨p', rest, ha, hr, rfl⟩ := place_cons hpl
    have hend : (⟨p, sc, x⟩ : Placed).end_ = p' := end_eq ha
    have hp' : p' < 2147483648 := by
      have := hfit ⟨p, sc, x⟩ (by simp)
      rw [hend] at this
      omega
    have hfit' : Fits rest := fun q hq => hfit q (by simp [hq])
    have hreach : reach (⟨p, sc, x⟩ :: rest) = max p' (reach rest) := by
      show max (Placed.end_ ⟨p, sc, x⟩) (reach rest) = _
      rw [hend]
    -- a step that moves and may change the bindings
    have move : ∀ g, ∃ pe : Int, runSteps (nameStep m) xs (NameState.moveTo ⟨g, s.pos, s.maxPos⟩ p') =
        (varsF m g (definitions xs) >>= fun g => .ok ⟨g, pe, max s.maxPos (reach (⟨p, sc, x⟩ :: rest))⟩) := by
      intro g
      rw [moveTo_eq]
      obtain ⟨pe, h⟩ := name_run m xs p' _ rest ⟨g, p', max s.maxPos p'⟩ rfl (by show 0 ≤ max s.maxPos (p' : Int); omega) hr hp' hfit'
      refine ⟨pe, ?_⟩
      rw [h, hreach]
      have : max (max s.maxPos (p' : Int)) (reach rest : Int) = max s.maxPos ((max p' (reach rest) : Nat) : Int) := by
        omega
      simp only [this]
    cases x with
    | dir d =>
      simp only [runSteps, nameStep, hs, definitions]
      rw [dir_pos m ha hp hp' (fun pos => .ok (s.moveTo pos)), Res.ok_bind]
      exact move s.globals
    | instr i =>
      simp only [runSteps, nameStep, hs, definitions]
      rw [instr_pos m ha hp' (fun pos => .ok (s.moveTo pos)), Res.ok_bind]
      exact move s.globals
    | label n =>
      simp only [advance, Option.some.injEq] at ha; subst ha
      simp only [runSteps, nameStep, definitions, Res.ok_bind]
      obtain ⟨pe, h⟩ := move s.globals
      exact ⟨pe, by rw [← h, hs, show s = ⟨s.globals, s.pos, s.maxPos⟩ from rfl]; simp [hs]⟩
    | comment n =>
      simp only [advance, Option.some.injEq] at ha; subst ha
      simp only [runSteps, nameStep, definitions, Res.ok_bind]
      obtain ⟨pe, h⟩ := move s.globals
      exact ⟨pe, by rw [← h, hs, show s = ⟨s.globals, s.pos, s.maxPos⟩ from rfl]; simp [hs]⟩
    | macroCall n args => simp [advance] at ha
    | «variable» n e =>
      simp only [advance, Option.some.injEq] at ha; subst ha
      simp only [runSteps, nameStep, definitions, varsF]
      cases e.eval m (mapEnv s.globals) with
      | ok v =>
        simp only [Res.ok_bind]
        cases addName (lower n) v s.globals with
        | ok g =>
          simp only [Res.ok_bind]
          obtain ⟨pe, h⟩ := move g
          exact ⟨pe, by rw [← h, hs]⟩
        | err e => exact ⟨0, rfl⟩
        | panic => exact ⟨0, rfl⟩
        | loop => exact ⟨0, rfl⟩
      | err e => exact ⟨0, rfl⟩
      | panic => exact ⟨0, rfl⟩
      | loop => exact ⟨0, rfl⟩
    | alias n e =>
      simp only [advance, Option.some.injEq] at ha; subst ha
      simp only [runSteps, nameStep, definitions, varsF]
      cases e.eval m (mapEnv s.globals) with
      | ok v =>
        simp only [Res.ok_bind]
        cases addName (lower n) v s.globals with
        | ok g =>
          simp only [Res.ok_bind]
          obtain ⟨pe, h⟩ := move g
          exact ⟨pe, by rw [← h, hs]⟩
        | err e => exact ⟨0, rfl⟩
        | panic => exact ⟨0, rfl⟩
        | loop => exact ⟨0, rfl⟩
      | err e => exact ⟨0, rfl⟩
      | panic => exact ⟨0, rfl⟩
      | loop => exact ⟨0, rfl⟩

theorem mapEnv_reverse {known : List (Text × Int)} (hn : (known.map (·.1)).Nodup) :
    mapEnv known.reverse = fun x => known.lookup x := by
  funext x
  exact lookup_reverse hn x

theorem nodup_snoc {known : List (Text × Int)} {n : Text} {v : Int} :
    ((known ++ [(n, v)]).map (·.1)).Nodup ↔ (known.map (·.1)).Nodup ∧ n ∉ known.map (·.1) := by
  rw [List.map_append, List.nodup_append]
  constructor
  · rintro ⟨h1, _, h3⟩
    exact ⟨h1, fun h => h3 n h n (by simp) rfl⟩
  · rintro ⟨h1, h2⟩
    refine ⟨h1, by simp, ?_⟩
    intro a ha b hb
    simp only [List.map_cons, List.map_nil, List.mem_singleton] at hb
    subst hb
    rintro rfl
    exact h2 ha

theorem nodup_of_append {a b : List (Text × Int)} (h : ((a ++ b).map (·.1)).Nodup) : (a.map (·.1)).Nodup := by
  rw [List.map_append] at h
  exact (List.nodup_append.mp h).1

/-- The bindings computed are those of the specification. -/
theorem varsF_ok (m : Mode) : ∀ (ds : List (Text × Expr)) (known g : List (Text × Int)),
    (known.map (·.1)).Nodup →
    (varsF m known.reverse ds = .ok g ↔
      ∃ vals, Vars m known ds vals ∧ ((known ++ vals).map (·.1)).Nodup ∧ g = (known ++ vals).reverse)
  | [], known, g, hn => by
    simp only [varsF, Res.ok.injEq]
    constructor
    · rintro rfl
      exact ⟨[], .nil, by simpa using hn, by simp⟩
    · rintro ⟨vals, hv, _, rfl⟩
      cases hv; simp
  | (n, e) :: ds, known, g, hn => by
    simp only [varsF, mapEnv_reverse hn, Res.bind_eq_ok, addName_eq, List.map_reverse, List.mem_reverse]
    constructor
    · rintro ⟨v, hv, g', hg', h⟩
      by_cases hmem : n ∈ known.map (·.1)
      · rw [if_pos hmem] at hg'; cases hg'
      · rw [if_neg hmem] at hg'
        cases hg'
        have hn' := nodup_snoc (v := v).mpr ⟨hn, hmem⟩
        have hrev : (n, v) :: known.reverse = (known ++ [(n, v)]).reverse := by simp
        rw [hrev] at h
        obtain ⟨vals, h1, h2, h3⟩ := (varsF_ok m ds _ g hn').mp h
        exact ⟨(n, v) :: vals, .cons hv h1, by simpa using h2, by simpa using h3⟩
    · rintro ⟨vals, hv, h2, h3⟩
      cases hv with
      | cons he hrest =>
        rename_i v vs
        have h2' : ((known ++ [(n, v)] ++ vs).map (·.1)).Nodup := by simpa using h2
        have hn' := nodup_of_append h2'
        have hmem := (nodup_snoc.mp hn').2
        refine ⟨v, he, _, if_neg hmem, ?_⟩
        have hrev : (n, v) :: known.reverse = (known ++ [(n, v)]).reverse := by simp
        rw [hrev]
        exact (varsF_ok m ds _ g hn').mpr ⟨vs, hrest, h2', by simpa using h3⟩

theorem Vars.unique {m : Mode} : ∀ {known : List (Text × Int)} {ds : List (Text × Expr)} {v1 v2 : List (Text × Int)},
    Vars m known ds v1 → Vars m known ds v2 → v1 = v2 := by
  intro known ds v1 v2 h1
  induction h1 generalizing v2 with
  | nil => intro h2; cases h2; rfl
  | cons he _ ih =>
    intro h2
    cases h2 with
    | cons he' h2' =>
      rw [he] at he'
      cases he'
      rw [ih h2']

theorem reach_lt : ∀ {ps : List Placed}, Fits ps → reach ps < 2147483647
  | [], _ => by show 0 < 2147483647; omega
  | q :: qs, h => by
    have h1 := h q (by simp)
    have h2 := reach_lt (ps := qs) (fun q hq => h q (by simp [hq]))
    simp only [reach]; omega

theorem le_reach : ∀ {ps : List Placed} {q : Placed}, q ∈ ps → q.end_ ≤ reach ps
  | q' :: qs, q, h => by
    simp only [reach]
    rcases List.mem_cons.mp h with rfl | h
    · omega
    · have := le_reach h; omega

theorem norm_max (m : Mode) {n : Nat} (h : n < 2147483647) :
    m.norm (max (0 : Int) (n : Int) + 1) = .ok ((n : Int) + 1) := by
  have e : max (0 : Int) (n : Int) = n := Int.max_eq_right (Int.natCast_nonneg n)
  rw [e]
  exact norm_int m (by omega) (by omega)

theorem name_run_init (m : Mode) {stmts : List Stmt} {ps : List Placed} (hl : layout stmts = some ps)
    (hfit : Fits ps) (g : List (Text × Int)) :
    ∃ p' : Int, runSteps (nameStep m) stmts ⟨g, 0, 0⟩ =
      (varsF m g (definitions stmts) >>= fun g => .ok ⟨g, p', max 0 (reach ps : Int)⟩) := by
  have h0 : (0 : Nat) < 2147483648 := by omega
  exact name_run m stmts 0 [] ps ⟨g, 0, 0⟩ rfl (Int.le_refl 0) hl h0 hfit

theorem computeNames_of_labels (m : Mode) {stmts : List Stmt} {g : List (Text × Int)}
    {l : List (Text × List (Text × Int))} (h : computeLabels m stmts = .ok (g, l)) :
    computeNames m stmts = (runSteps (nameStep m) stmts ⟨g, 0, 0⟩ >>= fun s =>
      m.norm (s.maxPos + 1) >>= fun max => .ok (max, ⟨s.globals, l⟩)) := by
  unfold computeNames
  rw [h, Res.ok_bind]

theorem computeNames_of_err (m : Mode) {stmts : List Stmt} {e : Err}
    (h : computeLabels m stmts = .err e) : computeNames m stmts = .err e := by
  unfold computeNames
  rw [h, Res.err_bind]

/-- compute_names on a laid-out program with distinct labels. -/
theorem computeNames_spec (m : Mode) {stmts : List Stmt} {ps : List Placed} (hsrc : SourceLabels stmts)
    (hl : layout stmts = some ps) (hfit : Fits ps) :
    (LabelsDistinct ps ∧ ∃ locals, (∀ q ∈ ps, locals.lookup q.scope = some (localLabels q.scope ps).reverse) ∧
      computeNames m stmts = (varsF m (globalLabels ps).reverse (definitions stmts) >>= fun g =>
        .ok ((reach ps : Int) + 1, ⟨g, locals⟩))) ∨
    (∃ n, DefinedTwice ps n ∧ computeNames m stmts = .err (.nameAlreadyExists n)) := by
  rcases computeLabels_spec m hsrc hl hfit with ⟨hd, locals, h1, h2⟩ | ⟨n, h1, h2⟩
  · left
    refine ⟨hd, locals, h2, ?_⟩
    have hnr := name_run_init m hl hfit (globalLabels ps).reverse
    obtain ⟨p', h⟩ := hnr
    rw [computeNames_of_labels m h1, h]
    have hr := reach_lt hfit
    cases varsF m (globalLabels ps).reverse (definitions stmts) with
    | ok g => rw [Res.ok_bind, Res.ok_bind, Res.ok_bind, norm_max m hr, Res.ok_bind]
    | err e => rw [Res.err_bind, Res.err_bind, Res.err_bind]
    | panic => rw [Res.panic_bind, Res.panic_bind, Res.panic_bind]
    | loop => rw [Res.loop_bind, Res.loop_bind, Res.loop_bind]
  · exact .inr ⟨n, h1, computeNames_of_err m h2⟩

end Verif
