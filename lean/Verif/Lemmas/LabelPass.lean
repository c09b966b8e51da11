import Verif.Lemmas.Layout
/-
Helper lemmas: the label pass (compute_labels) against the layout specification.
-/
namespace Verif
open Spec

theorem lookup_none_iff {β : Type} {l : List (Text × β)} {k : Text} :
    l.lookup k = none ↔ k ∉ l.map (·.1) := by
  induction l with
  | nil => simp
  | cons x xs ih =>
    obtain ⟨a, b⟩ := x
    simp only [List.lookup_cons, List.map_cons, List.mem_cons, not_or]
    by_cases h : k = a
    · subst h; simp
    · have : (k == a) = false := by simpa using h
      rw [this]
      simp [h, ih]

theorem lookup_some_mem {β : Type} {l : List (Text × β)} {k : Text} {v : β} (h : l.lookup k = some v) :
    (k, v) ∈ l := by
  induction l with
  | nil => cases h
  | cons x xs ih =>
    obtain ⟨a, b⟩ := x
    simp only [List.lookup_cons] at h
    by_cases hk : k = a
    · subst hk; simp at h; subst h; simp
    · have : (k == a) = false := by simpa using hk
      rw [this] at h
      exact List.mem_cons_of_mem _ (ih h)

theorem lookup_of_mem {β : Type} {l : List (Text × β)} {k : Text} {v : β} (hn : (l.map (·.1)).Nodup)
    (h : (k, v) ∈ l) : l.lookup k = some v := by
  induction l with
  | nil => cases h
  | cons x xs ih =>
    obtain ⟨a, b⟩ := x
    simp only [List.map_cons, List.nodup_cons] at hn
    rcases List.mem_cons.mp h with h' | h'
    · cases h'; simp
    · have hk : k ≠ a := by
        rintro rfl
        exact hn.1 (List.mem_map.mpr ⟨(k, v), h', rfl⟩)
      have : (k == a) = false := by simpa using hk
      rw [List.lookup_cons, this]
      exact ih hn.2 h'

/-- Lookup in two lists with distinct keys and the same elements. -/
theorem lookup_congr {β : Type} {l l' : List (Text × β)} (hn : (l.map (·.1)).Nodup)
    (hn' : (l'.map (·.1)).Nodup) (h : ∀ x, x ∈ l ↔ x ∈ l') (k : Text) : l.lookup k = l'.lookup k := by
  cases h1 : l.lookup k with
  | some v => exact (lookup_of_mem hn' ((h _).mp (lookup_some_mem h1))).symm
  | none =>
    cases h2 : l'.lookup k with
    | none => rfl
    | some v => rw [lookup_of_mem hn ((h _).mpr (lookup_some_mem h2))] at h1; cases h1

theorem lookup_reverse {β : Type} {l : List (Text × β)} (hn : (l.map (·.1)).Nodup) (k : Text) :
    l.reverse.lookup k = l.lookup k := by
  apply lookup_congr _ hn (by simp)
  rw [List.map_reverse]
  exact (List.reverse_perm _).nodup_iff.mpr hn

theorem globalLabels_append (qs ps : List Placed) : globalLabels (qs ++ ps) = globalLabels qs ++ globalLabels ps := by
  induction qs with
  | nil => rfl
  | cons q qs ih =>
    obtain ⟨p, s, x⟩ := q
    cases x <;> simp only [List.cons_append, globalLabels, ih]
    split <;> simp

theorem localLabels_append (t : Text) (qs ps : List Placed) :
    localLabels t (qs ++ ps) = localLabels t qs ++ localLabels t ps := by
  induction qs with
  | nil => rfl
  | cons q qs ih =>
    obtain ⟨p, s, x⟩ := q
    cases x <;> simp only [List.cons_append, localLabels, ih]
    split <;> simp

theorem globalLabels_single (p : Nat) (s : Text) (x : Stmt) (h : ∀ n, x = .label n → dotted n = true) :
    globalLabels [⟨p, s, x⟩] = [] := by
  cases x <;> simp [globalLabels] at *
  exact h

theorem localLabels_single (t : Text) (p : Nat) (s : Text) (x : Stmt)
    (h : ∀ n, x = .label n → dotted n = true → s ≠ t) : localLabels t [⟨p, s, x⟩] = [] := by
  cases x <;> simp [localLabels] at *
  intro h1 h2; exact (h h1 h2).elim

theorem localLabels_nil_of_scope {t : Text} : ∀ {qs : List Placed}, (∀ q ∈ qs, q.scope ≠ t) →
    localLabels t qs = []
  | [], _ => rfl
  | ⟨p, s, x⟩ :: qs, h => by
    have ih := localLabels_nil_of_scope (t := t) (qs := qs) (fun q hq => h q (by simp [hq]))
    have hs : s ≠ t := h ⟨p, s, x⟩ (by simp)
    cases x <;> simp only [localLabels, ih]
    rw [if_neg (fun h => hs h.2)]

/-- The state of the label pass after the placed statements `qs`. -/
structure LInv (qs : List Placed) (sc : Text) (p : Nat) (s : LabelState) : Prop where
  pos : s.pos = p
  cur : s.currentGlobal = sc
  glob : s.globals = (globalLabels qs).reverse
  loc : s.local_ = (localLabels sc qs).reverse
  distinct : LabelsDistinct qs
  known : sc = [] ∨ sc ∈ (globalLabels qs).map (·.1)
  scopes : ∀ q ∈ qs, q.scope = [] ∨ q.scope ∈ (globalLabels qs).map (·.1)
  old : ∀ t, t ≠ sc → (∃ q ∈ qs, q.scope = t) → s.locals.lookup t = some (localLabels t qs).reverse
  nocur : s.locals.lookup sc = none
  dom : ∀ t, s.locals.lookup t ≠ none → t = [] ∨ t ∈ (globalLabels qs).map (·.1)

/-- Extending by a statement that defines no label. -/
theorem LInv.extend {qs : List Placed} {sc : Text} {p p' : Nat} {s : LabelState} (h : LInv qs sc p s)
    {x : Stmt} (hx : ∀ n, x ≠ .label n) : LInv (qs ++ [⟨p, sc, x⟩]) sc p' { s with pos := p' } := by
  have hg : globalLabels (qs ++ [⟨p, sc, x⟩]) = globalLabels qs := by
    rw [globalLabels_append, globalLabels_single _ _ _ (fun n hn => (hx n hn).elim), List.append_nil]
  have hl : ∀ t, localLabels t (qs ++ [⟨p, sc, x⟩]) = localLabels t qs := fun t => by
    rw [localLabels_append, localLabels_single _ _ _ _ (fun n hn => (hx n hn).elim), List.append_nil]
  refine ⟨rfl, h.cur, by rw [hg]; exact h.glob, by rw [hl]; exact h.loc, ?_, by rw [hg]; exact h.known,
    ?_, ?_, h.nocur, by rw [hg]; exact h.dom⟩
  · exact ⟨by rw [hg]; exact h.distinct.1, fun t => by rw [hl]; exact h.distinct.2 t⟩
  · intro q hq
    rw [hg]
    rcases List.mem_append.mp hq with hq | hq
    · exact h.scopes q hq
    · simp only [List.mem_singleton] at hq; subst hq; exact h.known
  · rintro t ht ⟨q, hq, hqt⟩
    rw [hl]
    rcases List.mem_append.mp hq with hq | hq
    · exact h.old t ht ⟨q, hq, hqt⟩
    · simp only [List.mem_singleton] at hq; subst hq; exact (ht hqt.symm).elim

theorem LInv.local_ {qs : List Placed} {sc : Text} {p : Nat} {s : LabelState} (h : LInv qs sc p s)
    {n : Text} (hd : dotted n = true) (hn : lower n ∉ (localLabels sc qs).map (·.1)) :
    LInv (qs ++ [⟨p, sc, .label n⟩]) sc p { s with local_ := (lower n, (p : Int)) :: s.local_ } := by
  have hg : globalLabels (qs ++ [⟨p, sc, .label n⟩]) = globalLabels qs := by
    rw [globalLabels_append, globalLabels_single _ _ _ (fun n hn => by cases hn; exact hd), List.append_nil]
  have hl : ∀ t, t ≠ sc → localLabels t (qs ++ [⟨p, sc, .label n⟩]) = localLabels t qs := fun t ht => by
    rw [localLabels_append, localLabels_single _ _ _ _ (fun n _ _ => ht.symm), List.append_nil]
  have hsc : localLabels sc (qs ++ [⟨p, sc, .label n⟩]) = localLabels sc qs ++ [(lower n, (p : Int))] := by
    rw [localLabels_append]; simp [localLabels, hd]
  refine ⟨h.pos, h.cur, by rw [hg]; exact h.glob, ?_, ?_, by rw [hg]; exact h.known, ?_, ?_, h.nocur,
    by rw [hg]; exact h.dom⟩
  · rw [hsc]; simp [h.loc]
  · refine ⟨by rw [hg]; exact h.distinct.1, fun t => ?_⟩
    by_cases ht : t = sc
    · subst ht
      rw [hsc, List.map_append, List.nodup_append]
      refine ⟨h.distinct.2 t, by simp, ?_⟩
      intro a ha b hb
      simp only [List.map_cons, List.map_nil, List.mem_singleton] at hb
      subst hb
      rintro rfl
      exact hn ha
    · rw [hl t ht]; exact h.distinct.2 t
  · intro q hq
    rw [hg]
    rcases List.mem_append.mp hq with hq | hq
    · exact h.scopes q hq
    · simp only [List.mem_singleton] at hq; subst hq; exact h.known
  · rintro t ht ⟨q, hq, hqt⟩
    rw [hl t ht]
    rcases List.mem_append.mp hq with hq | hq
    · exact h.old t ht ⟨q, hq, hqt⟩
    · simp only [List.mem_singleton] at hq; subst hq; exact (ht hqt.symm).elim

theorem LInv.global {qs : List Placed} {sc : Text} {p : Nat} {s : LabelState} (h : LInv qs sc p s)
    {n : Text} (hd : dotted n = false) (he : lower n ≠ [])
    (hn : lower n ∉ (globalLabels qs).map (·.1)) :
    LInv (qs ++ [⟨p, sc, .label n⟩]) (lower n) p
      { s with
        globals := (lower n, (p : Int)) :: s.globals
        locals := (s.currentGlobal, s.local_) :: s.locals
        local_ := []
        currentGlobal := lower n } := by
  have hg : globalLabels (qs ++ [⟨p, sc, .label n⟩]) = globalLabels qs ++ [(lower n, (p : Int))] := by
    rw [globalLabels_append]; simp [globalLabels, hd]
  have hl : ∀ t, localLabels t (qs ++ [⟨p, sc, .label n⟩]) = localLabels t qs := fun t => by
    rw [localLabels_append, localLabels_single _ _ _ _ (fun m hm hd' => by cases hm; rw [hd] at hd'; cases hd'),
      List.append_nil]
  have hne : lower n ≠ sc := by
    rintro rfl
    rcases h.known with h | h
    · exact he h
    · exact hn h
  have hk : ∀ t, t ∈ (globalLabels qs).map (·.1) → t ∈ (globalLabels (qs ++ [⟨p, sc, .label n⟩])).map (·.1) := by
    intro t ht; rw [hg, List.map_append]; exact List.mem_append_left _ ht
  refine ⟨h.pos, rfl, ?_, ?_, ?_, ?_, ?_, ?_, ?_, ?_⟩
  · rw [hg]; simp [h.glob]
  · rw [hl, localLabels_nil_of_scope]
    · rfl
    · intro q hq hqn
      rcases h.scopes q hq with h' | h'
      · exact he (hqn ▸ h')
      · exact hn (hqn ▸ h')
  · refine ⟨?_, fun t => by rw [hl]; exact h.distinct.2 t⟩
    rw [hg, List.map_append, List.nodup_append]
    refine ⟨h.distinct.1, by simp, ?_⟩
    intro a ha b hb
    simp only [List.map_cons, List.map_nil, List.mem_singleton] at hb
    subst hb
    rintro rfl
    exact hn ha
  · right; rw [hg]; simp
  · intro q hq
    rcases List.mem_append.mp hq with hq | hq
    · exact (h.scopes q hq).imp id (hk _)
    · simp only [List.mem_singleton] at hq; subst hq; exact h.known.imp id (hk _)
  · rintro t ht ⟨q, hq, hqt⟩
    rw [hl]
    simp only [List.lookup_cons]
    by_cases hts : t = s.currentGlobal
    · subst hts
      simp only [beq_self_eq_true]
      rw [h.loc, h.cur]
    · have : (t == s.currentGlobal) = false := by simpa using hts
      rw [this]
      rw [h.cur] at hts
      rcases List.mem_append.mp hq with hq | hq
      · exact h.old t hts ⟨q, hq, hqt⟩
      · simp only [List.mem_singleton] at hq; subst hq; exact (hts hqt.symm).elim
  · simp only [List.lookup_cons]
    have : (lower n == s.currentGlobal) = false := by rw [h.cur]; simpa using hne
    rw [this]
    cases hlk : s.locals.lookup (lower n) with
    | none => rfl
    | some v =>
      rcases h.dom (lower n) (by rw [hlk]; simp) with h' | h'
      · exact (he h').elim
      · exact (hn h').elim
  · intro t ht
    simp only [List.lookup_cons] at ht
    by_cases hts : t = s.currentGlobal
    · subst hts; rw [h.cur]; exact h.known.imp id (hk _)
    · have : (t == s.currentGlobal) = false := by simpa using hts
      rw [this] at ht
      exact (h.dom t ht).imp id (hk _)

theorem addName_eq (n : Text) (v : Int) (l : List (Text × Int)) :
    addName n v l = if n ∈ l.map (·.1) then .err (.nameAlreadyExists n) else .ok ((n, v) :: l) := by
  unfold addName
  split
  · rename_i h
    rw [if_pos]
    exact List.mem_map.mpr ⟨_, lookup_some_mem h, rfl⟩
  · rename_i h
    rw [if_neg (lookup_none_iff.mp h)]

theorem count_twice {l : List Text} {n : Text} {r : List Text} (h : n ∈ l) : 2 ≤ (l ++ n :: r).count n := by
  rw [List.count_append, List.count_cons_self]
  have := List.count_pos_iff.mpr h
  omega

theorem label_run (m : Mode) : ∀ (stmts : List Stmt) (p : Nat) (sc : Text) (qs ps : List Placed) (s : LabelState),
    LInv qs sc p s → SourceLabels stmts → place p sc stmts = some ps → p < 2147483648 → Fits ps →
    (∃ s' sc', runSteps (labelStep m) stmts s = .ok s' ∧ LInv (qs ++ ps) sc' (stop p ps) s') ∨
    (∃ n, DefinedTwice (qs ++ ps) n ∧ runSteps (labelStep m) stmts s = .err (.nameAlreadyExists n))
  | [], p, sc, qs, ps, s, hi, _, hpl, _, _ => by
    simp only [place, Option.some.injEq] at hpl
    subst hpl
    exact .inl ⟨s, sc, rfl, by simpa [stop] using hi⟩
  | x :: xs, p, sc, qs, ps, s, hi, hsrc, hpl, hp, hfit => by
    obtain ⟨p', rest, ha, hr, rfl⟩ := place_cons hpl
    have hp' : p' < 2147483648 := by
      have := hfit ⟨p, sc, x⟩ (by simp)
      rw [end_eq ha] at this
      omega
    have hfit' : Fits rest := fun q hq => hfit q (by simp [hq])
    have hsrc' : SourceLabels xs := fun n hn hd => hsrc n (by simp [hn]) hd
    have hst : stop p (⟨p, sc, x⟩ :: rest) = stop p' rest := by
      simp only [stop]; rw [end_eq ha]
    have happ : qs ++ ⟨p, sc, x⟩ :: rest = (qs ++ [⟨p, sc, x⟩]) ++ rest := by simp
    -- a step that only moves the position
    have move : (∀ n, x ≠ .label n) → labelStep m s x = .ok { s with pos := p' } →
        (∃ s' sc', runSteps (labelStep m) (x :: xs) s = .ok s' ∧
          LInv (qs ++ ⟨p, sc, x⟩ :: rest) sc' (stop p (⟨p, sc, x⟩ :: rest)) s') ∨
        (∃ n, DefinedTwice (qs ++ ⟨p, sc, x⟩ :: rest) n ∧
          runSteps (labelStep m) (x :: xs) s = .err (.nameAlreadyExists n)) := by
      intro hx hstep
      rw [nextScope_nonlabel hx] at hr
      have := label_run m xs p' sc (qs ++ [⟨p, sc, x⟩]) rest { s with pos := p' } (hi.extend hx) hsrc' hr hp' hfit'
      rw [happ, hst]
      simp only [runSteps, hstep, Res.ok_bind]
      exact this
    have hps : (p : Int) = s.pos := hi.pos.symm
    have hself : ({ s with pos := (p : Int) } : LabelState) = s := by
      have := hi.pos; cases s; simp_all
    cases x with
    | dir d =>
      apply move (by simp)
      simp only [labelStep, hi.pos]
      exact dir_pos m ha hp hp' (fun pos => .ok { s with pos := pos })
    | instr i =>
      apply move (by simp)
      simp only [labelStep, hi.pos]
      exact instr_pos m ha hp' (fun pos => .ok { s with pos := pos })
    | «variable» n e =>
      simp only [advance, Option.some.injEq] at ha; subst ha
      exact move (by simp) (by simp only [labelStep]; rw [hself])
    | alias n e =>
      simp only [advance, Option.some.injEq] at ha; subst ha
      exact move (by simp) (by simp only [labelStep]; rw [hself])
    | comment t =>
      simp only [advance, Option.some.injEq] at ha; subst ha
      exact move (by simp) (by simp only [labelStep]; rw [hself])
    | macroCall n args => simp [advance] at ha
    | label n =>
      simp only [advance, Option.some.injEq] at ha; subst ha
      simp only [runSteps, labelStep, isDotted_eq]
      by_cases hd : dotted n = true
      · rw [if_pos hd, addName_eq, hi.loc, List.map_reverse]
        by_cases hn : lower n ∈ (localLabels sc qs).map (·.1)
        · right
          refine ⟨lower n, .inr ⟨sc, ?_⟩, ?_⟩
          · rw [localLabels_append]
            have : localLabels sc (⟨p, sc, .label n⟩ :: rest) = (lower n, (p : Int)) :: localLabels sc rest := by
              simp [localLabels, hd]
            rw [this, List.map_append, List.map_cons]
            exact count_twice hn
          · rw [if_pos (by simpa using hn)]; rfl
        · rw [if_neg (by simpa using hn)]
          simp only [Res.ok_bind]
          have hns : nextScope sc (.label n) = sc := by simp [nextScope, hd]
          rw [hns] at hr
          have := label_run m xs p sc _ rest _ (hi.local_ hd hn) hsrc' hr hp hfit'
          rw [happ, hst, hi.pos, ← hi.loc]
          rw [← hps] at this
          exact this
      · have hd : dotted n = false := by simpa using hd
        obtain ⟨hlow, hne⟩ := hsrc n (by simp) hd
        rw [hd, if_neg (by simp), addName_eq, hi.glob, List.map_reverse]
        by_cases hn : lower n ∈ (globalLabels qs).map (·.1)
        · right
          refine ⟨lower n, .inl ?_, ?_⟩
          · rw [globalLabels_append]
            have : globalLabels (⟨p, sc, .label n⟩ :: rest) = (lower n, (p : Int)) :: globalLabels rest := by
              simp [globalLabels, hd]
            rw [this, List.map_append, List.map_cons]
            exact count_twice hn
          · rw [if_pos (by simpa using hn)]; rfl
        · rw [if_neg (by simpa using hn)]
          simp only [Res.ok_bind]
          have hns : nextScope sc (.label n) = lower n := by simp [nextScope, hd]
          rw [hns] at hr
          have := label_run m xs p (lower n) _ rest _ (hi.global hd (by rw [hlow]; exact hne) hn) hsrc' hr hp hfit'
          rw [happ, hst, hi.pos, ← hi.glob]
          rw [← hps] at this
          exact this

/-- The initial state. -/
theorem LInv.init : LInv [] [] 0 ⟨[], [], [], [], 0⟩ := by
  refine ⟨rfl, rfl, rfl, rfl, ⟨List.nodup_nil, fun _ => List.nodup_nil⟩, .inl rfl, ?_, ?_, rfl, ?_⟩ <;> simp

/-- compute_labels on a laid-out program. -/
theorem computeLabels_spec (m : Mode) {stmts : List Stmt} {ps : List Placed} (hsrc : SourceLabels stmts)
    (hl : layout stmts = some ps) (hfit : Fits ps) :
    (LabelsDistinct ps ∧ ∃ locals, computeLabels m stmts = .ok ((globalLabels ps).reverse, locals) ∧
      ∀ q ∈ ps, locals.lookup q.scope = some (localLabels q.scope ps).reverse) ∨
    (∃ n, DefinedTwice ps n ∧ computeLabels m stmts = .err (.nameAlreadyExists n)) := by
  rcases label_run m stmts 0 [] [] ps _ LInv.init hsrc hl (by omega) hfit with ⟨s', sc', h1, h2⟩ | ⟨n, h1, h2⟩
  · left
    rw [List.nil_append] at h2
    refine ⟨h2.distinct, (sc', s'.local_) :: s'.locals, ?_, ?_⟩
    · unfold computeLabels
      rw [h1, Res.ok_bind]
      rw [h2.cur, h2.nocur, h2.glob]
    · intro q hq
      by_cases hqs : q.scope = sc'
      · rw [hqs, List.lookup_cons, beq_self_eq_true, h2.loc]
      · have : (q.scope == sc') = false := by simpa using hqs
        rw [List.lookup_cons, this]
        exact h2.old _ hqs ⟨q, hq, rfl⟩
  · right
    rw [List.nil_append] at h1
    refine ⟨n, h1, ?_⟩
    unfold computeLabels
    rw [h2]
    rfl

/-- A label defined twice contradicts distinctness. -/
theorem not_distinct {ps : List Placed} {n : Text} (h : DefinedTwice ps n) : ¬ LabelsDistinct ps := by
  rintro ⟨h1, h2⟩
  have key : ∀ (l : List Text), l.Nodup → l.count n ≤ 1 := fun l hl => List.nodup_iff_count.mp hl n
  rcases h with h | ⟨sc, h⟩
  · have := key _ h1; omega
  · have := key _ (h2 sc); omega

theorem distinct_or {ps : List Placed} : LabelsDistinct ps ∨ ∃ n, DefinedTwice ps n := by
  by_cases h : ∃ n, DefinedTwice ps n
  · exact .inr h
  · left
    have h1 : ∀ n, ¬ DefinedTwice ps n := fun n hn => h ⟨n, hn⟩
    refine ⟨List.nodup_iff_count.mpr fun n => ?_, fun sc => List.nodup_iff_count.mpr fun n => ?_⟩
    · have := h1 n; unfold DefinedTwice at this; omega
    · have := h1 n
      apply Nat.le_of_not_lt
      intro hlt
      exact this (.inr ⟨sc, hlt⟩)

end Verif
