import Verif.Lemmas.AssembledFiles
/-
Programs that differ only in how their data are written are refused for the same reasons.
-/
namespace Verif
open Spec

theorem advance_of_labelStep {m : Mode} {x : Stmt} {s s' : LabelState} (hc : ∀ t n, x ≠ .dir (.incl t n))
    (hs : ∀ a k, x = .dir (.cnop a k) → (∀ v r, a = .number v r → 0 ≤ v) ∧ ∀ v r, k = .number v r → 0 ≤ v)
    (h : labelStep m s x = .ok s') (p : Nat) : ∃ p', advance p x = some p' := by
  cases x with
  | dir d =>
    cases d with
    | incl t path => exact absurd rfl (hc t path)
    | cnop a k =>
      simp only [labelStep, Directive.size] at h
      obtain ⟨d, hd, _⟩ := Res.bind_eq_ok.mp h
      obtain ⟨v, hv, _⟩ := Res.bind_eq_ok.mp hd
      obtain ⟨x, rx, y, ry, rfl, rfl⟩ := evalCnop_literals hv
      have hn := hs _ _ rfl
      have h1 := hn.1 x rx rfl
      have h2 := hn.2 y ry rfl
      simp only [advance]
      rw [if_neg (by omega)]
      split
      · exact ⟨_, rfl⟩
      · exact ⟨_, rfl⟩
    | _ => exact ⟨_, rfl⟩
  | macroCall n args => simp only [labelStep, reduceCtorEq] at h
  | _ => exact ⟨_, rfl⟩

theorem labelStep_pos {m : Mode} {x : Stmt} {s s' : LabelState} {p p' : Nat} (ha : advance p x = some p') (hp : p < 2147483648)
    (hp' : p' < 2147483648) (hs : s.pos = p) (h : labelStep m s x = .ok s') : s'.pos = p' := by
  cases x with
  | dir d =>
    simp only [labelStep] at h
    rw [hs, dir_pos m ha hp hp'] at h
    cases h; rfl
  | instr i =>
    simp only [labelStep] at h
    rw [hs, instr_pos m ha hp'] at h
    cases h; rfl
  | label n =>
    cases ha
    simp only [labelStep] at h
    split at h
    · obtain ⟨_, _, h⟩ := Res.bind_eq_ok.mp h
      cases h; exact hs
    · obtain ⟨_, _, h⟩ := Res.bind_eq_ok.mp h
      cases h; exact hs
  | macroCall n args => cases ha
  | _ => cases ha; cases h; exact hs

theorem data_kinds {d : List Stmt} {bs} (h : Data d bs) : ∀ x ∈ d, (∃ t, x = .comment t) ∨ ∃ y, x = .dir y := by
  induction h <;> simp_all

theorem label_plain {m : Mode} : ∀ {d : List Stmt} {p : Nat} {sc qs} {s : LabelState},
    (∀ x ∈ d, (∃ t, x = Stmt.comment t) ∨ ∃ y, x = .dir y) → place p sc d = some qs → Fits qs → p < 2147483648 → s.pos = p →
    runSteps (labelStep m) d s = .ok { s with pos := stop p qs }
  | [], p, sc, qs, s, _, hl, _, _, hs => by
    cases hl
    simp only [runSteps, stop, ← hs]
  | x :: d, p, sc, qs, s, hk, hl, hf, hp, hs => by
    obtain ⟨p', rest, ha, hr, rfl⟩ := place_cons hl
    have hp' : p' < 2147483648 := by
      have := hf _ List.mem_cons_self
      rw [end_eq ha] at this
      omega
    have hstep : labelStep m s x = .ok { s with pos := p' } := by
      rcases hk x List.mem_cons_self with ⟨t, rfl⟩ | ⟨y, rfl⟩
      · cases ha
        simp only [labelStep, ← hs]
      · simp only [labelStep]
        rw [hs, dir_pos m ha hp hp']
    simp only [runSteps]
    rw [hstep, Res.ok_bind, label_plain (s := { s with pos := p' }) (fun x hx => hk x (List.mem_cons_of_mem _ hx)) hr
      (fun q hq => hf q (List.mem_cons_of_mem _ hq)) hp' rfl]
    simp only [stop, end_eq ha]

/-- The labels are the same, or the same is wrong with them. -/
theorem label_same {m : Mode} {ss ss' : List Stmt} (h : SameData (fun a b => b.length = a.length) ss ss') :
    ∀ {p : Nat} {sc : Text} {s : LabelState}, s.pos = p → p < 2147483647 →
      (∀ before after ps, ss = before ++ after → place p sc before = some ps → Fits ps) → SourceCnop ss →
      (∀ t n, Stmt.dir (.incl t n) ∉ ss) → runSteps (labelStep m) ss s = runSteps (labelStep m) ss' s := by
  induction h with
  | nil => intros; rfl
  | @same x ss ss' _ ih =>
    intro p sc s hs hp hb hc hi
    simp only [runSteps]
    cases hx : labelStep m s x with
    | err => rfl
    | panic => rfl
    | loop => rfl
    | ok s1 =>
      obtain ⟨p', ha⟩ := advance_of_labelStep (fun t n e => hi t n (e ▸ List.mem_cons_self))
        (fun a k e => ⟨fun v r h => ((hc a k (e ▸ List.mem_cons_self)).1 v r h).1,
          fun v r h => ((hc a k (e ▸ List.mem_cons_self)).2 v r h).1⟩) hx p
      have hp' : p' < 2147483647 := by
        have := hb [x] ss [⟨p, sc, x⟩] rfl (by simp only [place, ha]) _ List.mem_cons_self
        rw [end_eq ha] at this
        exact this
      rw [Res.ok_bind, Res.ok_bind]
      refine ih (sc := nextScope sc x) (labelStep_pos ha (by omega) (by omega) hs hx) hp' (fun before after ps e hl => ?_)
        (fun a k hk => hc a k (List.mem_cons_of_mem _ hk)) (fun t n hm => hi t n (List.mem_cons_of_mem _ hm))
      have := hb (x :: before) after (⟨p, sc, x⟩ :: ps) (by rw [e]; rfl) (by simp only [place, ha, hl])
      exact fun q hq => this q (List.mem_cons_of_mem _ hq)
  | @data d d' bs bs' ss ss' hd hd' he _ ih =>
    intro p sc s hs hp hb hc hi
    obtain ⟨qs, a1, a2, a3, -⟩ := data_placed hd sc p
    obtain ⟨rs, b1, b2, b3, -⟩ := data_placed hd' sc p
    have hf := hb d ss qs rfl a1
    have hlt : p + bs.length < 2147483647 := by
      have key : ∀ (qs : List Placed) (p : Nat), Fits qs → stop p qs = p ∨ stop p qs < 2147483647 := by
        intro qs
        induction qs with
        | nil => intro p _; exact .inl rfl
        | cons q qs ih =>
          intro p hf
          rcases ih q.end_ (fun r hr => hf r (List.mem_cons_of_mem _ hr)) with e | e
          · right; simp only [stop, e]; exact hf q List.mem_cons_self
          · right; exact e
      rcases key qs p hf with e | e <;> omega
    have hf' : Fits rs := by
      intro q hq
      have h1 := b3 q hq
      omega
    rw [runSteps_append, runSteps_append, label_plain (data_kinds hd) a1 hf (by omega) hs, label_plain (data_kinds hd') b1 hf' (by omega) hs,
      Res.ok_bind, Res.ok_bind, a2, b2, he]
    refine ih (sc := sc) rfl hlt (fun before after ps e hl => ?_) (fun a k hk => hc a k (List.mem_append_right _ hk))
      (fun t n hm => hi t n (List.mem_append_right _ hm))
    have := hb (d ++ before) after (qs ++ ps) (by rw [e, List.append_assoc]) (place_join a1 (by rw [a2, data_scope hd]; exact hl))
    exact fun q hq => this q (List.mem_append_right _ hq)

theorem computeLabels_same {m : Mode} {ss ss' : List Stmt} (h : SameData (fun a b => b.length = a.length) ss ss')
    (hb : ∀ before after ps, ss = before ++ after → layout before = some ps → Fits ps) (hc : SourceCnop ss)
    (hi : ∀ t n, Stmt.dir (.incl t n) ∉ ss) : computeLabels m ss = computeLabels m ss' := by
  unfold computeLabels
  rw [label_same h rfl (by omega) hb hc hi]

theorem laid_errors {m : Mode} {ss ss' : List Stmt} (h : SameData (fun a b => b.length = a.length) ss ss') :
    ∀ {pre ps}, Laid m (pre ++ ss) ps → LabelsDistinct ps → ∀ x, assemble m (pre ++ ss) = .err x → assemble m (pre ++ ss') = .err x := by
  induction h with
  | nil => exact fun _ _ _ => id
  | @same s ss ss' _ ih =>
    intro pre ps hL
    have := ih (pre := pre ++ [s]) (ps := ps)
    simp only [List.append_assoc, List.cons_append, List.nil_append] at this
    exact this hL
  | @data d d' bs bs' ss ss' hd hd' he _ ih =>
    intro pre ps hL hD x hx
    rw [← List.append_assoc] at hL hx
    obtain ⟨-, -, -, h1⟩ := data_swap hd hd' he hL
    obtain ⟨ps', h2, h3, h4⟩ := h1 hD
    rw [← List.append_assoc]
    exact ih h2 h3 x (h4 x hx)

/-- With data of the same lengths, a program is refused for the same reason. -/
theorem sameData_errors {m : Mode} {ss ss' : List Stmt} (h : SameData (fun a b => b.length = a.length) ss ss') (hs : Source ss)
    (hb : ∀ before after ps, ss = before ++ after → layout before = some ps → Fits ps)
    (hf : m = .wrapping ∨ ∀ ps, layout ss = some ps → CnopForward ps) (hi : ∀ t n, Stmt.dir (.incl t n) ∉ ss) {x}
    (hx : assemble m ss = .err x) : assemble m ss' = .err x := by
  have hl := computeLabels_same (m := m) h hb hs.2 hi
  cases e : computeLabels m ss with
  | err y =>
    have key : ∀ qs, computeLabels m qs = .err y → assemble m qs = .err y := by
      intro qs hq
      unfold assemble computeNames
      rw [hq]; rfl
    rw [key ss e] at hx
    rw [key ss' (hl ▸ e)]
    exact hx
  | panic => unfold assemble computeNames at hx; rw [e] at hx; cases hx
  | loop => unfold assemble computeNames at hx; rw [e] at hx; cases hx
  | ok r =>
    have hlay : ∃ ps, layout ss = some ps := by
      apply place_some
      intro y hy p
      have e' := e
      unfold computeLabels at e'
      obtain ⟨s', hr, -⟩ := Res.bind_eq_ok.mp e'
      obtain ⟨s1, s2, h2⟩ := runSteps_mem hr hy
      exact advance_of_labelStep (fun t n e => hi t n (e ▸ hy))
        (fun a k e => ⟨fun v r h => ((hs.2 a k (e ▸ hy)).1 v r h).1, fun v r h => ((hs.2 a k (e ▸ hy)).2 v r h).1⟩) h2 p
    obtain ⟨ps, hlay⟩ := hlay
    have hfit := hb ss [] ps (List.append_nil _).symm hlay
    have hL : Laid m ([] ++ ss) ps := ⟨hs, hlay, hfit, hf.imp id fun h => h ps hlay⟩
    rcases computeLabels_spec m hs.1 hlay hfit with ⟨hd, -⟩ | ⟨n, -, h1⟩
    · exact laid_errors (pre := []) h hL hd x hx
    · rw [e] at h1; cases h1

theorem expandStmts_data {uuid : Nat → Text} {macros : Macros} {fuel : Nat} : ∀ {d : List Stmt},
    (∀ s ∈ d, ∀ name args, s ≠ Stmt.macroCall name args) → ∀ ss k, expandStmts uuid macros fuel (d ++ ss) k =
      (expandStmts uuid macros fuel ss k >>= fun x => .ok (d ++ x.1, x.2))
  | [], _, ss, k => by
    cases h : expandStmts uuid macros fuel ss k <;> simp [h] <;> rfl
  | s :: d, hd, ss, k => by
    have ih := expandStmts_data (uuid := uuid) (macros := macros) (fuel := fuel)
      (fun s hs => hd s (List.mem_cons_of_mem _ hs)) ss k
    cases s with
    | macroCall n args => exact absurd rfl (hd _ List.mem_cons_self n args)
    | _ =>
      simp only [List.cons_append, expandStmts, ih, Res.bind_assoc, Res.ok_bind]

/-- The same is wrong with the macro calls. -/
theorem expandStmts_same {E} {uuid : Nat → Text} {macros : Macros} {fuel : Nat} {ss ss' : List Stmt} (h : SameData E ss ss') :
    ∀ {k x}, expandStmts uuid macros fuel ss k = .err x → expandStmts uuid macros fuel ss' k = .err x := by
  induction h with
  | nil => exact id
  | @same s ss ss' _ ih =>
    intro k x h
    cases s with
    | macroCall n args =>
      simp only [expandStmts] at h ⊢
      rcases Res.bind_eq_err.mp h with h | ⟨⟨new, k'⟩, h1, h⟩
      · rw [h]; rfl
      · rw [h1, Res.ok_bind]
        dsimp only at h ⊢
        rcases Res.bind_eq_err.mp h with h | ⟨_, _, h⟩
        · rw [ih h]; rfl
        · cases h
    | _ =>
      simp only [expandStmts] at h ⊢
      rcases Res.bind_eq_err.mp h with h | ⟨_, _, h⟩
      · rw [ih h]; rfl
      · cases h
  | data hd hd' _ _ ih =>
    intro k x h
    rw [expandStmts_data (data_not_call hd)] at h
    rw [expandStmts_data (data_not_call hd')]
    rcases Res.bind_eq_err.mp h with h | ⟨_, _, h⟩
    · rw [ih h]; rfl
    · cases h

end Verif
