import Verif.Lemmas.Macro
namespace Verif
open Spec

/-- What the code does for one call, given closed arguments. -/
def CallMeaning (uuid : Nat → Text) (macros : Macros) (name : Text) (args : List Arg) (k : Nat)
    (out : List Stmt) (k' : Nat) : Prop :=
  ∃ d names fresh, table macros name args.length = some d ∧ names.map (·.1) = hygienic d.body ∧
    (hygienic d.body).Nodup ∧
    BodyExpands (table macros) (fun x => (d.args.zip args).lookup x) (fun x => names.lookup x) d.body out fresh ∧
    NamedBy uuid k (names ++ fresh) ∧ k' = k + (names ++ fresh).length

theorem expandBody_sound {uuid : Nat → Text} {macros : Macros} {fuel : Nat}
    {again : Text → List Arg → Nat → Res (List Stmt × Nat)}
    (ha : ∀ name args k out k', (∀ a ∈ args, closedArg a = true) → again name args k = .ok (out, k') →
      CallMeaning uuid macros name args k out k')
    {labels : List (Text × Text)} {argmap : List (Text × Arg)} (hc : ClosedMap argmap)
    {body : List MacroStmt} {k : Nat} {out : List Stmt} {k' : Nat}
    (h : expandBody uuid macros fuel again labels argmap body k = .ok (out, k')) :
    ∃ fresh, BodyExpands (table macros) (fun x => argmap.lookup x) (fun x => labels.lookup x) body out fresh ∧
      NamedBy uuid k fresh ∧ k' = k + fresh.length := by
  induction body generalizing k out k' with
  | nil =>
    simp only [expandBody] at h
    cases h
    exact ⟨[], .nil, fun j x h => by simp at h, rfl⟩
  | cons s rest ih =>
    cases s with
    | label n =>
      simp only [expandBody, Res.bind_eq_ok] at h
      obtain ⟨⟨o, k1⟩, h1, h2⟩ := h
      cases h2
      obtain ⟨fresh, hb, hn, hk⟩ := ih h1
      exact ⟨fresh, .label hb, hn, hk⟩
    | macroLabel n =>
      simp only [expandBody] at h
      split at h
      · cases h
      · rename_i l hl
        simp only [Res.bind_eq_ok] at h
        obtain ⟨⟨o, k1⟩, h1, h2⟩ := h
        cases h2
        obtain ⟨fresh, hb, hn, hk⟩ := ih h1
        exact ⟨fresh, .hygienic hl hb, hn, hk⟩
    | instr name args =>
      simp only [expandBody] at h
      split at h
      · rename_i d hd
        simp only [Res.bind_eq_ok] at h
        obtain ⟨args', h1, ⟨new, k1⟩, h2, ⟨o, k2⟩, h3, h4⟩ := h
        cases h4
        have hs := replaceArgs_ok hc h1
        obtain ⟨hcl, hlen⟩ := substArgs_closed (fun n a hx => hc n a hx) hs
        obtain ⟨d', names, fr, hd', hnm, hnd, hbody, hnamed, hk1⟩ := ha _ _ _ _ _ hcl h2
        obtain ⟨fresh, hb, hn, hk⟩ := ih h3
        rw [hlen] at hd'
        refine ⟨names ++ fr ++ fresh, .call hd' hs hnm hnd hbody hb, ?_, ?_⟩
        · rw [NamedBy.append]; exact ⟨hnamed, by rw [← hk1]; exact hn⟩
        · rw [hk, hk1]; simp; omega
      · rename_i hd
        simp only [Res.bind_eq_ok] at h
        obtain ⟨args', h1, i, h2, ⟨o, k2⟩, h3, h4⟩ := h
        cases h4
        obtain ⟨fresh, hb, hn, hk⟩ := ih h3
        exact ⟨fresh, .instr hd (replaceArgs_ok hc h1) (makeInstr_ok_iff.mp h2) hb, hn, hk⟩

theorem expand_sound {uuid : Nat → Text} {macros : Macros} (wf : WellFormed macros) (fuel : Nat) :
    ∀ name args k out k', (∀ a ∈ args, closedArg a = true) → expand uuid macros fuel name args k = .ok (out, k') →
      CallMeaning uuid macros name args k out k' := by
  induction fuel with
  | zero => intro _ _ _ _ _ _ h; cases h
  | succ fuel ih =>
    intro name args k out k' hcl h
    simp only [expand] at h
    split at h
    · cases h
    · rename_i d hd
      split at h
      · cases h
      · simp only [Res.bind_eq_ok] at h
        obtain ⟨⟨labels, k1⟩, h1, h2⟩ := h
        obtain ⟨names, hl, hnm, hk1, hnamed, hnd⟩ := genLabels_ok (by simp) h1
        obtain ⟨fresh, hb, hn, hk⟩ := expandBody_sound ih (argMap_closed hcl) h2
        obtain ⟨-, hargs⟩ := wf _ _ hd
        have hnn : (names.map (·.1)).Nodup := by
          rw [hl] at hnd
          simp only [List.append_nil, List.map_reverse] at hnd
          exact (List.reverse_perm _).nodup_iff.mp hnd
        have hlab : (fun x => labels.lookup x) = fun x => names.lookup x := by
          funext x
          rw [hl, List.append_nil]
          exact lookup_rev hnn x
        rw [argMap_lookup hargs, hlab] at hb
        refine ⟨d, names, fresh, hd, hnm, hnm ▸ hnn, hb, ?_, ?_⟩
        · rw [NamedBy.append]; exact ⟨hnamed, hk1 ▸ hn⟩
        · rw [hk, hk1]; simp; omega

theorem expandStmts_sound {uuid : Nat → Text} {macros : Macros} (wf : WellFormed macros) {fuel : Nat}
    {stmts : List Stmt} (hc : ClosedCalls stmts) {k : Nat} {out : List Stmt} {k' : Nat}
    (h : expandStmts uuid macros fuel stmts k = .ok (out, k')) :
    ∃ fresh, ProgramExpands (table macros) stmts out fresh ∧ NamedBy uuid k fresh ∧ k' = k + fresh.length := by
  induction stmts generalizing k out k' with
  | nil =>
    simp only [expandStmts] at h
    cases h
    exact ⟨[], .nil, fun j x h => by simp at h, rfl⟩
  | cons s rest ih =>
    have hc' : ClosedCalls rest := fun n a hm => hc n a (List.mem_cons_of_mem _ hm)
    by_cases hs : ∃ name args, s = .macroCall name args
    · obtain ⟨name, args, rfl⟩ := hs
      simp only [expandStmts, Res.bind_eq_ok] at h
      obtain ⟨⟨new, k1⟩, h2, ⟨o, k2⟩, h3, h4⟩ := h
      cases h4
      obtain ⟨d, names, fr, hd, hnm, hnd, hbody, hnamed, hk1⟩ :=
        expand_sound wf fuel _ _ _ _ _ (hc name args List.mem_cons_self) h2
      obtain ⟨fresh, hb, hn, hk⟩ := ih hc' h3
      refine ⟨names ++ fr ++ fresh, .call hd hnm hnd hbody hb, ?_, ?_⟩
      · rw [NamedBy.append]; exact ⟨hnamed, by rw [← hk1]; exact hn⟩
      · rw [hk, hk1]; simp; omega
    · have hk : ∀ name args, s ≠ .macroCall name args := fun n a e => hs ⟨n, a, e⟩
      have h' : (do let (out, k) ← expandStmts uuid macros fuel rest k; Res.ok (s :: out, k)) = .ok (out, k') := by
        cases s <;> first | exact h | exact absurd rfl (hk _ _)
      simp only [Res.bind_eq_ok] at h'
      obtain ⟨⟨o, k1⟩, h1, h2⟩ := h'
      cases h2
      obtain ⟨fresh, hb, hn, hk'⟩ := ih hc' h1
      exact ⟨fresh, .keep hk hb, hn, hk'⟩

/-! Completeness -/

theorem expandStmts_keep {uuid : Nat → Text} {macros : Macros} {fuel : Nat} {s : Stmt} {rest : List Stmt} {k : Nat}
    (hs : ∀ name args, s ≠ .macroCall name args) :
    expandStmts uuid macros fuel (s :: rest) k =
      (do let (out, k) ← expandStmts uuid macros fuel rest k; Res.ok (s :: out, k)) := by
  cases s <;> first | rfl | exact absurd rfl (hs _ _)

theorem expand_call {uuid : Nat → Text} {macros : Macros} (wf : WellFormed macros) {name : Text} {args : List Arg}
    {d : MacroDef} {names : List (Text × Text)} {k fuel : Nat} (hd : table macros name args.length = some d)
    (hnm : names.map (·.1) = hygienic d.body) (hnd : (hygienic d.body).Nodup) (hn : NamedBy uuid k names) :
    expand uuid macros (fuel + 1) name args k =
      expandBody uuid macros fuel (expand uuid macros fuel) names.reverse (argMap d.args args) d.body
        (k + names.length) := by
  have hd' : macros.lookup (name, args.length) = some d := hd
  have hw := (wf _ _ hd').1
  have hlen : args.length = d.args.length := (Prod.mk.inj hw).2
  have hg := genLabels_of (map := []) hnm (by
    simp only [List.append_nil, List.map_reverse]
    rw [hnm]
    exact (List.reverse_perm _).nodup_iff.mpr hnd) hn
  simp only [expand, hd']
  rw [if_neg (by omega), hg]
  simp

theorem names_lookup {names : List (Text × Text)} {body : List MacroStmt} (hnm : names.map (·.1) = hygienic body)
    (hnd : (hygienic body).Nodup) : (fun x => names.reverse.lookup x) = fun x => names.lookup x := by
  funext x
  exact lookup_rev (by rw [hnm]; exact hnd) x

theorem expandBody_complete {uuid : Nat → Text} {macros : Macros} (wf : WellFormed macros)
    {σ : Text → Option Arg} {ρ : Text → Option Text} {body : List MacroStmt} {out : List Stmt}
    {fresh : List (Text × Text)} (h : BodyExpands (table macros) σ ρ body out fresh) :
    ∃ N, ∀ fuel, N ≤ fuel → ∀ labels argmap k, σ = (fun x => argmap.lookup x) → ρ = (fun x => labels.lookup x) →
      ClosedMap argmap → NamedBy uuid k fresh →
      expandBody uuid macros fuel (expand uuid macros fuel) labels argmap body k = .ok (out, k + fresh.length) := by
  induction h with
  | nil => exact ⟨0, fun fuel _ labels argmap k _ _ _ _ => rfl⟩
  | label _ ih =>
    obtain ⟨N, hN⟩ := ih
    refine ⟨N, fun fuel hf labels argmap k hσ hρ hc hn => ?_⟩
    simp only [expandBody, hN fuel hf labels argmap k hσ hρ hc hn]
    simp
  | hygienic hl _ ih =>
    obtain ⟨N, hN⟩ := ih
    refine ⟨N, fun fuel hf labels argmap k hσ hρ hc hn => ?_⟩
    subst hρ
    simp only at hl
    simp only [expandBody, hN fuel hf labels argmap k hσ rfl hc hn, hl]
    simp
  | instr hd hs hw _ ih =>
    obtain ⟨N, hN⟩ := ih
    refine ⟨N + 1, fun fuel hf labels argmap k hσ hρ hc hn => ?_⟩
    obtain ⟨f, rfl⟩ : ∃ f, fuel = f + 1 := ⟨fuel - 1, by omega⟩
    have hd' : macros.lookup _ = none := hd
    simp only [expandBody, hd', hN (f + 1) (by omega) labels argmap k hσ hρ hc hn]
    subst hσ hρ
    rw [replaceArgs_of_subst f hc hs]
    simp [makeInstr_ok_iff.mpr hw]
  | @call σ ρ name args args' d names inner fresh' rest out fresh hd hs hnm hnd hb _ ih1 ih2 =>
    obtain ⟨N1, hN1⟩ := ih1
    obtain ⟨N2, hN2⟩ := ih2
    refine ⟨N1 + N2 + 1, fun fuel hf labels argmap k hσ hρ hc hn => ?_⟩
    obtain ⟨f, rfl⟩ : ∃ f, fuel = f + 1 := ⟨fuel - 1, by omega⟩
    have hd' : macros.lookup (name, args.length) = some d := hd
    simp only [expandBody, hd']
    rw [NamedBy.append, NamedBy.append] at hn
    obtain ⟨⟨hn1, hn2⟩, hn3⟩ := hn
    have hcl := substArgs_closed (fun n a hx => hc n a (by subst hσ; exact hx)) hs
    have hs' := hs
    subst hσ hρ
    rw [replaceArgs_of_subst f hc hs']
    simp only [Res.ok_bind]
    rw [expand_call wf (d := d) (names := names) (by rw [hcl.2]; exact hd) hnm hnd hn1,
      hN1 f (by omega) names.reverse (argMap d.args args') _ (argMap_lookup (wf _ _ hd').2 args').symm
        (names_lookup hnm hnd).symm (argMap_closed hcl.1) hn2]
    simp only [Res.ok_bind]
    rw [hN2 (f + 1) (by omega) labels argmap _ rfl rfl hc (by
      rw [List.length_append] at hn3; rw [Nat.add_assoc]; exact hn3)]
    simp [Nat.add_assoc]

theorem expandStmts_complete {uuid : Nat → Text} {macros : Macros} (wf : WellFormed macros)
    {stmts out : List Stmt} {fresh : List (Text × Text)} (h : ProgramExpands (table macros) stmts out fresh)
    (hc : ClosedCalls stmts) :
    ∃ N, ∀ fuel, N ≤ fuel → ∀ k, NamedBy uuid k fresh →
      expandStmts uuid macros fuel stmts k = .ok (out, k + fresh.length) := by
  induction h with
  | nil => exact ⟨0, fun _ _ _ _ => rfl⟩
  | keep hk _ ih =>
    obtain ⟨N, hN⟩ := ih (fun n a hm => hc n a (List.mem_cons_of_mem _ hm))
    refine ⟨N, fun fuel hf k hn => ?_⟩
    rw [expandStmts_keep hk, hN fuel hf k hn]
    rfl
  | @call name args d names inner fresh' rest out fresh hd hnm hnd hb _ ih =>
    obtain ⟨N2, hN2⟩ := ih (fun n a hm => hc n a (List.mem_cons_of_mem _ hm))
    obtain ⟨N1, hN1⟩ := expandBody_complete (uuid := uuid) wf hb
    refine ⟨N1 + N2 + 1, fun fuel hf k hn => ?_⟩
    obtain ⟨f, rfl⟩ : ∃ f, fuel = f + 1 := ⟨fuel - 1, by omega⟩
    rw [NamedBy.append, NamedBy.append] at hn
    obtain ⟨⟨hn1, hn2⟩, hn3⟩ := hn
    simp only [expandStmts]
    rw [expand_call wf hd hnm hnd hn1, hN1 f (by omega) names.reverse (argMap d.args args) _
      (argMap_lookup (wf _ _ hd).2 args).symm (names_lookup hnm hnd).symm
      (argMap_closed (hc name args List.mem_cons_self)) hn2]
    simp only [Res.ok_bind]
    rw [hN2 (f + 1) (by omega) _ (by rw [List.length_append] at hn3; rw [Nat.add_assoc]; exact hn3)]
    simp [Nat.add_assoc]

/-- Expansion and its specification. -/
theorem expandMacros_iff {uuid : Nat → Text} {p q : Program} (wf : WellFormed p.macros) (hc : ClosedCalls p.stmts) :
    (∃ fuel, expandMacros uuid fuel p = .ok q) ↔
      q.macros = p.macros ∧ ∃ fresh, ProgramExpands (table p.macros) p.stmts q.stmts fresh ∧ NamedBy uuid 0 fresh := by
  constructor
  · rintro ⟨fuel, h⟩
    simp only [expandMacros, Res.bind_eq_ok] at h
    obtain ⟨⟨o, k⟩, h1, h2⟩ := h
    cases h2
    obtain ⟨fresh, hb, hn, -⟩ := expandStmts_sound wf hc h1
    exact ⟨rfl, fresh, hb, hn⟩
  · rintro ⟨hm, fresh, hb, hn⟩
    obtain ⟨N, hN⟩ := expandStmts_complete (uuid := uuid) wf hb hc
    refine ⟨N, ?_⟩
    simp only [expandMacros, hN N (Nat.le_refl _) 0 hn]
    obtain ⟨qm, qs⟩ := q
    simp at hm
    subst hm
    rfl

end Verif
