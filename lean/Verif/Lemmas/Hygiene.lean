import Verif.Lemmas.MacroErr
namespace Verif
open Spec

theorem append_cancel_of_length {a b c d : List Char} (h : a ++ b = c ++ d) (hl : b.length = d.length) :
    b = d := by
  have h1 := congrArg List.length h
  simp only [List.length_append] at h1
  exact (List.append_inj h (by omega)).2

theorem named_nodup {uuid : Nat → Text} {fresh : List (Text × Text)} (hn : NamedBy uuid 0 fresh)
    (hs : Supply uuid fresh.length) : (fresh.map (·.2)).Nodup := by
  rw [List.nodup_iff_pairwise_ne, List.pairwise_iff_getElem]
  intro i j hi hj hij he
  simp only [List.length_map] at hi hj
  simp only [List.getElem_map] at he
  have h1 := hn i fresh[i] (List.getElem?_eq_getElem hi)
  have h2 := hn j fresh[j] (List.getElem?_eq_getElem hj)
  rw [h1, h2] at he
  simp only [Nat.zero_add] at he
  have := append_cancel_of_length he (by simp [hs.length i hi, hs.length j hj])
  have := hs.distinct i j hi hj (List.cons.inj this).2
  omega

theorem filterMap_lookup {names : List (Text × Text)} (hn : (names.map (·.1)).Nodup) :
    (names.map (·.1)).filterMap (fun x => names.lookup x) = names.map (·.2) := by
  have key : ∀ (l : List (Text × Text)), (∀ x ∈ l, x ∈ names) →
      (l.map (·.1)).filterMap (fun x => names.lookup x) = l.map (·.2) := by
    intro l
    induction l with
    | nil => intro _; rfl
    | cons x xs ih =>
      intro h
      have hx : names.lookup x.1 = some x.2 := (lookup_eq_some_iff_mem hn).mpr (h x List.mem_cons_self)
      simp only [List.map_cons, List.filterMap_cons, hx]
      rw [ih (fun y hy => h y (List.mem_cons_of_mem _ hy))]
  exact key names (fun _ h => h)

theorem body_count {M : MacroTable} {l : Text} (hM : ∀ name n d, M name n = some d → MacroStmt.label l ∉ d.body)
    {σ : Text → Option Arg} {ρ : Text → Option Text} {body : List MacroStmt} {out : List Stmt}
    {fresh : List (Text × Text)} (h : BodyExpands M σ ρ body out fresh) (hl : MacroStmt.label l ∉ body) :
    out.count (.label l) = ((hygienic body).filterMap ρ).count l + (fresh.map (·.2)).count l := by
  induction h with
  | nil => simp [hygienic]
  | @label σ ρ n rest out fresh _ ih =>
    have hne : n ≠ l := fun e => hl (by rw [e]; exact List.mem_cons_self)
    rw [List.count_cons_of_ne (by simp [hne]), ih (fun hm => hl (List.mem_cons_of_mem _ hm))]
    rfl
  | @hygienic σ ρ n l' rest out fresh hn _ ih =>
    have := ih (fun hm => hl (List.mem_cons_of_mem _ hm))
    simp only [hygienic, List.filterMap_cons, hn, List.count_cons, this]
    by_cases e : l' = l
    · simp [e]; omega
    · simp [e]
  | instr _ _ _ _ ih =>
    rw [List.count_cons_of_ne (by simp), ih (fun hm => hl (List.mem_cons_of_mem _ hm))]
    rfl
  | call hd _ hnm hnd _ _ ih1 ih2 =>
    have h1 := ih1 (hM _ _ _ hd)
    have h2 := ih2 (fun hm => hl (List.mem_cons_of_mem _ hm))
    rw [← hnm, filterMap_lookup (by rw [hnm]; exact hnd)] at h1
    simp only [List.count_append, List.map_append, h1, h2, hygienic]
    omega

theorem program_count {M : MacroTable} {l : Text} (hM : ∀ name n d, M name n = some d → MacroStmt.label l ∉ d.body)
    {stmts out : List Stmt} {fresh : List (Text × Text)} (h : ProgramExpands M stmts out fresh)
    (hl : Stmt.label l ∉ stmts) : out.count (.label l) = (fresh.map (·.2)).count l := by
  induction h with
  | nil => simp
  | @keep x rest out fresh _ _ ih =>
    have hne : x ≠ .label l := fun e => hl (by rw [e]; exact List.mem_cons_self)
    rw [List.count_cons_of_ne hne, ih (fun hm => hl (List.mem_cons_of_mem _ hm))]
  | call hd hnm hnd hb _ ih =>
    have h1 := body_count hM hb (hM _ _ _ hd)
    rw [← hnm, filterMap_lookup (by rw [hnm]; exact hnd)] at h1
    simp only [List.count_append, List.map_append, h1, ih (fun hm => hl (List.mem_cons_of_mem _ hm))]

theorem written_stmts {p : Program} {l : Text} (h : l ∉ writtenLabels p) : Stmt.label l ∉ p.stmts := by
  intro hm
  exact h (List.mem_append_left _ (List.mem_filterMap.mpr ⟨_, hm, rfl⟩))

theorem written_macros {p : Program} {l : Text} (h : l ∉ writtenLabels p) {name : Text} {n : Nat} {d : MacroDef}
    (hd : table p.macros name n = some d) : MacroStmt.label l ∉ d.body := by
  intro hm
  exact h (List.mem_append_right _ (List.mem_flatMap.mpr ⟨_, lookup_mem_pair hd, List.mem_filterMap.mpr ⟨_, hm, rfl⟩⟩))

/-! Output shape without hypotheses -/

theorem expandBody_shape {uuid : Nat → Text} {macros : Macros} {fuel : Nat}
    {again : Text → List Arg → Nat → Res (List Stmt × Nat)}
    (ha : ∀ name args k out k', again name args k = .ok (out, k') → ∀ x ∈ out, ∀ n a, x ≠ .macroCall n a)
    {labels : List (Text × Text)} {argmap : List (Text × Arg)} {body : List MacroStmt} {k : Nat} {out : List Stmt} {k' : Nat}
    (h : expandBody uuid macros fuel again labels argmap body k = .ok (out, k')) :
    ∀ x ∈ out, ∀ n a, x ≠ .macroCall n a := by
  induction body generalizing k out k' with
  | nil => simp only [expandBody] at h; cases h; simp
  | cons s rest ih =>
    cases s with
    | label n =>
      simp only [expandBody, Res.bind_eq_ok] at h
      obtain ⟨⟨o, k1⟩, h1, h2⟩ := h
      cases h2
      intro x hx
      rcases List.mem_cons.mp hx with rfl | hx
      · simp
      · exact ih h1 x hx
    | macroLabel n =>
      simp only [expandBody] at h
      split at h
      · cases h
      · simp only [Res.bind_eq_ok] at h
        obtain ⟨⟨o, k1⟩, h1, h2⟩ := h
        cases h2
        intro x hx
        rcases List.mem_cons.mp hx with rfl | hx
        · simp
        · exact ih h1 x hx
    | instr name args =>
      simp only [expandBody] at h
      split at h
      · simp only [Res.bind_eq_ok] at h
        obtain ⟨args', h1, ⟨new, k1⟩, h2, ⟨o, k2⟩, h3, h4⟩ := h
        cases h4
        intro x hx
        rcases List.mem_append.mp hx with hx | hx
        · exact ha _ _ _ _ _ h2 x hx
        · exact ih h3 x hx
      · simp only [Res.bind_eq_ok] at h
        obtain ⟨args', h1, i, h2, ⟨o, k2⟩, h3, h4⟩ := h
        cases h4
        intro x hx
        rcases List.mem_cons.mp hx with rfl | hx
        · simp
        · exact ih h3 x hx

theorem expand_shape {uuid : Nat → Text} {macros : Macros} (fuel : Nat) :
    ∀ name args k out k', expand uuid macros fuel name args k = .ok (out, k') → ∀ x ∈ out, ∀ n a, x ≠ .macroCall n a := by
  induction fuel with
  | zero => intro _ _ _ _ _ h; cases h
  | succ f ih =>
    intro name args k out k' h
    simp only [expand] at h
    split at h
    · cases h
    · split at h
      · cases h
      · simp only [Res.bind_eq_ok] at h
        obtain ⟨⟨labels, k1⟩, h1, h2⟩ := h
        exact expandBody_shape ih h2

theorem expandStmts_shape {uuid : Nat → Text} {macros : Macros} {fuel : Nat} {stmts : List Stmt} {k : Nat}
    {out : List Stmt} {k' : Nat} (h : expandStmts uuid macros fuel stmts k = .ok (out, k')) :
    ∀ x ∈ out, ∀ n a, x ≠ .macroCall n a := by
  induction stmts generalizing k out k' with
  | nil => simp only [expandStmts] at h; cases h; simp
  | cons s rest ih =>
    by_cases hs : ∃ name args, s = .macroCall name args
    · obtain ⟨name, args, rfl⟩ := hs
      simp only [expandStmts, Res.bind_eq_ok] at h
      obtain ⟨⟨new, k1⟩, h2, ⟨o, k2⟩, h3, h4⟩ := h
      cases h4
      intro x hx
      rcases List.mem_append.mp hx with hx | hx
      · exact expand_shape fuel _ _ _ _ _ h2 x hx
      · exact ih h3 x hx
    · have hk : ∀ n a, s ≠ .macroCall n a := fun n a e => hs ⟨n, a, e⟩
      rw [expandStmts_keep hk] at h
      simp only [Res.bind_eq_ok] at h
      obtain ⟨⟨o, k1⟩, h1, h2⟩ := h
      cases h2
      intro x hx
      rcases List.mem_cons.mp hx with rfl | hx
      · exact hk
      · exact ih h1 x hx

theorem expandStmts_none {uuid : Nat → Text} {macros : Macros} {fuel : Nat} : ∀ {stmts : List Stmt} {k : Nat},
    (∀ x ∈ stmts, ∀ n a, x ≠ .macroCall n a) → expandStmts uuid macros fuel stmts k = .ok (stmts, k)
  | [], k, _ => rfl
  | s :: rest, k, h => by
    rw [expandStmts_keep (h s List.mem_cons_self), expandStmts_none (fun x hx => h x (List.mem_cons_of_mem _ hx))]
    rfl

theorem expandStmts_append {uuid : Nat → Text} {macros : Macros} {fuel : Nat} {a b : List Stmt} {k k' : Nat}
    {out : List Stmt} (h : expandStmts uuid macros fuel a k = .ok (out, k')) :
    expandStmts uuid macros fuel (a ++ b) k =
      (do let (o, k) ← expandStmts uuid macros fuel b k'; Res.ok (out ++ o, k)) := by
  induction a generalizing k out k' with
  | nil =>
    simp only [expandStmts] at h
    cases h
    simp only [List.nil_append]
    cases expandStmts uuid macros fuel b k <;> rfl
  | cons s rest ih =>
    by_cases hs : ∃ name args, s = .macroCall name args
    · obtain ⟨name, args, rfl⟩ := hs
      simp only [expandStmts, Res.bind_eq_ok] at h
      obtain ⟨⟨new, k1⟩, h2, ⟨o, k2⟩, h3, h4⟩ := h
      cases h4
      simp only [List.cons_append, expandStmts, h2, ih h3, Res.ok_bind]
      cases expandStmts uuid macros fuel b k2 <;> simp
    · have hk : ∀ n a, s ≠ .macroCall n a := fun n a e => hs ⟨n, a, e⟩
      rw [expandStmts_keep hk] at h
      simp only [Res.bind_eq_ok] at h
      obtain ⟨⟨o, k1⟩, h1, h2⟩ := h
      cases h2
      rw [List.cons_append, expandStmts_keep hk, ih h1]
      show _ = (do let (o', k) ← expandStmts uuid macros fuel b k1; Res.ok (s :: o ++ o', k))
      cases expandStmts uuid macros fuel b k1 <;> rfl

/-! A macro that is not mentioned -/

theorem replaceArgs_length {fuel : Nat} {labels : List (Text × Text)} {argmap : List (Text × Arg)} :
    ∀ {as as' : List Arg}, replaceArgs fuel labels argmap as = .ok as' → as'.length = as.length
  | [], as', h => by simp only [replaceArgs] at h; cases h; rfl
  | a :: as, as', h => by
    simp only [replaceArgs, Res.bind_eq_ok] at h
    obtain ⟨x, _, xs, hxs, he⟩ := h
    cases he
    simp [replaceArgs_length hxs]

theorem lookup_other {key key' : Text × Nat} {d : MacroDef} {macros : Macros} (h : key' ≠ key) :
    List.lookup key' ((key, d) :: macros) = List.lookup key' macros := by
  rw [List.lookup_cons]
  have : (key' == key) = false := by simpa using h
  rw [this]

theorem expandBody_extra {uuid : Nat → Text} {macros : Macros} {key : Text × Nat} {d : MacroDef} {fuel : Nat}
    {again again' : Text → List Arg → Nat → Res (List Stmt × Nat)}
    (ha : ∀ name args k, (name, args.length) ≠ key → again' name args k = again name args k)
    {labels : List (Text × Text)} {argmap : List (Text × Arg)} :
    ∀ {body : List MacroStmt} {k : Nat}, (∀ name args, MacroStmt.instr name args ∈ body → (name, args.length) ≠ key) →
    expandBody uuid ((key, d) :: macros) fuel again' labels argmap body k =
      expandBody uuid macros fuel again labels argmap body k
  | [], k, _ => rfl
  | .label n :: rest, k, h => by
    simp only [expandBody]
    rw [expandBody_extra ha (fun name args hm => h name args (List.mem_cons_of_mem _ hm))]
  | .macroLabel n :: rest, k, h => by
    simp only [expandBody]
    rw [expandBody_extra ha (fun name args hm => h name args (List.mem_cons_of_mem _ hm))]
  | .instr name args :: rest, k, h => by
    have hk := h name args List.mem_cons_self
    have ih : ∀ k, _ := fun k => expandBody_extra (fuel := fuel) (labels := labels) (argmap := argmap) (k := k) (d := d)
      (macros := macros) (uuid := uuid) ha (fun name args hm => h name args (List.mem_cons_of_mem _ hm))
    simp only [expandBody, lookup_other hk]
    split
    · cases h1 : replaceArgs fuel labels argmap args with
      | ok args' =>
        simp only [Res.ok_bind]
        rw [ha name args' k (by rw [replaceArgs_length h1]; exact hk)]
        cases again name args' k <;> simp [ih]
      | _ => rfl
    · simp only [ih]

theorem expand_extra {uuid : Nat → Text} {macros : Macros} {key : Text × Nat} {d : MacroDef}
    (hb : ∀ key' d', (key', d') ∈ macros → ∀ name args, MacroStmt.instr name args ∈ d'.body → (name, args.length) ≠ key) :
    ∀ (fuel : Nat) (name : Text) (args : List Arg) (k : Nat), (name, args.length) ≠ key →
      expand uuid ((key, d) :: macros) fuel name args k = expand uuid macros fuel name args k := by
  intro fuel
  induction fuel with
  | zero => intro _ _ _ _; rfl
  | succ f ih =>
    intro name args k hk
    simp only [expand, lookup_other hk]
    split
    · rfl
    · rename_i d' hd'
      split
      · rfl
      · cases genLabels uuid d'.body [] k with
        | ok x =>
          obtain ⟨labels, k1⟩ := x
          simp only [Res.ok_bind]
          exact expandBody_extra ih (hb _ _ (lookup_mem_pair hd'))
        | _ => rfl

theorem expandStmts_extra {uuid : Nat → Text} {macros : Macros} {key : Text × Nat} {d : MacroDef} {fuel : Nat}
    (hb : ∀ key' d', (key', d') ∈ macros → ∀ name args, MacroStmt.instr name args ∈ d'.body → (name, args.length) ≠ key) :
    ∀ {stmts : List Stmt} {k : Nat}, (∀ name args, Stmt.macroCall name args ∈ stmts → (name, args.length) ≠ key) →
      expandStmts uuid ((key, d) :: macros) fuel stmts k = expandStmts uuid macros fuel stmts k
  | [], k, _ => rfl
  | s :: rest, k, h => by
    have ih : ∀ k, expandStmts uuid ((key, d) :: macros) fuel rest k = expandStmts uuid macros fuel rest k :=
      fun k => expandStmts_extra hb (fun name args hm => h name args (List.mem_cons_of_mem _ hm))
    by_cases hs : ∃ name args, s = .macroCall name args
    · obtain ⟨name, args, rfl⟩ := hs
      simp only [expandStmts, expand_extra hb fuel name args k (h name args List.mem_cons_self), ih]
    · have hk : ∀ n a, s ≠ .macroCall n a := fun n a e => hs ⟨n, a, e⟩
      rw [expandStmts_keep hk, expandStmts_keep hk, ih]

end Verif
