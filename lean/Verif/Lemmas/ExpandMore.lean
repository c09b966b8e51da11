import Verif.Lemmas.Expand
import Verif.Lemmas.AsmTotal
namespace Verif
open Spec

/-! Termination -/

theorem genLabels_ends {uuid : Nat → Text} : ∀ (body : List MacroStmt) (map : List (Text × Text)) (k : Nat),
    genLabels uuid body map k ≠ .loop ∧ genLabels uuid body map k ≠ .panic
  | [], map, k => by simp [genLabels]
  | .instr n a :: rest, map, k => genLabels_ends rest map k
  | .label n :: rest, map, k => genLabels_ends rest map k
  | .macroLabel n :: rest, map, k => by
    simp only [genLabels]
    split
    · exact genLabels_ends rest _ _
    · simp

theorem makeInstr_ends (name : Text) (args : List Arg) :
    makeInstr name args ≠ .loop ∧ makeInstr name args ≠ .panic := by
  unfold makeInstr
  split
  · split <;> simp
  · simp

theorem expandBody_ends {uuid : Nat → Text} {macros : Macros} {fuel : Nat}
    {again : Text → List Arg → Nat → Res (List Stmt × Nat)} {labels : List (Text × Text)}
    {argmap : List (Text × Arg)} (hc : ClosedMap argmap) (body : List MacroStmt)
    (hl : ∀ n ∈ hygienic body, labels.lookup n ≠ none)
    (ha : ∀ name args args' k, MacroStmt.instr name args ∈ body → (macros.lookup (name, args.length)).isSome →
      args'.length = args.length → (∀ a ∈ args', closedArg a = true) →
      again name args' k ≠ .loop ∧ again name args' k ≠ .panic) (k : Nat) :
    expandBody uuid macros (fuel + 1) again labels argmap body k ≠ .loop ∧
    expandBody uuid macros (fuel + 1) again labels argmap body k ≠ .panic := by
  induction body generalizing k with
  | nil => simp [expandBody]
  | cons s rest ih =>
    have ih' := ih (fun n hn => hl n (by cases s <;> simp [hygienic, hn]))
      (fun name args args' k hm => ha name args args' k (List.mem_cons_of_mem _ hm))
    cases s with
    | label n =>
      simp only [expandBody]
      have := ih' k
      cases h : expandBody uuid macros (fuel + 1) again labels argmap rest k <;> simp_all
    | macroLabel n =>
      simp only [expandBody]
      split
      · rename_i h; exact absurd h (hl n (by simp [hygienic]))
      · have := ih' k
        cases h : expandBody uuid macros (fuel + 1) again labels argmap rest k <;> simp_all
    | instr name args =>
      simp only [expandBody]
      have hr := replaceArgs_ends fuel (labels := labels) hc args
      split
      · rename_i d hd
        cases h1 : replaceArgs (fuel + 1) labels argmap args with
        | ok args' =>
          obtain ⟨hcl, hlen⟩ := substArgs_closed (fun n a hx => hc n a hx) (replaceArgs_ok hc h1)
          have h2 := ha name args args' k List.mem_cons_self (by rw [hd]; rfl) hlen hcl
          simp only [Res.ok_bind]
          cases h3 : again name args' k with
          | ok x =>
            obtain ⟨new, k1⟩ := x
            simp only [Res.ok_bind]
            have := ih' k1
            cases h : expandBody uuid macros (fuel + 1) again labels argmap rest k1 <;> simp_all
          | err e => simp
          | panic => exact absurd h3 h2.2
          | loop => exact absurd h3 h2.1
        | err e => simp
        | panic => exact absurd h1 hr.2
        | loop => exact absurd h1 hr.1
      · cases h1 : replaceArgs (fuel + 1) labels argmap args with
        | ok args' =>
          simp only [Res.ok_bind]
          have h2 := makeInstr_ends name args'
          cases h3 : makeInstr name args' with
          | ok i =>
            simp only [Res.ok_bind]
            have := ih' k
            cases h : expandBody uuid macros (fuel + 1) again labels argmap rest k <;> simp_all
          | err e => simp
          | panic => exact absurd h3 h2.2
          | loop => exact absurd h3 h2.1
        | err e => simp
        | panic => exact absurd h1 hr.2
        | loop => exact absurd h1 hr.1

theorem Spec.Reaches.tail {macros : Macros} {a b c : Text × Nat} (h : Reaches macros a b) (hc : Calls macros b c) :
    Reaches macros a c := by
  induction h with
  | step h => exact .trans h (.step hc)
  | trans h _ ih => exact .trans h (ih hc)

theorem lookup_keys {α β : Type} [BEq α] [LawfulBEq α] {l : List (α × β)} {k : α} (h : (l.lookup k).isSome) :
    k ∈ l.map (·.1) := by
  cases e : l.lookup k with
  | none => rw [e] at h; cases h
  | some v => exact List.mem_map.mpr ⟨_, lookup_mem_pair e, rfl⟩

theorem hygienic_lookup {uuid : Nat → Text} {body : List MacroStmt} {k k' : Nat} {labels : List (Text × Text)}
    (h : genLabels uuid body [] k = .ok (labels, k')) : ∀ n ∈ hygienic body, labels.lookup n ≠ none := by
  obtain ⟨names, hl, hnm, -, -, hnd⟩ := genLabels_ok (by simp) h
  intro n hn
  rw [← hnm] at hn
  obtain ⟨x, hx, rfl⟩ := List.mem_map.mp hn
  rw [(lookup_eq_some_iff_mem hnd).mpr (show (x.1, x.2) ∈ labels by rw [hl]; simpa using hx)]
  simp

theorem expand_ends {uuid : Nat → Text} {macros : Macros} (hr : NonRecursive macros) (n : Nat) :
    ∀ (path : List (Text × Nat)) (name : Text) (args : List Arg) (k fuel : Nat),
      path.Nodup → (∀ x ∈ path, x ∈ macros.map (·.1)) → (∀ x ∈ path, Reaches macros x (name, args.length)) →
      (macros.lookup (name, args.length)).isSome → macros.length ≤ path.length + 1 + n →
      (∀ a ∈ args, closedArg a = true) → n + 2 ≤ fuel →
      expand uuid macros fuel name args k ≠ .loop ∧ expand uuid macros fuel name args k ≠ .panic := by
  induction n with
  | zero =>
    intro path name args k fuel hp hk hre hs hlen hcl hf
    obtain ⟨f, rfl⟩ : ∃ f, fuel = f + 2 := ⟨fuel - 2, by omega⟩
    simp only [expand]
    split
    · simp
    · rename_i d hd
      split
      · simp
      · cases hg : genLabels uuid d.body [] k with
        | ok x =>
          obtain ⟨labels, k1⟩ := x
          simp only [Res.ok_bind]
          refine expandBody_ends (argMap_closed hcl) d.body (hygienic_lookup hg) ?_ k1
          intro name' args' args'' k' hm hs' hl' _
          exfalso
          have hcall : Calls macros (name, args.length) (name', args'.length) := ⟨d, args', hd, hm, rfl, hs'⟩
          have hnd : ((name', args'.length) :: (name, args.length) :: path).Nodup := by
            rw [List.nodup_cons, List.nodup_cons]
            refine ⟨?_, fun hmem => hr _ (hre _ hmem), hp⟩
            intro hmem
            rcases List.mem_cons.mp hmem with e | e
            · rw [← e] at hcall; exact hr _ (.step hcall)
            · exact hr _ ((hre _ e).tail hcall)
          have hsub : ((name', args'.length) :: (name, args.length) :: path) ⊆ macros.map (·.1) := by
            intro x hx
            rcases List.mem_cons.mp hx with rfl | hx
            · exact lookup_keys hs'
            · rcases List.mem_cons.mp hx with rfl | hx
              · exact lookup_keys hs
              · exact hk x hx
          have := hnd.length_le_of_subset hsub
          simp at this
          omega
        | err e => simp
        | panic => exact absurd hg (genLabels_ends _ _ _).2
        | loop => exact absurd hg (genLabels_ends _ _ _).1
  | succ n ih =>
    intro path name args k fuel hp hk hre hs hlen hcl hf
    obtain ⟨f, rfl⟩ : ∃ f, fuel = f + 2 := ⟨fuel - 2, by omega⟩
    simp only [expand]
    split
    · simp
    · rename_i d hd
      split
      · simp
      · cases hg : genLabels uuid d.body [] k with
        | ok x =>
          obtain ⟨labels, k1⟩ := x
          simp only [Res.ok_bind]
          refine expandBody_ends (argMap_closed hcl) d.body (hygienic_lookup hg) ?_ k1
          intro name' args' args'' k' hm hs' hl' hcl'
          have hcall : Calls macros (name, args.length) (name', args'.length) := ⟨d, args', hd, hm, rfl, hs'⟩
          refine ih ((name, args.length) :: path) name' args'' k' (f + 1) ?_ ?_ ?_ (by rw [hl']; exact hs')
            (by simp; omega) hcl' (by omega)
          · rw [List.nodup_cons]
            exact ⟨fun hmem => hr _ (hre _ hmem), hp⟩
          · intro x hx
            rcases List.mem_cons.mp hx with rfl | hx
            · exact lookup_keys hs
            · exact hk x hx
          · intro x hx
            rw [hl']
            rcases List.mem_cons.mp hx with rfl | hx
            · exact .step hcall
            · exact (hre x hx).tail hcall
        | err e => simp
        | panic => exact absurd hg (genLabels_ends _ _ _).2
        | loop => exact absurd hg (genLabels_ends _ _ _).1

theorem expandStmts_ends {uuid : Nat → Text} {macros : Macros} (hr : NonRecursive macros) {fuel : Nat}
    (hf : macros.length + 2 ≤ fuel) (stmts : List Stmt) (hc : ClosedCalls stmts) (k : Nat) :
    expandStmts uuid macros fuel stmts k ≠ .loop ∧ expandStmts uuid macros fuel stmts k ≠ .panic := by
  induction stmts generalizing k with
  | nil => simp [expandStmts]
  | cons s rest ih =>
    have ih' := ih (fun n a hm => hc n a (List.mem_cons_of_mem _ hm))
    by_cases hs : ∃ name args, s = .macroCall name args
    · obtain ⟨name, args, rfl⟩ := hs
      simp only [expandStmts]
      have he : expand uuid macros fuel name args k ≠ .loop ∧ expand uuid macros fuel name args k ≠ .panic := by
        by_cases hsome : (macros.lookup (name, args.length)).isSome
        · exact expand_ends hr macros.length [] name args k fuel (by simp) (by simp) (by simp) hsome (by simp)
            (hc name args List.mem_cons_self) (by omega)
        · obtain ⟨f, rfl⟩ : ∃ f, fuel = f + 1 := ⟨fuel - 1, by omega⟩
          have : macros.lookup (name, args.length) = none := by simpa only [Bool.not_eq_true, Option.isSome_eq_false_iff, Option.isNone_iff_eq_none] using hsome
          rw [expand, this]
          simp
      cases h1 : expand uuid macros fuel name args k with
      | ok x =>
        obtain ⟨new, k1⟩ := x
        simp only [Res.ok_bind]
        have := ih' k1
        cases h : expandStmts uuid macros fuel rest k1 <;> simp_all
      | err e => simp
      | panic => exact absurd h1 he.2
      | loop => exact absurd h1 he.1
    · rw [expandStmts_keep (fun n a e => hs ⟨n, a, e⟩)]
      have := ih' k
      cases h : expandStmts uuid macros fuel rest k <;> simp_all

/-! Recursive macros -/

theorem expandBody_calls {uuid : Nat → Text} {macros : Macros} {fuel : Nat}
    {again : Text → List Arg → Nat → Res (List Stmt × Nat)} {labels : List (Text × Text)}
    {argmap : List (Text × Arg)} {body : List MacroStmt} {k : Nat} {out : List Stmt × Nat}
    (h : expandBody uuid macros fuel again labels argmap body k = .ok out) {name : Text} {args : List Arg}
    (hm : MacroStmt.instr name args ∈ body) (hs : (macros.lookup (name, args.length)).isSome) :
    ∃ args' k' out', args'.length = args.length ∧ again name args' k' = .ok out' := by
  have hlen : ∀ as as', replaceArgs fuel labels argmap as = .ok as' → as'.length = as.length := by
    intro as
    induction as with
    | nil => intro as' h; simp only [replaceArgs] at h; cases h; rfl
    | cons a as ih =>
      intro as' h
      simp only [replaceArgs, Res.bind_eq_ok] at h
      obtain ⟨x, _, xs, hxs, he⟩ := h
      cases he
      simp [ih _ hxs]
  induction body generalizing k out with
  | nil => cases hm
  | cons s rest ih =>
    cases s with
    | label n =>
      simp only [expandBody, Res.bind_eq_ok] at h
      obtain ⟨_, h1, _⟩ := h
      exact ih h1 (by simpa using hm)
    | macroLabel n =>
      simp only [expandBody] at h
      split at h
      · cases h
      · simp only [Res.bind_eq_ok] at h
        obtain ⟨_, h1, _⟩ := h
        exact ih h1 (by simpa using hm)
    | instr iname iargs =>
      simp only [expandBody] at h
      rcases List.mem_cons.mp hm with e | hm
      · cases e
        split at h
        · simp only [Res.bind_eq_ok] at h
          obtain ⟨args', h1, ⟨new, k1⟩, h2, _⟩ := h
          exact ⟨args', k, _, hlen _ _ h1, h2⟩
        · rename_i hn
          rw [hn] at hs; cases hs
      · split at h
        · simp only [Res.bind_eq_ok] at h
          obtain ⟨args', h1, ⟨new, k1⟩, h2, ⟨o, k2⟩, h3, _⟩ := h
          exact ih h3 hm
        · simp only [Res.bind_eq_ok] at h
          obtain ⟨args', h1, _, h2, ⟨o, k2⟩, h3, _⟩ := h
          exact ih h3 hm

theorem expand_calls {uuid : Nat → Text} {macros : Macros} {fuel : Nat} {a b : Text × Nat} {args : List Arg} {k : Nat}
    {out : List Stmt × Nat} (ha : args.length = a.2) (h : expand uuid macros (fuel + 1) a.1 args k = .ok out)
    (hc : Calls macros a b) :
    ∃ args' k' out', args'.length = b.2 ∧ expand uuid macros fuel b.1 args' k' = .ok out' := by
  obtain ⟨d, cargs, hd, hm, hl, hs⟩ := hc
  simp only [expand, ha] at h
  rw [show macros.lookup (a.1, a.2) = some d from hd] at h
  simp only at h
  split at h
  · cases h
  · simp only [Res.bind_eq_ok] at h
    obtain ⟨⟨labels, k1⟩, h1, h2⟩ := h
    obtain ⟨args', k', out', h3, h4⟩ := expandBody_calls h2 hm (by rw [hl]; exact hs)
    exact ⟨args', k', out', by rw [h3, hl], h4⟩

theorem expand_reaches {uuid : Nat → Text} {macros : Macros} {a b : Text × Nat} (hr : Reaches macros a b) :
    ∀ {fuel : Nat} {args : List Arg} {k : Nat} {out : List Stmt × Nat}, args.length = a.2 →
      expand uuid macros fuel a.1 args k = .ok out →
      ∃ fuel' args' k' out', fuel' < fuel ∧ args'.length = b.2 ∧ expand uuid macros fuel' b.1 args' k' = .ok out' := by
  induction hr with
  | step hc =>
    intro fuel args k out ha h
    cases fuel with
    | zero => cases h
    | succ f =>
      obtain ⟨args', k', out', h1, h2⟩ := expand_calls ha h hc
      exact ⟨f, args', k', out', by omega, h1, h2⟩
  | trans hc _ ih =>
    intro fuel args k out ha h
    cases fuel with
    | zero => cases h
    | succ f =>
      obtain ⟨args', k', out', h1, h2⟩ := expand_calls ha h hc
      obtain ⟨f', a', k'', o', h3, h4, h5⟩ := ih h1 h2
      exact ⟨f', a', k'', o', by omega, h4, h5⟩

/-- A macro that reaches itself never expands. -/
theorem expand_recursive {uuid : Nat → Text} {macros : Macros} {a : Text × Nat} (hr : Reaches macros a a) :
    ∀ (fuel : Nat) (args : List Arg) (k : Nat) (out : List Stmt × Nat), args.length = a.2 →
      expand uuid macros fuel a.1 args k ≠ .ok out := by
  intro fuel
  induction fuel using Nat.strongRecOn with
  | ind fuel ih =>
    intro args k out ha h
    obtain ⟨f', a', k', o', h1, h2, h3⟩ := expand_reaches hr ha h
    exact ih f' h1 a' k' o' h2 h3

theorem replaceArgs_closed_ok {fuel : Nat} {labels : List (Text × Text)} {argmap : List (Text × Arg)}
    {as : List Arg} (h : ∀ a ∈ as, closedArg a = true) : replaceArgs fuel labels argmap as = .ok as := by
  induction as with
  | nil => rfl
  | cons a as ih =>
    have h1 : replaceArg fuel labels argmap a = .ok a := by
      have := h a List.mem_cons_self
      cases a with
      | macroArg n => cases this
      | im r => rfl
      | imm e | ex e => simp only [replaceArg, replaceMacroArgs_closed _ _ _ _ this]; rfl
    simp only [replaceArgs, h1, ih (fun x hx => h x (List.mem_cons_of_mem _ hx))]
    rfl

/-- A macro whose body begins with a call of itself loops. -/
theorem expand_self {uuid : Nat → Text} {macros : Macros} {d : MacroDef} {cargs : List Arg} {rest : List MacroStmt}
    (hd : macros.lookup (d.name, cargs.length) = some d) (hb : d.body = .instr d.name cargs :: rest)
    (hl : d.args.length = cargs.length) (hn : (hygienic d.body).Nodup) (hcl : ∀ a ∈ cargs, closedArg a = true) :
    ∀ (fuel : Nat) (args : List Arg) (k : Nat), args.length = cargs.length →
      expand uuid macros fuel d.name args k = .loop := by
  intro fuel
  induction fuel with
  | zero => intro args k _; rfl
  | succ f ih =>
    intro args k ha
    simp only [expand, ha, hd]
    rw [if_neg (by omega)]
    have hnames : ∃ names : List (Text × Text), names.map (·.1) = hygienic d.body ∧ NamedBy uuid k names := by
      generalize hygienic d.body = l
      induction l generalizing k with
      | nil => exact ⟨[], rfl, fun j x h => by simp at h⟩
      | cons x xs ihx =>
        obtain ⟨ns, h1, h2⟩ := ihx (k + 1)
        exact ⟨(x, x.filter (· ≠ '%') ++ '_' :: uuid k) :: ns, by simp [h1], NamedBy.cons.mpr ⟨rfl, h2⟩⟩
    obtain ⟨names, h1, h2⟩ := hnames
    rw [genLabels_of (map := []) h1 (by
      simp only [List.append_nil, List.map_reverse]
      rw [h1]
      exact (List.reverse_perm _).nodup_iff.mpr hn) h2]
    simp only [Res.ok_bind]
    conv => lhs; arg 7; rw [hb]
    simp only [expandBody, hd, replaceArgs_closed_ok hcl, Res.ok_bind, ih cargs _ rfl]
    rfl

/-! Closed output -/

theorem writtenAs_closed : ∀ (ks : List Kind) (os : List (Sum Expr IM)), os.length = ks.length →
    (∀ a ∈ List.zipWith writtenAs ks os, closedArg a = true) → ∀ e, Sum.inl e ∈ os → closed e = true
  | [], [], _, _, e, he => by cases he
  | [], _ :: _, h, _, _, _ => by cases h
  | _ :: _, [], _, _, _, he => by cases he
  | k :: ks, o :: os, hl, h, e, he => by
    rcases List.mem_cons.mp he with rfl | he
    · have := h (writtenAs k (.inl e)) (by simp)
      cases k <;> exact this
    · exact writtenAs_closed ks os (by simpa using hl) (fun a ha => h a (by simp [ha])) e he

theorem operands_length (i : Instr Expr IM) : (operands i).length = (kinds i.form).length := by
  cases i <;> rfl

theorem writes_closed {name : Text} {args : List Arg} {i : Instr Expr IM} (h : Writes name args i)
    (hc : ∀ a ∈ args, closedArg a = true) : stmtClosed (.instr i) := by
  intro e he
  obtain ⟨-, rfl⟩ := h
  refine writtenAs_closed _ _ (operands_length i) hc e ?_
  simp only [exprsOf, List.mem_filterMap] at he
  obtain ⟨o, ho, h⟩ := he
  cases o with
  | inl x => simp at h; subst h; exact ho
  | inr r => cases h

theorem body_closed {M : MacroTable} {σ : Text → Option Arg} {ρ : Text → Option Text} {body : List MacroStmt}
    {out : List Stmt} {fresh : List (Text × Text)} (h : BodyExpands M σ ρ body out fresh)
    (hσ : ∀ n a, σ n = some a → closedArg a = true) :
    ∀ x ∈ out, stmtClosed x ∧ (∀ n a, x ≠ .macroCall n a) ∧ ((∃ i, x = .instr i) ∨ ∃ n, x = .label n) := by
  induction h with
  | nil => intro x hx; cases hx
  | label _ ih =>
    intro x hx
    rcases List.mem_cons.mp hx with rfl | hx
    · exact ⟨fun e he => by simp [exprsOf] at he, by simp, .inr ⟨_, rfl⟩⟩
    · exact ih hσ x hx
  | hygienic _ _ ih =>
    intro x hx
    rcases List.mem_cons.mp hx with rfl | hx
    · exact ⟨fun e he => by simp [exprsOf] at he, by simp, .inr ⟨_, rfl⟩⟩
    · exact ih hσ x hx
  | instr _ hs hw _ ih =>
    intro x hx
    rcases List.mem_cons.mp hx with rfl | hx
    · exact ⟨writes_closed hw (substArgs_closed hσ hs).1, by simp, .inl ⟨_, rfl⟩⟩
    · exact ih hσ x hx
  | call _ hs _ _ _ _ ih1 ih2 =>
    intro x hx
    rcases List.mem_append.mp hx with hx | hx
    · refine ih1 (fun n a h => ?_) x hx
      exact (substArgs_closed hσ hs).1 a (List.of_mem_zip (lookup_mem_pair h)).2
    · exact ih2 hσ x hx

theorem program_closed {M : MacroTable} {stmts out : List Stmt} {fresh : List (Text × Text)}
    (h : ProgramExpands M stmts out fresh) (hc : ClosedCalls stmts) :
    ∀ x ∈ out, (∀ n a, x ≠ .macroCall n a) ∧ (x ∈ stmts ∨ stmtClosed x) := by
  induction h with
  | nil => intro x hx; cases hx
  | keep hk _ ih =>
    intro x hx
    rcases List.mem_cons.mp hx with rfl | hx
    · exact ⟨hk, .inl List.mem_cons_self⟩
    · obtain ⟨h1, h2⟩ := ih (fun n a hm => hc n a (List.mem_cons_of_mem _ hm)) x hx
      exact ⟨h1, h2.imp (List.mem_cons_of_mem _) id⟩
  | call _ _ _ hb _ ih =>
    intro x hx
    rcases List.mem_append.mp hx with hx | hx
    · obtain ⟨h1, h2, -⟩ := body_closed hb (fun n a h => hc _ _ List.mem_cons_self a (List.of_mem_zip (lookup_mem_pair h)).2) x hx
      exact ⟨h2, .inr h1⟩
    · obtain ⟨h1, h2⟩ := ih (fun n a hm => hc n a (List.mem_cons_of_mem _ hm)) x hx
      exact ⟨h1, h2.imp (List.mem_cons_of_mem _) id⟩

end Verif
