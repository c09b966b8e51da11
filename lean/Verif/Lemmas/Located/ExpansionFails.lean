import Verif.Lemmas.Located.ReasonsBack
import Verif.Lemmas.Located.EraseAsm
import Verif.Lemmas.Expand
import Verif.Lemmas.ExpandMore
import Verif.Spec.Expansion
/-
What goes wrong in macro expansion: the located model and its specification.
-/
namespace Verif.Located
open Spec Spec.Expansion

/-! ### Arguments -/

/-- Every argument in the map is closed. -/
def ClosedAll (argmap : List (Text × Arg)) : Prop := ∀ n a, argmap.lookup n = some a → closedArg a.erase = true

theorem ClosedAll.erase {argmap : List (Text × Arg)} (h : ClosedAll argmap) : ClosedMap (eraseArgs argmap) := by
  intro n a ha
  rw [eraseArgs_lookup] at ha
  obtain ⟨b, hb, rfl⟩ := Option.map_eq_some_iff.mp ha
  exact h n b hb

theorem moved_withSpan (inv : Span) (e : Expr) : (moved inv e).withSpan (e.span.withParent inv) = moved inv e := by
  cases e <;> rfl

theorem replaceWith_moved {f : Expr → Res Expr} {inv : Span} {labels : List (Text × Text)} {args : List (Text × Arg)}
    {e : Expr} (h : closed e.erase = true) : e.replaceWith f inv labels args = .ok (moved inv e) := by
  induction e with
  | name | number => rfl
  | macroLabel | macroArg => simp [Expr.erase, closed] at h
  | uminus s e ih | upperByte s e ih | lowerByte s e ih =>
    simp only [Expr.erase, closed] at h
    simp [Expr.replaceWith, ih h, moved]
  | plus s l r ihl ihr | minus s l r ihl ihr | times s l r ihl ihr | divide s l r ihl ihr | bxor s l r ihl ihr
    | band s l r ihl ihr | bor s l r ihl ihr =>
    simp only [Expr.erase, closed, Bool.and_eq_true] at h
    simp [Expr.replaceWith, ihl h.1, ihr h.2, moved]

/-- The three outcomes of a substitution. -/
def Outcomes {α : Type} (r : Res α) (v : Option α) (f : Option (Err × Span)) : Prop :=
  r = .loop ∨ (∃ a, r = .ok a ∧ v = some a ∧ f = none) ∨ (∃ x s, r = .err ⟨x, .span s⟩ ∧ v = none ∧ f = some (x, s))

theorem Outcomes.one {α β : Type} {r : Res α} {v : Option α} {f : Option (Err × Span)} (h : Outcomes r v f) (g : α → β) :
    Outcomes (do let a ← r; .ok (g a)) (v.map g) f := by
  rcases h with rfl | ⟨a, rfl, rfl, rfl⟩ | ⟨x, s, rfl, rfl, rfl⟩
  · exact .inl rfl
  · exact .inr (.inl ⟨g a, rfl, rfl, rfl⟩)
  · exact .inr (.inr ⟨x, s, rfl, rfl, rfl⟩)

theorem Outcomes.unary {α β : Type} {r : Res α} {v : Option α} {f : Option (Err × Span)} (h : Outcomes r v f) (g : α → β) :
    Outcomes (do let a ← r; .ok (g a)) (do some (g (← v))) f := by
  rcases h with rfl | ⟨a, rfl, rfl, rfl⟩ | ⟨x, s, rfl, rfl, rfl⟩
  · exact .inl rfl
  · exact .inr (.inl ⟨g a, rfl, rfl, rfl⟩)
  · exact .inr (.inr ⟨x, s, rfl, rfl, rfl⟩)

theorem Outcomes.two {α β γ : Type} {r : Res α} {v : Option α} {f : Option (Err × Span)} (h : Outcomes r v f)
    {r' : Res β} {v' : Option β} {f' : Option (Err × Span)} (h' : Outcomes r' v' f') (g : α → β → γ) :
    Outcomes (do let a ← r; let b ← r'; .ok (g a b)) (do some (g (← v) (← v'))) (f.or f') := by
  rcases h with rfl | ⟨a, rfl, rfl, rfl⟩ | ⟨x, s, rfl, rfl, rfl⟩
  · exact .inl rfl
  · rcases h' with rfl | ⟨b, rfl, rfl, rfl⟩ | ⟨x, s, rfl, rfl, rfl⟩
    · exact .inl rfl
    · exact .inr (.inl ⟨g a b, rfl, rfl, rfl⟩)
    · exact .inr (.inr ⟨x, s, rfl, rfl, rfl⟩)
  · exact .inr (.inr ⟨x, s, rfl, rfl, rfl⟩)

theorem replaceWith_outcomes {f : Expr → Res Expr} {inv : Span} {labels : List (Text × Text)} {args : List (Text × Arg)}
    (hc : ClosedAll args) (hf : ∀ e, closed e.erase = true → f e = .loop ∨ f e = .ok (moved inv e)) (e : Expr) :
    Outcomes (e.replaceWith f inv labels args)
      (substAt inv (fun n => args.lookup n) (fun n => labels.lookup n) e)
      (fault (fun n => args.lookup n) (fun n => labels.lookup n) e) := by
  induction e with
  | name | number => exact .inr (.inl ⟨_, rfl, rfl, rfl⟩)
  | uminus s e ih => exact ih.unary (Expr.uminus (s.withParent inv))
  | upperByte s e ih => exact ih.unary (Expr.upperByte (s.withParent inv))
  | lowerByte s e ih => exact ih.unary (Expr.lowerByte (s.withParent inv))
  | plus s l r ihl ihr => exact ihl.two ihr (Expr.plus (s.withParent inv))
  | minus s l r ihl ihr => exact ihl.two ihr (Expr.minus (s.withParent inv))
  | times s l r ihl ihr => exact ihl.two ihr (Expr.times (s.withParent inv))
  | divide s l r ihl ihr => exact ihl.two ihr (Expr.divide (s.withParent inv))
  | bxor s l r ihl ihr => exact ihl.two ihr (Expr.bxor (s.withParent inv))
  | band s l r ihl ihr => exact ihl.two ihr (Expr.band (s.withParent inv))
  | bor s l r ihl ihr => exact ihl.two ihr (Expr.bor (s.withParent inv))
  | macroLabel s n =>
    simp only [Expr.replaceWith, substAt, fault]
    cases labels.lookup n with
    | none => exact .inr (.inr ⟨_, _, rfl, rfl, rfl⟩)
    | some l => exact .inr (.inl ⟨_, rfl, rfl, rfl⟩)
  | macroArg s n =>
    simp only [Expr.replaceWith, substAt, fault]
    cases ha : args.lookup n with
    | none => exact .inr (.inr ⟨_, _, rfl, rfl, rfl⟩)
    | some a =>
      have hcl := hc n a ha
      cases a with
      | imm e => exact .inr (.inr ⟨_, _, rfl, rfl, rfl⟩)
      | im t r => exact .inr (.inr ⟨_, _, rfl, rfl, rfl⟩)
      | macroArg t m => cases hcl
      | ex e =>
        dsimp only
        rcases hf e hcl with h | h <;> rw [h]
        · exact .inl rfl
        · refine .inr (.inl ⟨_, ?_, rfl, rfl⟩)
          show Res.ok _ = _
          rw [moved_withSpan]

theorem replaceMacroArgs_outcomes (fuel : Nat) {inv : Span} {labels : List (Text × Text)} {args : List (Text × Arg)}
    (hc : ClosedAll args) (e : Expr) :
    Outcomes (e.replaceMacroArgs fuel inv labels args)
      (substAt inv (fun n => args.lookup n) (fun n => labels.lookup n) e)
      (fault (fun n => args.lookup n) (fun n => labels.lookup n) e) := by
  cases fuel with
  | zero => exact replaceWith_outcomes hc (fun _ _ => .inl rfl) e
  | succ n =>
    refine replaceWith_outcomes hc (fun e he => .inr ?_) e
    cases n <;> exact replaceWith_moved he

theorem replaceArg_outcomes (fuel : Nat) {inv : Span} {labels : List (Text × Text)} {args : List (Text × Arg)}
    (hc : ClosedAll args) (a : Arg) :
    Outcomes (replaceArg fuel inv labels args a)
      (substArgAt inv (fun n => args.lookup n) (fun n => labels.lookup n) a)
      (argFault (fun n => args.lookup n) (fun n => labels.lookup n) a) := by
  cases a with
  | macroArg s n =>
    simp only [replaceArg, substArgAt, argFault]
    cases args.lookup n with
    | none => exact .inr (.inr ⟨_, _, rfl, rfl, rfl⟩)
    | some l => exact .inr (.inl ⟨_, rfl, rfl, rfl⟩)
  | imm e => exact (replaceMacroArgs_outcomes fuel hc e).one Arg.imm
  | ex e => exact (replaceMacroArgs_outcomes fuel hc e).one Arg.ex
  | im s r => exact .inr (.inl ⟨_, rfl, rfl, rfl⟩)

theorem replaceArgs_outcomes (fuel : Nat) {inv : Span} {labels : List (Text × Text)} {args : List (Text × Arg)}
    (hc : ClosedAll args) (as : List Arg) :
    Outcomes (replaceArgs fuel inv labels args as)
      (substArgsAt inv (fun n => args.lookup n) (fun n => labels.lookup n) as)
      (as.findSome? (argFault (fun n => args.lookup n) (fun n => labels.lookup n))) := by
  induction as with
  | nil => exact .inr (.inl ⟨_, rfl, rfl, rfl⟩)
  | cons a as ih =>
    have := (replaceArg_outcomes fuel (inv := inv) (labels := labels) hc a).two ih List.cons
    have hor : (a :: as).findSome? (argFault (fun n => args.lookup n) (fun n => labels.lookup n)) =
        (argFault (fun n => args.lookup n) (fun n => labels.lookup n) a).or
          (as.findSome? (argFault (fun n => args.lookup n) (fun n => labels.lookup n))) := by
      rw [List.findSome?_cons]
      cases argFault (fun n => args.lookup n) (fun n => labels.lookup n) a <;> rfl
    rw [hor]
    exact this

theorem replaceArgs_err {fuel : Nat} {inv : Span} {labels : List (Text × Text)} {args : List (Text × Arg)}
    (hc : ClosedAll args) {as : List Arg} {x : Err} {p : Place} (h : replaceArgs fuel inv labels args as = .err ⟨x, p⟩) :
    ∃ s, p = .span s ∧ as.findSome? (argFault (fun n => args.lookup n) (fun n => labels.lookup n)) = some (x, s) := by
  rcases replaceArgs_outcomes fuel (inv := inv) (labels := labels) hc as with h1 | ⟨a, h1, -, -⟩ | ⟨y, s, h1, -, h2⟩
  · rw [h1] at h; cases h
  · rw [h1] at h; cases h
  · rw [h1] at h; cases h; exact ⟨s, rfl, h2⟩

theorem replaceArgs_okAt {fuel : Nat} {inv : Span} {labels : List (Text × Text)} {args : List (Text × Arg)}
    (hc : ClosedAll args) {as as' : List Arg} (h : replaceArgs fuel inv labels args as = .ok as') :
    substArgsAt inv (fun n => args.lookup n) (fun n => labels.lookup n) as = some as' := by
  rcases replaceArgs_outcomes fuel (inv := inv) (labels := labels) hc as with h1 | ⟨a, h1, h2, -⟩ | ⟨y, s, h1, -, h2⟩
  · rw [h1] at h; cases h
  · rw [h1] at h; cases h; exact h2
  · rw [h1] at h; cases h

theorem replaceArgs_not_loop (fuel : Nat) {inv : Span} {labels : List (Text × Text)} {args : List (Text × Arg)}
    (hc : ClosedAll args) (as : List Arg) : replaceArgs (fuel + 1) inv labels args as ≠ .loop := by
  intro h
  have he := erase_replaceArgs (fuel + 1) inv labels args as
  rw [h] at he
  exact (replaceArgs_ends fuel hc.erase (as.map Arg.erase)).1 he.symm

theorem replaceArgs_fault (fuel : Nat) {inv : Span} {labels : List (Text × Text)} {args : List (Text × Arg)}
    (hc : ClosedAll args) {as : List Arg} {x : Err} {s : Span}
    (h : as.findSome? (argFault (fun n => args.lookup n) (fun n => labels.lookup n)) = some (x, s)) :
    replaceArgs (fuel + 1) inv labels args as = .err ⟨x, .span s⟩ := by
  rcases replaceArgs_outcomes (fuel + 1) (inv := inv) (labels := labels) hc as with h1 | ⟨a, h1, -, h2⟩ | ⟨y, t, h1, -, h2⟩
  · exact absurd h1 (replaceArgs_not_loop fuel hc as)
  · rw [h2] at h; cases h
  · rw [h2] at h; cases h; exact h1

theorem replaceArgs_of_substAt (fuel : Nat) {inv : Span} {labels : List (Text × Text)} {args : List (Text × Arg)}
    (hc : ClosedAll args) {as as' : List Arg}
    (h : substArgsAt inv (fun n => args.lookup n) (fun n => labels.lookup n) as = some as') :
    replaceArgs (fuel + 1) inv labels args as = .ok as' := by
  rcases replaceArgs_outcomes (fuel + 1) (inv := inv) (labels := labels) hc as with h1 | ⟨a, h1, h2, -⟩ | ⟨y, t, h1, h2, -⟩
  · exact absurd h1 (replaceArgs_not_loop fuel hc as)
  · rw [h2] at h; cases h; exact h1
  · rw [h2] at h; cases h

/-- The arguments that result are closed, and as many. -/
theorem replaceArgs_closed {fuel : Nat} {inv : Span} {labels : List (Text × Text)} {args : List (Text × Arg)}
    (hc : ClosedAll args) {as as' : List Arg} (h : replaceArgs fuel inv labels args as = .ok as') :
    (∀ a ∈ as', closedArg a.erase = true) ∧ as'.length = as.length := by
  have he := erase_replaceArgs fuel inv labels args as
  rw [h] at he
  have hs := replaceArgs_ok hc.erase he.symm
  obtain ⟨h1, h2⟩ := substArgs_closed (fun n a hx => hc.erase n a hx) hs
  exact ⟨fun a ha => h1 _ (List.mem_map.mpr ⟨a, ha, rfl⟩), by simpa using h2⟩

theorem closedAll_argMap {names : List (Span × Text)} {args : List Arg} (h : ∀ a ∈ args, closedArg a.erase = true) :
    ClosedAll (argMap names args) := by
  intro n a ha
  have := lookup_mem_pair ha
  rw [argMap, List.mem_reverse] at this
  exact h a (List.of_mem_zip this).2

theorem zip_nodup {β : Type} {names : List Text} (hn : names.Nodup) (args : List β) :
    ((names.zip args).map (·.1)).Nodup := by
  induction names generalizing args with
  | nil => simp
  | cons n ns ih =>
    cases args with
    | nil => simp
    | cons a as =>
      simp only [List.zip_cons_cons, List.map_cons, List.nodup_cons] at hn ⊢
      refine ⟨fun hm => hn.1 ?_, ih hn.2 as⟩
      obtain ⟨x, hx, rfl⟩ := List.mem_map.mp hm
      exact (List.of_mem_zip hx).1

theorem argMap_bound {d : MacroDef} (hn : (d.args.map Prod.snd).Nodup) (args : List Arg) :
    (fun n => (argMap d.args args).lookup n) = bound d args := by
  funext n
  exact lookup_rev (zip_nodup hn args) n

/-! ### Labels -/

theorem lookup_none_iff {β : Type} {map : List (Text × β)} {n : Text} : map.lookup n = none ↔ n ∉ map.map (·.1) := by
  rw [List.lookup_eq_none_iff]
  simp only [List.mem_map, not_exists, not_and, bne_iff_ne, ne_eq]
  exact ⟨fun h x hx e => h x hx e.symm, fun h x hx e => h x hx e.symm⟩

theorem genLabels_err {uuid : Nat → Text} {body : List MacroStmt} {map : List (Text × Text)} {k : Nat} {x : Err} {p : Place}
    (h : genLabels uuid body map k = .err ⟨x, p⟩) :
    ∃ before s n after, body = before ++ .macroLabel s n :: after ∧ x = .duplicateLabel n ∧ p = .span s ∧
      (hygienic (bareLines before)).Nodup ∧ (∀ l ∈ hygienic (bareLines before), l ∉ map.map (·.1)) ∧
      (n ∈ hygienic (bareLines before) ∨ n ∈ map.map (·.1)) := by
  induction body generalizing map k with
  | nil => cases h
  | cons y ys ih =>
    cases y with
    | instr s n args =>
      obtain ⟨b, s', n', after, rfl, h1⟩ := ih h
      exact ⟨.instr s n args :: b, s', n', after, rfl, h1⟩
    | label s n =>
      obtain ⟨b, s', n', after, rfl, h1⟩ := ih h
      exact ⟨.label s n :: b, s', n', after, rfl, h1⟩
    | macroLabel s n =>
      simp only [genLabels] at h
      split at h
      · rename_i hl
        obtain ⟨b, s', n', after, rfl, hx, hp, h1, h2, h3⟩ := ih h
        have hl' := lookup_none_iff.mp hl
        simp only [List.map_cons, List.mem_cons] at h2 h3
        refine ⟨.macroLabel s n :: b, s', n', after, rfl, hx, hp, ?_, ?_, ?_⟩
        · exact List.nodup_cons.mpr ⟨fun hm => h2 n hm (.inl rfl), h1⟩
        · intro l hm
          rcases List.mem_cons.mp hm with rfl | hm
          · exact hl'
          · exact fun hk => h2 l hm (.inr hk)
        · rcases h3 with h3 | rfl | h3
          · exact .inl (List.mem_cons_of_mem _ h3)
          · exact .inl List.mem_cons_self
          · exact .inr h3
      · rename_i v hl
        cases h
        refine ⟨[], s, n, ys, rfl, rfl, rfl, List.nodup_nil, (fun l hm => by cases hm), .inr ?_⟩
        exact Classical.byContradiction fun hn => by rw [lookup_none_iff.mpr hn] at hl; cases hl

theorem genLabels_duplicate {uuid : Nat → Text} {before after : List MacroStmt} {s : Span} {n : Text}
    {map : List (Text × Text)} {k : Nat} (h1 : (hygienic (bareLines before)).Nodup)
    (h2 : ∀ l ∈ hygienic (bareLines before), l ∉ map.map (·.1))
    (h3 : n ∈ hygienic (bareLines before) ∨ n ∈ map.map (·.1)) :
    genLabels uuid (before ++ .macroLabel s n :: after) map k = .err ⟨.duplicateLabel n, .span s⟩ := by
  induction before generalizing map k with
  | nil =>
    rcases h3 with h3 | h3
    · cases h3
    · simp only [List.nil_append, genLabels]
      cases hl : map.lookup n with
      | none => exact absurd h3 (lookup_none_iff.mp hl)
      | some v => rfl
  | cons y ys ih =>
    cases y with
    | instr s n args => exact ih h1 h2 h3
    | label s n => exact ih h1 h2 h3
    | macroLabel s' n' =>
      have h1' := List.nodup_cons.mp h1
      have hl : map.lookup n' = none := lookup_none_iff.mpr (h2 n' List.mem_cons_self)
      simp only [List.cons_append, genLabels, hl]
      refine ih h1'.2 ?_ ?_
      · intro l hm
        simp only [List.map_cons, List.mem_cons, not_or]
        exact ⟨fun e => h1'.1 (e ▸ hm), h2 l (List.mem_cons_of_mem _ hm)⟩
      · simp only [List.map_cons, List.mem_cons]
        rcases h3 with h3 | h3
        · rcases List.mem_cons.mp h3 with rfl | h3
          · exact .inr (.inl rfl)
          · exact .inl h3
        · exact .inr (.inr h3)

/-! ### Bodies -/

section
variable {uuid : Nat → Text} {macros : Macros} {fuel : Nat}
  {again : Span → Text → List Arg → Nat → Res (List Stmt × Nat)} {inv : Span} {labels : List (Text × Text)}
  {argmap : List (Text × Arg)}

/-- A line fails. -/
def LineFails (macros : Macros) (fuel : Nat) (again : Span → Text → List Arg → Nat → Res (List Stmt × Nat)) (inv : Span)
    (labels : List (Text × Text)) (argmap : List (Text × Arg)) (s : Span) (n : Text) (args : List Arg) (k : Nat)
    (e : Error) : Prop :=
  replaceArgs fuel inv labels argmap args = .err e ∨ ∃ args', replaceArgs fuel inv labels argmap args = .ok args' ∧
    ((macros.lookup (n, args.length) = none ∧ makeInstr (s.withParent inv) n args' = .err e) ∨
      ∃ d, macros.lookup (n, args.length) = some d ∧ again (s.withParent inv) n args' k = .err e)

theorem expandBody_err {body : List MacroStmt} {k : Nat} {e : Error}
    (h : expandBody uuid macros fuel again inv labels argmap body k = .err e) :
    ∃ before s n args after out k', body = before ++ .instr s n args :: after ∧
      expandBody uuid macros fuel again inv labels argmap before k = .ok (out, k') ∧
      LineFails macros fuel again inv labels argmap s n args k' e := by
  induction body generalizing k with
  | nil => cases h
  | cons y ys ih =>
    cases y with
    | label s n =>
      simp only [expandBody] at h
      rcases Res.bind_eq_err.mp h with h | ⟨a, _, h⟩
      · obtain ⟨b, s', n', args, after, out, k', rfl, h1, h2⟩ := ih h
        refine ⟨.label s n :: b, s', n', args, after, .label s n :: out, k', rfl, ?_, h2⟩
        simp only [expandBody, h1]
        rfl
      · cases h
    | macroLabel s n =>
      simp only [expandBody] at h
      split at h
      · cases h
      · rename_i l hl
        rcases Res.bind_eq_err.mp h with h | ⟨a, _, h⟩
        · obtain ⟨b, s', n', args, after, out, k', rfl, h1, h2⟩ := ih h
          refine ⟨.macroLabel s n :: b, s', n', args, after, .label s l :: out, k', rfl, ?_, h2⟩
          simp only [expandBody, h1, hl]
          rfl
        · cases h
    | instr s n args =>
      simp only [expandBody] at h
      split at h
      · rename_i d hd
        rcases Res.bind_eq_err.mp h with h | ⟨args', ha, h⟩
        · exact ⟨[], s, n, args, ys, [], k, rfl, rfl, .inl h⟩
        rcases Res.bind_eq_err.mp h with h | ⟨⟨new, k1⟩, hn, h⟩
        · exact ⟨[], s, n, args, ys, [], k, rfl, rfl, .inr ⟨args', ha, .inr ⟨d, hd, h⟩⟩⟩
        rcases Res.bind_eq_err.mp h with h | ⟨a, _, h⟩
        · obtain ⟨b, s', n', args'', after, out, k', rfl, h1, h2⟩ := ih h
          refine ⟨.instr s n args :: b, s', n', args'', after, new ++ out, k', rfl, ?_, h2⟩
          simp only [expandBody, hd, ha, Res.ok_bind, hn, h1]
        · cases h
      · rename_i hd
        rcases Res.bind_eq_err.mp h with h | ⟨args', ha, h⟩
        · exact ⟨[], s, n, args, ys, [], k, rfl, rfl, .inl h⟩
        rcases Res.bind_eq_err.mp h with h | ⟨i, hn, h⟩
        · exact ⟨[], s, n, args, ys, [], k, rfl, rfl, .inr ⟨args', ha, .inl ⟨hd, h⟩⟩⟩
        rcases Res.bind_eq_err.mp h with h | ⟨a, _, h⟩
        · obtain ⟨b, s', n', args'', after, out, k', rfl, h1, h2⟩ := ih h
          refine ⟨.instr s n args :: b, s', n', args'', after, .instr (s.withParent inv) i :: out, k', rfl, ?_, h2⟩
          simp only [expandBody, hd, ha, Res.ok_bind, hn, h1]
        · cases h

theorem expandBody_line {s : Span} {n : Text} {args : List Arg} {k : Nat} {e : Error} {after : List MacroStmt}
    (h : LineFails macros fuel again inv labels argmap s n args k e) :
    expandBody uuid macros fuel again inv labels argmap (.instr s n args :: after) k = .err e := by
  simp only [expandBody]
  rcases h with h | ⟨args', h1, ⟨h2, h3⟩ | ⟨d, h2, h3⟩⟩
  · split <;> rw [h] <;> rfl
  · simp only [h2, h1, Res.ok_bind, h3]; rfl
  · simp only [h2, h1, Res.ok_bind, h3]; rfl

theorem expandBody_prefix {before rest : List MacroStmt} {k k' : Nat} {out : List Stmt} {e : Error}
    (h : expandBody uuid macros fuel again inv labels argmap before k = .ok (out, k'))
    (hr : expandBody uuid macros fuel again inv labels argmap rest k' = .err e) :
    expandBody uuid macros fuel again inv labels argmap (before ++ rest) k = .err e := by
  induction before generalizing k out with
  | nil => simp only [expandBody] at h; cases h; exact hr
  | cons y ys ih =>
    cases y with
    | label s n =>
      simp only [expandBody] at h
      obtain ⟨⟨o, k1⟩, h1, h2⟩ := Res.bind_eq_ok.mp h
      cases h2
      simp only [List.cons_append, expandBody, ih h1]
      rfl
    | macroLabel s n =>
      simp only [expandBody] at h
      split at h
      · cases h
      · rename_i l hl
        obtain ⟨⟨o, k1⟩, h1, h2⟩ := Res.bind_eq_ok.mp h
        cases h2
        simp only [List.cons_append, expandBody, hl, ih h1]
        rfl
    | instr s n args =>
      simp only [expandBody] at h
      split at h
      · rename_i d hd
        obtain ⟨args', ha, h⟩ := Res.bind_eq_ok.mp h
        obtain ⟨⟨new, k1⟩, hn, h⟩ := Res.bind_eq_ok.mp h
        obtain ⟨⟨o, k1⟩, h1, h2⟩ := Res.bind_eq_ok.mp h
        cases h2
        simp only [List.cons_append, expandBody, hd, ha, Res.ok_bind, hn, ih h1]
        rfl
      · rename_i hd
        obtain ⟨args', ha, h⟩ := Res.bind_eq_ok.mp h
        obtain ⟨i, hn, h⟩ := Res.bind_eq_ok.mp h
        obtain ⟨⟨o, k1⟩, h1, h2⟩ := Res.bind_eq_ok.mp h
        cases h2
        simp only [List.cons_append, expandBody, hd, ha, Res.ok_bind, hn, ih h1]
        rfl

end

theorem makeInstr_fails {s : Span} {n : Text} {args : List Arg} {x : Err} {p : Place}
    (h : makeInstr s n args = .err ⟨x, p⟩) :
    p = .span s ∧ ((¬ Mnemonic n ∧ x = .unknownInstruction n) ∨
      (Mnemonic n ∧ (∀ i, ¬ Writes n (args.map Arg.erase) i) ∧ x = .wrongInstructionArgs n)) := by
  have hp : p = .span s := by
    unfold makeInstr at h
    split at h
    · split at h
      · cases h
      · cases h; rfl
    · cases h; rfl
  refine ⟨hp, ?_⟩
  have he := erase_makeInstr s n args
  rw [h] at he
  cases hi : instrExists n with
  | false =>
    rw [makeInstr_unknown hi] at he
    refine .inl ⟨fun hm => ?_, Verif.Res.err.inj he⟩
    rw [instrExists_iff.mpr hm] at hi
    cases hi
  | true =>
    have hw : ∀ i, ¬ Writes n (args.map Arg.erase) i := fun i hw => by
      rw [makeInstr_ok_iff.mpr hw] at he; cases he
    rw [makeInstr_wrong hi hw] at he
    exact .inr ⟨instrExists_iff.mp hi, hw, Verif.Res.err.inj he⟩

theorem makeInstr_unknownAt {s : Span} {n : Text} {args : List Arg} (h : ¬ Mnemonic n) :
    makeInstr s n args = .err ⟨.unknownInstruction n, .span s⟩ := by
  cases hm : makeInstr s n args with
  | err e =>
    obtain ⟨x, p⟩ := e
    obtain ⟨rfl, ⟨_, rfl⟩ | ⟨h1, _⟩⟩ := makeInstr_fails hm
    · rfl
    · exact absurd h1 h
  | _ =>
    exfalso
    have he := erase_makeInstr s n args
    rw [hm, makeInstr_unknown (Bool.eq_false_iff.mpr fun hi => h (instrExists_iff.mp hi))] at he
    cases he

theorem makeInstr_wrongAt {s : Span} {n : Text} {args : List Arg} (h : Mnemonic n)
    (hw : ∀ i, ¬ Writes n (args.map Arg.erase) i) :
    makeInstr s n args = .err ⟨.wrongInstructionArgs n, .span s⟩ := by
  cases hm : makeInstr s n args with
  | err e =>
    obtain ⟨x, p⟩ := e
    obtain ⟨rfl, ⟨h1, _⟩ | ⟨_, _, rfl⟩⟩ := makeInstr_fails hm
    · exact absurd h h1
    · rfl
  | _ =>
    exfalso
    have he := erase_makeInstr s n args
    rw [hm, makeInstr_wrong (instrExists_iff.mpr h) hw] at he
    cases he

/-! ### Calls -/

theorem table_eraseMacros (macros : Macros) : table (eraseMacros macros) = bareMacros macros := by
  funext name n
  exact eraseMacros_lookup macros (name, n)

theorem eraseArgs_argMap {d : MacroDef} (hn : (d.args.map Prod.snd).Nodup) (args : List Arg) :
    (fun x => (eraseArgs (argMap d.args args)).lookup x) =
      fun x => ((d.args.map Prod.snd).zip (args.map Arg.erase)).lookup x := by
  rw [erase_argMap]
  exact argMap_lookup hn _

/-- What a well-formed table has. -/
theorem found_wf {macros : Macros} (wf : WellFormed (eraseMacros macros)) {name : Text} {n : Nat} {d : MacroDef}
    (h : macros.lookup (name, n) = some d) : n = d.args.length ∧ (d.args.map Prod.snd).Nodup := by
  have := wf (name, n) d.erase (by rw [eraseMacros_lookup, h]; rfl)
  refine ⟨?_, this.2⟩
  have h1 := (Prod.mk.inj this.1).2
  rw [h1]
  simp [MacroDef.erase]

/-- The lines before a line are expanded. -/
theorem reached {uuid : Nat → Text} {macros : Macros} (wf : WellFormed (eraseMacros macros)) {fuel : Nat} {inv : Span}
    {name : Text} {args : List Arg} (hc : ∀ a ∈ args, closedArg a.erase = true) {k : Nat} {d : MacroDef}
    (hd : macros.lookup (name, args.length) = some d) {labels : List (Text × Text)} {k1 : Nat}
    (hl : genLabels uuid d.body [] k = .ok (labels, k1)) {before after : List MacroStmt} {line : MacroStmt}
    (hb : d.body = before ++ line :: after) {out : List Stmt} {k2 : Nat}
    (h : expandBody uuid macros fuel (expand uuid macros fuel) inv labels (argMap d.args args) before k1 = .ok (out, k2)) :
    ∃ names, Reached uuid macros k name args d names line k2 ∧
      (fun x => labels.lookup x) = fun x => names.lookup x := by
  have hg := erase_genLabels uuid d.body [] k
  rw [hl] at hg
  obtain ⟨names, rfl, hnm, hk1, hnamed, hnd⟩ := genLabels_ok (by simp) hg.symm
  have hnn : (names.map (·.1)).Nodup := by
    simp only [List.append_nil, List.map_reverse] at hnd
    exact (List.reverse_perm _).nodup_iff.mp hnd
  have hlab : (fun x => (names.reverse ++ []).lookup x) = fun x => names.lookup x := by
    funext x
    rw [List.append_nil]
    exact lookup_rev hnn x
  have he := erase_expandBody uuid macros fuel (fun s n a k => erase_expand uuid macros fuel s n a k) inv
    (names.reverse ++ []) (argMap d.args args) before k1
  rw [h] at he
  obtain ⟨fresh, hbe, hn, hk⟩ := expandBody_sound (expand_sound wf fuel) (closedAll_argMap hc).erase he.symm
  rw [table_eraseMacros, eraseArgs_argMap (found_wf wf hd).2, hlab] at hbe
  refine ⟨names, ⟨hd, hnm, hnm ▸ hnn, before, after, _, fresh, hb, hbe, ?_, ?_⟩, hlab⟩
  · rw [NamedBy.append]; exact ⟨hnamed, hk1 ▸ hn⟩
  · dsimp only at hk; rw [hk, hk1]; simp; omega

theorem expand_fails {uuid : Nat → Text} {macros : Macros} (wf : WellFormed (eraseMacros macros)) (fuel : Nat) :
    ∀ {inv : Span} {name : Text} {args : List Arg} {k : Nat} {x : Err} {p : Place},
      (∀ a ∈ args, closedArg a.erase = true) → expand uuid macros fuel inv name args k = .err ⟨x, p⟩ →
      ∃ t, p = .span t ∧ CallFails uuid macros k inv name args x t := by
  induction fuel with
  | zero => intro _ _ _ _ _ _ _ h; cases h
  | succ fuel ih =>
    intro inv name args k x p hc h
    simp only [expand] at h
    cases hd : macros.lookup (name, args.length) with
    | none => rw [hd] at h; cases h; exact ⟨inv, rfl, .missing hd⟩
    | some d =>
      rw [hd] at h
      dsimp only at h
      rw [if_neg (by have := (found_wf wf hd).1; omega)] at h
      rcases Res.bind_eq_err.mp h with h | ⟨⟨labels, k1⟩, hl, h⟩
      · obtain ⟨before, s, n, after, hb, rfl, rfl, h1, -, h2⟩ := genLabels_err h
        refine ⟨s, rfl, .duplicate hd hb h1 (h2.resolve_right fun h => by cases h)⟩
      · obtain ⟨before, s, n, largs, after, out, k2, hb, h1, h2⟩ := expandBody_err h
        obtain ⟨names, hr, hlab⟩ := reached wf hc hd hl hb h1
        have hca := closedAll_argMap (names := d.args) hc
        have hbd := argMap_bound (found_wf wf hd).2 args
        rcases h2 with h2 | ⟨largs', h2, ⟨h3, h4⟩ | ⟨d', h3, h4⟩⟩
        · obtain ⟨t, rfl, h3⟩ := replaceArgs_err hca h2
          rw [hlab, hbd] at h3
          exact ⟨t, rfl, .argument hr h3⟩
        · have hs := replaceArgs_okAt hca h2
          rw [hlab, hbd] at hs
          obtain ⟨rfl, ⟨h5, rfl⟩ | ⟨h5, h6, rfl⟩⟩ := makeInstr_fails h4
          · exact ⟨_, rfl, .unknown hr h3 hs h5⟩
          · exact ⟨_, rfl, .wrong hr h3 hs h5 h6⟩
        · have hs := replaceArgs_okAt hca h2
          rw [hlab, hbd] at hs
          obtain ⟨t, rfl, h5⟩ := ih (replaceArgs_closed hca h2).1 h4
          exact ⟨t, rfl, .inner hr h3 hs h5⟩

theorem expandStmts_err {uuid : Nat → Text} {macros : Macros} {fuel : Nat} {stmts : List Stmt} {k : Nat} {e : Error}
    (h : expandStmts uuid macros fuel stmts k = .err e) :
    ∃ before s name args after out k', stmts = before ++ .macroCall s name args :: after ∧
      expandStmts uuid macros fuel before k = .ok (out, k') ∧ expand uuid macros fuel s name args k' = .err e := by
  induction stmts generalizing k with
  | nil => cases h
  | cons y ys ih =>
    by_cases hy : ∃ s name args, y = .macroCall s name args
    · obtain ⟨s, name, args, rfl⟩ := hy
      simp only [expandStmts] at h
      rcases Res.bind_eq_err.mp h with h | ⟨⟨new, k1⟩, hn, h⟩
      · exact ⟨[], s, name, args, ys, [], k, rfl, rfl, h⟩
      rcases Res.bind_eq_err.mp h with h | ⟨a, _, h⟩
      · obtain ⟨b, s', n', args', after, out, k', rfl, h1, h2⟩ := ih h
        refine ⟨.macroCall s name args :: b, s', n', args', after, new ++ out, k', rfl, ?_, h2⟩
        simp only [expandStmts, hn, Res.ok_bind, h1]
      · cases h
    · have h' : (do let (out, k) ← expandStmts uuid macros fuel ys k; Res.ok (y :: out, k)) = .err e := by
        cases y <;> first | exact h | exact absurd ⟨_, _, _, rfl⟩ hy
      rcases Res.bind_eq_err.mp h' with h | ⟨a, _, h⟩
      · obtain ⟨b, s', n', args', after, out, k', rfl, h1, h2⟩ := ih h
        refine ⟨y :: b, s', n', args', after, y :: out, k', rfl, ?_, h2⟩
        have : expandStmts uuid macros fuel (y :: b) k =
            (do let (out, k) ← expandStmts uuid macros fuel b k; Res.ok (y :: out, k)) := by
          cases y <;> first | rfl | exact absurd ⟨_, _, _, rfl⟩ hy
        rw [this, h1]
        rfl
      · cases h

theorem expandStmts_prefix {uuid : Nat → Text} {macros : Macros} {fuel : Nat} {before rest : List Stmt} {k k' : Nat}
    {out : List Stmt} {e : Error} (h : expandStmts uuid macros fuel before k = .ok (out, k'))
    (hr : expandStmts uuid macros fuel rest k' = .err e) : expandStmts uuid macros fuel (before ++ rest) k = .err e := by
  induction before generalizing k out with
  | nil => simp only [expandStmts] at h; cases h; exact hr
  | cons y ys ih =>
    by_cases hy : ∃ s name args, y = .macroCall s name args
    · obtain ⟨s, name, args, rfl⟩ := hy
      simp only [expandStmts] at h
      obtain ⟨⟨new, k1⟩, hn, h⟩ := Res.bind_eq_ok.mp h
      obtain ⟨⟨o, k2⟩, h1, h2⟩ := Res.bind_eq_ok.mp h
      cases h2
      simp only [List.cons_append, expandStmts, hn, Res.ok_bind, ih h1]
      rfl
    · have hk : ∀ zs k, expandStmts uuid macros fuel (y :: zs) k =
          (do let (out, k) ← expandStmts uuid macros fuel zs k; Res.ok (y :: out, k)) := fun zs k => by
        cases y <;> first | rfl | exact absurd ⟨_, _, _, rfl⟩ hy
      rw [hk] at h
      obtain ⟨⟨o, k2⟩, h1, h2⟩ := Res.bind_eq_ok.mp h
      cases h2
      rw [List.cons_append, hk, ih h1]
      rfl

theorem expandMacros_fails {uuid : Nat → Text} {fuel : Nat} {p : Program} (wf : WellFormed p.erase.macros)
    (hc : ClosedCalls p.erase.stmts) {x : Err} {q : Place} (h : expandMacros uuid fuel p = .err ⟨x, q⟩) :
    ∃ t, q = .span t ∧ Fails uuid p x t := by
  unfold expandMacros at h
  rcases Res.bind_eq_err.mp h with h | ⟨a, _, h⟩
  · obtain ⟨before, s, name, args, after, out, k', hb, h1, h2⟩ := expandStmts_err h
    have he := erase_expandStmts uuid p.macros fuel before 0
    rw [h1] at he
    have hcb : ClosedCalls (before.map Stmt.erase) := fun n a hm => hc n a (by
      show _ ∈ p.stmts.map Stmt.erase
      rw [hb, List.map_append]; exact List.mem_append_left _ hm)
    obtain ⟨fresh, hpe, hn, hk⟩ := expandStmts_sound wf hcb he.symm
    have hca : ∀ a ∈ args, closedArg a.erase = true := fun a ha =>
      hc name (args.map Arg.erase) (by
        show _ ∈ p.stmts.map Stmt.erase
        rw [hb]; simp [Stmt.erase]) _ (List.mem_map.mpr ⟨a, ha, rfl⟩)
    obtain ⟨t, rfl, hf⟩ := expand_fails wf fuel hca h2
    have hpe' : ProgramExpands (bareMacros p.macros) (before.map Stmt.erase) (expanded (out, k')).1 fresh := by
      rw [← table_eraseMacros]; exact hpe
    refine ⟨t, rfl, .mk hb hpe' hn ?_⟩
    have : k' = fresh.length := by dsimp only at hk; omega
    rw [← this]
    exact hf
  · cases h

/-! ### The converse -/

theorem enough {P Q : Nat → Prop} (hp : ∃ N, ∀ f, N ≤ f → P f) (hq : ∃ N, ∀ f, N ≤ f → Q f) :
    ∃ N, ∀ f, N ≤ f → P f ∧ Q f := by
  obtain ⟨a, ha⟩ := hp
  obtain ⟨b, hb⟩ := hq
  exact ⟨a + b, fun f hf => ⟨ha f (by omega), hb f (by omega)⟩⟩

/-- A call whose body is reached. -/
theorem reached_expand {uuid : Nat → Text} {macros : Macros} (wf : WellFormed (eraseMacros macros)) 
    {name : Text} {args : List Arg} (hc : ∀ a ∈ args, closedArg a.erase = true) {k : Nat} {d : MacroDef}
    {names : List (Text × Text)} {s : Span} {n : Text} {largs : List Arg} {k' : Nat} (inv : Span)
    (h : Reached uuid macros k name args d names (.instr s n largs) k') :
    ∃ N, ∀ fuel, N ≤ fuel → ∀ e,
      LineFails macros fuel (expand uuid macros fuel) inv names.reverse (argMap d.args args) s n largs k' e →
      expand uuid macros (fuel + 1) inv name args k = .err e := by
  obtain ⟨hd, hnm, hnd, before, after, out, fresh, hb, hbe, hn, rfl⟩ := h
  rw [← table_eraseMacros] at hbe
  obtain ⟨N, hN⟩ := expandBody_complete (uuid := uuid) wf hbe
  rw [NamedBy.append] at hn
  refine ⟨N, fun fuel hf e he => ?_⟩
  have h1 := hN fuel hf names.reverse (eraseArgs (argMap d.args args)) (k + names.length)
    (eraseArgs_argMap (found_wf wf hd).2 args).symm (names_lookup hnm hnd).symm (closedAll_argMap hc).erase hn.2
  rw [← erase_expandBody uuid macros fuel (fun s n a k => erase_expand uuid macros fuel s n a k) inv] at h1
  obtain ⟨⟨out', k2⟩, h2, h3⟩ := erase_eq_ok h1
  have hg := genLabels_of (map := []) hnm (by
    simp only [List.append_nil, List.map_reverse]
    rw [hnm]
    exact (List.reverse_perm _).nodup_iff.mpr hnd) hn.1
  rw [← erase_genLabels] at hg
  obtain ⟨⟨l, k1⟩, h4, h5⟩ := erase_eq_ok hg
  simp only [List.append_nil] at h5
  cases h5
  simp only [expand, hd]
  rw [if_neg (by have := (found_wf wf hd).1; omega), h4, Res.ok_bind]
  show expandBody uuid macros fuel _ inv names.reverse _ d.body _ = _
  rw [hb]
  refine expandBody_prefix h2 (expandBody_line ?_)
  have : k2 = k + (names ++ fresh).length := by
    have := (Prod.mk.inj h3).2
    simp only [List.length_append]; omega
  rw [this]
  exact he

theorem callFails_expand {uuid : Nat → Text} {macros : Macros} (wf : WellFormed (eraseMacros macros)) {k : Nat}
    {inv : Span} {name : Text} {args : List Arg} {x : Err} {t : Span}
    (h : CallFails uuid macros k inv name args x t) (hc : ∀ a ∈ args, closedArg a.erase = true) :
    ∃ N, ∀ fuel, N ≤ fuel → expand uuid macros fuel inv name args k = .err ⟨x, .span t⟩ := by
  have step : ∀ {N : Nat} {r : Res (List Stmt × Nat)}, (∀ fuel, N ≤ fuel → expand uuid macros (fuel + 1) inv name args k = r) →
      ∃ N, ∀ fuel, N ≤ fuel → expand uuid macros fuel inv name args k = r := by
    intro N r h
    refine ⟨N + 1, fun fuel hf => ?_⟩
    obtain ⟨f, rfl⟩ : ∃ f, fuel = f + 1 := ⟨fuel - 1, by omega⟩
    exact h f (by omega)
  induction h with
  | missing hd =>
    refine step (N := 0) fun fuel _ => ?_
    simp only [expand, hd]
    rfl
  | duplicate hd hb h1 h2 =>
    refine step (N := 0) fun fuel _ => ?_
    simp only [expand, hd]
    rw [if_neg (by have := (found_wf wf hd).1; omega), hb,
      genLabels_duplicate h1 (fun l _ hm => by cases hm) (.inl h2)]
    rfl
  | @argument k call name args d names s lname largs k' x p hr hf =>
    obtain ⟨N, hN⟩ := reached_expand wf hc call hr
    refine step (N := N + 1) fun fuel hfu => hN fuel (by omega) _ (.inl ?_)
    obtain ⟨f, rfl⟩ : ∃ f, fuel = f + 1 := ⟨fuel - 1, by omega⟩
    refine replaceArgs_fault f (closedAll_argMap hc) ?_
    rw [argMap_bound (found_wf wf hr.found).2, names_lookup hr.labels hr.distinct]
    exact hf
  | @unknown k call name args d names s lname largs largs' k' hr hd hs hm =>
    obtain ⟨N, hN⟩ := reached_expand wf hc call hr
    refine step (N := N + 1) fun fuel hfu => hN fuel (by omega) _ (.inr ⟨largs', ?_, .inl ⟨hd, makeInstr_unknownAt hm⟩⟩)
    obtain ⟨f, rfl⟩ : ∃ f, fuel = f + 1 := ⟨fuel - 1, by omega⟩
    refine replaceArgs_of_substAt f (closedAll_argMap hc) ?_
    rw [argMap_bound (found_wf wf hr.found).2, names_lookup hr.labels hr.distinct]
    exact hs
  | @wrong k call name args d names s lname largs largs' k' hr hd hs hm hw =>
    obtain ⟨N, hN⟩ := reached_expand wf hc call hr
    refine step (N := N + 1) fun fuel hfu => hN fuel (by omega) _ (.inr ⟨largs', ?_, .inl ⟨hd, makeInstr_wrongAt hm hw⟩⟩)
    obtain ⟨f, rfl⟩ : ∃ f, fuel = f + 1 := ⟨fuel - 1, by omega⟩
    refine replaceArgs_of_substAt f (closedAll_argMap hc) ?_
    rw [argMap_bound (found_wf wf hr.found).2, names_lookup hr.labels hr.distinct]
    exact hs
  | @inner k call name args d names s lname largs largs' k' d' x p hr hd hs _ ih =>
    obtain ⟨N, hN⟩ := reached_expand wf hc call hr
    have hra : ∀ f, replaceArgs (f + 1) call names.reverse (argMap d.args args) largs = .ok largs' := fun f => by
      refine replaceArgs_of_substAt f (closedAll_argMap hc) ?_
      rw [argMap_bound (found_wf wf hr.found).2, names_lookup hr.labels hr.distinct]
      exact hs
    obtain ⟨M, hM⟩ := ih (replaceArgs_closed (closedAll_argMap hc) (hra 0)).1 (by
      intro N r h
      refine ⟨N + 1, fun fuel hf => ?_⟩
      obtain ⟨f, rfl⟩ : ∃ f, fuel = f + 1 := ⟨fuel - 1, by omega⟩
      exact h f (by omega))
    refine step (N := N + M + 1) fun fuel hfu => hN fuel (by omega) _ (.inr ⟨largs', ?_, .inr ⟨d', hd, hM fuel (by omega)⟩⟩)
    obtain ⟨f, rfl⟩ : ∃ f, fuel = f + 1 := ⟨fuel - 1, by omega⟩
    exact hra f

theorem fails_expandMacros {uuid : Nat → Text} {p : Program} (wf : WellFormed p.erase.macros)
    (hc : ClosedCalls p.erase.stmts) {x : Err} {t : Span} (h : Fails uuid p x t) :
    ∃ N, ∀ fuel, N ≤ fuel → expandMacros uuid fuel p = .err ⟨x, .span t⟩ := by
  obtain ⟨hb, hpe, hn, hf⟩ := h
  rename_i before call name args after out fresh
  have hcb : ClosedCalls (before.map Stmt.erase) := fun n a hm => hc n a (by
    show _ ∈ p.stmts.map Stmt.erase
    rw [hb, List.map_append]; exact List.mem_append_left _ hm)
  have hca : ∀ a ∈ args, closedArg a.erase = true := fun a ha =>
    hc name (args.map Arg.erase) (by
      show _ ∈ p.stmts.map Stmt.erase
      rw [hb]; simp [Stmt.erase]) _ (List.mem_map.mpr ⟨a, ha, rfl⟩)
  rw [← table_eraseMacros] at hpe
  obtain ⟨N, hN⟩ := enough (expandStmts_complete (uuid := uuid) wf hpe hcb) (callFails_expand wf hf hca)
  refine ⟨N, fun fuel hfu => ?_⟩
  obtain ⟨h1, h2⟩ := hN fuel hfu
  have h1 := (erase_expandStmts uuid p.macros fuel before 0).trans (h1 0 hn)
  obtain ⟨⟨out', k'⟩, h3, h4⟩ := erase_eq_ok h1
  have hk : k' = fresh.length := by
    have := (Prod.mk.inj h4).2
    omega
  subst hk
  unfold expandMacros
  rw [hb, expandStmts_prefix (e := ⟨x, .span t⟩) h3 (by simp only [expandStmts, h2]; rfl)]
  rfl

end Verif.Located
