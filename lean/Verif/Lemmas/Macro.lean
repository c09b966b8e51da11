import Verif.Lemmas.MakeInstr
namespace Verif
open Spec

/-! Substitution -/

theorem replaceWith_closed (f : Expr → Res Expr) (labels : List (Text × Text)) (args : List (Text × Arg))
    (e : Expr) (h : closed e = true) : e.replaceWith f labels args = .ok e := by
  induction e <;> simp_all [closed, Expr.replaceWith]

/-- Every argument in the map is closed. -/
def ClosedMap (argmap : List (Text × Arg)) : Prop :=
  ∀ n a, argmap.lookup n = some a → closedArg a = true

theorem replaceMacroArgs_closed (fuel : Nat) (labels : List (Text × Text)) (args : List (Text × Arg))
    (e : Expr) (h : closed e = true) : e.replaceMacroArgs fuel labels args = .ok e := by
  cases fuel <;> exact replaceWith_closed _ _ _ _ h

/-- What replaceWith does when arguments are closed. -/
theorem replaceWith_ok {f : Expr → Res Expr} {labels : List (Text × Text)} {argmap : List (Text × Arg)}
    (hc : ClosedMap argmap) (hf : ∀ e e', closed e = true → f e = .ok e' → e' = e) (e e' : Expr)
    (h : e.replaceWith f labels argmap = .ok e') :
    subst (fun n => argmap.lookup n) (fun n => labels.lookup n) e = some e' := by
  induction e generalizing e' with
  | name n => simpa [Expr.replaceWith, subst] using h
  | number v r => simpa [Expr.replaceWith, subst] using h
  | macroLabel n =>
    simp only [Expr.replaceWith] at h
    split at h
    · rename_i l hl; cases h; simp [subst, hl]
    · cases h
  | macroArg n =>
    simp only [Expr.replaceWith] at h
    split at h <;> try cases h
    rename_i a ha
    have := hc _ _ ha
    simp [subst, ha, hf _ _ this h]
  | uminus a iha | upperByte a iha | lowerByte a iha =>
    simp only [Expr.replaceWith, Res.bind_eq_ok] at h
    obtain ⟨x, hx, hy⟩ := h
    cases hy
    simp [subst, iha _ hx]
  | plus a b iha ihb | minus a b iha ihb | times a b iha ihb | divide a b iha ihb | bxor a b iha ihb
    | band a b iha ihb | bor a b iha ihb =>
    simp only [Expr.replaceWith, Res.bind_eq_ok] at h
    obtain ⟨x, hx, y, hy, hz⟩ := h
    cases hz
    simp [subst, iha _ hx, ihb _ hy]

theorem replaceMacroArgs_ok {fuel : Nat} {labels : List (Text × Text)} {argmap : List (Text × Arg)}
    (hc : ClosedMap argmap) {e e' : Expr} (h : e.replaceMacroArgs fuel labels argmap = .ok e') :
    subst (fun n => argmap.lookup n) (fun n => labels.lookup n) e = some e' := by
  cases fuel with
  | zero => exact replaceWith_ok hc (fun _ _ _ h => by cases h) _ _ h
  | succ n =>
    refine replaceWith_ok hc (fun x y hx h => ?_) _ _ h
    rw [replaceMacroArgs_closed _ _ _ _ hx] at h
    cases h; rfl

theorem replaceWith_of_subst {f : Expr → Res Expr} {labels : List (Text × Text)} {argmap : List (Text × Arg)}
    (hc : ClosedMap argmap) (hf : ∀ e, closed e = true → f e = .ok e) (e e' : Expr)
    (h : subst (fun n => argmap.lookup n) (fun n => labels.lookup n) e = some e') :
    e.replaceWith f labels argmap = .ok e' := by
  induction e generalizing e' with
  | name n => simpa [Expr.replaceWith, subst] using h
  | number v r => simpa [Expr.replaceWith, subst] using h
  | macroLabel n =>
    simp only [subst, Option.map_eq_some_iff] at h
    obtain ⟨l, hl, rfl⟩ := h
    simp [Expr.replaceWith, hl]
  | macroArg n =>
    simp only [subst] at h
    split at h
    · rename_i a ha
      cases h
      simp only [Expr.replaceWith, ha]
      exact hf _ (hc _ _ ha)
    · cases h
  | uminus a iha | upperByte a iha | lowerByte a iha =>
    simp only [subst, Option.bind_eq_bind, Option.bind_eq_some_iff, Option.some.injEq] at h
    obtain ⟨x, hx, hy⟩ := h
    subst hy
    simp [Expr.replaceWith, iha _ hx]
  | plus a b iha ihb | minus a b iha ihb | times a b iha ihb | divide a b iha ihb | bxor a b iha ihb
    | band a b iha ihb | bor a b iha ihb =>
    simp only [subst, Option.bind_eq_bind, Option.bind_eq_some_iff, Option.some.injEq] at h
    obtain ⟨x, hx, y, hy, hz⟩ := h
    subst hz
    simp [Expr.replaceWith, iha _ hx, ihb _ hy]

theorem replaceMacroArgs_of_subst (fuel : Nat) {labels : List (Text × Text)} {argmap : List (Text × Arg)}
    (hc : ClosedMap argmap) {e e' : Expr}
    (h : subst (fun n => argmap.lookup n) (fun n => labels.lookup n) e = some e') :
    e.replaceMacroArgs (fuel + 1) labels argmap = .ok e' :=
  replaceWith_of_subst hc (fun _ hx => replaceMacroArgs_closed _ _ _ _ hx) _ _ h

/-- With closed arguments a substitution ends. -/
theorem replaceWith_ne_loop {f : Expr → Res Expr} {labels : List (Text × Text)} {argmap : List (Text × Arg)}
    (hc : ClosedMap argmap) (hf : ∀ e, closed e = true → f e = .ok e) (e : Expr) :
    e.replaceWith f labels argmap ≠ .loop ∧ e.replaceWith f labels argmap ≠ .panic := by
  induction e with
  | name n => simp [Expr.replaceWith]
  | number v r => simp [Expr.replaceWith]
  | macroLabel n => simp only [Expr.replaceWith]; split <;> simp
  | macroArg n =>
    simp only [Expr.replaceWith]
    split <;> try simp
    rename_i a ha
    rw [hf _ (hc _ _ ha)]; simp
  | uminus a iha | upperByte a iha | lowerByte a iha =>
    simp only [Expr.replaceWith]
    cases ha : a.replaceWith f labels argmap <;> simp_all
  | plus a b iha ihb | minus a b iha ihb | times a b iha ihb | divide a b iha ihb | bxor a b iha ihb
    | band a b iha ihb | bor a b iha ihb =>
    simp only [Expr.replaceWith]
    cases ha : a.replaceWith f labels argmap <;> cases hb : b.replaceWith f labels argmap <;> simp_all

theorem replaceMacroArgs_ends (fuel : Nat) {labels : List (Text × Text)} {argmap : List (Text × Arg)}
    (hc : ClosedMap argmap) (e : Expr) :
    e.replaceMacroArgs (fuel + 1) labels argmap ≠ .loop ∧
    e.replaceMacroArgs (fuel + 1) labels argmap ≠ .panic :=
  replaceWith_ne_loop hc (fun _ hx => replaceMacroArgs_closed _ _ _ _ hx) _

theorem subst_closed {σ : Text → Option Arg} {ρ : Text → Option Text}
    (hσ : ∀ n a, σ n = some a → closedArg a = true) (e e' : Expr) (h : subst σ ρ e = some e') :
    closed e' = true := by
  induction e generalizing e' with
  | name n => simp only [subst, Option.some.injEq] at h; subst h; rfl
  | number v r => simp only [subst, Option.some.injEq] at h; subst h; rfl
  | macroLabel n =>
    simp only [subst, Option.map_eq_some_iff] at h
    obtain ⟨l, hl, rfl⟩ := h; rfl
  | macroArg n =>
    simp only [subst] at h
    split at h
    · rename_i a ha; cases h; exact hσ _ _ ha
    · cases h
  | uminus a iha | upperByte a iha | lowerByte a iha =>
    simp only [subst, Option.bind_eq_bind, Option.bind_eq_some_iff, Option.some.injEq] at h
    obtain ⟨x, hx, hy⟩ := h
    subst hy
    simp [closed, iha _ hx]
  | plus a b iha ihb | minus a b iha ihb | times a b iha ihb | divide a b iha ihb | bxor a b iha ihb
    | band a b iha ihb | bor a b iha ihb =>
    simp only [subst, Option.bind_eq_bind, Option.bind_eq_some_iff, Option.some.injEq] at h
    obtain ⟨x, hx, y, hy, hz⟩ := h
    subst hz
    simp [closed, iha _ hx, ihb _ hy]

theorem substArg_closed {σ : Text → Option Arg} {ρ : Text → Option Text}
    (hσ : ∀ n a, σ n = some a → closedArg a = true) {a a' : Arg} (h : substArg σ ρ a = some a') :
    closedArg a' = true := by
  cases a with
  | macroArg n => exact hσ _ _ h
  | im r => simp only [substArg, Option.some.injEq] at h; subst h; rfl
  | imm e | ex e =>
    simp only [substArg, Option.map_eq_some_iff] at h
    obtain ⟨x, hx, rfl⟩ := h
    exact subst_closed hσ _ _ hx

theorem substArgs_cons {σ : Text → Option Arg} {ρ : Text → Option Text} {a : Arg} {as out : List Arg} :
    substArgs σ ρ (a :: as) = some out ↔
      ∃ a' as', substArg σ ρ a = some a' ∧ substArgs σ ρ as = some as' ∧ out = a' :: as' := by
  simp only [substArgs, Option.bind_eq_bind, Option.bind_eq_some_iff, Option.some.injEq]
  constructor
  · rintro ⟨x, hx, y, hy, rfl⟩; exact ⟨x, y, hx, hy, rfl⟩
  · rintro ⟨x, y, hx, hy, rfl⟩; exact ⟨x, hx, y, hy, rfl⟩

theorem substArgs_closed {σ : Text → Option Arg} {ρ : Text → Option Text}
    (hσ : ∀ n a, σ n = some a → closedArg a = true) {as as' : List Arg} (h : substArgs σ ρ as = some as') :
    (∀ a ∈ as', closedArg a = true) ∧ as'.length = as.length := by
  induction as generalizing as' with
  | nil => simp only [substArgs, Option.some.injEq] at h; subst h; simp
  | cons a as ih =>
    obtain ⟨x, xs, hx, hxs, rfl⟩ := substArgs_cons.mp h
    obtain ⟨h1, h2⟩ := ih hxs
    refine ⟨?_, by simp [h2]⟩
    intro y hy
    rcases List.mem_cons.mp hy with rfl | hy
    · exact substArg_closed hσ hx
    · exact h1 _ hy

theorem replaceArgs_ok {fuel : Nat} {labels : List (Text × Text)} {argmap : List (Text × Arg)}
    (hc : ClosedMap argmap) {as as' : List Arg} (h : replaceArgs fuel labels argmap as = .ok as') :
    substArgs (fun n => argmap.lookup n) (fun n => labels.lookup n) as = some as' := by
  induction as generalizing as' with
  | nil => simp only [replaceArgs] at h; cases h; rfl
  | cons a as ih =>
    simp only [replaceArgs, Res.bind_eq_ok] at h
    obtain ⟨x, hx, xs, hxs, he⟩ := h
    cases he
    rw [substArgs_cons]
    refine ⟨x, xs, ?_, ih hxs, rfl⟩
    cases a with
    | macroArg n =>
      simp only [replaceArg] at hx
      split at hx
      · rename_i y hy; cases hx; exact hy
      · cases hx
    | im r => cases hx; rfl
    | imm e | ex e =>
      simp only [replaceArg, Res.bind_eq_ok] at hx
      obtain ⟨y, hy, hz⟩ := hx
      cases hz
      simp [substArg, replaceMacroArgs_ok hc hy]

theorem replaceArgs_of_subst (fuel : Nat) {labels : List (Text × Text)} {argmap : List (Text × Arg)}
    (hc : ClosedMap argmap) {as as' : List Arg}
    (h : substArgs (fun n => argmap.lookup n) (fun n => labels.lookup n) as = some as') :
    replaceArgs (fuel + 1) labels argmap as = .ok as' := by
  induction as generalizing as' with
  | nil => simp only [substArgs, Option.some.injEq] at h; subst h; rfl
  | cons a as ih =>
    obtain ⟨x, xs, hx, hxs, rfl⟩ := substArgs_cons.mp h
    simp only [replaceArgs, ih hxs]
    cases a with
    | macroArg n =>
      have : argmap.lookup n = some x := hx
      simp [replaceArg, this]
    | im r => simp only [substArg, Option.some.injEq] at hx; subst hx; rfl
    | imm e | ex e =>
      simp only [substArg, Option.map_eq_some_iff] at hx
      obtain ⟨y, hy, rfl⟩ := hx
      simp [replaceArg, replaceMacroArgs_of_subst fuel hc hy]

theorem replaceArgs_ends (fuel : Nat) {labels : List (Text × Text)} {argmap : List (Text × Arg)}
    (hc : ClosedMap argmap) (as : List Arg) :
    replaceArgs (fuel + 1) labels argmap as ≠ .loop ∧ replaceArgs (fuel + 1) labels argmap as ≠ .panic := by
  induction as with
  | nil => simp [replaceArgs]
  | cons a as ih =>
    have ha : replaceArg (fuel + 1) labels argmap a ≠ .loop ∧ replaceArg (fuel + 1) labels argmap a ≠ .panic := by
      cases a with
      | macroArg n => simp only [replaceArg]; split <;> simp
      | im r => simp [replaceArg]
      | imm e | ex e =>
        have he := replaceMacroArgs_ends fuel (labels := labels) hc e
        simp only [replaceArg]
        cases hx : e.replaceMacroArgs (fuel + 1) labels argmap <;> simp_all
    simp only [replaceArgs]
    cases hx : replaceArg (fuel + 1) labels argmap a <;>
      cases hr : replaceArgs (fuel + 1) labels argmap as <;> simp_all

/-! Argument and label maps -/

theorem lookup_eq_some_iff_mem {α β : Type} [BEq α] [LawfulBEq α] {l : List (α × β)} (hn : (l.map (·.1)).Nodup)
    {k : α} {v : β} : l.lookup k = some v ↔ (k, v) ∈ l := by
  constructor
  · exact lookup_mem_pair
  · intro h
    induction l with
    | nil => cases h
    | cons x xs ih =>
      obtain ⟨a, b⟩ := x
      simp only [List.map_cons, List.nodup_cons] at hn
      rw [List.lookup_cons]
      rcases List.mem_cons.mp h with h | h'
      · cases h; simp
      · have : k ≠ a := by
          rintro rfl
          exact hn.1 (List.mem_map.mpr ⟨(k, v), h', rfl⟩)
        have e : (k == a) = false := by simp [this]
        simp [e, ih hn.2 h']

theorem lookup_rev {α β : Type} [BEq α] [LawfulBEq α] {l : List (α × β)} (hn : (l.map (·.1)).Nodup) (k : α) :
    l.reverse.lookup k = l.lookup k := by
  have hn' : (l.reverse.map (·.1)).Nodup := by
    rw [List.map_reverse]; exact (List.reverse_perm _).nodup_iff.mpr hn
  cases h : l.lookup k with
  | some v =>
    rw [lookup_eq_some_iff_mem hn] at h
    rw [lookup_eq_some_iff_mem hn']; simpa using h
  | none =>
    cases h' : l.reverse.lookup k with
    | none => rfl
    | some v =>
      rw [lookup_eq_some_iff_mem hn'] at h'
      have : (k, v) ∈ l := by simpa using h'
      rw [← lookup_eq_some_iff_mem hn, h] at this
      cases this

theorem zip_fst_nodup {names : List Text} (hn : names.Nodup) (args : List Arg) :
    ((names.zip args).map (·.1)).Nodup := by
  have : ((names.zip args).map (·.1)).Sublist names := by
    induction names generalizing args with
    | nil => simp
    | cons n ns ih =>
      cases args with
      | nil => simp
      | cons a as => simpa using (ih (List.nodup_cons.mp hn).2 as).cons_cons n
  exact this.nodup hn

theorem argMap_lookup {names : List Text} (hn : names.Nodup) (args : List Arg) :
    (fun n => (argMap names args).lookup n) = fun n => (names.zip args).lookup n := by
  funext n
  exact lookup_rev (zip_fst_nodup hn args) n

theorem argMap_closed {names : List Text} {args : List Arg} (h : ∀ a ∈ args, closedArg a = true) :
    ClosedMap (argMap names args) := by
  intro n a ha
  have := lookup_mem_pair ha
  rw [argMap, List.mem_reverse] at this
  exact h a (List.of_mem_zip this).2

theorem NamedBy.append {uuid : Nat → Text} {k : Nat} {a b : List (Text × Text)} :
    NamedBy uuid k (a ++ b) ↔ NamedBy uuid k a ∧ NamedBy uuid (k + a.length) b := by
  constructor
  · intro h
    constructor
    · intro j x hx
      exact h j x (by rw [List.getElem?_append_left (List.getElem?_eq_some_iff.mp hx).1]; exact hx)
    · intro j x hx
      have := h (a.length + j) x (by rw [List.getElem?_append_right (by omega)]; simpa using hx)
      rw [this, Nat.add_assoc]
  · rintro ⟨ha, hb⟩ j x hx
    by_cases hj : j < a.length
    · rw [List.getElem?_append_left hj] at hx; exact ha j x hx
    · rw [List.getElem?_append_right (by omega)] at hx
      have := hb _ x hx
      rw [this, show k + a.length + (j - a.length) = k + j by omega]

theorem NamedBy.cons {uuid : Nat → Text} {k : Nat} {x : Text × Text} {b : List (Text × Text)} :
    NamedBy uuid k (x :: b) ↔ x.2 = x.1.filter (· ≠ '%') ++ '_' :: uuid k ∧ NamedBy uuid (k + 1) b := by
  have : x :: b = [x] ++ b := rfl
  rw [this, NamedBy.append]
  constructor
  · rintro ⟨h, h'⟩; exact ⟨h 0 x rfl, h'⟩
  · rintro ⟨h, h'⟩
    refine ⟨?_, h'⟩
    intro j y hy
    cases j with
    | zero => cases hy; exact h
    | succ j => simp at hy

theorem genLabels_ok {uuid : Nat → Text} {body : List MacroStmt} {map out : List (Text × Text)} {k k' : Nat}
    (hm : (map.map (·.1)).Nodup) (h : genLabels uuid body map k = .ok (out, k')) :
    ∃ names, out = names.reverse ++ map ∧ names.map (·.1) = hygienic body ∧
      k' = k + names.length ∧ NamedBy uuid k names ∧ (out.map (·.1)).Nodup := by
  induction body generalizing map k with
  | nil =>
    simp only [genLabels] at h
    cases h
    exact ⟨[], rfl, rfl, rfl, fun j x h => by simp at h, hm⟩
  | cons s rest ih =>
    cases s with
    | instr n a => exact ih hm h
    | label n => exact ih hm h
    | macroLabel n =>
      simp only [genLabels] at h
      split at h
      · rename_i hl
        have hn : n ∉ map.map (·.1) := by
          intro hmem
          obtain ⟨x, hx, rfl⟩ := List.mem_map.mp hmem
          rw [(lookup_eq_some_iff_mem hm).mpr (show (x.1, x.2) ∈ map from hx)] at hl
          cases hl
        obtain ⟨names, h1, h2, h3, h4, h5⟩ := ih (map := (n, genLabel n (uuid k)) :: map) (k := k + 1)
          (by simp only [List.map_cons, List.nodup_cons]; exact ⟨hn, hm⟩) h
        refine ⟨(n, genLabel n (uuid k)) :: names, by simp [h1], by simp [hygienic, h2],
          by simp [h3]; omega, ?_, h5⟩
        rw [NamedBy.cons]
        exact ⟨rfl, h4⟩
      · cases h

theorem genLabels_of {uuid : Nat → Text} {body : List MacroStmt} {map names : List (Text × Text)} {k : Nat}
    (hn : names.map (·.1) = hygienic body) (hm : ((names.reverse ++ map).map (·.1)).Nodup)
    (hb : NamedBy uuid k names) :
    genLabels uuid body map k = .ok (names.reverse ++ map, k + names.length) := by
  induction body generalizing map names k with
  | nil =>
    simp only [hygienic, List.map_eq_nil_iff] at hn
    subst hn; rfl
  | cons s rest ih =>
    cases s with
    | instr n a => exact ih hn hm hb
    | label n => exact ih hn hm hb
    | macroLabel n =>
      cases names with
      | nil => simp [hygienic] at hn
      | cons x xs =>
        simp only [hygienic, List.map_cons, List.cons.injEq] at hn
        obtain ⟨rfl, hn⟩ := hn
        rw [NamedBy.cons] at hb
        have hl : map.lookup x.1 = none := by
          cases e : map.lookup x.1 with
          | none => rfl
          | some v =>
            exfalso
            have hmem := lookup_mem_pair e
            simp only [List.reverse_cons, List.append_assoc, List.singleton_append, List.map_append,
              List.map_cons] at hm
            have := (List.nodup_append.mp hm).2.1
            rw [List.nodup_cons] at this
            exact this.1 (List.mem_map.mpr ⟨_, hmem, rfl⟩)
        simp only [genLabels, hl]
        have hx : (x.1, genLabel x.1 (uuid k)) = x := by
          have : genLabel x.1 (uuid k) = x.2 := hb.1.symm
          rw [this]
        rw [hx, ih hn (by simpa using hm) hb.2]
        simp; omega

end Verif
