import Verif.Lemmas.AsmMore
/-
Helper lemmas: where duplicate-name and unknown-name errors come from.
-/
namespace Verif
open Spec Derive

/-- The outcome is not a duplicate-name error. -/
def NoDup {α : Type} (r : Res α) : Prop := ∀ n, r ≠ .err (.nameAlreadyExists n)

theorem NoDup.bind {α β : Type} {x : Res α} {f : α → Res β} (h : NoDup x) (hf : ∀ a, NoDup (f a)) :
    NoDup (x >>= f) := by
  intro n hn
  rcases Res.bind_eq_err.mp hn with h' | ⟨a, _, h'⟩
  · exact h n h'
  · exact hf a n h'

theorem NoDup.ok {α : Type} (a : α) : NoDup (Res.ok a) := by intro n h; cases h
theorem NoDup.panic {α : Type} : NoDup (Res.panic : Res α) := by intro n h; cases h

theorem NoDup.norm (m : Mode) (v : Int) : NoDup (m.norm v) := by
  unfold Mode.norm
  split
  · exact NoDup.ok _
  · cases m
    · exact NoDup.panic
    · exact NoDup.ok _

theorem NoDup.eval (m : Mode) (env : Env) : ∀ e : Expr, NoDup (e.eval m env)
  | .bxor l r => by
    simp only [Expr.eval]; exact (NoDup.eval m env l).bind fun a => (NoDup.eval m env r).bind fun b => NoDup.ok _
  | .band l r => by
    simp only [Expr.eval]; exact (NoDup.eval m env l).bind fun a => (NoDup.eval m env r).bind fun b => NoDup.ok _
  | .bor l r => by
    simp only [Expr.eval]; exact (NoDup.eval m env l).bind fun a => (NoDup.eval m env r).bind fun b => NoDup.ok _
  | .plus l r => by
    simp only [Expr.eval]; exact (NoDup.eval m env l).bind fun a => (NoDup.eval m env r).bind fun b => NoDup.norm _ _
  | .minus l r => by
    simp only [Expr.eval]; exact (NoDup.eval m env l).bind fun a => (NoDup.eval m env r).bind fun b => NoDup.norm _ _
  | .times l r => by
    simp only [Expr.eval]; exact (NoDup.eval m env l).bind fun a => (NoDup.eval m env r).bind fun b => NoDup.norm _ _
  | .divide l r => by
    simp only [Expr.eval]
    refine (NoDup.eval m env l).bind fun a => (NoDup.eval m env r).bind fun b => ?_
    split
    · intro n h; cases h
    · split
      · exact NoDup.ok _
      · exact NoDup.panic
  | .uminus e => by simp only [Expr.eval]; exact (NoDup.eval m env e).bind fun a => NoDup.norm _ _
  | .upperByte e => by simp only [Expr.eval]; exact (NoDup.eval m env e).bind fun a => NoDup.ok _
  | .lowerByte e => by simp only [Expr.eval]; exact (NoDup.eval m env e).bind fun a => NoDup.ok _
  | .name n => by
    simp only [Expr.eval]
    split
    · exact NoDup.ok _
    · intro n h; cases h
  | .number v r => by simp only [Expr.eval]; exact NoDup.ok _
  | .macroLabel n => by intro n h; cases h
  | .macroArg n => by intro n h; cases h

theorem NoDup.ite {α : Type} {p : Prop} [Decidable p] {x y : Res α} (hx : NoDup x) (hy : NoDup y) :
    NoDup (if p then x else y) := by
  split
  · exact hx
  · exact hy

theorem NoDup.bits (m : Mode) (env : Env) (b : Nat) (e : Expr) : NoDup (evalBits m env b e) := by
  unfold evalBits
  exact (NoDup.eval m env e).bind fun v => NoDup.ite (by intro n h; cases h) (NoDup.ok _)

theorem NoDup.field (m : Mode) (env : Env) (next : Nat) (k : Kind) (o : Sum Expr IM) :
    NoDup (evalField m env next k o) := by
  unfold evalField
  split
  · exact NoDup.bits _ _ _ _
  · exact NoDup.bits _ _ _ _
  · exact NoDup.bits _ _ _ _
  · unfold evalRel8
    refine (NoDup.eval m env _).bind fun v => NoDup.ite ?_ (by intro n h; cases h)
    exact (NoDup.norm _ _).bind fun v => NoDup.ite (NoDup.ok _) (by intro n h; cases h)
  · unfold evalAbs12
    exact (NoDup.bits m env _ _).bind fun v => NoDup.ite (by intro n h; cases h) (NoDup.ok _)
  · exact NoDup.bits _ _ _ _
  · unfold evalRel16
    refine (NoDup.eval m env _).bind fun v => NoDup.ite ?_ (by intro n h; cases h)
    exact (NoDup.norm _ _).bind fun v => (NoDup.norm _ _).bind fun v => NoDup.ite (NoDup.ok _) (by intro n h; cases h)
  · exact NoDup.ok _
  · intro n h; cases h

theorem NoDup.fields (m : Mode) (env : Env) (next : Nat) : ∀ (ks : List Kind) (os : List (Sum Expr IM)),
    NoDup (evalFields m env next ks os)
  | [], _ => by simp only [evalFields]; exact NoDup.ok _
  | _ :: _, [] => by intro n h; simp [evalFields] at h
  | k :: ks, o :: os => by
    simp only [evalFields]
    exact (NoDup.field m env next k o).bind fun x => (NoDup.fields m env next ks os).bind fun xs => NoDup.ok _

theorem NoDup.bytes (m : Mode) (env : Env) : ∀ vs : List ByteValue, NoDup (byteItemsF m env vs)
  | [] => by simp only [byteItemsF]; exact NoDup.ok _
  | .expr e :: vs => by
    simp only [byteItemsF]
    exact (NoDup.eval m env e).bind fun v => NoDup.ite (by intro n h; cases h)
      ((NoDup.bytes m env vs).bind fun x => NoDup.ok _)
  | .str s :: vs => by
    simp only [byteItemsF]
    exact (NoDup.bytes m env vs).bind fun x => NoDup.ok _

theorem NoDup.words (m : Mode) (env : Env) : ∀ es : List Expr, NoDup (wordItemsF m env es)
  | [] => by simp only [wordItemsF]; exact NoDup.ok _
  | e :: es => by
    simp only [wordItemsF]
    exact (NoDup.eval m env e).bind fun v => NoDup.ite (by intro n h; cases h)
      ((NoDup.words m env es).bind fun x => NoDup.ok _)

theorem NoDup.emit (m : Mode) (env : Env) (p : Nat) (x : Stmt) : NoDup (emitF m env p x) := by
  unfold emitF
  split
  · exact NoDup.bytes _ _ _
  · exact NoDup.ite (by intro n h; cases h) (NoDup.ok _)
  · exact NoDup.ite (by intro n h; cases h) (NoDup.ok _)
  · exact NoDup.ite (by intro n h; cases h) (NoDup.ok _)
  · exact NoDup.words _ _ _
  · exact NoDup.panic
  · exact NoDup.ok _
  · exact NoDup.ok _
  · rw [emit_instr]
    exact (NoDup.fields _ _ _ _ _).bind fun x => NoDup.ok _
  · exact NoDup.ok _
  · exact NoDup.ok _
  · exact NoDup.ok _
  · exact NoDup.panic

theorem NoDup.emitAll (m : Mode) (env : Text → Env) : ∀ qs : List Placed, NoDup (emitAllF m env qs)
  | [] => by simp only [emitAllF]; exact NoDup.ok _
  | q :: qs => by
    simp only [emitAllF]
    exact (NoDup.emit m _ _ _).bind fun x => (NoDup.emitAll m env qs).bind fun y => NoDup.ok _

/-- A duplicate-name error in the definitions names a name that occurs twice. -/
theorem varsF_dup (m : Mode) : ∀ (ds : List (Text × Expr)) (known : List (Text × Int)) (n : Text),
    varsF m known ds = .err (.nameAlreadyExists n) → 2 ≤ (known.map (·.1) ++ ds.map (·.1)).count n
  | [], known, n, h => by cases h
  | (x, e) :: ds, known, n, h => by
    simp only [varsF] at h
    rcases Res.bind_eq_err.mp h with h | ⟨v, hv, h⟩
    · exact (NoDup.eval m _ e n h).elim
    · rw [addName_eq] at h
      split at h
      · rename_i hx
        rw [Res.err_bind] at h
        cases h
        rw [List.count_append, List.map_cons, List.count_cons_self]
        have := List.count_pos_iff.mpr hx
        omega
      · rw [Res.ok_bind] at h
        have := varsF_dup m ds _ n h
        simp only [List.map_cons, List.cons_append, List.count_append, List.count_cons] at this ⊢
        omega

/-- Definitions that all have values but repeat a name are rejected as duplicates. -/
theorem varsF_reject (m : Mode) : ∀ (ds : List (Text × Expr)) (known vals : List (Text × Int)),
    (known.map (·.1)).Nodup → Vars m known ds vals → ¬ (known.map (·.1) ++ ds.map (·.1)).Nodup →
    ∃ n, varsF m known.reverse ds = .err (.nameAlreadyExists n)
  | [], known, vals, hn, _, h => by simp at h; exact (h hn).elim
  | (x, e) :: ds, known, vals, hn, hv, h => by
    cases hv with
    | cons hev hrest =>
      rename_i v vs
      simp only [varsF, mapEnv_reverse hn, hev, Res.ok_bind, addName_eq, List.map_reverse, List.mem_reverse]
      by_cases hx : x ∈ known.map (·.1)
      · rw [if_pos hx]
        exact ⟨x, rfl⟩
      · rw [if_neg hx, Res.ok_bind]
        have hn' : ((known ++ [(x, v)]).map (·.1)).Nodup := by
          rw [List.map_append, List.nodup_append]
          refine ⟨hn, by simp, ?_⟩
          rintro a ha b hb rfl
          simp at hb; subst hb; exact hx ha
        have := varsF_reject m ds (known ++ [(x, v)]) vs hn' hrest (by simpa [List.append_assoc] using h)
        rwa [List.reverse_append] at this

/-- The definitions before a failing one: the outcome is its error. -/
theorem varsF_prefix (m : Mode) : ∀ (ds : List (Text × Expr)) (known vals : List (Text × Int)) (x : Text) (e : Expr)
    (rest : List (Text × Expr)) (er : Err),
    ((known ++ vals).map (·.1)).Nodup → Vars m known ds vals →
    e.eval m (fun y => (known ++ vals).lookup y) = .err er →
    varsF m known.reverse (ds ++ (x, e) :: rest) = .err er
  | [], known, vals, x, e, rest, er, hn, hv, he => by
    cases hv
    simp only [List.append_nil] at hn he
    simp only [List.nil_append, varsF, mapEnv_reverse hn, he, Res.err_bind]
  | (y, d) :: ds, known, vals, x, e, rest, er, hn, hv, he => by
    cases hv with
    | cons hev hrest =>
      rename_i v vs
      have hn0 : (known.map (·.1)).Nodup := by
        rw [List.map_append, List.nodup_append] at hn; exact hn.1
      have hy : y ∉ known.map (·.1) := by
        intro hy
        rw [List.map_append, List.nodup_append] at hn
        exact hn.2.2 y hy y (by simp) rfl
      simp only [List.cons_append, varsF, mapEnv_reverse hn0, hev, Res.ok_bind, addName_eq, List.map_reverse,
        List.mem_reverse, if_neg hy]
      have := varsF_prefix m ds (known ++ [(y, v)]) vs x e rest er (by simpa using hn) hrest (by simpa using he)
      rwa [List.reverse_append] at this

end Verif
