import Verif.Lemmas.Sane
import Verif.Lemmas.ExpandMore
import Verif.Lemmas.AsmOutcome
/-
The whole way from a file to the bytes: what is left of includes, and what can panic.
-/
namespace Verif
open Spec

/-! ### No include directive is left -/

theorem DataStmt.no_incl {s : Stmt} (h : DataStmt s) (t : IncludeType) (p : Text) : s ≠ .dir (.incl t p) := by
  rcases h with ⟨_, rfl⟩ | ⟨_, rfl, _⟩ | ⟨_, rfl, _⟩ <;> simp

theorem includeData_no_incl {m order load fs file sf s ss} (h : includeData m order load fs file sf s = .ok ss) :
    ∀ x ∈ ss, ∀ t p, x ≠ .dir (.incl t p) := by
  unfold includeData at h
  split at h
  · cases h
  · cases h
  · obtain ⟨path, _, h2⟩ := Res.bind_eq_ok.mp h
    obtain ⟨bytes, _, h3⟩ := Res.bind_eq_ok.mp h2
    cases h3
    simp
  · obtain ⟨speed, hsp, h2⟩ := Res.bind_eq_ok.mp h
    obtain ⟨ey, _, h3⟩ := Res.bind_eq_ok.mp h2
    obtain ⟨path, _, h4⟩ := Res.bind_eq_ok.mp h3
    obtain ⟨ey', _, h5⟩ := Res.bind_eq_ok.mp h4
    refine fun x hx => (toIcon_data (fun v hv => ?_) h5 x hx).no_incl
    subst hv
    unfold evalSpeed at hsp
    split at hsp
    · cases hsp
    · obtain ⟨w, _, h6⟩ := Res.bind_eq_ok.mp hsp
      cases h6
      omega
  · obtain ⟨path, _, h2⟩ := Res.bind_eq_ok.mp h
    obtain ⟨img, _, h3⟩ := Res.bind_eq_ok.mp h2
    obtain ⟨_, _, h4⟩ := Res.bind_eq_ok.mp h3
    cases h4
    intro x hx
    rcases List.mem_cons.mp hx with rfl | hx
    · simp
    · obtain ⟨f, _, hx⟩ := List.mem_flatMap.mp hx
      exact (to1BitAsm_data x hx).no_incl
  · rename_i h1 h2 h3 h4 h5
    cases h
    intro x hx t p e
    simp only [List.mem_singleton] at hx
    subst hx
    cases t with
    | asm => exact h1 _ e
    | cHeader => exact h2 _ e
    | bytes => exact h3 _ e
    | icon s e' => exact h4 _ _ _ e
    | sprite a b => exact h5 _ _ _ e

theorem replaceData_all {f : Stmt → Res (List Stmt)} {P : Stmt → Prop} (hf : ∀ s ss, f s = .ok ss → ∀ x ∈ ss, P x) :
    ∀ {ss out}, replaceData f ss = .ok out → ∀ x ∈ out, P x := by
  intro ss
  induction ss with
  | nil => intro out h; cases h; simp
  | cons s ss ih =>
    intro out h
    rw [replaceData] at h
    obtain ⟨a, ha, h2⟩ := Res.bind_eq_ok.mp h
    obtain ⟨b, hb, h3⟩ := Res.bind_eq_ok.mp h2
    cases h3
    intro x hx
    rcases List.mem_append.mp hx with hx | hx
    · exact hf _ _ ha x hx
    · exact ih hb x hx

theorem readStatements_no_incl {m seg order load fs fuel sf name p}
    (h : readStatements m seg order load fs fuel sf name = .ok p) : ∀ x ∈ p.stmts, ∀ t f, x ≠ .dir (.incl t f) := by
  unfold readStatements at h
  obtain ⟨⟨q, path, sf'⟩, hq, h2⟩ := Res.bind_eq_ok.mp h
  obtain ⟨ss, hss, h3⟩ := Res.bind_eq_ok.mp h2
  cases h3
  exact replaceData_all (fun _ _ => includeData_no_incl) hss

/-- What a macro expands to: labels and instructions. -/
def Expanded (s : Stmt) : Prop := (∃ n, s = .label n) ∨ ∃ i, s = .instr i

theorem expandBody_kinds {uuid : Nat → Text} {macros : Macros} {fuel again labels argmap}
    (hag : ∀ n args k out k', again n args k = .ok (out, k') → ∀ s ∈ out, Expanded s) :
    ∀ {body k out k'}, expandBody uuid macros fuel again labels argmap body k = .ok (out, k') →
      ∀ s ∈ out, Expanded s := by
  intro body
  induction body with
  | nil => intro k out k' h; cases h; simp
  | cons b body ih =>
    intro k out k' h s hm
    cases b with
    | label n =>
      rw [expandBody] at h
      obtain ⟨⟨o, k1⟩, h1, h2⟩ := Res.bind_eq_ok.mp h
      cases h2
      rcases List.mem_cons.mp hm with rfl | hm
      · exact .inl ⟨_, rfl⟩
      · exact ih h1 s hm
    | macroLabel n =>
      rw [expandBody] at h
      split at h
      · cases h
      · obtain ⟨⟨o, k1⟩, h1, h2⟩ := Res.bind_eq_ok.mp h
        cases h2
        rcases List.mem_cons.mp hm with rfl | hm
        · exact .inl ⟨_, rfl⟩
        · exact ih h1 s hm
    | instr n args =>
      rw [expandBody] at h
      split at h
      · obtain ⟨as, h1, h2⟩ := Res.bind_eq_ok.mp h
        obtain ⟨⟨new, k1⟩, h3, h4⟩ := Res.bind_eq_ok.mp h2
        obtain ⟨⟨o, k2⟩, h5, h6⟩ := Res.bind_eq_ok.mp h4
        cases h6
        rcases List.mem_append.mp hm with hm | hm
        · exact hag _ _ _ _ _ h3 s hm
        · exact ih h5 s hm
      · obtain ⟨as, h1, h2⟩ := Res.bind_eq_ok.mp h
        obtain ⟨i, h3, h4⟩ := Res.bind_eq_ok.mp h2
        obtain ⟨⟨o, k2⟩, h5, h6⟩ := Res.bind_eq_ok.mp h4
        cases h6
        rcases List.mem_cons.mp hm with rfl | hm
        · exact .inr ⟨_, rfl⟩
        · exact ih h5 s hm

theorem expand_kinds {uuid : Nat → Text} {macros : Macros} : ∀ (fuel : Nat) (n args k out k'),
    expand uuid macros fuel n args k = .ok (out, k') → ∀ s ∈ out, Expanded s := by
  intro fuel
  induction fuel with
  | zero => intro n args k out k' h; cases h
  | succ fuel ih =>
    intro n args k out k' h
    rw [expand] at h
    split at h
    · cases h
    · split at h
      · cases h
      · obtain ⟨⟨labels, k1⟩, h1, h2⟩ := Res.bind_eq_ok.mp h
        exact expandBody_kinds ih h2

theorem expandStmts_mem {uuid : Nat → Text} {macros : Macros} {fuel : Nat} : ∀ {ss k out k'},
    expandStmts uuid macros fuel ss k = .ok (out, k') → ∀ s ∈ out, Expanded s ∨ (s ∈ ss ∧ ∀ n args, s ≠ .macroCall n args) := by
  intro ss
  induction ss with
  | nil => intro k out k' h; cases h; simp
  | cons x ss ih =>
    intro k out k' h s hx
    by_cases hc : ∃ n args, x = .macroCall n args
    · obtain ⟨n, args, rfl⟩ := hc
      rw [expandStmts] at h
      obtain ⟨⟨new, k1⟩, h1, h2⟩ := Res.bind_eq_ok.mp h
      obtain ⟨⟨o, k2⟩, h3, h4⟩ := Res.bind_eq_ok.mp h2
      cases h4
      rcases List.mem_append.mp hx with hx | hx
      · exact .inl (expand_kinds _ _ _ _ _ _ h1 s hx)
      · exact (ih h3 s hx).imp id fun h => ⟨by simp [h.1], h.2⟩
    · rw [expandStmts] at h
      · obtain ⟨⟨o, k2⟩, h3, h4⟩ := Res.bind_eq_ok.mp h
        cases h4
        rcases List.mem_cons.mp hx with rfl | hx
        · exact .inr ⟨by simp, fun n a e => hc ⟨n, a, e⟩⟩
        · exact (ih h3 s hx).imp id fun h => ⟨by simp [h.1], h.2⟩
      · exact fun n a e => hc ⟨n, a, e⟩

theorem expandMacros_mem {uuid : Nat → Text} {fuel : Nat} {p q : Program} (h : expandMacros uuid fuel p = .ok q) :
    ∀ s ∈ q.stmts, Expanded s ∨ (s ∈ p.stmts ∧ ∀ n args, s ≠ .macroCall n args) := by
  unfold expandMacros at h
  obtain ⟨⟨o, k⟩, h1, h2⟩ := Res.bind_eq_ok.mp h
  cases h2
  exact expandStmts_mem h1

/-! ### Macro expansion does not panic -/

theorem bind_not_panic {α β : Type} {r : Res α} {f : α → Res β} (h : r ≠ .panic) (hf : ∀ a, r = .ok a → f a ≠ .panic) :
    (r >>= f) ≠ .panic := by
  cases r with
  | ok a => exact hf a rfl
  | err e => simp
  | panic => exact absurd rfl h
  | loop => simp

theorem replaceWith_not_panic {onArg : Expr → Res Expr} (ho : ∀ e, onArg e ≠ .panic) {labels : List (Text × Text)}
    {args : List (Text × Arg)} : ∀ e : Expr, e.replaceWith onArg labels args ≠ .panic := by
  intro e
  induction e with
  | name n => simp [Expr.replaceWith]
  | number v r => simp [Expr.replaceWith]
  | macroLabel n => rw [Expr.replaceWith]; split <;> simp
  | macroArg n => rw [Expr.replaceWith]; split <;> first | exact ho _ | simp
  | uminus e ih | upperByte e ih | lowerByte e ih =>
    rw [Expr.replaceWith]
    exact bind_not_panic ih fun _ _ => by simp
  | plus l r ih1 ih2 | minus l r ih1 ih2 | times l r ih1 ih2 | divide l r ih1 ih2 | bxor l r ih1 ih2 | band l r ih1 ih2
  | bor l r ih1 ih2 =>
    rw [Expr.replaceWith]
    exact bind_not_panic ih1 fun _ _ => bind_not_panic ih2 fun _ _ => by simp

theorem replaceMacroArgs_not_panic {labels : List (Text × Text)} {args : List (Text × Arg)} : ∀ (n : Nat) (e : Expr),
    e.replaceMacroArgs n labels args ≠ .panic := by
  intro n
  induction n with
  | zero => exact replaceWith_not_panic (fun _ => by simp)
  | succ n ih => exact replaceWith_not_panic ih

theorem replaceArgs_not_panic {labels : List (Text × Text)} {args : List (Text × Arg)} {n : Nat} : ∀ as : List Arg,
    replaceArgs n labels args as ≠ .panic := by
  intro as
  induction as with
  | nil => simp [replaceArgs]
  | cons a as ih =>
    rw [replaceArgs]
    refine bind_not_panic ?_ fun _ _ => bind_not_panic ih fun _ _ => by simp
    cases a with
    | macroArg n => rw [replaceArg]; split <;> simp
    | imm e => rw [replaceArg]; exact bind_not_panic (replaceMacroArgs_not_panic _ _) fun _ _ => by simp
    | ex e => rw [replaceArg]; exact bind_not_panic (replaceMacroArgs_not_panic _ _) fun _ _ => by simp
    | im r => simp [replaceArg]

theorem expandBody_not_panic {uuid : Nat → Text} {macros : Macros} {fuel again labels argmap}
    (hag : ∀ n args k, again n args k ≠ .panic) : ∀ {body k}, (∀ n ∈ hygienic body, labels.lookup n ≠ none) →
      expandBody uuid macros fuel again labels argmap body k ≠ .panic := by
  intro body
  induction body with
  | nil => intro k _; simp [expandBody]
  | cons b body ih =>
    intro k hl
    have ih' : ∀ k, expandBody uuid macros fuel again labels argmap body k ≠ .panic := fun k =>
      ih fun n hn => hl n (by cases b <;> simp [hygienic, hn])
    cases b with
    | label n =>
      rw [expandBody]
      exact bind_not_panic (ih' _) fun _ _ => by simp
    | macroLabel n =>
      rw [expandBody]
      split
      · rename_i h
        exact absurd h (hl n (by simp [hygienic]))
      · exact bind_not_panic (ih' _) fun _ _ => by simp
    | instr n args =>
      rw [expandBody]
      split
      · exact bind_not_panic (replaceArgs_not_panic _) fun _ _ => bind_not_panic (hag _ _ _) fun _ _ =>
          bind_not_panic (ih' _) fun _ _ => by simp
      · exact bind_not_panic (replaceArgs_not_panic _) fun _ _ => bind_not_panic (makeInstr_ends _ _).2 fun _ _ =>
          bind_not_panic (ih' _) fun _ _ => by simp

theorem expand_not_panic {uuid : Nat → Text} {macros : Macros} : ∀ (fuel : Nat) (n args k),
    expand uuid macros fuel n args k ≠ .panic := by
  intro fuel
  induction fuel with
  | zero => intro n args k; simp [expand]
  | succ fuel ih =>
    intro n args k
    rw [expand]
    split
    · simp
    · split
      · simp
      · exact bind_not_panic (genLabels_ends _ _ _).2 fun _ h => expandBody_not_panic ih (hygienic_lookup h)

theorem expandStmts_not_panic {uuid : Nat → Text} {macros : Macros} {fuel : Nat} : ∀ {ss k},
    expandStmts uuid macros fuel ss k ≠ .panic := by
  intro ss
  induction ss with
  | nil => intro k; simp [expandStmts]
  | cons x ss ih =>
    intro k
    by_cases hc : ∃ n args, x = .macroCall n args
    · obtain ⟨n, args, rfl⟩ := hc
      rw [expandStmts]
      exact bind_not_panic (expand_not_panic _ _ _ _) fun _ _ => bind_not_panic ih fun _ _ => by simp
    · rw [expandStmts]
      · exact bind_not_panic ih fun _ _ => by simp
      · exact fun n a e => hc ⟨n, a, e⟩

theorem expandMacros_not_panic (uuid : Nat → Text) (fuel : Nat) (p : Program) : expandMacros uuid fuel p ≠ .panic :=
  bind_not_panic expandStmts_not_panic fun _ _ => by simp

end Verif
