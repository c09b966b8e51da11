import Verif.Lemmas.AsmFresh
import Verif.Lemmas.AsmAppend
import Verif.Lemmas.ReadExpr
import Verif.Spec.Renaming
/-
Renaming the labels, variables and aliases of a program.
-/
namespace Verif
open Spec

variable {f : Text → Text}

/-- Outcomes that are the same but for the names in errors; values are related by `R`. -/
def RenRes (f : Text → Text) {α β : Type} (R : α → β → Prop) : Res α → Res β → Prop
  | .ok a, .ok b => R a b
  | .err e, .err e' => e' = renameError f e
  | .panic, .panic => True
  | .loop, .loop => True
  | _, _ => False

theorem RenRes.bind {α β γ δ : Type} {R : α → β → Prop} {S : γ → δ → Prop} {x : Res α} {y : Res β} {k : α → Res γ} {l : β → Res δ}
    (h : RenRes f R x y) (hk : ∀ a b, R a b → RenRes f S (k a) (l b)) : RenRes f S (x >>= k) (y >>= l) := by
  cases x <;> cases y <;> first | exact hk _ _ h | exact h | exact h.elim

theorem RenRes.mono {α β : Type} {R S : α → β → Prop} {x : Res α} {y : Res β} (h : RenRes f R x y) (hk : ∀ a b, R a b → S a b) :
    RenRes f S x y := by
  cases x <;> cases y <;> first | exact hk _ _ h | exact h

theorem RenRes.ok {α β : Type} {R : α → β → Prop} {a : α} {b : β} (h : R a b) : RenRes f R (.ok a) (.ok b) := h

theorem renRes_eq {α : Type} {x y : Res α} (h : RenRes f Eq x y) : y = renameOutcome f x := by
  cases x <;> cases y <;> simp_all [RenRes, renameOutcome]

theorem RenRes.norm (m : Mode) (v : Int) : RenRes f Eq (m.norm v) (m.norm v) := by
  unfold Mode.norm
  split
  · exact rfl
  · cases m <;> simp [RenRes]

/-- Environments that give the same values to the names and their replacements -/
def RenEnv (f : Text → Text) (env env' : Env) : Prop := ∀ n, lower n = n → env' (f n) = env n

theorem RenRes.eval (hf : Renaming f) {env env' : Env} (he : RenEnv f env env') (m : Mode) (e : Expr) :
    RenRes f Eq (e.eval m env) ((renameExpr f e).eval m env') := by
  induction e with
  | name n =>
    have h := he (lower n) (lower_lower n)
    simp only [renameExpr, Expr.eval, hf.low _ (lower_lower n), h]
    cases env (lower n) with
    | some v => exact rfl
    | none => exact rfl
  | macroLabel n => exact rfl
  | macroArg n => exact rfl
  | number v r => exact rfl
  | uminus e ih =>
    simp only [renameExpr, Expr.eval]
    exact ih.bind fun a b h => h ▸ .norm m _
  | upperByte e ih =>
    simp only [renameExpr, Expr.eval]
    exact ih.bind fun a b h => h ▸ rfl
  | lowerByte e ih =>
    simp only [renameExpr, Expr.eval]
    exact ih.bind fun a b h => h ▸ rfl
  | plus l r ihl ihr =>
    simp only [renameExpr, Expr.eval]
    exact ihl.bind fun a b h => ihr.bind fun c d h' => h ▸ h' ▸ .norm m _
  | minus l r ihl ihr =>
    simp only [renameExpr, Expr.eval]
    exact ihl.bind fun a b h => ihr.bind fun c d h' => h ▸ h' ▸ .norm m _
  | times l r ihl ihr =>
    simp only [renameExpr, Expr.eval]
    exact ihl.bind fun a b h => ihr.bind fun c d h' => h ▸ h' ▸ .norm m _
  | divide l r ihl ihr =>
    simp only [renameExpr, Expr.eval]
    refine ihl.bind fun a b h => ihr.bind fun c d h' => ?_
    subst h; subst h'
    split
    · exact rfl
    · split
      · exact rfl
      · exact trivial
  | bxor l r ihl ihr =>
    simp only [renameExpr, Expr.eval]
    exact ihl.bind fun a b h => ihr.bind fun c d h' => h ▸ h' ▸ rfl
  | band l r ihl ihr =>
    simp only [renameExpr, Expr.eval]
    exact ihl.bind fun a b h => ihr.bind fun c d h' => h ▸ h' ▸ rfl
  | bor l r ihl ihr =>
    simp only [renameExpr, Expr.eval]
    exact ihl.bind fun a b h => ihr.bind fun c d h' => h ▸ h' ▸ rfl

theorem RenRes.evalField (hf : Renaming f) {env env' : Env} (he : RenEnv f env env') (m : Mode) (next : Nat) (k : Kind)
    (o : Sum Expr IM) : RenRes f Eq (evalField m env next k o) (evalField m env' next k (renameOperand f o)) := by
  have bits : ∀ n e, RenRes f Eq (evalBits m env n e) (evalBits m env' n (renameExpr f e)) := by
    intro n e
    unfold evalBits
    refine (RenRes.eval hf he m e).bind fun a b h => ?_
    subst h
    split <;> exact rfl
  cases o with
  | inr r => cases k <;> exact (by first | exact rfl | exact trivial)
  | inl e =>
    cases k with
    | i8 => exact bits 8 e
    | d9 => exact bits 9 e
    | b3 => exact bits 3 e
    | a16 => exact bits 16 e
    | ri => exact trivial
    | r8 =>
      simp only [Verif.evalField, renameOperand, evalRel8]
      refine (RenRes.eval hf he m e).bind fun a b h => ?_
      subst h
      split
      · refine (RenRes.norm m _).bind fun a b h => ?_
        subst h
        split <;> exact rfl
      · exact rfl
    | r16 =>
      simp only [Verif.evalField, renameOperand, evalRel16]
      refine (RenRes.eval hf he m e).bind fun a b h => ?_
      subst h
      split
      · refine (RenRes.norm m _).bind fun a b h => ?_
        subst h
        refine (RenRes.norm m _).bind fun a b h => ?_
        subst h
        split <;> exact rfl
      · exact rfl
    | a12 =>
      simp only [Verif.evalField, renameOperand, evalAbs12]
      refine (bits 16 e).bind fun a b h => ?_
      subst h
      split <;> exact rfl

theorem RenRes.evalFields (hf : Renaming f) {env env' : Env} (he : RenEnv f env env') (m : Mode) (next : Nat) :
    ∀ (ks : List Kind) (os : List (Sum Expr IM)),
      RenRes f Eq (evalFields m env next ks os) (evalFields m env' next ks (os.map (renameOperand f)))
  | [], _ => by simp only [Verif.evalFields]; exact rfl
  | _ :: _, [] => by simp only [Verif.evalFields, List.map_nil]; exact rfl
  | k :: ks, o :: os => by
    simp only [Verif.evalFields, List.map_cons]
    refine (RenRes.evalField hf he m next k o).bind fun a b h => (RenRes.evalFields hf he m next ks os).bind fun c d h' => ?_
    exact h ▸ h' ▸ rfl

/-- What an instruction is evaluated to, as far as its encoding sees it -/
theorem RenRes.evalIn (hf : Renaming f) {env env' : Env} (he : RenEnv f env env') (m : Mode) (next : Nat) {i i' : Instr Expr IM}
    (hi : i'.form = i.form) (ho : operands i' = (operands i).map (renameOperand f)) :
    RenRes f (fun j j' => j'.encode = j.encode) (i.evalIn m env next) (i'.evalIn m env' next) := by
  have h : RenRes f Eq ((i.evalIn m env next) >>= fun i => .ok (i.form, i.vals))
      ((i'.evalIn m env' next) >>= fun i => .ok (i.form, i.vals)) := by
    rw [evalIn_eq, evalIn_eq, hi, ho]
    refine (RenRes.evalFields hf he m next _ _).bind fun a b h => ?_
    exact h ▸ rfl
  revert h
  cases i.evalIn m env next <;> cases i'.evalIn m env' next <;>
    simp only [Res.ok_bind, Res.err_bind, Res.panic_bind, Res.loop_bind] <;> intro h <;>
    first
    | exact h
    | (have h : _ = _ := h
       rw [Prod.mk.injEq] at h
       simp only [RenRes, Instr.encode, h.1, h.2])

/-- A map with the names replaced -/
def renNames (f : Text → Text) {β : Type} (l : List (Text × β)) : List (Text × β) := l.map fun p => (f p.1, p.2)

/-- The keys of a map are in lower case. -/
def LowKeys {β : Type} (l : List (Text × β)) : Prop := ∀ p ∈ l, lower p.1 = p.1

theorem renNames_lookup (hf : Renaming f) {β : Type} {n : Text} (hn : lower n = n) : ∀ {l : List (Text × β)}, LowKeys l →
    (renNames f l).lookup (f n) = l.lookup n
  | [], _ => rfl
  | (k, v) :: l, h => by
    have ih := renNames_lookup hf hn (l := l) fun p hp => h p (List.mem_cons_of_mem _ hp)
    have hk : lower k = k := h _ List.mem_cons_self
    simp only [renNames, List.map_cons, List.lookup_cons]
    by_cases e : n = k
    · subst e
      simp only [beq_self_eq_true]
    · have : f n ≠ f k := fun h' => e (hf.distinct n k hn hk h')
      rw [beq_eq_false_iff_ne.mpr e, beq_eq_false_iff_ne.mpr this]
      exact ih

theorem RenRes.addName (hf : Renaming f) {n : Text} (hn : lower n = n) (v : Int) {l : List (Text × Int)} (hl : LowKeys l) :
    RenRes f (fun a b => b = renNames f a ∧ LowKeys a) (addName n v l) (addName (f n) v (renNames f l)) := by
  simp only [Verif.addName, renNames_lookup hf hn hl]
  cases l.lookup n with
  | some _ => exact rfl
  | none =>
    refine ⟨rfl, fun p hp => ?_⟩
    rcases List.mem_cons.mp hp with rfl | hp
    · exact hn
    · exact hl p hp

/-- A map of maps with the names replaced -/
def renLocals (f : Text → Text) (l : List (Text × List (Text × Int))) : List (Text × List (Text × Int)) :=
  renNames f (l.map fun p => (p.1, renNames f p.2))

theorem lowKeys_map {β γ : Type} {l : List (Text × β)} {g : β → γ} (h : LowKeys l) : LowKeys (l.map fun p => (p.1, g p.2)) := by
  intro p hp
  obtain ⟨q, hq, rfl⟩ := List.mem_map.mp hp
  exact h q hq

theorem lookup_map_snd {β γ : Type} (g : β → γ) (n : Text) : ∀ l : List (Text × β),
    (l.map fun p => (p.1, g p.2)).lookup n = (l.lookup n).map g
  | [] => rfl
  | (k, v) :: l => by
    simp only [List.map_cons, List.lookup_cons]
    cases n == k with
    | true => rfl
    | false => exact lookup_map_snd g n l

theorem renLocals_lookup (hf : Renaming f) {n : Text} (hn : lower n = n) {l : List (Text × List (Text × Int))} (h : LowKeys l) :
    (renLocals f l).lookup (f n) = (l.lookup n).map (renNames f) := by
  rw [renLocals, renNames_lookup hf hn (lowKeys_map h), lookup_map_snd]

/-- The states of the first pass -/
structure RenLabels (f : Text → Text) (s s' : LabelState) : Prop where
  eq : s' = ⟨renNames f s.globals, renLocals f s.locals, renNames f s.local_, f s.currentGlobal, s.pos⟩
  globals : LowKeys s.globals
  locals : LowKeys s.locals
  inner : ∀ p ∈ s.locals, LowKeys p.2
  local_ : LowKeys s.local_
  current : lower s.currentGlobal = s.currentGlobal

theorem RenRes.cnopLit (e : Expr) : RenRes f Eq (evalCnopExpr e) (evalCnopExpr (renameExpr f e)) := by
  cases e <;> exact rfl

theorem RenRes.refl_of {α : Type} {x : Res α} (h : ∀ e, x = .err e → renameError f e = e) : RenRes f Eq x x := by
  cases x with
  | err e => exact (h e rfl).symm
  | ok a => exact rfl
  | panic => exact trivial
  | loop => exact trivial

theorem cnopLoop_noErr {m : Mode} {p k : Int} : ∀ n x e, cnopLoop m p k n x ≠ .err e
  | 0, x, e => by simp [cnopLoop]
  | n + 1, x, e => by
    unfold cnopLoop
    split
    · simp
    · intro h
      rcases Res.bind_eq_err.mp h with h | ⟨a, _, h⟩
      · unfold Mode.norm at h
        split at h
        · cases h
        · cases m <;> cases h
      · exact cnopLoop_noErr n a e h

theorem RenRes.cnop (m : Mode) (p : Int) (a k : Expr) :
    RenRes f Eq (evalCnop m p a k) (evalCnop m p (renameExpr f a) (renameExpr f k)) := by
  unfold evalCnop
  refine (RenRes.cnopLit a).bind fun x y h => (RenRes.cnopLit k).bind fun u v h' => ?_
  subst h; subst h'
  split
  · exact rfl
  · refine RenRes.bind (R := Eq) (.refl_of fun e he => absurd he (cnopLoop_noErr _ _ _)) fun b c h => ?_
    subst h
    exact .norm m _

theorem renSize_byte (vs : List ByteValue) : (vs.map (renameItem f)).map ByteValue.count = vs.map ByteValue.count := by
  rw [List.map_map]
  apply List.map_congr_left
  intro v _
  cases v <;> rfl

theorem RenRes.size {d d' : Directive} (h : Renamed f (.dir d) (.dir d')) (m : Mode) (p : Int) :
    RenRes f Eq (d.size m p) (d'.size m p) := by
  cases h with
  | byte => simp only [Directive.size, renSize_byte]; exact rfl
  | word => simp only [Directive.size, List.length_map]; exact rfl
  | org =>
    simp only [Directive.size]
    generalize wrap32 _ - p = v
    exact RenRes.norm m v
  | text => exact rfl
  | string => exact rfl
  | cnop =>
    simp only [Directive.size]
    exact (RenRes.cnop m p _ _).bind fun a b h => h ▸ .norm m _

theorem renamed_dir {d : Directive} {s' : Stmt} (h : Renamed f (.dir d) s') : ∃ d', s' = .dir d' := by
  cases h <;> exact ⟨_, rfl⟩

theorem isDotted_ren (hf : Renaming f) (n : Text) : isDotted (f (lower n)) = isDotted n := by
  rw [isDotted_eq, isDotted_eq, hf.locality _ (lower_lower n), dotted_lower]

theorem instr_size_eq {i i' : Instr Expr IM} (h : i'.form = i.form) : i'.size = i.size := by
  simp only [Instr.size, h]

theorem RenRes.labelStep (hf : Renaming f) (m : Mode) {s s' : LabelState} {x x' : Stmt} (hs : RenLabels f s s') (hx : Renamed f x x') :
    RenRes f (RenLabels f) (labelStep m s x) (labelStep m s' x') := by
  obtain ⟨rfl, h1, h2, h3, h4, h5⟩ := hs
  cases x with
  | dir d =>
    obtain ⟨d', rfl⟩ := renamed_dir hx
    simp only [Verif.labelStep]
    refine (RenRes.size hx m _).bind fun a b h => ?_
    subst h
    refine (RenRes.norm m _).bind fun a b h => ?_
    subst h
    exact ⟨rfl, h1, h2, h3, h4, h5⟩
  | label n =>
    cases hx
    simp only [Verif.labelStep, isDotted_ren hf, hf.low _ (lower_lower n)]
    split
    · refine (RenRes.addName hf (lower_lower n) _ h4).bind fun a b h => ?_
      obtain ⟨rfl, h⟩ := h
      exact ⟨rfl, h1, h2, h3, h, h5⟩
    · refine (RenRes.addName hf (lower_lower n) _ h1).bind fun a b h => ?_
      obtain ⟨rfl, h⟩ := h
      refine ⟨rfl, h, ?_, ?_, fun _ hp => (by cases hp), lower_lower n⟩
      · intro p hp
        rcases List.mem_cons.mp hp with rfl | hp
        · exact h5
        · exact h2 p hp
      · intro p hp
        rcases List.mem_cons.mp hp with rfl | hp
        · exact h4
        · exact h3 p hp
  | instr i =>
    cases hx with
    | instr h h' =>
      simp only [Verif.labelStep, instr_size_eq h]
      refine (RenRes.norm m _).bind fun a b h => ?_
      subst h
      exact ⟨rfl, h1, h2, h3, h4, h5⟩
  | «variable» n e => cases hx; exact ⟨rfl, h1, h2, h3, h4, h5⟩
  | alias n e => cases hx; exact ⟨rfl, h1, h2, h3, h4, h5⟩
  | comment t => cases hx; exact ⟨rfl, h1, h2, h3, h4, h5⟩
  | macroCall n a => cases hx

theorem RenRes.runSteps {σ τ : Type} {R : σ → τ → Prop} {step : σ → Stmt → Res σ} {step' : τ → Stmt → Res τ} {P : Stmt → Prop}
    (hstep : ∀ s s' x x', P x → R s s' → Renamed f x x' → RenRes f R (step s x) (step' s' x')) {p p' : List Stmt}
    (hp : RenamedProgram f p p') : ∀ {s s'}, (∀ x ∈ p, P x) → R s s' → RenRes f R (runSteps step p s) (runSteps step' p' s') := by
  induction hp with
  | nil => intro s s' _ h; exact h
  | cons hx _ ih =>
    intro s s' hP h
    simp only [Verif.runSteps]
    exact (hstep _ _ _ _ (hP _ List.mem_cons_self) h hx).bind fun a b h => ih (fun x hx => hP x (List.mem_cons_of_mem _ hx)) h

theorem RenRes.computeLabels (hf : Renaming f) (m : Mode) {p p' : List Stmt} (hp : RenamedProgram f p p') :
    RenRes f (fun a b => b = (renNames f a.1, renLocals f a.2) ∧ LowKeys a.1 ∧ LowKeys a.2 ∧ ∀ q ∈ a.2, LowKeys q.2)
      (computeLabels m p) (computeLabels m p') := by
  unfold Verif.computeLabels
  refine (RenRes.runSteps (P := fun _ => True) (fun _ _ _ _ _ hs hx => RenRes.labelStep hf m hs hx) hp (fun _ _ => trivial)
    (s := ⟨[], [], [], [], 0⟩) (s' := ⟨[], [], [], [], 0⟩)
    ⟨by simp [renNames, renLocals, hf.empty], fun _ h => (by cases h), fun _ h => (by cases h), fun _ h => (by cases h), fun _ h => (by cases h), rfl⟩).bind ?_
  intro s s' hs
  obtain ⟨rfl, h1, h2, h3, h4, h5⟩ := hs
  simp only [renLocals_lookup hf h5 h2]
  cases s.locals.lookup s.currentGlobal with
  | some l => exact ⟨rfl, h1, h2, h3⟩
  | none =>
    refine ⟨rfl, h1, ?_, ?_⟩
    · intro p hp
      rcases List.mem_cons.mp hp with rfl | hp
      · exact h5
      · exact h2 p hp
    · intro p hp
      rcases List.mem_cons.mp hp with rfl | hp
      · exact h4
      · exact h3 p hp

theorem renEnv_map (hf : Renaming f) {l : List (Text × Int)} (h : LowKeys l) : RenEnv f (mapEnv l) (mapEnv (renNames f l)) :=
  fun _ hn => renNames_lookup hf hn h

theorem RenRes.nameStep (hf : Renaming f) (m : Mode) {s s' : NameState} {x x' : Stmt}
    (hs : s' = ⟨renNames f s.globals, s.pos, s.maxPos⟩ ∧ LowKeys s.globals) (hx : Renamed f x x') :
    RenRes f (fun a b => b = ⟨renNames f a.globals, a.pos, a.maxPos⟩ ∧ LowKeys a.globals) (nameStep m s x) (nameStep m s' x') := by
  obtain ⟨rfl, h1⟩ := hs
  cases x with
  | dir d =>
    obtain ⟨d', rfl⟩ := renamed_dir hx
    simp only [Verif.nameStep]
    refine (RenRes.size hx m _).bind fun a b h => ?_
    subst h
    refine (RenRes.norm m _).bind fun a b h => ?_
    subst h
    exact ⟨rfl, h1⟩
  | label n => cases hx; exact ⟨rfl, h1⟩
  | instr i =>
    cases hx with
    | instr h h' =>
      simp only [Verif.nameStep, instr_size_eq h]
      refine (RenRes.norm m _).bind fun a b h => ?_
      subst h
      exact ⟨rfl, h1⟩
  | «variable» n e =>
    cases hx
    simp only [Verif.nameStep, hf.low _ (lower_lower n)]
    refine (RenRes.eval hf (renEnv_map hf h1) m e).bind fun a b h => ?_
    subst h
    refine (RenRes.addName hf (lower_lower n) _ h1).bind fun a b h => ?_
    obtain ⟨rfl, h⟩ := h
    exact ⟨rfl, h⟩
  | alias n e =>
    cases hx
    simp only [Verif.nameStep, hf.low _ (lower_lower n)]
    refine (RenRes.eval hf (renEnv_map hf h1) m e).bind fun a b h => ?_
    subst h
    refine (RenRes.addName hf (lower_lower n) _ h1).bind fun a b h => ?_
    obtain ⟨rfl, h⟩ := h
    exact ⟨rfl, h⟩
  | comment t => cases hx; exact ⟨rfl, h1⟩
  | macroCall n a => cases hx

/-- The names found by the first two passes -/
structure RenTables (f : Text → Text) (names names' : Names) : Prop where
  eq : names' = ⟨renNames f names.globals, renLocals f names.locals⟩
  globals : LowKeys names.globals
  locals : LowKeys names.locals
  inner : ∀ q ∈ names.locals, LowKeys q.2

theorem RenRes.computeNames (hf : Renaming f) (m : Mode) {p p' : List Stmt} (hp : RenamedProgram f p p') :
    RenRes f (fun a b => b.1 = a.1 ∧ RenTables f a.2 b.2) (computeNames m p) (computeNames m p') := by
  unfold Verif.computeNames
  refine (RenRes.computeLabels hf m hp).bind fun a b h => ?_
  obtain ⟨rfl, h1, h2, h3⟩ := h
  refine (RenRes.runSteps (P := fun _ => True) (fun _ _ _ _ _ hs hx => RenRes.nameStep hf m hs hx) hp (fun _ _ => trivial)
    (s := ⟨a.1, 0, 0⟩) (s' := ⟨renNames f a.1, 0, 0⟩) ⟨rfl, h1⟩).bind fun c d h => ?_
  obtain ⟨rfl, h4⟩ := h
  refine (RenRes.norm m _).bind fun u v h => ?_
  subst h
  exact ⟨rfl, rfl, h4, h2, h3⟩

theorem lookup_mem {β : Type} {n : Text} {v : β} : ∀ {l : List (Text × β)}, l.lookup n = some v → ∃ k, (k, v) ∈ l
  | (k, w) :: l, h => by
    rw [List.lookup_cons] at h
    split at h
    · cases h; exact ⟨k, List.mem_cons_self⟩
    · obtain ⟨k', hk⟩ := lookup_mem h
      exact ⟨k', List.mem_cons_of_mem _ hk⟩

theorem RenRes.asEnv (hf : Renaming f) {names names' : Names} (hN : RenTables f names names') {g : Text} (hg : lower g = g) :
    RenRes f (RenEnv f) (names.asEnv g) (names'.asEnv (f g)) := by
  obtain ⟨rfl, h1, h2, h3⟩ := hN
  simp only [Names.asEnv, renLocals_lookup hf hg h2]
  cases hl : names.locals.lookup g with
  | none => exact trivial
  | some l =>
    obtain ⟨k, hk⟩ := lookup_mem hl
    have hlow := h3 _ hk
    intro n hn
    simp only [namesGet]
    have hd : (f n).head? = some '.' ↔ n.head? = some '.' := by
      have := hf.locality n hn
      rw [← isDotted_eq, ← isDotted_eq] at this
      simp only [isDotted] at this
      rw [← beq_iff_eq, this, beq_iff_eq]
    by_cases h : n.head? = some '.'
    · rw [if_pos h, if_pos (hd.mpr h)]
      exact renNames_lookup hf hn hlow
    · rw [if_neg h, if_neg fun h' => h (hd.mp h')]
      exact renNames_lookup hf hn h1

theorem RenRes.writeByte (out : List UInt8) (pos : Nat) (b : UInt8) : RenRes f Eq (writeByte out pos b) (writeByte out pos b) := by
  unfold Verif.writeByte
  split
  · exact rfl
  · exact trivial

theorem RenRes.writeBytes : ∀ (bs out : List UInt8) (pos : Nat), RenRes f Eq (writeBytes out pos bs) (writeBytes out pos bs)
  | [], _, _ => rfl
  | b :: bs, out, pos => by
    simp only [Verif.writeBytes]
    refine (RenRes.writeByte out pos b).bind fun a c h => ?_
    subst h
    exact RenRes.writeBytes bs _ _

theorem RenRes.byteValues (hf : Renaming f) {env env' : Env} (he : RenEnv f env env') (m : Mode) : ∀ (vs : List ByteValue) out pos,
    RenRes f Eq (writeByteValues m env out pos vs) (writeByteValues m env' out pos (vs.map (renameItem f)))
  | [], _, _ => rfl
  | .expr e :: vs, out, pos => by
    simp only [writeByteValues, List.map_cons, renameItem]
    refine (RenRes.eval hf he m e).bind fun a b h => ?_
    subst h
    split
    · exact rfl
    · refine (RenRes.writeByte out pos _).bind fun a c h => ?_
      subst h
      exact RenRes.byteValues hf he m vs _ _
  | .str bs :: vs, out, pos => by
    simp only [writeByteValues, List.map_cons, renameItem]
    refine (RenRes.writeBytes bs out pos).bind fun a c h => ?_
    subst h
    exact RenRes.byteValues hf he m vs _ _

theorem RenRes.words (hf : Renaming f) {env env' : Env} (he : RenEnv f env env') (m : Mode) : ∀ (es : List Expr) out pos,
    RenRes f Eq (writeWords m env out pos es) (writeWords m env' out pos (es.map (renameExpr f)))
  | [], _, _ => rfl
  | e :: es, out, pos => by
    simp only [writeWords, List.map_cons]
    refine (RenRes.eval hf he m e).bind fun a b h => ?_
    subst h
    split
    · exact rfl
    · refine (RenRes.writeByte out pos _).bind fun a c h => ?_
      subst h
      refine (RenRes.writeByte _ _ _).bind fun a c h => ?_
      subst h
      exact RenRes.words hf he m es _ _

/-- The states of the last pass -/
structure RenGen (f : Text → Text) (s s' : GenState) : Prop where
  eq : s' = ⟨s.pos, f s.currentGlobal, s.out⟩
  current : lower s.currentGlobal = s.currentGlobal

theorem RenRes.padded {s : GenState} (hg : lower s.currentGlobal = s.currentGlobal) (size : Nat) (bs : List UInt8) (pad : UInt8) :
    RenRes f (RenGen f) (writePadded s size bs pad) (writePadded ⟨s.pos, f s.currentGlobal, s.out⟩ size bs pad) := by
  unfold writePadded
  split
  · exact rfl
  · refine (RenRes.writeBytes bs s.out s.pos).bind fun a b h => ?_
    subst h
    refine (RenRes.writeBytes _ _ _).bind fun a b h => ?_
    subst h
    exact ⟨rfl, hg⟩

theorem RenRes.addUsize (m : Mode) (p : Nat) (d : Int) : RenRes f Eq (addUsize m p d) (addUsize m p d) := by
  unfold Verif.addUsize
  dsimp only
  split
  · exact rfl
  · cases m
    · exact trivial
    · exact rfl

/-- A global label is in lower case. -/
def LowLabel (x : Stmt) : Prop := ∀ n, x = .label n → dotted n = false → lower n = n

theorem RenRes.genStep (hf : Renaming f) (m : Mode) {names names' : Names} (hN : RenTables f names names') {s s' : GenState} {x x' : Stmt}
    (hP : LowLabel x) (hs : RenGen f s s') (hx : Renamed f x x') :
    RenRes f (RenGen f) (genStep m names s x) (genStep m names' s' x') := by
  obtain ⟨rfl, h1⟩ := hs
  cases x with
  | dir d =>
    cases hx with
    | byte =>
      simp only [Verif.genStep]
      refine (RenRes.asEnv hf hN h1).bind fun env env' he => (RenRes.byteValues hf he m _ _ _).bind fun a b h => ?_
      subst h
      exact ⟨rfl, h1⟩
    | word =>
      simp only [Verif.genStep]
      refine (RenRes.asEnv hf hN h1).bind fun env env' he => (RenRes.words hf he m _ _ _).bind fun a b h => ?_
      subst h
      exact ⟨rfl, h1⟩
    | org =>
      simp only [Verif.genStep]
      split
      · exact rfl
      · exact ⟨rfl, h1⟩
    | text => exact RenRes.padded h1 _ _ _
    | string => exact RenRes.padded h1 _ _ _
    | cnop =>
      simp only [Verif.genStep]
      refine (RenRes.size .cnop m _).bind fun a b h => ?_
      subst h
      refine (RenRes.addUsize m _ _).bind fun a b h => ?_
      subst h
      exact ⟨rfl, h1⟩
  | label n =>
    cases hx
    simp only [Verif.genStep, isDotted_ren hf]
    split
    · exact ⟨rfl, h1⟩
    · rename_i h
      have : lower n = n := hP n rfl (by rw [← isDotted_eq]; simpa using h)
      exact ⟨by rw [this], this⟩
  | instr i =>
    cases hx with
    | instr h h' =>
      simp only [Verif.genStep, instr_size_eq h, Instr.eval]
      refine (RenRes.addUsize m _ _).bind fun a b e => ?_
      subst e
      refine RenRes.bind (R := fun j j' => j'.encode = j.encode)
        ((RenRes.asEnv hf hN h1).bind fun env env' he => RenRes.evalIn hf he m _ h h') fun j j' e => ?_
      rw [e]
      refine (RenRes.writeBytes _ _ _).bind fun a b h => ?_
      subst h
      exact ⟨rfl, h1⟩
  | «variable» n e => cases hx; exact ⟨rfl, h1⟩
  | alias n e => cases hx; exact ⟨rfl, h1⟩
  | comment t => cases hx; exact ⟨rfl, h1⟩
  | macroCall n a => cases hx

/-- The renamed program is assembled to the same bytes, or refused for the same reason. -/
theorem RenRes.assemble (hf : Renaming f) (m : Mode) {p p' : List Stmt} (hp : RenamedProgram f p p') (hl : ∀ x ∈ p, LowLabel x) :
    RenRes f Eq (assemble m p) (assemble m p') := by
  unfold Verif.assemble
  refine (RenRes.computeNames hf m hp).bind fun a b h => ?_
  obtain ⟨a1, a2⟩ := a
  obtain ⟨b1, b2⟩ := b
  obtain ⟨rfl, hN⟩ := h
  dsimp only
  split
  · exact trivial
  · refine (RenRes.runSteps (P := LowLabel) (fun _ _ _ _ hP hs hx => RenRes.genStep hf m hN hP hs hx) hp hl
      (s := ⟨0, [], _⟩) (s' := ⟨0, [], _⟩) ⟨by rw [hf.empty], rfl⟩).bind fun c d h => ?_
    obtain ⟨rfl, _⟩ := h
    exact rfl

/-- Two names exchanged -/
def exchange (a b n : Text) : Text := if n = a then b else if n = b then a else n

theorem exchange_involutive (a b n : Text) : exchange a b (exchange a b n) = n := by
  unfold exchange
  split
  · split <;> simp_all
  · split <;> simp_all

theorem renaming_exchange {a b : Text} (ha : lower a = a) (hb : lower b = b) (ha0 : a ≠ []) (hb0 : b ≠ []) (hd : dotted b = dotted a) :
    Renaming (exchange a b) where
  low n hn := by unfold exchange; split <;> (try split) <;> assumption
  distinct n n' _ _ h := by rw [← exchange_involutive a b n, h, exchange_involutive]
  locality n _ := by unfold exchange; split <;> (try split) <;> simp_all
  empty := by unfold exchange; rw [if_neg ha0.symm, if_neg hb0.symm]

theorem renameExpr_congr {g : Text → Text} {e : Expr} (h : ∀ n ∈ namesIn e, f (lower n) = g (lower n)) : renameExpr f e = renameExpr g e := by
  induction e with
  | name n => simp only [renameExpr, h n List.mem_cons_self]
  | macroLabel n => rfl
  | macroArg n => rfl
  | number v r => rfl
  | uminus e ih => simp only [renameExpr, ih h]
  | upperByte e ih => simp only [renameExpr, ih h]
  | lowerByte e ih => simp only [renameExpr, ih h]
  | _ l r ihl ihr =>
    simp only [renameExpr, ihl fun n hn => h n (List.mem_append_left _ hn), ihr fun n hn => h n (List.mem_append_right _ hn)]

theorem renamed_congr {g : Text → Text} {s s' : Stmt} (hs : Renamed f s s') (h : ∀ n ∈ namesOf s, f n = g n) : Renamed g s s' := by
  cases hs with
  | label => rw [h _ List.mem_cons_self]; exact .label
  | @instr i i' hi ho =>
    refine .instr hi ?_
    rw [ho]
    apply List.map_congr_left
    intro o ho
    cases o with
    | inr r => rfl
    | inl e =>
      simp only [renameOperand]
      rw [renameExpr_congr fun n hn => h _ ?_]
      simp only [namesOf, exprsOf, List.mem_flatMap, List.mem_filterMap]
      exact ⟨e, ⟨.inl e, ho, rfl⟩, List.mem_map_of_mem hn⟩
  | @byte vs =>
    have : vs.map (renameItem f) = vs.map (renameItem g) := by
      apply List.map_congr_left
      intro v hv
      cases v with
      | str bs => rfl
      | expr e =>
        simp only [renameItem]
        rw [renameExpr_congr fun n hn => h _ ?_]
        simp only [namesOf, exprsOf, List.mem_flatMap, List.mem_filterMap]
        exact ⟨e, ⟨.expr e, hv, rfl⟩, List.mem_map_of_mem hn⟩
    rw [this]
    exact .byte
  | @word es =>
    have : es.map (renameExpr f) = es.map (renameExpr g) := by
      apply List.map_congr_left
      intro e he
      refine renameExpr_congr fun n hn => h _ ?_
      simp only [namesOf, exprsOf, List.mem_flatMap]
      exact ⟨e, he, List.mem_map_of_mem hn⟩
    rw [this]
    exact .word
  | org => exact .org
  | text => exact .text
  | string => exact .string
  | @cnop a k =>
    rw [renameExpr_congr (g := g) (e := a) fun n hn => h _ (List.mem_map_of_mem (List.mem_append_left _ hn)),
      renameExpr_congr (g := g) (e := k) fun n hn => h _ (List.mem_map_of_mem (List.mem_append_right _ hn))]
    exact .cnop
  | @«variable» n e =>
    rw [h _ List.mem_cons_self, renameExpr_congr (g := g) fun n hn => h _ (List.mem_cons_of_mem _ (List.mem_map_of_mem hn))]
    exact .variable
  | @alias n e =>
    rw [h _ List.mem_cons_self, renameExpr_congr (g := g) fun n hn => h _ (List.mem_cons_of_mem _ (List.mem_map_of_mem hn))]
    exact .alias
  | comment => exact .comment

theorem renamedProgram_congr {g : Text → Text} {p p' : List Stmt} (hp : RenamedProgram f p p') (h : ∀ s ∈ p, ∀ n ∈ namesOf s, f n = g n) :
    RenamedProgram g p p' := by
  induction hp with
  | nil => exact .nil
  | cons hs _ ih =>
    exact .cons (renamed_congr hs (h _ List.mem_cons_self)) (ih fun s hs => h s (List.mem_cons_of_mem _ hs))

theorem insteadOf_exchange {a b n : Text} (hn : n ≠ b) : insteadOf a b n = exchange a b n := by
  unfold insteadOf exchange
  split
  · rfl
  · simp [hn]

end Verif
