import Verif.Lemmas.ExpandMore
namespace Verif
open Spec Derive

/-- The errors that report a parameter or hygienic label outside a macro. -/
def isMacroErr : Err → Bool
  | .macroLabelOutsideOfMacro _ => true
  | .macroArgOutsideOfMacro _ => true
  | _ => false

/-- The outcome is not such an error. -/
def NoMac {α : Type} (r : Res α) : Prop := ∀ e, isMacroErr e = true → r ≠ .err e

theorem NoMac.bind {α β : Type} {x : Res α} {f : α → Res β} (h : NoMac x) (hf : ∀ a, NoMac (f a)) :
    NoMac (x >>= f) := by
  intro n he hn
  rcases Res.bind_eq_err.mp hn with h' | ⟨a, _, h'⟩
  · exact h n he h'
  · exact hf a n he h'

theorem NoMac.ok {α : Type} (a : α) : NoMac (Res.ok a) := by intro n _ h; cases h
theorem NoMac.panic {α : Type} : NoMac (Res.panic : Res α) := by intro n _ h; cases h
theorem NoMac.loop {α : Type} : NoMac (Res.loop : Res α) := by intro n _ h; cases h
theorem NoMac.err {α : Type} {e : Err} (he : isMacroErr e = false) : NoMac (Res.err e : Res α) := by
  intro n hn h; cases h; rw [he] at hn; cases hn

theorem NoMac.ite {α : Type} {p : Prop} [Decidable p] {x y : Res α} (hx : NoMac x) (hy : NoMac y) :
    NoMac (if p then x else y) := by
  split
  · exact hx
  · exact hy

theorem NoMac.norm (m : Mode) (v : Int) : NoMac (m.norm v) := by
  unfold Mode.norm
  exact NoMac.ite (NoMac.ok _) (by cases m; exact NoMac.panic; exact NoMac.ok _)

theorem NoMac.eval (m : Mode) (env : Env) : ∀ e : Expr, closed e = true → NoMac (e.eval m env)
  | .bxor l r, h | .band l r, h | .bor l r, h | .plus l r, h | .minus l r, h | .times l r, h => by
    simp only [closed, Bool.and_eq_true] at h
    simp only [Expr.eval]
    refine (NoMac.eval m env l h.1).bind fun a => (NoMac.eval m env r h.2).bind fun b => ?_
    first | exact NoMac.ok _ | exact NoMac.norm _ _
  | .divide l r, h => by
    simp only [closed, Bool.and_eq_true] at h
    simp only [Expr.eval]
    exact (NoMac.eval m env l h.1).bind fun a => (NoMac.eval m env r h.2).bind fun b =>
      NoMac.ite (NoMac.err rfl) (NoMac.ite (NoMac.ok _) NoMac.panic)
  | .uminus e, h => by simp only [Expr.eval]; exact (NoMac.eval m env e h).bind fun a => NoMac.norm _ _
  | .upperByte e, h => by simp only [Expr.eval]; exact (NoMac.eval m env e h).bind fun a => NoMac.ok _
  | .lowerByte e, h => by simp only [Expr.eval]; exact (NoMac.eval m env e h).bind fun a => NoMac.ok _
  | .name n, _ => by
    simp only [Expr.eval]
    split
    · exact NoMac.ok _
    · exact NoMac.err rfl
  | .number v r, _ => by simp only [Expr.eval]; exact NoMac.ok _

theorem NoMac.bits (m : Mode) (env : Env) (b : Nat) {e : Expr} (h : closed e = true) :
    NoMac (evalBits m env b e) := by
  unfold evalBits
  exact (NoMac.eval m env e h).bind fun v => NoMac.ite (NoMac.err rfl) (NoMac.ok _)

theorem NoMac.field (m : Mode) (env : Env) (next : Nat) (k : Kind) (o : Sum Expr IM)
    (h : ∀ e, o = .inl e → closed e = true) : NoMac (evalField m env next k o) := by
  unfold evalField
  split
  · exact NoMac.bits _ _ _ (h _ rfl)
  · exact NoMac.bits _ _ _ (h _ rfl)
  · exact NoMac.bits _ _ _ (h _ rfl)
  · unfold evalRel8
    refine (NoMac.eval m env _ (h _ rfl)).bind fun v => NoMac.ite ?_ (NoMac.err rfl)
    exact (NoMac.norm _ _).bind fun v => NoMac.ite (NoMac.ok _) (NoMac.err rfl)
  · unfold evalAbs12
    exact (NoMac.bits m env _ (h _ rfl)).bind fun v => NoMac.ite (NoMac.err rfl) (NoMac.ok _)
  · exact NoMac.bits _ _ _ (h _ rfl)
  · unfold evalRel16
    refine (NoMac.eval m env _ (h _ rfl)).bind fun v => NoMac.ite ?_ (NoMac.err rfl)
    exact (NoMac.norm _ _).bind fun v => (NoMac.norm _ _).bind fun v => NoMac.ite (NoMac.ok _) (NoMac.err rfl)
  · exact NoMac.ok _
  · exact NoMac.panic

theorem NoMac.fields (m : Mode) (env : Env) (next : Nat) : ∀ (ks : List Kind) (os : List (Sum Expr IM)),
    (∀ e, Sum.inl e ∈ os → closed e = true) → NoMac (evalFields m env next ks os)
  | [], _, _ => by simp only [evalFields]; exact NoMac.ok _
  | _ :: _, [], _ => by simp only [evalFields]; exact NoMac.ok _
  | k :: ks, o :: os, h => by
    simp only [evalFields]
    exact (NoMac.field m env next k o (fun e he => h e (by simp [he]))).bind fun x =>
      (NoMac.fields m env next ks os (fun e he => h e (by simp [he]))).bind fun xs => NoMac.ok _

theorem NoMac.steps {σ : Type} {step : σ → Stmt → Res σ} : ∀ (xs : List Stmt) (s : σ),
    (∀ x ∈ xs, ∀ s, NoMac (step s x)) → NoMac (runSteps step xs s)
  | [], s, _ => NoMac.ok _
  | x :: xs, s, h => by
    simp only [runSteps]
    exact (h x List.mem_cons_self s).bind fun s' => NoMac.steps xs s' (fun y hy => h y (List.mem_cons_of_mem _ hy))

theorem NoMac.addName (n : Text) (v : Int) (l : List (Text × Int)) : NoMac (addName n v l) := by
  unfold Verif.addName
  split
  · exact NoMac.err rfl
  · exact NoMac.ok _

theorem NoMac.cnopLoop (m : Mode) (pos k : Int) : ∀ (f : Nat) (x : Int), NoMac (cnopLoop m pos k f x)
  | 0, _ => NoMac.loop
  | f + 1, x => by
    simp only [Verif.cnopLoop]
    exact NoMac.ite (NoMac.ok _) ((NoMac.norm _ _).bind fun y => NoMac.cnopLoop m pos k f y)

theorem NoMac.cnop (m : Mode) (pos : Int) (a k : Expr) : NoMac (evalCnop m pos a k) := by
  have h : ∀ e, NoMac (evalCnopExpr e) := by
    intro e; unfold evalCnopExpr; split
    · exact NoMac.ok _
    · exact NoMac.err rfl
  unfold evalCnop
  exact (h a).bind fun x => (h k).bind fun y => NoMac.ite (NoMac.ok _)
    ((NoMac.cnopLoop _ _ _ _ _).bind fun z => NoMac.norm _ _)

theorem NoMac.size (m : Mode) (pos : Int) (d : Directive) : NoMac (d.size m pos) := by
  unfold Directive.size
  split
  · exact NoMac.ok _
  · exact NoMac.norm _ _
  · exact NoMac.ok _
  · exact NoMac.ok _
  · exact NoMac.ok _
  · exact NoMac.ok _
  · exact (NoMac.cnop _ _ _ _).bind fun x => NoMac.norm _ _

theorem NoMac.computeLabels (m : Mode) (stmts : List Stmt) : NoMac (computeLabels m stmts) := by
  unfold Verif.computeLabels
  refine (NoMac.steps _ _ fun x _ s => ?_).bind fun s => ?_
  · unfold labelStep
    split
    · exact (NoMac.size _ _ _).bind fun _ => (NoMac.norm _ _).bind fun _ => NoMac.ok _
    · exact NoMac.ite ((NoMac.addName _ _ _).bind fun _ => NoMac.ok _) ((NoMac.addName _ _ _).bind fun _ => NoMac.ok _)
    · exact (NoMac.norm _ _).bind fun _ => NoMac.ok _
    · exact NoMac.ok _
    · exact NoMac.ok _
    · exact NoMac.ok _
    · exact NoMac.panic
  · split <;> exact NoMac.ok _

theorem NoMac.computeNames (m : Mode) (stmts : List Stmt) (h : ∀ x ∈ stmts, stmtClosed x) :
    NoMac (computeNames m stmts) := by
  unfold Verif.computeNames
  refine (NoMac.computeLabels m stmts).bind fun l => (NoMac.steps _ _ fun x hx s => ?_).bind fun s =>
    (NoMac.norm _ _).bind fun _ => NoMac.ok _
  unfold nameStep
  split
  · exact (NoMac.size _ _ _).bind fun _ => (NoMac.norm _ _).bind fun _ => NoMac.ok _
  · exact NoMac.ok _
  · exact (NoMac.norm _ _).bind fun _ => NoMac.ok _
  · exact (NoMac.eval _ _ _ (h _ hx _ (by simp [exprsOf]))).bind fun _ => (NoMac.addName _ _ _).bind fun _ => NoMac.ok _
  · exact (NoMac.eval _ _ _ (h _ hx _ (by simp [exprsOf]))).bind fun _ => (NoMac.addName _ _ _).bind fun _ => NoMac.ok _
  · exact NoMac.ok _
  · exact NoMac.panic

theorem NoMac.writeByte (out : List UInt8) (p : Nat) (b : UInt8) : NoMac (writeByte out p b) := by
  unfold Verif.writeByte
  exact NoMac.ite (NoMac.ok _) NoMac.panic

theorem NoMac.writeBytes : ∀ (bs out : List UInt8) (p : Nat), NoMac (writeBytes out p bs)
  | [], _, _ => NoMac.ok _
  | b :: bs, out, p => by
    simp only [Verif.writeBytes]
    exact (NoMac.writeByte _ _ _).bind fun x => NoMac.writeBytes bs _ _

theorem NoMac.writeByteValues (m : Mode) (env : Env) : ∀ (vs : List ByteValue) (out : List UInt8) (p : Nat),
    (∀ e, ByteValue.expr e ∈ vs → closed e = true) → NoMac (writeByteValues m env out p vs)
  | [], _, _, _ => NoMac.ok _
  | .expr e :: vs, out, p, h => by
    simp only [Verif.writeByteValues]
    exact (NoMac.eval m env e (h e List.mem_cons_self)).bind fun v => NoMac.ite (NoMac.err rfl)
      ((NoMac.writeByte _ _ _).bind fun x =>
        NoMac.writeByteValues m env vs _ _ (fun e he => h e (List.mem_cons_of_mem _ he)))
  | .str s :: vs, out, p, h => by
    simp only [Verif.writeByteValues]
    exact (NoMac.writeBytes _ _ _).bind fun x =>
        NoMac.writeByteValues m env vs _ _ (fun e he => h e (List.mem_cons_of_mem _ he))

theorem NoMac.writeWords (m : Mode) (env : Env) : ∀ (es : List Expr) (out : List UInt8) (p : Nat),
    (∀ e ∈ es, closed e = true) → NoMac (writeWords m env out p es)
  | [], _, _, _ => NoMac.ok _
  | e :: es, out, p, h => by
    simp only [Verif.writeWords]
    exact (NoMac.eval m env e (h e List.mem_cons_self)).bind fun v => NoMac.ite (NoMac.err rfl)
      ((NoMac.writeByte _ _ _).bind fun x => (NoMac.writeByte _ _ _).bind fun y =>
        NoMac.writeWords m env es _ _ (fun e he => h e (List.mem_cons_of_mem _ he)))

theorem NoMac.padded (s : GenState) (n : Nat) (bs : List UInt8) (b : UInt8) : NoMac (writePadded s n bs b) := by
  unfold writePadded
  exact NoMac.ite (NoMac.err rfl) ((NoMac.writeBytes _ _ _).bind fun x => (NoMac.writeBytes _ _ _).bind fun y => NoMac.ok _)

theorem NoMac.asEnv (names : Names) (g : Text) : NoMac (names.asEnv g) := by
  unfold Names.asEnv; split
  · exact NoMac.ok _
  · exact NoMac.panic

theorem NoMac.addUsize (m : Mode) (p : Nat) (d : Int) : NoMac (addUsize m p d) := by
  unfold Verif.addUsize
  exact NoMac.ite (NoMac.ok _) (by cases m; exact NoMac.panic; exact NoMac.ok _)

theorem NoMac.evalIn (m : Mode) (env : Env) (p : Nat) (i : Instr Expr IM) (h : stmtClosed (.instr i)) :
    NoMac (i.evalIn m env p) := by
  intro e he hx
  have h1 := emit_instr m env p i
  rw [hx, Res.err_bind] at h1
  refine ((NoMac.fields m env p (kinds i.form) (operands i) fun e he => ?_).bind fun xs => NoMac.ok _) e he h1.symm
  exact h e (by simp only [exprsOf, List.mem_filterMap]; exact ⟨_, he, rfl⟩)

theorem NoMac.assemble (m : Mode) (stmts : List Stmt) (h : ∀ x ∈ stmts, stmtClosed x) : NoMac (assemble m stmts) := by
  unfold Verif.assemble
  refine (NoMac.computeNames m stmts h).bind fun x => NoMac.ite NoMac.panic
    ((NoMac.steps _ _ fun x hx s => ?_).bind fun s => NoMac.ok _)
  have hc := h x hx
  unfold genStep
  split
  · rename_i vs
    refine (NoMac.asEnv _ _).bind fun env => (NoMac.writeByteValues _ _ _ _ _ fun e he => ?_).bind fun x => NoMac.ok _
    exact hc e (by simp only [exprsOf, List.mem_filterMap]; exact ⟨_, he, rfl⟩)
  · exact NoMac.padded _ _ _ _
  · exact NoMac.padded _ _ _ _
  · exact NoMac.ite (NoMac.err rfl) (NoMac.ok _)
  · exact (NoMac.asEnv _ _).bind fun env => (NoMac.writeWords _ _ _ _ _ fun e he => hc e he).bind fun x => NoMac.ok _
  · exact NoMac.panic
  · exact (NoMac.size _ _ _).bind fun _ => (NoMac.addUsize _ _ _).bind fun _ => NoMac.ok _
  · exact NoMac.ite (NoMac.ok _) (NoMac.ok _)
  · refine (NoMac.addUsize _ _ _).bind fun p => ?_
    unfold Instr.eval
    refine NoMac.bind ((NoMac.asEnv _ _).bind fun env => NoMac.evalIn _ _ _ _ hc) fun j => ?_
    exact (NoMac.writeBytes _ _ _).bind fun _ => NoMac.ok _
  · exact NoMac.ok _
  · exact NoMac.ok _
  · exact NoMac.ok _
  · exact NoMac.panic

end Verif
