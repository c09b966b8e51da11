import Verif.Model.Located.Read
/-
Forgetting the spans of the located model gives the plain model.
-/
namespace Verif.Located

namespace Res

@[simp] theorem pure_eq {α : Type} (a : α) : (pure a : Res α) = ok a := rfl
@[simp] theorem ok_bind {α β : Type} (a : α) (f : α → Res β) : (ok a >>= f) = f a := rfl
@[simp] theorem err_bind {α β : Type} (e : Error) (f : α → Res β) : ((err e : Res α) >>= f) = err e := rfl
@[simp] theorem panic_bind {α β : Type} (f : α → Res β) : ((panic : Res α) >>= f) = panic := rfl
@[simp] theorem loop_bind {α β : Type} (f : α → Res β) : ((loop : Res α) >>= f) = loop := rfl

theorem bind_eq_ok {α β : Type} {x : Res α} {f : α → Res β} {b : β} :
    (x >>= f) = ok b ↔ ∃ a, x = ok a ∧ f a = ok b := by
  cases x <;> simp

theorem bind_eq_err {α β : Type} {x : Res α} {f : α → Res β} {e : Error} :
    (x >>= f) = err e ↔ x = err e ∨ ∃ a, x = ok a ∧ f a = err e := by
  cases x <;> simp

theorem erase_bind {α β α' β' : Type} {g : β → β'} {h : α → α'} {x : Res α} {y : Verif.Res α'} {f : α → Res β}
    {k : α' → Verif.Res β'} (hx : x.erase h = y) (hf : ∀ a, (f a).erase g = k (h a)) :
    (x >>= f).erase g = y >>= k := by
  subst hx
  cases x with
  | ok a => exact hf a
  | _ => rfl

@[simp] theorem erase_lift {α β : Type} (f : α → β) (x : Verif.Res α) :
    (lift x).erase f = x >>= fun a => .ok (f a) := by cases x <;> rfl

theorem erase_lift_id {α : Type} (x : Verif.Res α) : (lift x).erase (fun a => a) = x := by cases x <;> rfl

@[simp] theorem erase_ok {α β : Type} (f : α → β) (a : α) : (ok a : Res α).erase f = .ok (f a) := rfl
@[simp] theorem erase_fail {α β : Type} (f : α → β) (e : Err) (s : Span) : (fail e s : Res α).erase f = .err e := rfl
@[simp] theorem erase_err {α β : Type} (f : α → β) (e : Error) : (err e : Res α).erase f = .err e.err := rfl
@[simp] theorem erase_panic {α β : Type} (f : α → β) : (panic : Res α).erase f = .panic := rfl
@[simp] theorem erase_loop {α β : Type} (f : α → β) : (loop : Res α).erase f = .loop := rfl

theorem lift_err {α : Type} {x : Verif.Res α} {e : Error} : lift x = err e ↔ x = .err e.err ∧ e.place = .nowhere := by
  cases x with
  | err e' =>
    cases e with | mk a p =>
    simp only [lift, err.injEq, Error.mk.injEq, Verif.Res.err.injEq]
    constructor
    · rintro ⟨rfl, rfl⟩; exact ⟨rfl, rfl⟩
    · rintro ⟨rfl, rfl⟩; exact ⟨rfl, rfl⟩
  | _ => simp [lift]

theorem lift_ok {α : Type} {x : Verif.Res α} {a : α} : lift x = ok a ↔ x = .ok a := by cases x <;> simp [lift]

end Res

/-! ### Expressions -/

@[simp] theorem Expr.erase_withSpan (s : Span) (e : Expr) : (e.withSpan s).erase = e.erase := by cases e <;> rfl

@[simp] theorem Expr.erase_plain (e : Verif.Expr) : (Expr.plain e).erase = e := by
  induction e <;> simp_all [Expr.plain, Expr.erase]

theorem Expr.erase_eval (m : Mode) (env : Env) (e : Expr) : (e.eval m env).erase (fun a => a) = e.erase.eval m env := by
  induction e with
  | name s n =>
    simp only [Expr.eval, Expr.erase, Verif.Expr.eval]
    cases env (lower n) <;> rfl
  | plus s l r ihl ihr => exact Res.erase_bind ihl fun a => Res.erase_bind ihr fun b => Res.erase_lift_id _
  | minus s l r ihl ihr => exact Res.erase_bind ihl fun a => Res.erase_bind ihr fun b => Res.erase_lift_id _
  | times s l r ihl ihr => exact Res.erase_bind ihl fun a => Res.erase_bind ihr fun b => Res.erase_lift_id _
  | uminus s e ih => exact Res.erase_bind ih fun a => Res.erase_lift_id _
  | divide s l r ihl ihr =>
    refine Res.erase_bind ihl fun a => Res.erase_bind ihr fun b => ?_
    by_cases hb : b = 0
    · simp [hb]
    · simp only [hb, if_false]
      by_cases hi : inI32 (a.tdiv b) <;> simp [hi]
  | bxor s l r ihl ihr => exact Res.erase_bind ihl fun a => Res.erase_bind ihr fun b => rfl
  | band s l r ihl ihr => exact Res.erase_bind ihl fun a => Res.erase_bind ihr fun b => rfl
  | bor s l r ihl ihr => exact Res.erase_bind ihl fun a => Res.erase_bind ihr fun b => rfl
  | number s v radix => rfl
  | upperByte s e ih => exact Res.erase_bind ih fun a => rfl
  | lowerByte s e ih => exact Res.erase_bind ih fun a => rfl
  | macroLabel s n => rfl
  | macroArg s n => rfl

/-- An argument map without spans -/
def eraseArgs (args : List (Text × Arg)) : List (Text × Verif.Arg) := args.map fun x => (x.1, x.2.erase)

theorem lookup_map_snd {κ α β : Type} [BEq κ] (f : α → β) (l : List (κ × α)) (k : κ) :
    (l.map fun x => (x.1, f x.2)).lookup k = (l.lookup k).map f := by
  induction l with
  | nil => rfl
  | cons x xs ih =>
    obtain ⟨a, b⟩ := x
    simp only [List.map_cons, List.lookup_cons]
    cases h : k == a
    · exact ih
    · rfl

theorem eraseArgs_lookup (args : List (Text × Arg)) (n : Text) :
    (eraseArgs args).lookup n = (args.lookup n).map Arg.erase := lookup_map_snd _ _ _

theorem Expr.erase_replaceWith {onArg : Expr → Res Expr} {onArg' : Verif.Expr → Verif.Res Verif.Expr}
    (ho : ∀ e, (onArg e).erase Expr.erase = onArg' e.erase) (inv : Span) (labels : List (Text × Text))
    (args : List (Text × Arg)) (e : Expr) :
    (e.replaceWith onArg inv labels args).erase Expr.erase = e.erase.replaceWith onArg' labels (eraseArgs args) := by
  induction e with
  | name s n => rfl
  | plus s l r ihl ihr => exact Res.erase_bind ihl fun a => Res.erase_bind ihr fun b => rfl
  | minus s l r ihl ihr => exact Res.erase_bind ihl fun a => Res.erase_bind ihr fun b => rfl
  | times s l r ihl ihr => exact Res.erase_bind ihl fun a => Res.erase_bind ihr fun b => rfl
  | uminus s e ih => exact Res.erase_bind ih fun a => rfl
  | divide s l r ihl ihr => exact Res.erase_bind ihl fun a => Res.erase_bind ihr fun b => rfl
  | bxor s l r ihl ihr => exact Res.erase_bind ihl fun a => Res.erase_bind ihr fun b => rfl
  | band s l r ihl ihr => exact Res.erase_bind ihl fun a => Res.erase_bind ihr fun b => rfl
  | bor s l r ihl ihr => exact Res.erase_bind ihl fun a => Res.erase_bind ihr fun b => rfl
  | number s v radix => rfl
  | upperByte s e ih => exact Res.erase_bind ih fun a => rfl
  | lowerByte s e ih => exact Res.erase_bind ih fun a => rfl
  | macroLabel s n =>
    simp only [Expr.replaceWith, Expr.erase, Verif.Expr.replaceWith]
    cases labels.lookup n <;> rfl
  | macroArg s n =>
    simp only [Expr.replaceWith, Expr.erase, Verif.Expr.replaceWith, eraseArgs_lookup]
    cases args.lookup n with
    | none => rfl
    | some a =>
      cases a with
      | ex e =>
        show ((onArg e >>= fun x => Res.ok (x.withSpan (e.span.withParent inv)) : Res Expr)).erase Expr.erase = onArg' e.erase
        have := Res.erase_bind (g := Expr.erase) (f := fun x => Res.ok (x.withSpan (e.span.withParent inv)))
          (k := fun x => Verif.Res.ok x) (ho e) (fun a => by simp)
        rw [this]
        cases onArg' e.erase <;> rfl
      | _ => rfl

theorem Expr.erase_replaceMacroArgs (fuel : Nat) (inv : Span) (labels : List (Text × Text)) (args : List (Text × Arg))
    (e : Expr) : (e.replaceMacroArgs fuel inv labels args).erase Expr.erase =
      e.erase.replaceMacroArgs fuel labels (eraseArgs args) := by
  induction fuel generalizing e with
  | zero => exact Expr.erase_replaceWith (fun _ => rfl) _ _ _ _
  | succ n ih => exact Expr.erase_replaceWith ih _ _ _ _

/-! ### Directives and instructions -/

theorem erase_evalCnopExpr (e : Expr) : (evalCnopExpr e).erase (fun a => a) = Verif.evalCnopExpr e.erase := by
  cases e <;> rfl

theorem erase_evalCnop (m : Mode) (pos : Int) (a k : Expr) :
    (evalCnop m pos a k).erase (fun a => a) = Verif.evalCnop m pos a.erase k.erase := by
  refine Res.erase_bind (erase_evalCnopExpr a) fun a => Res.erase_bind (erase_evalCnopExpr k) fun k => ?_
  by_cases hk : k = 0
  · simp [hk]
  · simp only [hk, if_false]
    exact Res.erase_bind (Res.erase_lift_id _) fun _ => Res.erase_lift_id _

theorem Directive.erase_size (m : Mode) (pos : Int) (d : Directive) :
    (d.size m pos).erase (fun a => a) = d.erase.size m pos := by
  cases d with
  | org s l => exact Res.erase_lift_id (m.norm (wrap32 l - pos))
  | cnop s a k => exact Res.erase_bind (erase_evalCnop m pos a k) fun v => Res.erase_lift_id (m.norm (v - pos))
  | word s es => simp [Directive.size, Directive.erase, Verif.Directive.size]
  | _ => rfl

@[simp] theorem eraseInstr_size (i : Instr Expr IM) : (eraseInstr i).size = i.size := by
  unfold Instr.size; congr 2; cases i <;> rfl

@[simp] theorem mapInstr_plain (i : Instr Verif.Expr IM) : eraseInstr (mapInstr Expr.plain i) = i := by
  cases i <;> simp [eraseInstr, mapInstr]

theorem erase_evalBits (m : Mode) (env : Env) (bits : Nat) (e : Expr) :
    (evalBits m env bits e).erase (fun a => a) = Verif.evalBits m env bits e.erase := by
  refine Res.erase_bind (Expr.erase_eval m env e) fun v => ?_
  by_cases h : v >>> bits = 0 <;> simp [h]

theorem erase_evalRel8 (m : Mode) (env : Env) (pos : Nat) (e : Expr) :
    (evalRel8 m env pos e).erase (fun a => a) = Verif.evalRel8 m env pos e.erase := by
  refine Res.erase_bind (Expr.erase_eval m env e) fun a => ?_
  by_cases h : 0 ≤ a ∧ a ≤ 65535
  · simp only [h, and_self, if_true]
    refine Res.erase_bind (Res.erase_lift_id _) fun v => ?_
    by_cases h2 : -128 ≤ v ∧ v ≤ 127
    · simp only [h2, and_self, if_true]; rfl
    · simp only [h2, if_false]; rfl
  · simp only [h, if_false]; rfl

theorem erase_evalRel16 (m : Mode) (env : Env) (pos : Nat) (e : Expr) :
    (evalRel16 m env pos e).erase (fun a => a) = Verif.evalRel16 m env pos e.erase := by
  refine Res.erase_bind (Expr.erase_eval m env e) fun a => ?_
  by_cases h : 0 ≤ a ∧ a ≤ 65535
  · simp only [h, and_self, if_true]
    refine Res.erase_bind (Res.erase_lift_id _) fun d => Res.erase_bind (Res.erase_lift_id _) fun v => ?_
    by_cases h2 : -32768 ≤ v ∧ v ≤ 32767
    · simp only [h2, and_self, if_true]; rfl
    · simp only [h2, if_false]; rfl
  · simp only [h, if_false]; rfl

theorem erase_evalAbs12 (m : Mode) (env : Env) (pos : Nat) (e : Expr) :
    (evalAbs12 m env pos e).erase (fun a => a) = Verif.evalAbs12 m env pos e.erase := by
  refine Res.erase_bind (erase_evalBits m env 16 e) fun a => ?_
  dsimp only
  by_cases h : a.toNat &&& 0xF000 = pos &&& 0xF000
  · simp [h]
  · simp [h]

theorem erase_evalInstrIn (m : Mode) (env : Env) (pos : Nat) (i : Instr Expr IM) :
    (evalInstrIn m env pos i).erase (fun a => a) = (eraseInstr i).evalIn m env pos := by
  have b := erase_evalBits m env
  have r8 := erase_evalRel8 m env pos
  have r16 := erase_evalRel16 m env pos
  have a12 := erase_evalAbs12 m env pos
  cases i <;> first
    | rfl
    | exact Res.erase_bind (b _ _) fun _ => rfl
    | exact Res.erase_bind (r8 _) fun _ => rfl
    | exact Res.erase_bind (r16 _) fun _ => rfl
    | exact Res.erase_bind (a12 _) fun _ => rfl
    | exact Res.erase_bind (b _ _) fun _ => Res.erase_bind (b _ _) fun _ => rfl
    | exact Res.erase_bind (b _ _) fun _ => Res.erase_bind (r8 _) fun _ => rfl
    | exact Res.erase_bind (b _ _) fun _ => Res.erase_bind (b _ _) fun _ => Res.erase_bind (r8 _) fun _ => rfl

theorem erase_evalInstr (m : Mode) (names : Names) (label : Text) (pos : Nat) (i : Instr Expr IM) :
    (evalInstr m names label pos i).erase (fun a => a) = (eraseInstr i).eval m names label pos :=
  Res.erase_bind (Res.erase_lift_id _) fun env => erase_evalInstrIn m env pos i

end Verif.Located
