import Verif.Lemmas.Located.PlacesAsm
import Verif.Lemmas.Located.Erase
import Verif.Lemmas.InstrEval
import Verif.Lemmas.Located.EvalCases
/-
The expressions that errors are in.
-/
namespace Verif.Located
open Verif.Spec Verif.Spec.Places

variable {m : Mode} {env : Env}

theorem eval_erased {e : Expr} {v : Int} (h : e.eval m env = .ok v) : e.erase.eval m env = .ok v := by
  rw [← Expr.erase_eval, h]; rfl

theorem eval_of_erased {e : Expr} {v : Int} (h : e.erase.eval m env = .ok v) : e.eval m env = .ok v := by
  rw [← Expr.erase_eval] at h
  cases he : e.eval m env with
  | ok w => rw [he] at h; exact congrArg Res.ok (Verif.Res.ok.inj h)
  | err _ => rw [he] at h; cases h
  | panic => rw [he] at h; cases h
  | loop => rw [he] at h; cases h

theorem All_imp {α : Type} {E E' : Err → Place → Prop} {P : α → Prop} {r : Res α} (h : r.All E P) (k : ∀ x p, E x p → E' x p) :
    r.All E' P := by
  cases r with
  | err e => exact k _ _ h
  | ok a => exact h
  | panic => trivial
  | loop => trivial

theorem eval_fault (e : Expr) : (e.eval m env).All (Fault m env e) fun _ => True := by
  have two : ∀ {l r e₁ : Expr} {f : Int → Int → Res Int}, pair e₁ = some (l, r) →
      (l.eval m env).All (Fault m env l) (fun _ => True) →
      (r.eval m env).All (Fault m env r) (fun _ => True) →
      (∀ a b, l.eval m env = .ok a → r.eval m env = .ok b → (f a b).All (Fault m env e₁) fun _ => True) →
      (do let a ← l.eval m env; let b ← r.eval m env; f a b).All (Fault m env e₁) fun _ => True := by
    intro l r e₁ f hp hl hr hf
    refine .bind ((All_imp hl fun _ _ => .left hp).and fun a ha => ha) fun a ha => ?_
    exact .bind ((All_imp hr fun _ _ => .right hp (eval_erased ha.2)).and fun b hb => hb) fun b hb => hf a b ha.2 hb.2
  induction e with
  | bxor s l r ih1 ih2 => exact two rfl ih1 ih2 fun _ _ _ _ => trivial
  | band s l r ih1 ih2 => exact two rfl ih1 ih2 fun _ _ _ _ => trivial
  | bor s l r ih1 ih2 => exact two rfl ih1 ih2 fun _ _ _ _ => trivial
  | plus s l r ih1 ih2 => exact two rfl ih1 ih2 fun _ _ _ _ => norm_all
  | minus s l r ih1 ih2 => exact two rfl ih1 ih2 fun _ _ _ _ => norm_all
  | times s l r ih1 ih2 => exact two rfl ih1 ih2 fun _ _ _ _ => norm_all
  | divide s l r ih1 ih2 =>
    refine two rfl ih1 ih2 fun a b ha hb => .ite (fun h => ?_) fun _ => ?_
    · subst h
      exact .zero (eval_erased ha) (eval_erased hb)
    · exact .ite (fun _ => trivial) fun _ => trivial
  | uminus s e ih => exact .bind (All_imp ih fun _ _ => .under rfl) fun _ _ => norm_all
  | upperByte s e ih => exact .bind (All_imp ih fun _ _ => .under rfl) fun _ _ => trivial
  | lowerByte s e ih => exact .bind (All_imp ih fun _ _ => .under rfl) fun _ _ => trivial
  | name s n =>
    unfold Expr.eval
    split
    next => trivial
    next h => exact .name h
  | number => trivial
  | macroLabel => exact .macroLabel
  | macroArg => exact .macroArg

theorem fault_eval {e : Expr} {x : Err} {p : Place} (h : Fault m env e x p) : e.eval m env = .err ⟨x, p⟩ := by
  induction h with
  | @name s n h => unfold Expr.eval; rw [h]; rfl
  | zero hl hr =>
    unfold Expr.eval
    rw [eval_of_erased hl, Res.ok_bind, eval_of_erased hr, Res.ok_bind, if_pos rfl]
    rfl
  | macroLabel => rfl
  | macroArg => rfl
  | @left e l r x p hp _ ih =>
    cases e <;> first | cases hp | skip
    all_goals (unfold Expr.eval; rw [ih]; rfl)
  | @right e l r a x p hp hl _ ih =>
    cases e <;> first | cases hp | skip
    all_goals (unfold Expr.eval; rw [eval_of_erased hl, Res.ok_bind, ih]; rfl)
  | @under e e' x p hp _ ih =>
    cases e <;> first | cases hp | skip
    all_goals (unfold Expr.eval; rw [ih]; rfl)

theorem eval_err_iff {e : Expr} {x : Err} {p : Place} : e.eval m env = .err ⟨x, p⟩ ↔ Fault m env e x p := by
  refine ⟨fun h => ?_, fault_eval⟩
  have := eval_fault (m := m) (env := env) e
  rw [h] at this
  exact this

theorem eval_inExpr {unfit : Int → Err → Prop} (e : Expr) :
    (e.eval m env).All (InExpr m env unfit e) fun v => e.erase.eval m env = .ok v :=
  ((All_imp (eval_fault e) fun _ _ => .inl).and fun _ h => eval_erased h).imp fun _ h => h.2

theorem norm_small {x : Int} (h : -2147483648 ≤ x ∧ x ≤ 2147483647) : m.norm x = .ok x := by
  exact m.norm_of_inI32 h

theorem wrap_small {pos : Nat} (h : pos < 2147483648) : wrap32 pos = pos := by
  unfold wrap32; omega

/-- Nothing is wrong with the operand, or the error says what. -/
theorem evalBits_field {pos : Nat} {k : Kind} {bits : Nat} (e : Expr)
    (hu : ∀ v, ¬ (0 ≤ v ∧ v < 2 ^ bits) → Unfit pos k v (.numOutOfRange bits v))
    (hf : ∀ v, 0 ≤ v ∧ v < 2 ^ bits → k.field pos v ≠ none) :
    (evalBits m env bits e).All (InExpr m env (Unfit pos k) e) fun _ => Encodable m env pos k (.inl e) := by
  refine .bind (eval_inExpr e) fun v hv => .ite (fun h => ?_) fun h => ?_
  · exact .inr ⟨v, hv, hu v (fun hc => h ((shiftRight_eq_zero bits).mpr hc)), rfl⟩
  · exact ⟨v, hv, hf v ((shiftRight_eq_zero bits).mp (Decidable.not_not.mp h))⟩

theorem evalRel8_field {pos : Nat} (hp : pos < 2147483648) (e : Expr) :
    (evalRel8 m env pos e).All (InExpr m env (Unfit pos .r8) e) fun _ => Encodable m env pos .r8 (.inl e) := by
  refine .bind (eval_inExpr e) fun v hv => .ite (fun h => ?_) fun h => ?_
  · rw [wrap_small hp, norm_small (by omega)]
    refine .ite (fun h' => ⟨v, hv, ?_⟩) fun h' => .inr ⟨v, hv, .near (by omega) (by omega) h', rfl⟩
    simp only [Kind.field]
    rw [if_pos (by omega)]
    simp
  · exact .inr ⟨v, hv, .r8 (by omega), rfl⟩

theorem evalRel16_field {pos : Nat} (hp : pos < 2147483648) (e : Expr) :
    (evalRel16 m env pos e).All (InExpr m env (Unfit pos .r16) e) fun _ => Encodable m env pos .r16 (.inl e) := by
  refine .bind (eval_inExpr e) fun v hv => .ite (fun h => ?_) fun h => ?_
  · rw [wrap_small hp, norm_small (x := v - pos) (by omega)]
    show (Res.lift (m.norm (v - pos + 1)) >>= _).All _ _
    rw [norm_small (by omega), show v - pos + 1 = v - (pos - 1) by omega]
    refine .ite (fun h' => ⟨v, hv, ?_⟩) fun h' => .inr ⟨v, hv, .far (by omega) (by omega) h', rfl⟩
    simp only [Kind.field]
    rw [if_pos (by omega)]
    simp
  · exact .inr ⟨v, hv, .r16 (by omega), rfl⟩

theorem evalAbs12_field {pos : Nat} (e : Expr) :
    (evalAbs12 m env pos e).All (InExpr m env (Unfit pos .a12) e) fun _ => Encodable m env pos .a12 (.inl e) := by
  unfold evalAbs12 evalBits
  refine .bind (P := fun v => e.erase.eval m env = .ok v ∧ 0 ≤ v ∧ v < 65536) ?_ fun v ⟨hv, h0, h1⟩ =>
    .ite (fun h => ?_) fun h => ?_
  · refine .bind (eval_inExpr e) fun v hv => .ite (fun h => ?_) fun h => ?_
    · exact .inr ⟨v, hv, .a12 fun hc => h ((shiftRight_eq_zero 16).mpr hc), rfl⟩
    · exact ⟨hv, (shiftRight_eq_zero 16).mp (Decidable.not_not.mp h)⟩
  · refine .inr ⟨v, hv, .page h0 h1 fun hc => h ?_, rfl⟩
    rw [and_top, and_top]
    omega
  · refine ⟨v, hv, ?_⟩
    rw [and_top, and_top] at h
    simp only [Kind.field]
    rw [if_pos (by omega)]
    simp

theorem evalField_all {pos : Nat} (hp : pos < 2147483648) (k : Kind) : (e : Expr) → k ≠ .ri →
    (evalField m env pos k (.inl e)).All (InExpr m env (Unfit pos k) e) fun _ => Encodable m env pos k (.inl e) := by
  intro e hk
  cases k with
  | i8 => exact evalBits_field e (fun v h => .i8 h) fun v h => by simp only [Kind.field]; rw [if_pos (by omega)]; simp
  | d9 => exact evalBits_field e (fun v h => .d9 h) fun v h => by simp only [Kind.field]; rw [if_pos (by omega)]; simp
  | b3 => exact evalBits_field e (fun v h => .b3 h) fun v h => by simp only [Kind.field]; rw [if_pos (by omega)]; simp
  | a16 => exact evalBits_field e (fun v h => .a16 h) fun v h => by simp only [Kind.field]; rw [if_pos (by omega)]; simp
  | a12 => exact evalAbs12_field e
  | r8 => exact evalRel8_field hp e
  | r16 => exact evalRel16_field hp e
  | ri => exact (hk rfl).elim

/-- The first wrong operand is reported. -/
theorem evalFields_all {pos : Nat} (hp : pos < 2147483648) : ∀ (ks : List Kind) (os : List (Sum Expr IM)),
    (evalFields m env pos ks os).All (InOperands m env pos ks os) fun _ => True
  | [], _ => trivial
  | _ :: _, [] => trivial
  | k :: ks, .inl e :: os => by
    unfold evalFields
    by_cases hk : k = .ri
    · subst hk; trivial
    refine .bind (All_imp (evalField_all hp k e hk) fun _ _ h => .here h) fun _ hf => ?_
    exact .bind (All_imp (evalFields_all hp ks os) fun _ _ h => .later hf h) fun _ _ => trivial
  | k :: ks, .inr r :: os => by
    unfold evalFields
    by_cases hk : k = .ri
    · subst hk
      show (evalFields m env pos ks os >>= fun xs => Res.ok _).All _ _
      exact .bind (All_imp (evalFields_all hp ks os) fun _ _ h => .later trivial h) fun _ _ => trivial
    · cases k <;> first | trivial | exact (hk rfl).elim

theorem evalInstr_fault {pos : Nat} (hp : pos < 2147483648) (i : Instr Expr IM) :
    (evalInstrIn m env pos i).All (InOperands m env pos (kinds i.form) (operands i)) fun _ => True := by
  have h := evalIn_eq m env pos i
  have ha := evalFields_all (m := m) (env := env) hp (kinds i.form) (operands i)
  cases he : evalInstrIn m env pos i with
  | ok _ => trivial
  | panic => trivial
  | loop => trivial
  | err e =>
    rw [he] at h
    cases hf : evalFields m env pos (kinds i.form) (operands i) with
    | ok _ => rw [hf] at h; cases h
    | panic => rw [hf] at h; cases h
    | loop => rw [hf] at h; cases h
    | err e' =>
      rw [hf] at h ha
      cases h
      exact ha

/-- Operand and kind agree on being an indirection mode. -/
def Suits : Kind → Sum Expr IM → Prop
  | .ri, .inr _ => True
  | .ri, .inl _ => False
  | _, .inl _ => True
  | _, .inr _ => False

def SuitAll : List Kind → List (Sum Expr IM) → Prop
  | k :: ks, o :: os => Suits k o ∧ SuitAll ks os
  | _, _ => True

theorem suit_operands (i : Instr Expr IM) : SuitAll (kinds i.form) (operands i) := by
  cases i <;> first | exact trivial | exact ⟨trivial, trivial⟩ | exact ⟨trivial, trivial, trivial⟩ | exact ⟨trivial, trivial, trivial, trivial⟩

theorem evalBits_value {bits : Nat} {e : Expr} {v : Int} (h : e.erase.eval m env = .ok v) : evalBits m env bits e =
    if v >>> bits ≠ 0 then .fail (.numOutOfRange bits v) e.span else .ok v := by
  unfold evalBits
  rw [eval_of_erased h, Res.ok_bind]

theorem evalBits_unfit {bits : Nat} {e : Expr} {v : Int} (h : e.erase.eval m env = .ok v) (hv : ¬ (0 ≤ v ∧ v < 2 ^ bits)) :
    evalBits m env bits e = .err ⟨.numOutOfRange bits v, .span e.span⟩ := by
  rw [evalBits_value h, if_pos fun hc => hv ((shiftRight_eq_zero bits).mp hc)]
  rfl

theorem evalBits_fit {bits : Nat} {e : Expr} {v : Int} (h : e.erase.eval m env = .ok v) (hv : 0 ≤ v ∧ v < 2 ^ bits) :
    evalBits m env bits e = .ok v := by
  rw [evalBits_value h, if_neg (by rw [Decidable.not_not]; exact (shiftRight_eq_zero bits).mpr hv)]

theorem evalField_fault {pos : Nat} {k : Kind} (hk : k ≠ .ri) {e : Expr} {x : Err} {p : Place} (h : Fault m env e x p) :
    evalField m env pos k (.inl e) = .err ⟨x, p⟩ := by
  have h := fault_eval h
  cases k with
  | ri => exact (hk rfl).elim
  | i8 => dsimp only [evalField, evalBits]; rw [h]; rfl
  | d9 => dsimp only [evalField, evalBits]; rw [h]; rfl
  | b3 => dsimp only [evalField, evalBits]; rw [h]; rfl
  | a16 => dsimp only [evalField, evalBits]; rw [h]; rfl
  | a12 => dsimp only [evalField, evalAbs12, evalBits]; rw [h]; rfl
  | r8 => dsimp only [evalField, evalRel8]; rw [h]; rfl
  | r16 => dsimp only [evalField, evalRel16]; rw [h]; rfl

theorem lift_norm_small {x : Int} (h : -2147483648 ≤ x ∧ x ≤ 2147483647) : (Res.lift (m.norm x) : Res Int) = .ok x := by
  rw [norm_small h]; rfl

theorem evalField_unfit {pos : Nat} (hp : pos < 2147483648) {k : Kind} {e : Expr} {v : Int} {x : Err}
    (h : e.erase.eval m env = .ok v) (hu : Unfit pos k v x) :
    evalField m env pos k (.inl e) = .err ⟨x, .span e.span⟩ := by
  cases hu with
  | i8 h' => exact evalBits_unfit h h'
  | d9 h' => exact evalBits_unfit h h'
  | b3 h' => exact evalBits_unfit h h'
  | a16 h' => exact evalBits_unfit h h'
  | a12 h' =>
    dsimp only [evalField, evalAbs12]
    rw [evalBits_unfit (bits := 16) h h']
    rfl
  | page h0 h1 h2 =>
    dsimp only [evalField, evalAbs12]
    rw [evalBits_fit (bits := 16) h ⟨h0, h1⟩, Res.ok_bind, if_pos]
    · rfl
    · rw [and_top, and_top]
      omega
  | r8 h' =>
    dsimp only [evalField, evalRel8]
    rw [eval_of_erased h, Res.ok_bind, if_neg (by omega)]
    rfl
  | r16 h' =>
    dsimp only [evalField, evalRel16]
    rw [eval_of_erased h, Res.ok_bind, if_neg (by omega)]
    rfl
  | near h0 h1 h2 =>
    dsimp only [evalField, evalRel8]
    rw [eval_of_erased h, Res.ok_bind, if_pos (by omega), wrap_small hp, lift_norm_small (by omega), Res.ok_bind, if_neg h2]
    rfl
  | far h0 h1 h2 =>
    dsimp only [evalField, evalRel16]
    rw [eval_of_erased h, Res.ok_bind, if_pos (by omega), wrap_small hp, lift_norm_small (by omega), Res.ok_bind,
      lift_norm_small (by omega), Res.ok_bind, if_neg (by omega), show v - pos + 1 = v - (pos - 1) by omega]
    rfl

theorem evalField_fine {pos : Nat} (hp : pos < 2147483648) {k : Kind} {o : Sum Expr IM} (hs : Suits k o)
    (h : Encodable m env pos k o) : ∃ y, evalField m env pos k o = .ok y := by
  cases o with
  | inr r => cases k <;> first | exact hs.elim | exact ⟨_, rfl⟩
  | inl e =>
    obtain ⟨v, h, hf⟩ := h
    have get : ∀ {c : Prop} [Decidable c] {y : Int}, (if c then some y else none) ≠ none → c := by
      intro c _ y h
      by_cases hc : c
      · exact hc
      · rw [if_neg hc] at h; exact (h rfl).elim
    cases k with
    | ri => exact hs.elim
    | i8 => exact ⟨v, evalBits_fit h (get hf)⟩
    | d9 => exact ⟨v, evalBits_fit h (get hf)⟩
    | b3 => exact ⟨v, evalBits_fit h (get hf)⟩
    | a16 => exact ⟨v, evalBits_fit h (get hf)⟩
    | a12 =>
      have hg := get hf
      dsimp only [evalField, evalAbs12]
      rw [evalBits_fit (bits := 16) h hg.1, Res.ok_bind, if_neg]
      · exact ⟨_, rfl⟩
      · rw [and_top, and_top]
        omega
    | r8 =>
      have hg := get hf
      dsimp only [evalField, evalRel8]
      rw [eval_of_erased h, Res.ok_bind, if_pos (by omega), wrap_small hp, lift_norm_small (by omega), Res.ok_bind,
        if_pos (by omega)]
      exact ⟨_, rfl⟩
    | r16 =>
      have hg := get hf
      dsimp only [evalField, evalRel16]
      rw [eval_of_erased h, Res.ok_bind, if_pos (by omega), wrap_small hp, lift_norm_small (by omega), Res.ok_bind,
        lift_norm_small (by omega), Res.ok_bind, if_pos (by omega)]
      exact ⟨_, rfl⟩

theorem evalFields_err {pos : Nat} (hp : pos < 2147483648) {ks : List Kind} {os : List (Sum Expr IM)} {x : Err} {p : Place}
    (hs : SuitAll ks os) (h : InOperands m env pos ks os x p) : evalFields m env pos ks os = .err ⟨x, p⟩ := by
  induction h with
  | @here k ks e os x p h =>
    have hk : k ≠ .ri := fun hk => by subst hk; exact hs.1
    unfold evalFields
    rcases h with h | ⟨v, h, hu, rfl⟩
    · rw [evalField_fault hk h]; rfl
    · rw [evalField_unfit hp h hu]; rfl
  | @later k ks o os x p hf _ ih =>
    obtain ⟨y, hy⟩ := evalField_fine hp hs.1 hf
    unfold evalFields
    rw [hy, Res.ok_bind, ih hs.2]
    rfl

theorem evalInstr_err_iff {pos : Nat} (hp : pos < 2147483648) {i : Instr Expr IM} {x : Err} {p : Place} :
    evalInstrIn m env pos i = .err ⟨x, p⟩ ↔ InOperands m env pos (kinds i.form) (operands i) x p := by
  constructor
  · intro h
    have := evalInstr_fault (m := m) (env := env) hp i
    rw [h] at this
    exact this
  · intro h
    have he := evalIn_eq m env pos i
    rw [evalFields_err hp (suit_operands i) h] at he
    cases hi : evalInstrIn m env pos i with
    | err e => rw [hi] at he; cases he; rfl
    | ok _ => rw [hi] at he; cases he
    | panic => rw [hi] at he; cases he
    | loop => rw [hi] at he; cases he

theorem writeByteValues_inExpr (vs : List ByteValue) : ∀ out pos, (writeByteValues m env out pos vs).All
    (fun x p => ∃ e, .expr e ∈ vs ∧ InExpr m env (fun v x => ¬ (-128 ≤ v ∧ v ≤ 255) ∧ x = .byteOutOfRange v) e x p)
    fun _ => True := by
  induction vs with
  | nil => intro out pos; trivial
  | cons v vs ih =>
    intro out pos
    have more : ∀ out pos, (writeByteValues m env out pos vs).All (fun x p => ∃ e, .expr e ∈ v :: vs ∧
        InExpr m env (fun v x => ¬ (-128 ≤ v ∧ v ≤ 255) ∧ x = .byteOutOfRange v) e x p) fun _ => True := fun out pos =>
      All_imp (ih out pos) fun _ _ ⟨e, h1, h2⟩ => ⟨e, by simp [h1], h2⟩
    unfold writeByteValues
    split
    next h => cases h
    next e rest h =>
      cases h
      refine .bind (All_imp (eval_inExpr e) fun _ _ h => ⟨e, by simp, h⟩) fun v hv => .ite (fun h => ?_) fun h => ?_
      · exact ⟨e, by simp, .inr ⟨v, hv, ⟨by omega, rfl⟩, rfl⟩⟩
      · exact .bind (writeByte_noErr _ _ _).silent fun _ _ => more _ _
    next s bytes rest h =>
      cases h
      exact .bind (writeBytes_noErr _ _ _).silent fun _ _ => more _ _

theorem writeWords_inExpr (es : List Expr) : ∀ out pos, (writeWords m env out pos es).All
    (fun x p => ∃ e ∈ es, InExpr m env (fun v x => ¬ (-32768 ≤ v ∧ v ≤ 65535) ∧ x = .wordOutOfRange v) e x p)
    fun _ => True := by
  induction es with
  | nil => intro out pos; trivial
  | cons e es ih =>
    intro out pos
    unfold writeWords
    refine .bind (All_imp (eval_inExpr e) fun _ _ h => ⟨e, by simp, h⟩) fun v hv => .ite (fun h => ?_) fun h => ?_
    · exact ⟨e, by simp, .inr ⟨v, hv, ⟨by omega, rfl⟩, rfl⟩⟩
    · refine .bind (writeByte_noErr _ _ _).silent fun _ _ => .bind (writeByte_noErr _ _ _).silent fun _ _ => ?_
      exact All_imp (ih _ _) fun _ _ ⟨e, h1, h2⟩ => ⟨e, by simp [h1], h2⟩

end Verif.Located
