import Verif.Lemmas.EvalFields
/-
Helper lemma: `Instr.evalIn` evaluates the operands in order.  Generated by tools/gen_cases.py.
-/
namespace Verif
open Spec

theorem evalIn_eq (m : Mode) (env : Env) (next : Nat) (e : Instr Expr IM) :
    ((e.evalIn m env next) >>= fun i => .ok (i.form, i.vals)) =
      (evalFields m env next (kinds e.form) (operands e) >>= fun xs => .ok (e.form, xs)) := by
  cases e with
  | Add_i8 a =>
    show ((evalBits m env 8 a >>= fun x0 => Res.ok (Instr.Add_i8 x0)) >>= fun i => Res.ok (i.form, i.vals)) = ((evalBits m env 8 a >>= fun x0 => Res.ok ([] : List Int) >>= fun ys => Res.ok (x0 :: ys)) >>= fun xs => Res.ok (Form.Add_i8, xs))
    cases evalBits m env 8 a <;> try rfl
  | Add_d9 a =>
    show ((evalBits m env 9 a >>= fun x0 => Res.ok (Instr.Add_d9 x0)) >>= fun i => Res.ok (i.form, i.vals)) = ((evalBits m env 9 a >>= fun x0 => Res.ok ([] : List Int) >>= fun ys => Res.ok (x0 :: ys)) >>= fun xs => Res.ok (Form.Add_d9, xs))
    cases evalBits m env 9 a <;> try rfl
  | Add_Ri a =>
    show (Res.ok (Instr.Add_Ri a.index) >>= fun i => Res.ok (i.form, i.vals)) = (((Res.ok (a.index : Int)) >>= fun x0 => Res.ok ([] : List Int) >>= fun ys => Res.ok (x0 :: ys)) >>= fun xs => Res.ok (Form.Add_Ri, xs))
    rfl
  | Addc_i8 a =>
    show ((evalBits m env 8 a >>= fun x0 => Res.ok (Instr.Addc_i8 x0)) >>= fun i => Res.ok (i.form, i.vals)) = ((evalBits m env 8 a >>= fun x0 => Res.ok ([] : List Int) >>= fun ys => Res.ok (x0 :: ys)) >>= fun xs => Res.ok (Form.Addc_i8, xs))
    cases evalBits m env 8 a <;> try rfl
  | Addc_d9 a =>
    show ((evalBits m env 9 a >>= fun x0 => Res.ok (Instr.Addc_d9 x0)) >>= fun i => Res.ok (i.form, i.vals)) = ((evalBits m env 9 a >>= fun x0 => Res.ok ([] : List Int) >>= fun ys => Res.ok (x0 :: ys)) >>= fun xs => Res.ok (Form.Addc_d9, xs))
    cases evalBits m env 9 a <;> try rfl
  | Addc_Ri a =>
    show (Res.ok (Instr.Addc_Ri a.index) >>= fun i => Res.ok (i.form, i.vals)) = (((Res.ok (a.index : Int)) >>= fun x0 => Res.ok ([] : List Int) >>= fun ys => Res.ok (x0 :: ys)) >>= fun xs => Res.ok (Form.Addc_Ri, xs))
    rfl
  | Sub_i8 a =>
    show ((evalBits m env 8 a >>= fun x0 => Res.ok (Instr.Sub_i8 x0)) >>= fun i => Res.ok (i.form, i.vals)) = ((evalBits m env 8 a >>= fun x0 => Res.ok ([] : List Int) >>= fun ys => Res.ok (x0 :: ys)) >>= fun xs => Res.ok (Form.Sub_i8, xs))
    cases evalBits m env 8 a <;> try rfl
  | Sub_d9 a =>
    show ((evalBits m env 9 a >>= fun x0 => Res.ok (Instr.Sub_d9 x0)) >>= fun i => Res.ok (i.form, i.vals)) = ((evalBits m env 9 a >>= fun x0 => Res.ok ([] : List Int) >>= fun ys => Res.ok (x0 :: ys)) >>= fun xs => Res.ok (Form.Sub_d9, xs))
    cases evalBits m env 9 a <;> try rfl
  | Sub_Ri a =>
    show (Res.ok (Instr.Sub_Ri a.index) >>= fun i => Res.ok (i.form, i.vals)) = (((Res.ok (a.index : Int)) >>= fun x0 => Res.ok ([] : List Int) >>= fun ys => Res.ok (x0 :: ys)) >>= fun xs => Res.ok (Form.Sub_Ri, xs))
    rfl
  | Subc_i8 a =>
    show ((evalBits m env 8 a >>= fun x0 => Res.ok (Instr.Subc_i8 x0)) >>= fun i => Res.ok (i.form, i.vals)) = ((evalBits m env 8 a >>= fun x0 => Res.ok ([] : List Int) >>= fun ys => Res.ok (x0 :: ys)) >>= fun xs => Res.ok (Form.Subc_i8, xs))
    cases evalBits m env 8 a <;> try rfl
  | Subc_d9 a =>
    show ((evalBits m env 9 a >>= fun x0 => Res.ok (Instr.Subc_d9 x0)) >>= fun i => Res.ok (i.form, i.vals)) = ((evalBits m env 9 a >>= fun x0 => Res.ok ([] : List Int) >>= fun ys => Res.ok (x0 :: ys)) >>= fun xs => Res.ok (Form.Subc_d9, xs))
    cases evalBits m env 9 a <;> try rfl
  | Subc_Ri a =>
    show (Res.ok (Instr.Subc_Ri a.index) >>= fun i => Res.ok (i.form, i.vals)) = (((Res.ok (a.index : Int)) >>= fun x0 => Res.ok ([] : List Int) >>= fun ys => Res.ok (x0 :: ys)) >>= fun xs => Res.ok (Form.Subc_Ri, xs))
    rfl
  | Inc_d9 a =>
    show ((evalBits m env 9 a >>= fun x0 => Res.ok (Instr.Inc_d9 x0)) >>= fun i => Res.ok (i.form, i.vals)) = ((evalBits m env 9 a >>= fun x0 => Res.ok ([] : List Int) >>= fun ys => Res.ok (x0 :: ys)) >>= fun xs => Res.ok (Form.Inc_d9, xs))
    cases evalBits m env 9 a <;> try rfl
  | Inc_Ri a =>
    show (Res.ok (Instr.Inc_Ri a.index) >>= fun i => Res.ok (i.form, i.vals)) = (((Res.ok (a.index : Int)) >>= fun x0 => Res.ok ([] : List Int) >>= fun ys => Res.ok (x0 :: ys)) >>= fun xs => Res.ok (Form.Inc_Ri, xs))
    rfl
  | Dec_d9 a =>
    show ((evalBits m env 9 a >>= fun x0 => Res.ok (Instr.Dec_d9 x0)) >>= fun i => Res.ok (i.form, i.vals)) = ((evalBits m env 9 a >>= fun x0 => Res.ok ([] : List Int) >>= fun ys => Res.ok (x0 :: ys)) >>= fun xs => Res.ok (Form.Dec_d9, xs))
    cases evalBits m env 9 a <;> try rfl
  | Dec_Ri a =>
    show (Res.ok (Instr.Dec_Ri a.index) >>= fun i => Res.ok (i.form, i.vals)) = (((Res.ok (a.index : Int)) >>= fun x0 => Res.ok ([] : List Int) >>= fun ys => Res.ok (x0 :: ys)) >>= fun xs => Res.ok (Form.Dec_Ri, xs))
    rfl
  | Mul => rfl
  | Div => rfl
  | And_i8 a =>
    show ((evalBits m env 8 a >>= fun x0 => Res.ok (Instr.And_i8 x0)) >>= fun i => Res.ok (i.form, i.vals)) = ((evalBits m env 8 a >>= fun x0 => Res.ok ([] : List Int) >>= fun ys => Res.ok (x0 :: ys)) >>= fun xs => Res.ok (Form.And_i8, xs))
    cases evalBits m env 8 a <;> try rfl
  | And_d9 a =>
    show ((evalBits m env 9 a >>= fun x0 => Res.ok (Instr.And_d9 x0)) >>= fun i => Res.ok (i.form, i.vals)) = ((evalBits m env 9 a >>= fun x0 => Res.ok ([] : List Int) >>= fun ys => Res.ok (x0 :: ys)) >>= fun xs => Res.ok (Form.And_d9, xs))
    cases evalBits m env 9 a <;> try rfl
  | And_Ri a =>
    show (Res.ok (Instr.And_Ri a.index) >>= fun i => Res.ok (i.form, i.vals)) = (((Res.ok (a.index : Int)) >>= fun x0 => Res.ok ([] : List Int) >>= fun ys => Res.ok (x0 :: ys)) >>= fun xs => Res.ok (Form.And_Ri, xs))
    rfl
  | Or_i8 a =>
    show ((evalBits m env 8 a >>= fun x0 => Res.ok (Instr.Or_i8 x0)) >>= fun i => Res.ok (i.form, i.vals)) = ((evalBits m env 8 a >>= fun x0 => Res.ok ([] : List Int) >>= fun ys => Res.ok (x0 :: ys)) >>= fun xs => Res.ok (Form.Or_i8, xs))
    cases evalBits m env 8 a <;> try rfl
  | Or_d9 a =>
    show ((evalBits m env 9 a >>= fun x0 => Res.ok (Instr.Or_d9 x0)) >>= fun i => Res.ok (i.form, i.vals)) = ((evalBits m env 9 a >>= fun x0 => Res.ok ([] : List Int) >>= fun ys => Res.ok (x0 :: ys)) >>= fun xs => Res.ok (Form.Or_d9, xs))
    cases evalBits m env 9 a <;> try rfl
  | Or_Ri a =>
    show (Res.ok (Instr.Or_Ri a.index) >>= fun i => Res.ok (i.form, i.vals)) = (((Res.ok (a.index : Int)) >>= fun x0 => Res.ok ([] : List Int) >>= fun ys => Res.ok (x0 :: ys)) >>= fun xs => Res.ok (Form.Or_Ri, xs))
    rfl
  | Xor_i8 a =>
    show ((evalBits m env 8 a >>= fun x0 => Res.ok (Instr.Xor_i8 x0)) >>= fun i => Res.ok (i.form, i.vals)) = ((evalBits m env 8 a >>= fun x0 => Res.ok ([] : List Int) >>= fun ys => Res.ok (x0 :: ys)) >>= fun xs => Res.ok (Form.Xor_i8, xs))
    cases evalBits m env 8 a <;> try rfl
  | Xor_d9 a =>
    show ((evalBits m env 9 a >>= fun x0 => Res.ok (Instr.Xor_d9 x0)) >>= fun i => Res.ok (i.form, i.vals)) = ((evalBits m env 9 a >>= fun x0 => Res.ok ([] : List Int) >>= fun ys => Res.ok (x0 :: ys)) >>= fun xs => Res.ok (Form.Xor_d9, xs))
    cases evalBits m env 9 a <;> try rfl
  | Xor_Ri a =>
    show (Res.ok (Instr.Xor_Ri a.index) >>= fun i => Res.ok (i.form, i.vals)) = (((Res.ok (a.index : Int)) >>= fun x0 => Res.ok ([] : List Int) >>= fun ys => Res.ok (x0 :: ys)) >>= fun xs => Res.ok (Form.Xor_Ri, xs))
    rfl
  | Rol => rfl
  | Rolc => rfl
  | Ror => rfl
  | Rorc => rfl
  | Ld_d9 a =>
    show ((evalBits m env 9 a >>= fun x0 => Res.ok (Instr.Ld_d9 x0)) >>= fun i => Res.ok (i.form, i.vals)) = ((evalBits m env 9 a >>= fun x0 => Res.ok ([] : List Int) >>= fun ys => Res.ok (x0 :: ys)) >>= fun xs => Res.ok (Form.Ld_d9, xs))
    cases evalBits m env 9 a <;> try rfl
  | Ld_Ri a =>
    show (Res.ok (Instr.Ld_Ri a.index) >>= fun i => Res.ok (i.form, i.vals)) = (((Res.ok (a.index : Int)) >>= fun x0 => Res.ok ([] : List Int) >>= fun ys => Res.ok (x0 :: ys)) >>= fun xs => Res.ok (Form.Ld_Ri, xs))
    rfl
  | St_d9 a =>
    show ((evalBits m env 9 a >>= fun x0 => Res.ok (Instr.St_d9 x0)) >>= fun i => Res.ok (i.form, i.vals)) = ((evalBits m env 9 a >>= fun x0 => Res.ok ([] : List Int) >>= fun ys => Res.ok (x0 :: ys)) >>= fun xs => Res.ok (Form.St_d9, xs))
    cases evalBits m env 9 a <;> try rfl
  | St_Ri a =>
    show (Res.ok (Instr.St_Ri a.index) >>= fun i => Res.ok (i.form, i.vals)) = (((Res.ok (a.index : Int)) >>= fun x0 => Res.ok ([] : List Int) >>= fun ys => Res.ok (x0 :: ys)) >>= fun xs => Res.ok (Form.St_Ri, xs))
    rfl
  | Mov_d9 a b =>
    show ((evalBits m env 8 a >>= fun x0 => (evalBits m env 9 b >>= fun x1 => Res.ok (Instr.Mov_d9 x0 x1))) >>= fun i => Res.ok (i.form, i.vals)) = ((evalBits m env 8 a >>= fun x0 => (evalBits m env 9 b >>= fun x1 => Res.ok ([] : List Int) >>= fun ys => Res.ok (x1 :: ys)) >>= fun ys => Res.ok (x0 :: ys)) >>= fun xs => Res.ok (Form.Mov_d9, xs))
    cases evalBits m env 8 a <;> try rfl
    simp only [Res.ok_bind]
    cases evalBits m env 9 b <;> try rfl
  | Mov_Rj a b =>
    show ((evalBits m env 8 a >>= fun x0 => Res.ok (Instr.Mov_Rj x0 b.index)) >>= fun i => Res.ok (i.form, i.vals)) = ((evalBits m env 8 a >>= fun x0 => ((Res.ok (b.index : Int)) >>= fun x1 => Res.ok ([] : List Int) >>= fun ys => Res.ok (x1 :: ys)) >>= fun ys => Res.ok (x0 :: ys)) >>= fun xs => Res.ok (Form.Mov_Rj, xs))
    cases evalBits m env 8 a <;> try rfl
  | Ldc => rfl
  | Push a =>
    show ((evalBits m env 9 a >>= fun x0 => Res.ok (Instr.Push x0)) >>= fun i => Res.ok (i.form, i.vals)) = ((evalBits m env 9 a >>= fun x0 => Res.ok ([] : List Int) >>= fun ys => Res.ok (x0 :: ys)) >>= fun xs => Res.ok (Form.Push, xs))
    cases evalBits m env 9 a <;> try rfl
  | Pop a =>
    show ((evalBits m env 9 a >>= fun x0 => Res.ok (Instr.Pop x0)) >>= fun i => Res.ok (i.form, i.vals)) = ((evalBits m env 9 a >>= fun x0 => Res.ok ([] : List Int) >>= fun ys => Res.ok (x0 :: ys)) >>= fun xs => Res.ok (Form.Pop, xs))
    cases evalBits m env 9 a <;> try rfl
  | Xch_d9 a =>
    show ((evalBits m env 9 a >>= fun x0 => Res.ok (Instr.Xch_d9 x0)) >>= fun i => Res.ok (i.form, i.vals)) = ((evalBits m env 9 a >>= fun x0 => Res.ok ([] : List Int) >>= fun ys => Res.ok (x0 :: ys)) >>= fun xs => Res.ok (Form.Xch_d9, xs))
    cases evalBits m env 9 a <;> try rfl
  | Xch_Ri a =>
    show (Res.ok (Instr.Xch_Ri a.index) >>= fun i => Res.ok (i.form, i.vals)) = (((Res.ok (a.index : Int)) >>= fun x0 => Res.ok ([] : List Int) >>= fun ys => Res.ok (x0 :: ys)) >>= fun xs => Res.ok (Form.Xch_Ri, xs))
    rfl
  | Jmp a =>
    show ((evalAbs12 m env next a >>= fun x0 => Res.ok (Instr.Jmp x0)) >>= fun i => Res.ok (i.form, i.vals)) = ((evalAbs12 m env next a >>= fun x0 => Res.ok ([] : List Int) >>= fun ys => Res.ok (x0 :: ys)) >>= fun xs => Res.ok (Form.Jmp, xs))
    cases evalAbs12 m env next a <;> try rfl
  | Jmpf a =>
    show ((evalBits m env 16 a >>= fun x0 => Res.ok (Instr.Jmpf x0)) >>= fun i => Res.ok (i.form, i.vals)) = ((evalBits m env 16 a >>= fun x0 => Res.ok ([] : List Int) >>= fun ys => Res.ok (x0 :: ys)) >>= fun xs => Res.ok (Form.Jmpf, xs))
    cases evalBits m env 16 a <;> try rfl
  | Br a =>
    show ((evalRel8 m env next a >>= fun x0 => Res.ok (Instr.Br x0)) >>= fun i => Res.ok (i.form, i.vals)) = ((evalRel8 m env next a >>= fun x0 => Res.ok ([] : List Int) >>= fun ys => Res.ok (x0 :: ys)) >>= fun xs => Res.ok (Form.Br, xs))
    cases evalRel8 m env next a <;> try rfl
  | Brf a =>
    show ((evalRel16 m env next a >>= fun x0 => Res.ok (Instr.Brf x0)) >>= fun i => Res.ok (i.form, i.vals)) = ((evalRel16 m env next a >>= fun x0 => Res.ok ([] : List Int) >>= fun ys => Res.ok (x0 :: ys)) >>= fun xs => Res.ok (Form.Brf, xs))
    cases evalRel16 m env next a <;> try rfl
  | Bz a =>
    show ((evalRel8 m env next a >>= fun x0 => Res.ok (Instr.Bz x0)) >>= fun i => Res.ok (i.form, i.vals)) = ((evalRel8 m env next a >>= fun x0 => Res.ok ([] : List Int) >>= fun ys => Res.ok (x0 :: ys)) >>= fun xs => Res.ok (Form.Bz, xs))
    cases evalRel8 m env next a <;> try rfl
  | Bnz a =>
    show ((evalRel8 m env next a >>= fun x0 => Res.ok (Instr.Bnz x0)) >>= fun i => Res.ok (i.form, i.vals)) = ((evalRel8 m env next a >>= fun x0 => Res.ok ([] : List Int) >>= fun ys => Res.ok (x0 :: ys)) >>= fun xs => Res.ok (Form.Bnz, xs))
    cases evalRel8 m env next a <;> try rfl
  | Bp a b c =>
    show ((evalBits m env 9 a >>= fun x0 => (evalBits m env 3 b >>= fun x1 => (evalRel8 m env next c >>= fun x2 => Res.ok (Instr.Bp x0 x1 x2)))) >>= fun i => Res.ok (i.form, i.vals)) = ((evalBits m env 9 a >>= fun x0 => (evalBits m env 3 b >>= fun x1 => (evalRel8 m env next c >>= fun x2 => Res.ok ([] : List Int) >>= fun ys => Res.ok (x2 :: ys)) >>= fun ys => Res.ok (x1 :: ys)) >>= fun ys => Res.ok (x0 :: ys)) >>= fun xs => Res.ok (Form.Bp, xs))
    cases evalBits m env 9 a <;> try rfl
    simp only [Res.ok_bind]
    cases evalBits m env 3 b <;> try rfl
    simp only [Res.ok_bind]
    cases evalRel8 m env next c <;> try rfl
  | Bpc a b c =>
    show ((evalBits m env 9 a >>= fun x0 => (evalBits m env 3 b >>= fun x1 => (evalRel8 m env next c >>= fun x2 => Res.ok (Instr.Bpc x0 x1 x2)))) >>= fun i => Res.ok (i.form, i.vals)) = ((evalBits m env 9 a >>= fun x0 => (evalBits m env 3 b >>= fun x1 => (evalRel8 m env next c >>= fun x2 => Res.ok ([] : List Int) >>= fun ys => Res.ok (x2 :: ys)) >>= fun ys => Res.ok (x1 :: ys)) >>= fun ys => Res.ok (x0 :: ys)) >>= fun xs => Res.ok (Form.Bpc, xs))
    cases evalBits m env 9 a <;> try rfl
    simp only [Res.ok_bind]
    cases evalBits m env 3 b <;> try rfl
    simp only [Res.ok_bind]
    cases evalRel8 m env next c <;> try rfl
  | Bn a b c =>
    show ((evalBits m env 9 a >>= fun x0 => (evalBits m env 3 b >>= fun x1 => (evalRel8 m env next c >>= fun x2 => Res.ok (Instr.Bn x0 x1 x2)))) >>= fun i => Res.ok (i.form, i.vals)) = ((evalBits m env 9 a >>= fun x0 => (evalBits m env 3 b >>= fun x1 => (evalRel8 m env next c >>= fun x2 => Res.ok ([] : List Int) >>= fun ys => Res.ok (x2 :: ys)) >>= fun ys => Res.ok (x1 :: ys)) >>= fun ys => Res.ok (x0 :: ys)) >>= fun xs => Res.ok (Form.Bn, xs))
    cases evalBits m env 9 a <;> try rfl
    simp only [Res.ok_bind]
    cases evalBits m env 3 b <;> try rfl
    simp only [Res.ok_bind]
    cases evalRel8 m env next c <;> try rfl
  | Dbnz_d9 a b =>
    show ((evalBits m env 9 a >>= fun x0 => (evalRel8 m env next b >>= fun x1 => Res.ok (Instr.Dbnz_d9 x0 x1))) >>= fun i => Res.ok (i.form, i.vals)) = ((evalBits m env 9 a >>= fun x0 => (evalRel8 m env next b >>= fun x1 => Res.ok ([] : List Int) >>= fun ys => Res.ok (x1 :: ys)) >>= fun ys => Res.ok (x0 :: ys)) >>= fun xs => Res.ok (Form.Dbnz_d9, xs))
    cases evalBits m env 9 a <;> try rfl
    simp only [Res.ok_bind]
    cases evalRel8 m env next b <;> try rfl
  | Dbnz_Ri a b =>
    show ((evalRel8 m env next b >>= fun x1 => Res.ok (Instr.Dbnz_Ri a.index x1)) >>= fun i => Res.ok (i.form, i.vals)) = (((Res.ok (a.index : Int)) >>= fun x0 => (evalRel8 m env next b >>= fun x1 => Res.ok ([] : List Int) >>= fun ys => Res.ok (x1 :: ys)) >>= fun ys => Res.ok (x0 :: ys)) >>= fun xs => Res.ok (Form.Dbnz_Ri, xs))
    cases evalRel8 m env next b <;> try rfl
  | Be_i8 a b =>
    show ((evalBits m env 8 a >>= fun x0 => (evalRel8 m env next b >>= fun x1 => Res.ok (Instr.Be_i8 x0 x1))) >>= fun i => Res.ok (i.form, i.vals)) = ((evalBits m env 8 a >>= fun x0 => (evalRel8 m env next b >>= fun x1 => Res.ok ([] : List Int) >>= fun ys => Res.ok (x1 :: ys)) >>= fun ys => Res.ok (x0 :: ys)) >>= fun xs => Res.ok (Form.Be_i8, xs))
    cases evalBits m env 8 a <;> try rfl
    simp only [Res.ok_bind]
    cases evalRel8 m env next b <;> try rfl
  | Be_d9 a b =>
    show ((evalBits m env 9 a >>= fun x0 => (evalRel8 m env next b >>= fun x1 => Res.ok (Instr.Be_d9 x0 x1))) >>= fun i => Res.ok (i.form, i.vals)) = ((evalBits m env 9 a >>= fun x0 => (evalRel8 m env next b >>= fun x1 => Res.ok ([] : List Int) >>= fun ys => Res.ok (x1 :: ys)) >>= fun ys => Res.ok (x0 :: ys)) >>= fun xs => Res.ok (Form.Be_d9, xs))
    cases evalBits m env 9 a <;> try rfl
    simp only [Res.ok_bind]
    cases evalRel8 m env next b <;> try rfl
  | Be_Rj a b c =>
    show ((evalBits m env 8 b >>= fun x1 => (evalRel8 m env next c >>= fun x2 => Res.ok (Instr.Be_Rj a.index x1 x2))) >>= fun i => Res.ok (i.form, i.vals)) = (((Res.ok (a.index : Int)) >>= fun x0 => (evalBits m env 8 b >>= fun x1 => (evalRel8 m env next c >>= fun x2 => Res.ok ([] : List Int) >>= fun ys => Res.ok (x2 :: ys)) >>= fun ys => Res.ok (x1 :: ys)) >>= fun ys => Res.ok (x0 :: ys)) >>= fun xs => Res.ok (Form.Be_Rj, xs))
    cases evalBits m env 8 b <;> try rfl
    simp only [Res.ok_bind]
    cases evalRel8 m env next c <;> try rfl
  | Bne_i8 a b =>
    show ((evalBits m env 8 a >>= fun x0 => (evalRel8 m env next b >>= fun x1 => Res.ok (Instr.Bne_i8 x0 x1))) >>= fun i => Res.ok (i.form, i.vals)) = ((evalBits m env 8 a >>= fun x0 => (evalRel8 m env next b >>= fun x1 => Res.ok ([] : List Int) >>= fun ys => Res.ok (x1 :: ys)) >>= fun ys => Res.ok (x0 :: ys)) >>= fun xs => Res.ok (Form.Bne_i8, xs))
    cases evalBits m env 8 a <;> try rfl
    simp only [Res.ok_bind]
    cases evalRel8 m env next b <;> try rfl
  | Bne_d9 a b =>
    show ((evalBits m env 9 a >>= fun x0 => (evalRel8 m env next b >>= fun x1 => Res.ok (Instr.Bne_d9 x0 x1))) >>= fun i => Res.ok (i.form, i.vals)) = ((evalBits m env 9 a >>= fun x0 => (evalRel8 m env next b >>= fun x1 => Res.ok ([] : List Int) >>= fun ys => Res.ok (x1 :: ys)) >>= fun ys => Res.ok (x0 :: ys)) >>= fun xs => Res.ok (Form.Bne_d9, xs))
    cases evalBits m env 9 a <;> try rfl
    simp only [Res.ok_bind]
    cases evalRel8 m env next b <;> try rfl
  | Bne_Rj a b c =>
    show ((evalBits m env 8 b >>= fun x1 => (evalRel8 m env next c >>= fun x2 => Res.ok (Instr.Bne_Rj a.index x1 x2))) >>= fun i => Res.ok (i.form, i.vals)) = (((Res.ok (a.index : Int)) >>= fun x0 => (evalBits m env 8 b >>= fun x1 => (evalRel8 m env next c >>= fun x2 => Res.ok ([] : List Int) >>= fun ys => Res.ok (x2 :: ys)) >>= fun ys => Res.ok (x1 :: ys)) >>= fun ys => Res.ok (x0 :: ys)) >>= fun xs => Res.ok (Form.Bne_Rj, xs))
    cases evalBits m env 8 b <;> try rfl
    simp only [Res.ok_bind]
    cases evalRel8 m env next c <;> try rfl
  | Call a =>
    show ((evalAbs12 m env next a >>= fun x0 => Res.ok (Instr.Call x0)) >>= fun i => Res.ok (i.form, i.vals)) = ((evalAbs12 m env next a >>= fun x0 => Res.ok ([] : List Int) >>= fun ys => Res.ok (x0 :: ys)) >>= fun xs => Res.ok (Form.Call, xs))
    cases evalAbs12 m env next a <;> try rfl
  | Callf a =>
    show ((evalBits m env 16 a >>= fun x0 => Res.ok (Instr.Callf x0)) >>= fun i => Res.ok (i.form, i.vals)) = ((evalBits m env 16 a >>= fun x0 => Res.ok ([] : List Int) >>= fun ys => Res.ok (x0 :: ys)) >>= fun xs => Res.ok (Form.Callf, xs))
    cases evalBits m env 16 a <;> try rfl
  | Callr a =>
    show ((evalRel16 m env next a >>= fun x0 => Res.ok (Instr.Callr x0)) >>= fun i => Res.ok (i.form, i.vals)) = ((evalRel16 m env next a >>= fun x0 => Res.ok ([] : List Int) >>= fun ys => Res.ok (x0 :: ys)) >>= fun xs => Res.ok (Form.Callr, xs))
    cases evalRel16 m env next a <;> try rfl
  | Ret => rfl
  | Reti => rfl
  | Clr1 a b =>
    show ((evalBits m env 9 a >>= fun x0 => (evalBits m env 3 b >>= fun x1 => Res.ok (Instr.Clr1 x0 x1))) >>= fun i => Res.ok (i.form, i.vals)) = ((evalBits m env 9 a >>= fun x0 => (evalBits m env 3 b >>= fun x1 => Res.ok ([] : List Int) >>= fun ys => Res.ok (x1 :: ys)) >>= fun ys => Res.ok (x0 :: ys)) >>= fun xs => Res.ok (Form.Clr1, xs))
    cases evalBits m env 9 a <;> try rfl
    simp only [Res.ok_bind]
    cases evalBits m env 3 b <;> try rfl
  | Set1 a b =>
    show ((evalBits m env 9 a >>= fun x0 => (evalBits m env 3 b >>= fun x1 => Res.ok (Instr.Set1 x0 x1))) >>= fun i => Res.ok (i.form, i.vals)) = ((evalBits m env 9 a >>= fun x0 => (evalBits m env 3 b >>= fun x1 => Res.ok ([] : List Int) >>= fun ys => Res.ok (x1 :: ys)) >>= fun ys => Res.ok (x0 :: ys)) >>= fun xs => Res.ok (Form.Set1, xs))
    cases evalBits m env 9 a <;> try rfl
    simp only [Res.ok_bind]
    cases evalBits m env 3 b <;> try rfl
  | Not1 a b =>
    show ((evalBits m env 9 a >>= fun x0 => (evalBits m env 3 b >>= fun x1 => Res.ok (Instr.Not1 x0 x1))) >>= fun i => Res.ok (i.form, i.vals)) = ((evalBits m env 9 a >>= fun x0 => (evalBits m env 3 b >>= fun x1 => Res.ok ([] : List Int) >>= fun ys => Res.ok (x1 :: ys)) >>= fun ys => Res.ok (x0 :: ys)) >>= fun xs => Res.ok (Form.Not1, xs))
    cases evalBits m env 9 a <;> try rfl
    simp only [Res.ok_bind]
    cases evalBits m env 3 b <;> try rfl
  | Nop => rfl
  | Ldf => rfl
  | Stf => rfl

end Verif
