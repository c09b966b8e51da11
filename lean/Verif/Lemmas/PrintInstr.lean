import Verif.Lemmas.PrintLine
/-
Printed instructions read back.
-/
namespace Verif
open Verif.Spec

/-- The instruction with the function applied to its expressions. -/
def Instr.mapE (f : Expr → Expr) : Instr Expr IM → Instr Expr IM
  | .Add_i8 a => .Add_i8 (f a)
  | .Add_d9 a => .Add_d9 (f a)
  | .Add_Ri a => .Add_Ri a
  | .Addc_i8 a => .Addc_i8 (f a)
  | .Addc_d9 a => .Addc_d9 (f a)
  | .Addc_Ri a => .Addc_Ri a
  | .Sub_i8 a => .Sub_i8 (f a)
  | .Sub_d9 a => .Sub_d9 (f a)
  | .Sub_Ri a => .Sub_Ri a
  | .Subc_i8 a => .Subc_i8 (f a)
  | .Subc_d9 a => .Subc_d9 (f a)
  | .Subc_Ri a => .Subc_Ri a
  | .Inc_d9 a => .Inc_d9 (f a)
  | .Inc_Ri a => .Inc_Ri a
  | .Dec_d9 a => .Dec_d9 (f a)
  | .Dec_Ri a => .Dec_Ri a
  | .Mul => .Mul
  | .Div => .Div
  | .And_i8 a => .And_i8 (f a)
  | .And_d9 a => .And_d9 (f a)
  | .And_Ri a => .And_Ri a
  | .Or_i8 a => .Or_i8 (f a)
  | .Or_d9 a => .Or_d9 (f a)
  | .Or_Ri a => .Or_Ri a
  | .Xor_i8 a => .Xor_i8 (f a)
  | .Xor_d9 a => .Xor_d9 (f a)
  | .Xor_Ri a => .Xor_Ri a
  | .Rol => .Rol
  | .Rolc => .Rolc
  | .Ror => .Ror
  | .Rorc => .Rorc
  | .Ld_d9 a => .Ld_d9 (f a)
  | .Ld_Ri a => .Ld_Ri a
  | .St_d9 a => .St_d9 (f a)
  | .St_Ri a => .St_Ri a
  | .Mov_d9 a b => .Mov_d9 (f a) (f b)
  | .Mov_Rj a b => .Mov_Rj (f a) b
  | .Ldc => .Ldc
  | .Push a => .Push (f a)
  | .Pop a => .Pop (f a)
  | .Xch_d9 a => .Xch_d9 (f a)
  | .Xch_Ri a => .Xch_Ri a
  | .Jmp a => .Jmp (f a)
  | .Jmpf a => .Jmpf (f a)
  | .Br a => .Br (f a)
  | .Brf a => .Brf (f a)
  | .Bz a => .Bz (f a)
  | .Bnz a => .Bnz (f a)
  | .Bp a b c => .Bp (f a) (f b) (f c)
  | .Bpc a b c => .Bpc (f a) (f b) (f c)
  | .Bn a b c => .Bn (f a) (f b) (f c)
  | .Dbnz_d9 a b => .Dbnz_d9 (f a) (f b)
  | .Dbnz_Ri a b => .Dbnz_Ri a (f b)
  | .Be_i8 a b => .Be_i8 (f a) (f b)
  | .Be_d9 a b => .Be_d9 (f a) (f b)
  | .Be_Rj a b c => .Be_Rj a (f b) (f c)
  | .Bne_i8 a b => .Bne_i8 (f a) (f b)
  | .Bne_d9 a b => .Bne_d9 (f a) (f b)
  | .Bne_Rj a b c => .Bne_Rj a (f b) (f c)
  | .Call a => .Call (f a)
  | .Callf a => .Callf (f a)
  | .Callr a => .Callr (f a)
  | .Ret => .Ret
  | .Reti => .Reti
  | .Clr1 a b => .Clr1 (f a) (f b)
  | .Set1 a b => .Set1 (f a) (f b)
  | .Not1 a b => .Not1 (f a) (f b)
  | .Nop => .Nop
  | .Ldf => .Ldf
  | .Stf => .Stf

theorem mapE_form (f : Expr → Expr) (i : Instr Expr IM) : (i.mapE f).form = i.form := by cases i <;> rfl

/-- An operand with the function applied. -/
def mapOperand (f : Expr → Expr) : Sum Expr IM → Sum Expr IM
  | .inl e => .inl (f e)
  | .inr r => .inr r

theorem mapE_operands (f : Expr → Expr) (i : Instr Expr IM) : operands (i.mapE f) = (operands i).map (mapOperand f) := by
  cases i <;> rfl

/-- How an instruction is printed: the mnemonic, blanks up to column 6 and the arguments. -/
def instrText (name : Text) (args : List Text) : Text :=
  if args = [] then name else name ++ (List.replicate (6 - name.length) ' ' ++ joinWith (',' :: List.replicate 1 ' ') args)

theorem display_Add_i8 (a : Expr) : Instr.print (Instr.Add_i8 a) =
    instrText (row .Add_i8).name.toList ((List.zipWith writtenAs (kinds .Add_i8) (operands (Instr.Add_i8 a))).map Arg.print) := by
  show "add   #".toList ++ a.print = instrText "add".toList ['#' :: a.print]
  simp [instrText, joinWith]

theorem display_Add_d9 (a : Expr) : Instr.print (Instr.Add_d9 a) =
    instrText (row .Add_d9).name.toList ((List.zipWith writtenAs (kinds .Add_d9) (operands (Instr.Add_d9 a))).map Arg.print) := by
  show "add   ".toList ++ a.print = instrText "add".toList [a.print]
  simp [instrText, joinWith]

theorem display_Add_Ri (a : IM) : Instr.print (Instr.Add_Ri a) =
    instrText (row .Add_Ri).name.toList ((List.zipWith writtenAs (kinds .Add_Ri) (operands (Instr.Add_Ri a))).map Arg.print) := by
  show "add   ".toList ++ a.print = instrText "add".toList [a.print]
  simp [instrText, joinWith]

theorem display_Addc_i8 (a : Expr) : Instr.print (Instr.Addc_i8 a) =
    instrText (row .Addc_i8).name.toList ((List.zipWith writtenAs (kinds .Addc_i8) (operands (Instr.Addc_i8 a))).map Arg.print) := by
  show "addc  #".toList ++ a.print = instrText "addc".toList ['#' :: a.print]
  simp [instrText, joinWith]

theorem display_Addc_d9 (a : Expr) : Instr.print (Instr.Addc_d9 a) =
    instrText (row .Addc_d9).name.toList ((List.zipWith writtenAs (kinds .Addc_d9) (operands (Instr.Addc_d9 a))).map Arg.print) := by
  show "addc  ".toList ++ a.print = instrText "addc".toList [a.print]
  simp [instrText, joinWith]

theorem display_Addc_Ri (a : IM) : Instr.print (Instr.Addc_Ri a) =
    instrText (row .Addc_Ri).name.toList ((List.zipWith writtenAs (kinds .Addc_Ri) (operands (Instr.Addc_Ri a))).map Arg.print) := by
  show "addc  ".toList ++ a.print = instrText "addc".toList [a.print]
  simp [instrText, joinWith]

theorem display_Sub_i8 (a : Expr) : Instr.print (Instr.Sub_i8 a) =
    instrText (row .Sub_i8).name.toList ((List.zipWith writtenAs (kinds .Sub_i8) (operands (Instr.Sub_i8 a))).map Arg.print) := by
  show "sub   #".toList ++ a.print = instrText "sub".toList ['#' :: a.print]
  simp [instrText, joinWith]

theorem display_Sub_d9 (a : Expr) : Instr.print (Instr.Sub_d9 a) =
    instrText (row .Sub_d9).name.toList ((List.zipWith writtenAs (kinds .Sub_d9) (operands (Instr.Sub_d9 a))).map Arg.print) := by
  show "sub   ".toList ++ a.print = instrText "sub".toList [a.print]
  simp [instrText, joinWith]

theorem display_Sub_Ri (a : IM) : Instr.print (Instr.Sub_Ri a) =
    instrText (row .Sub_Ri).name.toList ((List.zipWith writtenAs (kinds .Sub_Ri) (operands (Instr.Sub_Ri a))).map Arg.print) := by
  show "sub   ".toList ++ a.print = instrText "sub".toList [a.print]
  simp [instrText, joinWith]

theorem display_Subc_i8 (a : Expr) : Instr.print (Instr.Subc_i8 a) =
    instrText (row .Subc_i8).name.toList ((List.zipWith writtenAs (kinds .Subc_i8) (operands (Instr.Subc_i8 a))).map Arg.print) := by
  show "subc  #".toList ++ a.print = instrText "subc".toList ['#' :: a.print]
  simp [instrText, joinWith]

theorem display_Subc_d9 (a : Expr) : Instr.print (Instr.Subc_d9 a) =
    instrText (row .Subc_d9).name.toList ((List.zipWith writtenAs (kinds .Subc_d9) (operands (Instr.Subc_d9 a))).map Arg.print) := by
  show "subc  ".toList ++ a.print = instrText "subc".toList [a.print]
  simp [instrText, joinWith]

theorem display_Subc_Ri (a : IM) : Instr.print (Instr.Subc_Ri a) =
    instrText (row .Subc_Ri).name.toList ((List.zipWith writtenAs (kinds .Subc_Ri) (operands (Instr.Subc_Ri a))).map Arg.print) := by
  show "subc  ".toList ++ a.print = instrText "subc".toList [a.print]
  simp [instrText, joinWith]

theorem display_Inc_d9 (a : Expr) : Instr.print (Instr.Inc_d9 a) =
    instrText (row .Inc_d9).name.toList ((List.zipWith writtenAs (kinds .Inc_d9) (operands (Instr.Inc_d9 a))).map Arg.print) := by
  show "inc   ".toList ++ a.print = instrText "inc".toList [a.print]
  simp [instrText, joinWith]

theorem display_Inc_Ri (a : IM) : Instr.print (Instr.Inc_Ri a) =
    instrText (row .Inc_Ri).name.toList ((List.zipWith writtenAs (kinds .Inc_Ri) (operands (Instr.Inc_Ri a))).map Arg.print) := by
  show "inc   ".toList ++ a.print = instrText "inc".toList [a.print]
  simp [instrText, joinWith]

theorem display_Dec_d9 (a : Expr) : Instr.print (Instr.Dec_d9 a) =
    instrText (row .Dec_d9).name.toList ((List.zipWith writtenAs (kinds .Dec_d9) (operands (Instr.Dec_d9 a))).map Arg.print) := by
  show "dec   ".toList ++ a.print = instrText "dec".toList [a.print]
  simp [instrText, joinWith]

theorem display_Dec_Ri (a : IM) : Instr.print (Instr.Dec_Ri a) =
    instrText (row .Dec_Ri).name.toList ((List.zipWith writtenAs (kinds .Dec_Ri) (operands (Instr.Dec_Ri a))).map Arg.print) := by
  show "dec   ".toList ++ a.print = instrText "dec".toList [a.print]
  simp [instrText, joinWith]

theorem display_Mul  : Instr.print Instr.Mul =
    instrText (row .Mul).name.toList ((List.zipWith writtenAs (kinds .Mul) (operands Instr.Mul)).map Arg.print) := by
  show "mul".toList = instrText "mul".toList []
  simp [instrText, joinWith]

theorem display_Div  : Instr.print Instr.Div =
    instrText (row .Div).name.toList ((List.zipWith writtenAs (kinds .Div) (operands Instr.Div)).map Arg.print) := by
  show "div".toList = instrText "div".toList []
  simp [instrText, joinWith]

theorem display_And_i8 (a : Expr) : Instr.print (Instr.And_i8 a) =
    instrText (row .And_i8).name.toList ((List.zipWith writtenAs (kinds .And_i8) (operands (Instr.And_i8 a))).map Arg.print) := by
  show "and   #".toList ++ a.print = instrText "and".toList ['#' :: a.print]
  simp [instrText, joinWith]

theorem display_And_d9 (a : Expr) : Instr.print (Instr.And_d9 a) =
    instrText (row .And_d9).name.toList ((List.zipWith writtenAs (kinds .And_d9) (operands (Instr.And_d9 a))).map Arg.print) := by
  show "and   ".toList ++ a.print = instrText "and".toList [a.print]
  simp [instrText, joinWith]

theorem display_And_Ri (a : IM) : Instr.print (Instr.And_Ri a) =
    instrText (row .And_Ri).name.toList ((List.zipWith writtenAs (kinds .And_Ri) (operands (Instr.And_Ri a))).map Arg.print) := by
  show "and   ".toList ++ a.print = instrText "and".toList [a.print]
  simp [instrText, joinWith]

theorem display_Or_i8 (a : Expr) : Instr.print (Instr.Or_i8 a) =
    instrText (row .Or_i8).name.toList ((List.zipWith writtenAs (kinds .Or_i8) (operands (Instr.Or_i8 a))).map Arg.print) := by
  show "or    #".toList ++ a.print = instrText "or".toList ['#' :: a.print]
  simp [instrText, joinWith]

theorem display_Or_d9 (a : Expr) : Instr.print (Instr.Or_d9 a) =
    instrText (row .Or_d9).name.toList ((List.zipWith writtenAs (kinds .Or_d9) (operands (Instr.Or_d9 a))).map Arg.print) := by
  show "or    ".toList ++ a.print = instrText "or".toList [a.print]
  simp [instrText, joinWith]

theorem display_Or_Ri (a : IM) : Instr.print (Instr.Or_Ri a) =
    instrText (row .Or_Ri).name.toList ((List.zipWith writtenAs (kinds .Or_Ri) (operands (Instr.Or_Ri a))).map Arg.print) := by
  show "or    ".toList ++ a.print = instrText "or".toList [a.print]
  simp [instrText, joinWith]

theorem display_Xor_i8 (a : Expr) : Instr.print (Instr.Xor_i8 a) =
    instrText (row .Xor_i8).name.toList ((List.zipWith writtenAs (kinds .Xor_i8) (operands (Instr.Xor_i8 a))).map Arg.print) := by
  show "xor   #".toList ++ a.print = instrText "xor".toList ['#' :: a.print]
  simp [instrText, joinWith]

theorem display_Xor_d9 (a : Expr) : Instr.print (Instr.Xor_d9 a) =
    instrText (row .Xor_d9).name.toList ((List.zipWith writtenAs (kinds .Xor_d9) (operands (Instr.Xor_d9 a))).map Arg.print) := by
  show "xor   ".toList ++ a.print = instrText "xor".toList [a.print]
  simp [instrText, joinWith]

theorem display_Xor_Ri (a : IM) : Instr.print (Instr.Xor_Ri a) =
    instrText (row .Xor_Ri).name.toList ((List.zipWith writtenAs (kinds .Xor_Ri) (operands (Instr.Xor_Ri a))).map Arg.print) := by
  show "xor   ".toList ++ a.print = instrText "xor".toList [a.print]
  simp [instrText, joinWith]

theorem display_Rol  : Instr.print Instr.Rol =
    instrText (row .Rol).name.toList ((List.zipWith writtenAs (kinds .Rol) (operands Instr.Rol)).map Arg.print) := by
  show "rol".toList = instrText "rol".toList []
  simp [instrText, joinWith]

theorem display_Rolc  : Instr.print Instr.Rolc =
    instrText (row .Rolc).name.toList ((List.zipWith writtenAs (kinds .Rolc) (operands Instr.Rolc)).map Arg.print) := by
  show "rolc".toList = instrText "rolc".toList []
  simp [instrText, joinWith]

theorem display_Ror  : Instr.print Instr.Ror =
    instrText (row .Ror).name.toList ((List.zipWith writtenAs (kinds .Ror) (operands Instr.Ror)).map Arg.print) := by
  show "ror".toList = instrText "ror".toList []
  simp [instrText, joinWith]

theorem display_Rorc  : Instr.print Instr.Rorc =
    instrText (row .Rorc).name.toList ((List.zipWith writtenAs (kinds .Rorc) (operands Instr.Rorc)).map Arg.print) := by
  show "rorc".toList = instrText "rorc".toList []
  simp [instrText, joinWith]

theorem display_Ld_d9 (a : Expr) : Instr.print (Instr.Ld_d9 a) =
    instrText (row .Ld_d9).name.toList ((List.zipWith writtenAs (kinds .Ld_d9) (operands (Instr.Ld_d9 a))).map Arg.print) := by
  show "ld    ".toList ++ a.print = instrText "ld".toList [a.print]
  simp [instrText, joinWith]

theorem display_Ld_Ri (a : IM) : Instr.print (Instr.Ld_Ri a) =
    instrText (row .Ld_Ri).name.toList ((List.zipWith writtenAs (kinds .Ld_Ri) (operands (Instr.Ld_Ri a))).map Arg.print) := by
  show "ld    ".toList ++ a.print = instrText "ld".toList [a.print]
  simp [instrText, joinWith]

theorem display_St_d9 (a : Expr) : Instr.print (Instr.St_d9 a) =
    instrText (row .St_d9).name.toList ((List.zipWith writtenAs (kinds .St_d9) (operands (Instr.St_d9 a))).map Arg.print) := by
  show "st    ".toList ++ a.print = instrText "st".toList [a.print]
  simp [instrText, joinWith]

theorem display_St_Ri (a : IM) : Instr.print (Instr.St_Ri a) =
    instrText (row .St_Ri).name.toList ((List.zipWith writtenAs (kinds .St_Ri) (operands (Instr.St_Ri a))).map Arg.print) := by
  show "st    ".toList ++ a.print = instrText "st".toList [a.print]
  simp [instrText, joinWith]

theorem display_Mov_d9 (a : Expr) (b : Expr) : Instr.print (Instr.Mov_d9 a b) =
    instrText (row .Mov_d9).name.toList ((List.zipWith writtenAs (kinds .Mov_d9) (operands (Instr.Mov_d9 a b))).map Arg.print) := by
  show "mov   #".toList ++ a.print ++ ", ".toList ++ b.print = instrText "mov".toList ['#' :: a.print, b.print]
  simp [instrText, joinWith]

theorem display_Mov_Rj (a : Expr) (b : IM) : Instr.print (Instr.Mov_Rj a b) =
    instrText (row .Mov_Rj).name.toList ((List.zipWith writtenAs (kinds .Mov_Rj) (operands (Instr.Mov_Rj a b))).map Arg.print) := by
  show "mov   #".toList ++ a.print ++ ", ".toList ++ b.print = instrText "mov".toList ['#' :: a.print, b.print]
  simp [instrText, joinWith]

theorem display_Ldc  : Instr.print Instr.Ldc =
    instrText (row .Ldc).name.toList ((List.zipWith writtenAs (kinds .Ldc) (operands Instr.Ldc)).map Arg.print) := by
  show "ldc".toList = instrText "ldc".toList []
  simp [instrText, joinWith]

theorem display_Push (a : Expr) : Instr.print (Instr.Push a) =
    instrText (row .Push).name.toList ((List.zipWith writtenAs (kinds .Push) (operands (Instr.Push a))).map Arg.print) := by
  show "push  ".toList ++ a.print = instrText "push".toList [a.print]
  simp [instrText, joinWith]

theorem display_Pop (a : Expr) : Instr.print (Instr.Pop a) =
    instrText (row .Pop).name.toList ((List.zipWith writtenAs (kinds .Pop) (operands (Instr.Pop a))).map Arg.print) := by
  show "pop   ".toList ++ a.print = instrText "pop".toList [a.print]
  simp [instrText, joinWith]

theorem display_Xch_d9 (a : Expr) : Instr.print (Instr.Xch_d9 a) =
    instrText (row .Xch_d9).name.toList ((List.zipWith writtenAs (kinds .Xch_d9) (operands (Instr.Xch_d9 a))).map Arg.print) := by
  show "xch   ".toList ++ a.print = instrText "xch".toList [a.print]
  simp [instrText, joinWith]

theorem display_Xch_Ri (a : IM) : Instr.print (Instr.Xch_Ri a) =
    instrText (row .Xch_Ri).name.toList ((List.zipWith writtenAs (kinds .Xch_Ri) (operands (Instr.Xch_Ri a))).map Arg.print) := by
  show "xch   ".toList ++ a.print = instrText "xch".toList [a.print]
  simp [instrText, joinWith]

theorem display_Jmp (a : Expr) : Instr.print (Instr.Jmp a) =
    instrText (row .Jmp).name.toList ((List.zipWith writtenAs (kinds .Jmp) (operands (Instr.Jmp a))).map Arg.print) := by
  show "jmp   ".toList ++ a.print = instrText "jmp".toList [a.print]
  simp [instrText, joinWith]

theorem display_Jmpf (a : Expr) : Instr.print (Instr.Jmpf a) =
    instrText (row .Jmpf).name.toList ((List.zipWith writtenAs (kinds .Jmpf) (operands (Instr.Jmpf a))).map Arg.print) := by
  show "jmpf  ".toList ++ a.print = instrText "jmpf".toList [a.print]
  simp [instrText, joinWith]

theorem display_Br (a : Expr) : Instr.print (Instr.Br a) =
    instrText (row .Br).name.toList ((List.zipWith writtenAs (kinds .Br) (operands (Instr.Br a))).map Arg.print) := by
  show "br    ".toList ++ a.print = instrText "br".toList [a.print]
  simp [instrText, joinWith]

theorem display_Brf (a : Expr) : Instr.print (Instr.Brf a) =
    instrText (row .Brf).name.toList ((List.zipWith writtenAs (kinds .Brf) (operands (Instr.Brf a))).map Arg.print) := by
  show "brf   ".toList ++ a.print = instrText "brf".toList [a.print]
  simp [instrText, joinWith]

theorem display_Bz (a : Expr) : Instr.print (Instr.Bz a) =
    instrText (row .Bz).name.toList ((List.zipWith writtenAs (kinds .Bz) (operands (Instr.Bz a))).map Arg.print) := by
  show "bz    ".toList ++ a.print = instrText "bz".toList [a.print]
  simp [instrText, joinWith]

theorem display_Bnz (a : Expr) : Instr.print (Instr.Bnz a) =
    instrText (row .Bnz).name.toList ((List.zipWith writtenAs (kinds .Bnz) (operands (Instr.Bnz a))).map Arg.print) := by
  show "bnz   ".toList ++ a.print = instrText "bnz".toList [a.print]
  simp [instrText, joinWith]

theorem display_Bp (a : Expr) (b : Expr) (c : Expr) : Instr.print (Instr.Bp a b c) =
    instrText (row .Bp).name.toList ((List.zipWith writtenAs (kinds .Bp) (operands (Instr.Bp a b c))).map Arg.print) := by
  show "bp    ".toList ++ a.print ++ ", ".toList ++ b.print ++ ", ".toList ++ c.print = instrText "bp".toList [a.print, b.print, c.print]
  simp [instrText, joinWith]

theorem display_Bpc (a : Expr) (b : Expr) (c : Expr) : Instr.print (Instr.Bpc a b c) =
    instrText (row .Bpc).name.toList ((List.zipWith writtenAs (kinds .Bpc) (operands (Instr.Bpc a b c))).map Arg.print) := by
  show "bpc   ".toList ++ a.print ++ ", ".toList ++ b.print ++ ", ".toList ++ c.print = instrText "bpc".toList [a.print, b.print, c.print]
  simp [instrText, joinWith]

theorem display_Bn (a : Expr) (b : Expr) (c : Expr) : Instr.print (Instr.Bn a b c) =
    instrText (row .Bn).name.toList ((List.zipWith writtenAs (kinds .Bn) (operands (Instr.Bn a b c))).map Arg.print) := by
  show "bn    ".toList ++ a.print ++ ", ".toList ++ b.print ++ ", ".toList ++ c.print = instrText "bn".toList [a.print, b.print, c.print]
  simp [instrText, joinWith]

theorem display_Dbnz_d9 (a : Expr) (b : Expr) : Instr.print (Instr.Dbnz_d9 a b) =
    instrText (row .Dbnz_d9).name.toList ((List.zipWith writtenAs (kinds .Dbnz_d9) (operands (Instr.Dbnz_d9 a b))).map Arg.print) := by
  show "dbnz  ".toList ++ a.print ++ ", ".toList ++ b.print = instrText "dbnz".toList [a.print, b.print]
  simp [instrText, joinWith]

theorem display_Dbnz_Ri (a : IM) (b : Expr) : Instr.print (Instr.Dbnz_Ri a b) =
    instrText (row .Dbnz_Ri).name.toList ((List.zipWith writtenAs (kinds .Dbnz_Ri) (operands (Instr.Dbnz_Ri a b))).map Arg.print) := by
  show "dbnz  ".toList ++ a.print ++ ", ".toList ++ b.print = instrText "dbnz".toList [a.print, b.print]
  simp [instrText, joinWith]

theorem display_Be_i8 (a : Expr) (b : Expr) : Instr.print (Instr.Be_i8 a b) =
    instrText (row .Be_i8).name.toList ((List.zipWith writtenAs (kinds .Be_i8) (operands (Instr.Be_i8 a b))).map Arg.print) := by
  show "be    #".toList ++ a.print ++ ", ".toList ++ b.print = instrText "be".toList ['#' :: a.print, b.print]
  simp [instrText, joinWith]

theorem display_Be_d9 (a : Expr) (b : Expr) : Instr.print (Instr.Be_d9 a b) =
    instrText (row .Be_d9).name.toList ((List.zipWith writtenAs (kinds .Be_d9) (operands (Instr.Be_d9 a b))).map Arg.print) := by
  show "be    ".toList ++ a.print ++ ", ".toList ++ b.print = instrText "be".toList [a.print, b.print]
  simp [instrText, joinWith]

theorem display_Be_Rj (a : IM) (b : Expr) (c : Expr) : Instr.print (Instr.Be_Rj a b c) =
    instrText (row .Be_Rj).name.toList ((List.zipWith writtenAs (kinds .Be_Rj) (operands (Instr.Be_Rj a b c))).map Arg.print) := by
  show "be    ".toList ++ a.print ++ ", #".toList ++ b.print ++ ", ".toList ++ c.print = instrText "be".toList [a.print, '#' :: b.print, c.print]
  simp [instrText, joinWith]

theorem display_Bne_i8 (a : Expr) (b : Expr) : Instr.print (Instr.Bne_i8 a b) =
    instrText (row .Bne_i8).name.toList ((List.zipWith writtenAs (kinds .Bne_i8) (operands (Instr.Bne_i8 a b))).map Arg.print) := by
  show "bne   #".toList ++ a.print ++ ", ".toList ++ b.print = instrText "bne".toList ['#' :: a.print, b.print]
  simp [instrText, joinWith]

theorem display_Bne_d9 (a : Expr) (b : Expr) : Instr.print (Instr.Bne_d9 a b) =
    instrText (row .Bne_d9).name.toList ((List.zipWith writtenAs (kinds .Bne_d9) (operands (Instr.Bne_d9 a b))).map Arg.print) := by
  show "bne   ".toList ++ a.print ++ ", ".toList ++ b.print = instrText "bne".toList [a.print, b.print]
  simp [instrText, joinWith]

theorem display_Bne_Rj (a : IM) (b : Expr) (c : Expr) : Instr.print (Instr.Bne_Rj a b c) =
    instrText (row .Bne_Rj).name.toList ((List.zipWith writtenAs (kinds .Bne_Rj) (operands (Instr.Bne_Rj a b c))).map Arg.print) := by
  show "bne   ".toList ++ a.print ++ ", #".toList ++ b.print ++ ", ".toList ++ c.print = instrText "bne".toList [a.print, '#' :: b.print, c.print]
  simp [instrText, joinWith]

theorem display_Call (a : Expr) : Instr.print (Instr.Call a) =
    instrText (row .Call).name.toList ((List.zipWith writtenAs (kinds .Call) (operands (Instr.Call a))).map Arg.print) := by
  show "call  ".toList ++ a.print = instrText "call".toList [a.print]
  simp [instrText, joinWith]

theorem display_Callf (a : Expr) : Instr.print (Instr.Callf a) =
    instrText (row .Callf).name.toList ((List.zipWith writtenAs (kinds .Callf) (operands (Instr.Callf a))).map Arg.print) := by
  show "callf ".toList ++ a.print = instrText "callf".toList [a.print]
  simp [instrText, joinWith]

theorem display_Callr (a : Expr) : Instr.print (Instr.Callr a) =
    instrText (row .Callr).name.toList ((List.zipWith writtenAs (kinds .Callr) (operands (Instr.Callr a))).map Arg.print) := by
  show "callr ".toList ++ a.print = instrText "callr".toList [a.print]
  simp [instrText, joinWith]

theorem display_Ret  : Instr.print Instr.Ret =
    instrText (row .Ret).name.toList ((List.zipWith writtenAs (kinds .Ret) (operands Instr.Ret)).map Arg.print) := by
  show "ret".toList = instrText "ret".toList []
  simp [instrText, joinWith]

theorem display_Reti  : Instr.print Instr.Reti =
    instrText (row .Reti).name.toList ((List.zipWith writtenAs (kinds .Reti) (operands Instr.Reti)).map Arg.print) := by
  show "reti".toList = instrText "reti".toList []
  simp [instrText, joinWith]

theorem display_Clr1 (a : Expr) (b : Expr) : Instr.print (Instr.Clr1 a b) =
    instrText (row .Clr1).name.toList ((List.zipWith writtenAs (kinds .Clr1) (operands (Instr.Clr1 a b))).map Arg.print) := by
  show "clr1  ".toList ++ a.print ++ ", ".toList ++ b.print = instrText "clr1".toList [a.print, b.print]
  simp [instrText, joinWith]

theorem display_Set1 (a : Expr) (b : Expr) : Instr.print (Instr.Set1 a b) =
    instrText (row .Set1).name.toList ((List.zipWith writtenAs (kinds .Set1) (operands (Instr.Set1 a b))).map Arg.print) := by
  show "set1  ".toList ++ a.print ++ ", ".toList ++ b.print = instrText "set1".toList [a.print, b.print]
  simp [instrText, joinWith]

theorem display_Not1 (a : Expr) (b : Expr) : Instr.print (Instr.Not1 a b) =
    instrText (row .Not1).name.toList ((List.zipWith writtenAs (kinds .Not1) (operands (Instr.Not1 a b))).map Arg.print) := by
  show "not1  ".toList ++ a.print ++ ", ".toList ++ b.print = instrText "not1".toList [a.print, b.print]
  simp [instrText, joinWith]

theorem display_Nop  : Instr.print Instr.Nop =
    instrText (row .Nop).name.toList ((List.zipWith writtenAs (kinds .Nop) (operands Instr.Nop)).map Arg.print) := by
  show "nop".toList = instrText "nop".toList []
  simp [instrText, joinWith]

theorem display_Ldf  : Instr.print Instr.Ldf =
    instrText (row .Ldf).name.toList ((List.zipWith writtenAs (kinds .Ldf) (operands Instr.Ldf)).map Arg.print) := by
  show "ldf".toList = instrText "ldf".toList []
  simp [instrText, joinWith]

theorem display_Stf  : Instr.print Instr.Stf =
    instrText (row .Stf).name.toList ((List.zipWith writtenAs (kinds .Stf) (operands Instr.Stf)).map Arg.print) := by
  show "stf".toList = instrText "stf".toList []
  simp [instrText, joinWith]

theorem display_eq (i : Instr Expr IM) : i.print =
    instrText (row i.form).name.toList ((List.zipWith writtenAs (kinds i.form) (operands i)).map Arg.print) := by
  cases i with
  | Add_i8 a => exact display_Add_i8 a
  | Add_d9 a => exact display_Add_d9 a
  | Add_Ri a => exact display_Add_Ri a
  | Addc_i8 a => exact display_Addc_i8 a
  | Addc_d9 a => exact display_Addc_d9 a
  | Addc_Ri a => exact display_Addc_Ri a
  | Sub_i8 a => exact display_Sub_i8 a
  | Sub_d9 a => exact display_Sub_d9 a
  | Sub_Ri a => exact display_Sub_Ri a
  | Subc_i8 a => exact display_Subc_i8 a
  | Subc_d9 a => exact display_Subc_d9 a
  | Subc_Ri a => exact display_Subc_Ri a
  | Inc_d9 a => exact display_Inc_d9 a
  | Inc_Ri a => exact display_Inc_Ri a
  | Dec_d9 a => exact display_Dec_d9 a
  | Dec_Ri a => exact display_Dec_Ri a
  | Mul  => exact display_Mul 
  | Div  => exact display_Div 
  | And_i8 a => exact display_And_i8 a
  | And_d9 a => exact display_And_d9 a
  | And_Ri a => exact display_And_Ri a
  | Or_i8 a => exact display_Or_i8 a
  | Or_d9 a => exact display_Or_d9 a
  | Or_Ri a => exact display_Or_Ri a
  | Xor_i8 a => exact display_Xor_i8 a
  | Xor_d9 a => exact display_Xor_d9 a
  | Xor_Ri a => exact display_Xor_Ri a
  | Rol  => exact display_Rol 
  | Rolc  => exact display_Rolc 
  | Ror  => exact display_Ror 
  | Rorc  => exact display_Rorc 
  | Ld_d9 a => exact display_Ld_d9 a
  | Ld_Ri a => exact display_Ld_Ri a
  | St_d9 a => exact display_St_d9 a
  | St_Ri a => exact display_St_Ri a
  | Mov_d9 a b => exact display_Mov_d9 a b
  | Mov_Rj a b => exact display_Mov_Rj a b
  | Ldc  => exact display_Ldc 
  | Push a => exact display_Push a
  | Pop a => exact display_Pop a
  | Xch_d9 a => exact display_Xch_d9 a
  | Xch_Ri a => exact display_Xch_Ri a
  | Jmp a => exact display_Jmp a
  | Jmpf a => exact display_Jmpf a
  | Br a => exact display_Br a
  | Brf a => exact display_Brf a
  | Bz a => exact display_Bz a
  | Bnz a => exact display_Bnz a
  | Bp a b c => exact display_Bp a b c
  | Bpc a b c => exact display_Bpc a b c
  | Bn a b c => exact display_Bn a b c
  | Dbnz_d9 a b => exact display_Dbnz_d9 a b
  | Dbnz_Ri a b => exact display_Dbnz_Ri a b
  | Be_i8 a b => exact display_Be_i8 a b
  | Be_d9 a b => exact display_Be_d9 a b
  | Be_Rj a b c => exact display_Be_Rj a b c
  | Bne_i8 a b => exact display_Bne_i8 a b
  | Bne_d9 a b => exact display_Bne_d9 a b
  | Bne_Rj a b c => exact display_Bne_Rj a b c
  | Call a => exact display_Call a
  | Callf a => exact display_Callf a
  | Callr a => exact display_Callr a
  | Ret  => exact display_Ret 
  | Reti  => exact display_Reti 
  | Clr1 a b => exact display_Clr1 a b
  | Set1 a b => exact display_Set1 a b
  | Not1 a b => exact display_Not1 a b
  | Nop  => exact display_Nop 
  | Ldf  => exact display_Ldf 
  | Stf  => exact display_Stf 

end Verif
