import Verif.Model.Expr
import Verif.Model.Derive
/-
The instruction set (src/instruction.rs).  Transcribed from the source by tools/gen_instr.py:
the constructors, bit patterns, and the arms of `eval`, `decode_from_raw` and `Display` follow
the Rust text one for one.
-/
namespace Verif

/-- `enum Instr<Ex, IM>`, src/instruction.rs 71–236 -/
inductive Instr (Ex IM : Type) where
  | Add_i8 (a : Ex)
  | Add_d9 (a : Ex)
  | Add_Ri (a : IM)
  | Addc_i8 (a : Ex)
  | Addc_d9 (a : Ex)
  | Addc_Ri (a : IM)
  | Sub_i8 (a : Ex)
  | Sub_d9 (a : Ex)
  | Sub_Ri (a : IM)
  | Subc_i8 (a : Ex)
  | Subc_d9 (a : Ex)
  | Subc_Ri (a : IM)
  | Inc_d9 (a : Ex)
  | Inc_Ri (a : IM)
  | Dec_d9 (a : Ex)
  | Dec_Ri (a : IM)
  | Mul
  | Div
  | And_i8 (a : Ex)
  | And_d9 (a : Ex)
  | And_Ri (a : IM)
  | Or_i8 (a : Ex)
  | Or_d9 (a : Ex)
  | Or_Ri (a : IM)
  | Xor_i8 (a : Ex)
  | Xor_d9 (a : Ex)
  | Xor_Ri (a : IM)
  | Rol
  | Rolc
  | Ror
  | Rorc
  | Ld_d9 (a : Ex)
  | Ld_Ri (a : IM)
  | St_d9 (a : Ex)
  | St_Ri (a : IM)
  | Mov_d9 (a : Ex) (b : Ex)
  | Mov_Rj (a : Ex) (b : IM)
  | Ldc
  | Push (a : Ex)
  | Pop (a : Ex)
  | Xch_d9 (a : Ex)
  | Xch_Ri (a : IM)
  | Jmp (a : Ex)
  | Jmpf (a : Ex)
  | Br (a : Ex)
  | Brf (a : Ex)
  | Bz (a : Ex)
  | Bnz (a : Ex)
  | Bp (a : Ex) (b : Ex) (c : Ex)
  | Bpc (a : Ex) (b : Ex) (c : Ex)
  | Bn (a : Ex) (b : Ex) (c : Ex)
  | Dbnz_d9 (a : Ex) (b : Ex)
  | Dbnz_Ri (a : IM) (b : Ex)
  | Be_i8 (a : Ex) (b : Ex)
  | Be_d9 (a : Ex) (b : Ex)
  | Be_Rj (a : IM) (b : Ex) (c : Ex)
  | Bne_i8 (a : Ex) (b : Ex)
  | Bne_d9 (a : Ex) (b : Ex)
  | Bne_Rj (a : IM) (b : Ex) (c : Ex)
  | Call (a : Ex)
  | Callf (a : Ex)
  | Callr (a : Ex)
  | Ret
  | Reti
  | Clr1 (a : Ex) (b : Ex)
  | Set1 (a : Ex) (b : Ex)
  | Not1 (a : Ex) (b : Ex)
  | Nop
  | Ldf
  | Stf
  deriving DecidableEq, Repr

/-- The variants of `Instr` without their operands (the macro generates one match arm for each). -/
inductive Form where
  | Add_i8
  | Add_d9
  | Add_Ri
  | Addc_i8
  | Addc_d9
  | Addc_Ri
  | Sub_i8
  | Sub_d9
  | Sub_Ri
  | Subc_i8
  | Subc_d9
  | Subc_Ri
  | Inc_d9
  | Inc_Ri
  | Dec_d9
  | Dec_Ri
  | Mul
  | Div
  | And_i8
  | And_d9
  | And_Ri
  | Or_i8
  | Or_d9
  | Or_Ri
  | Xor_i8
  | Xor_d9
  | Xor_Ri
  | Rol
  | Rolc
  | Ror
  | Rorc
  | Ld_d9
  | Ld_Ri
  | St_d9
  | St_Ri
  | Mov_d9
  | Mov_Rj
  | Ldc
  | Push
  | Pop
  | Xch_d9
  | Xch_Ri
  | Jmp
  | Jmpf
  | Br
  | Brf
  | Bz
  | Bnz
  | Bp
  | Bpc
  | Bn
  | Dbnz_d9
  | Dbnz_Ri
  | Be_i8
  | Be_d9
  | Be_Rj
  | Bne_i8
  | Bne_d9
  | Bne_Rj
  | Call
  | Callf
  | Callr
  | Ret
  | Reti
  | Clr1
  | Set1
  | Not1
  | Nop
  | Ldf
  | Stf
  deriving DecidableEq, Repr

/-- All variants in declaration order. -/
def Form.all : List Form :=
  [.Add_i8, .Add_d9, .Add_Ri, .Addc_i8, .Addc_d9, .Addc_Ri, .Sub_i8, .Sub_d9,
   .Sub_Ri, .Subc_i8, .Subc_d9, .Subc_Ri, .Inc_d9, .Inc_Ri, .Dec_d9, .Dec_Ri,
   .Mul, .Div, .And_i8, .And_d9, .And_Ri, .Or_i8, .Or_d9, .Or_Ri,
   .Xor_i8, .Xor_d9, .Xor_Ri, .Rol, .Rolc, .Ror, .Rorc, .Ld_d9,
   .Ld_Ri, .St_d9, .St_Ri, .Mov_d9, .Mov_Rj, .Ldc, .Push, .Pop,
   .Xch_d9, .Xch_Ri, .Jmp, .Jmpf, .Br, .Brf, .Bz, .Bnz,
   .Bp, .Bpc, .Bn, .Dbnz_d9, .Dbnz_Ri, .Be_i8, .Be_d9, .Be_Rj,
   .Bne_i8, .Bne_d9, .Bne_Rj, .Call, .Callf, .Callr, .Ret, .Reti,
   .Clr1, .Set1, .Not1, .Nop, .Ldf, .Stf]

/-- The `#[instr = "..."]` attributes, src/instruction.rs 72–234 -/
def Form.pattern : Form → Text
  | .Add_i8 => "10000001 [a7][a6][a5][a4][a3][a2][a1][a0]".toList
  | .Add_d9 => "1000001[a8] [a7][a6][a5][a4][a3][a2][a1][a0]".toList
  | .Add_Ri => "100001[a1][a0]".toList
  | .Addc_i8 => "10010001 [a7][a6][a5][a4][a3][a2][a1][a0]".toList
  | .Addc_d9 => "1001001[a8] [a7][a6][a5][a4][a3][a2][a1][a0]".toList
  | .Addc_Ri => "100101[a1][a0]".toList
  | .Sub_i8 => "10100001 [a7][a6][a5][a4][a3][a2][a1][a0]".toList
  | .Sub_d9 => "1010001[a8] [a7][a6][a5][a4][a3][a2][a1][a0]".toList
  | .Sub_Ri => "101001[a1][a0]".toList
  | .Subc_i8 => "10110001 [a7][a6][a5][a4][a3][a2][a1][a0]".toList
  | .Subc_d9 => "1011001[a8] [a7][a6][a5][a4][a3][a2][a1][a0]".toList
  | .Subc_Ri => "101101[a1][a0]".toList
  | .Inc_d9 => "0110001[a8] [a7][a6][a5][a4][a3][a2][a1][a0]".toList
  | .Inc_Ri => "011001[a1][a0]".toList
  | .Dec_d9 => "0111001[a8] [a7][a6][a5][a4][a3][a2][a1][a0]".toList
  | .Dec_Ri => "011101[a1][a0]".toList
  | .Mul => "00110000".toList
  | .Div => "01000000".toList
  | .And_i8 => "11100001 [a7][a6][a5][a4][a3][a2][a1][a0]".toList
  | .And_d9 => "1110001[a8] [a7][a6][a5][a4][a3][a2][a1][a0]".toList
  | .And_Ri => "111001[a1][a0]".toList
  | .Or_i8 => "11010001 [a7][a6][a5][a4][a3][a2][a1][a0]".toList
  | .Or_d9 => "1101001[a8] [a7][a6][a5][a4][a3][a2][a1][a0]".toList
  | .Or_Ri => "110101[a1][a0]".toList
  | .Xor_i8 => "11110001 [a7][a6][a5][a4][a3][a2][a1][a0]".toList
  | .Xor_d9 => "1111001[a8] [a7][a6][a5][a4][a3][a2][a1][a0]".toList
  | .Xor_Ri => "111101[a1][a0]".toList
  | .Rol => "11100000".toList
  | .Rolc => "11110000".toList
  | .Ror => "11000000".toList
  | .Rorc => "11010000".toList
  | .Ld_d9 => "0000001[a8] [a7][a6][a5][a4][a3][a2][a1][a0]".toList
  | .Ld_Ri => "000001[a1][a0]".toList
  | .St_d9 => "0001001[a8] [a7][a6][a5][a4][a3][a2][a1][a0]".toList
  | .St_Ri => "000101[a1][a0]".toList
  | .Mov_d9 => "0010001[b8] [b7][b6][b5][b4][b3][b2][b1][b0] [a7][a6][a5][a4][a3][a2][a1][a0]".toList
  | .Mov_Rj => "001001[b1][b0] [a7][a6][a5][a4][a3][a2][a1][a0]".toList
  | .Ldc => "11000001".toList
  | .Push => "0110000[a8] [a7][a6][a5][a4][a3][a2][a1][a0]".toList
  | .Pop => "0111000[a8] [a7][a6][a5][a4][a3][a2][a1][a0]".toList
  | .Xch_d9 => "1100001[a8] [a7][a6][a5][a4][a3][a2][a1][a0]".toList
  | .Xch_Ri => "110001[a1][a0]".toList
  | .Jmp => "001[a11]1[a10][a9][a8] [a7][a6][a5][a4][a3][a2][a1][a0]".toList
  | .Jmpf => "00100001 [a15][a14][a13][a12][a11][a10][a9][a8] [a7][a6][a5][a4][a3][a2][a1][a0]".toList
  | .Br => "00000001 [a7][a6][a5][a4][a3][a2][a1][a0]".toList
  | .Brf => "00010001 [a7][a6][a5][a4][a3][a2][a1][a0] [a15][a14][a13][a12][a11][a10][a9][a8]".toList
  | .Bz => "10000000 [a7][a6][a5][a4][a3][a2][a1][a0]".toList
  | .Bnz => "10010000 [a7][a6][a5][a4][a3][a2][a1][a0]".toList
  | .Bp => "011[a8]1[b2][b1][b0] [a7][a6][a5][a4][a3][a2][a1][a0] [c7][c6][c5][c4][c3][c2][c1][c0]".toList
  | .Bpc => "010[a8]1[b2][b1][b0] [a7][a6][a5][a4][a3][a2][a1][a0] [c7][c6][c5][c4][c3][c2][c1][c0]".toList
  | .Bn => "100[a8]1[b2][b1][b0] [a7][a6][a5][a4][a3][a2][a1][a0] [c7][c6][c5][c4][c3][c2][c1][c0]".toList
  | .Dbnz_d9 => "0101001[a8] [a7][a6][a5][a4][a3][a2][a1][a0] [b7][b6][b5][b4][b3][b2][b1][b0]".toList
  | .Dbnz_Ri => "010101[a1][a0] [b7][b6][b5][b4][b3][b2][b1][b0]".toList
  | .Be_i8 => "00110001 [a7][a6][a5][a4][a3][a2][a1][a0] [b7][b6][b5][b4][b3][b2][b1][b0]".toList
  | .Be_d9 => "0011001[a8] [a7][a6][a5][a4][a3][a2][a1][a0] [b7][b6][b5][b4][b3][b2][b1][b0]".toList
  | .Be_Rj => "001101[a1][a0] [b7][b6][b5][b4][b3][b2][b1][b0] [c7][c6][c5][c4][c3][c2][c1][c0]".toList
  | .Bne_i8 => "01000001 [a7][a6][a5][a4][a3][a2][a1][a0] [b7][b6][b5][b4][b3][b2][b1][b0]".toList
  | .Bne_d9 => "0100001[a8] [a7][a6][a5][a4][a3][a2][a1][a0] [b7][b6][b5][b4][b3][b2][b1][b0]".toList
  | .Bne_Rj => "010001[a1][a0] [b7][b6][b5][b4][b3][b2][b1][b0] [c7][c6][c5][c4][c3][c2][c1][c0]".toList
  | .Call => "000[a11]1[a10][a9][a8] [a7][a6][a5][a4][a3][a2][a1][a0]".toList
  | .Callf => "00100000 [a15][a14][a13][a12][a11][a10][a9][a8] [a7][a6][a5][a4][a3][a2][a1][a0]".toList
  | .Callr => "00010000 [a7][a6][a5][a4][a3][a2][a1][a0] [a15][a14][a13][a12][a11][a10][a9][a8]".toList
  | .Ret => "10100000".toList
  | .Reti => "10110000".toList
  | .Clr1 => "110[a8]1[b2][b1][b0] [a7][a6][a5][a4][a3][a2][a1][a0]".toList
  | .Set1 => "111[a8]1[b2][b1][b0] [a7][a6][a5][a4][a3][a2][a1][a0]".toList
  | .Not1 => "101[a8]1[b2][b1][b0] [a7][a6][a5][a4][a3][a2][a1][a0]".toList
  | .Nop => "00000000".toList
  | .Ldf => "01010000".toList
  | .Stf => "01010001".toList

/-- The variant's identifier in the source; `exists` uses the part before the underscore. -/
def Form.ident : Form → Text
  | .Add_i8 => "Add_i8".toList
  | .Add_d9 => "Add_d9".toList
  | .Add_Ri => "Add_Ri".toList
  | .Addc_i8 => "Addc_i8".toList
  | .Addc_d9 => "Addc_d9".toList
  | .Addc_Ri => "Addc_Ri".toList
  | .Sub_i8 => "Sub_i8".toList
  | .Sub_d9 => "Sub_d9".toList
  | .Sub_Ri => "Sub_Ri".toList
  | .Subc_i8 => "Subc_i8".toList
  | .Subc_d9 => "Subc_d9".toList
  | .Subc_Ri => "Subc_Ri".toList
  | .Inc_d9 => "Inc_d9".toList
  | .Inc_Ri => "Inc_Ri".toList
  | .Dec_d9 => "Dec_d9".toList
  | .Dec_Ri => "Dec_Ri".toList
  | .Mul => "Mul".toList
  | .Div => "Div".toList
  | .And_i8 => "And_i8".toList
  | .And_d9 => "And_d9".toList
  | .And_Ri => "And_Ri".toList
  | .Or_i8 => "Or_i8".toList
  | .Or_d9 => "Or_d9".toList
  | .Or_Ri => "Or_Ri".toList
  | .Xor_i8 => "Xor_i8".toList
  | .Xor_d9 => "Xor_d9".toList
  | .Xor_Ri => "Xor_Ri".toList
  | .Rol => "Rol".toList
  | .Rolc => "Rolc".toList
  | .Ror => "Ror".toList
  | .Rorc => "Rorc".toList
  | .Ld_d9 => "Ld_d9".toList
  | .Ld_Ri => "Ld_Ri".toList
  | .St_d9 => "St_d9".toList
  | .St_Ri => "St_Ri".toList
  | .Mov_d9 => "Mov_d9".toList
  | .Mov_Rj => "Mov_Rj".toList
  | .Ldc => "Ldc".toList
  | .Push => "Push".toList
  | .Pop => "Pop".toList
  | .Xch_d9 => "Xch_d9".toList
  | .Xch_Ri => "Xch_Ri".toList
  | .Jmp => "Jmp".toList
  | .Jmpf => "Jmpf".toList
  | .Br => "Br".toList
  | .Brf => "Brf".toList
  | .Bz => "Bz".toList
  | .Bnz => "Bnz".toList
  | .Bp => "Bp".toList
  | .Bpc => "Bpc".toList
  | .Bn => "Bn".toList
  | .Dbnz_d9 => "Dbnz_d9".toList
  | .Dbnz_Ri => "Dbnz_Ri".toList
  | .Be_i8 => "Be_i8".toList
  | .Be_d9 => "Be_d9".toList
  | .Be_Rj => "Be_Rj".toList
  | .Bne_i8 => "Bne_i8".toList
  | .Bne_d9 => "Bne_d9".toList
  | .Bne_Rj => "Bne_Rj".toList
  | .Call => "Call".toList
  | .Callf => "Callf".toList
  | .Callr => "Callr".toList
  | .Ret => "Ret".toList
  | .Reti => "Reti".toList
  | .Clr1 => "Clr1".toList
  | .Set1 => "Set1".toList
  | .Not1 => "Not1".toList
  | .Nop => "Nop".toList
  | .Ldf => "Ldf".toList
  | .Stf => "Stf".toList

/-- The types of the variant's fields: `true` for `Ex`, `false` for `IM`. -/
def Form.fields : Form → List Bool
  | .Add_i8 => [true]
  | .Add_d9 => [true]
  | .Add_Ri => [false]
  | .Addc_i8 => [true]
  | .Addc_d9 => [true]
  | .Addc_Ri => [false]
  | .Sub_i8 => [true]
  | .Sub_d9 => [true]
  | .Sub_Ri => [false]
  | .Subc_i8 => [true]
  | .Subc_d9 => [true]
  | .Subc_Ri => [false]
  | .Inc_d9 => [true]
  | .Inc_Ri => [false]
  | .Dec_d9 => [true]
  | .Dec_Ri => [false]
  | .Mul => []
  | .Div => []
  | .And_i8 => [true]
  | .And_d9 => [true]
  | .And_Ri => [false]
  | .Or_i8 => [true]
  | .Or_d9 => [true]
  | .Or_Ri => [false]
  | .Xor_i8 => [true]
  | .Xor_d9 => [true]
  | .Xor_Ri => [false]
  | .Rol => []
  | .Rolc => []
  | .Ror => []
  | .Rorc => []
  | .Ld_d9 => [true]
  | .Ld_Ri => [false]
  | .St_d9 => [true]
  | .St_Ri => [false]
  | .Mov_d9 => [true, true]
  | .Mov_Rj => [true, false]
  | .Ldc => []
  | .Push => [true]
  | .Pop => [true]
  | .Xch_d9 => [true]
  | .Xch_Ri => [false]
  | .Jmp => [true]
  | .Jmpf => [true]
  | .Br => [true]
  | .Brf => [true]
  | .Bz => [true]
  | .Bnz => [true]
  | .Bp => [true, true, true]
  | .Bpc => [true, true, true]
  | .Bn => [true, true, true]
  | .Dbnz_d9 => [true, true]
  | .Dbnz_Ri => [false, true]
  | .Be_i8 => [true, true]
  | .Be_d9 => [true, true]
  | .Be_Rj => [false, true, true]
  | .Bne_i8 => [true, true]
  | .Bne_d9 => [true, true]
  | .Bne_Rj => [false, true, true]
  | .Call => [true]
  | .Callf => [true]
  | .Callr => [true]
  | .Ret => []
  | .Reti => []
  | .Clr1 => [true, true]
  | .Set1 => [true, true]
  | .Not1 => [true, true]
  | .Nop => []
  | .Ldf => []
  | .Stf => []

/-- Which match arm an instruction takes. -/
def Instr.form {Ex IM : Type} : Instr Ex IM → Form
  | .Add_i8 _ => .Add_i8
  | .Add_d9 _ => .Add_d9
  | .Add_Ri _ => .Add_Ri
  | .Addc_i8 _ => .Addc_i8
  | .Addc_d9 _ => .Addc_d9
  | .Addc_Ri _ => .Addc_Ri
  | .Sub_i8 _ => .Sub_i8
  | .Sub_d9 _ => .Sub_d9
  | .Sub_Ri _ => .Sub_Ri
  | .Subc_i8 _ => .Subc_i8
  | .Subc_d9 _ => .Subc_d9
  | .Subc_Ri _ => .Subc_Ri
  | .Inc_d9 _ => .Inc_d9
  | .Inc_Ri _ => .Inc_Ri
  | .Dec_d9 _ => .Dec_d9
  | .Dec_Ri _ => .Dec_Ri
  | .Mul => .Mul
  | .Div => .Div
  | .And_i8 _ => .And_i8
  | .And_d9 _ => .And_d9
  | .And_Ri _ => .And_Ri
  | .Or_i8 _ => .Or_i8
  | .Or_d9 _ => .Or_d9
  | .Or_Ri _ => .Or_Ri
  | .Xor_i8 _ => .Xor_i8
  | .Xor_d9 _ => .Xor_d9
  | .Xor_Ri _ => .Xor_Ri
  | .Rol => .Rol
  | .Rolc => .Rolc
  | .Ror => .Ror
  | .Rorc => .Rorc
  | .Ld_d9 _ => .Ld_d9
  | .Ld_Ri _ => .Ld_Ri
  | .St_d9 _ => .St_d9
  | .St_Ri _ => .St_Ri
  | .Mov_d9 _ _ => .Mov_d9
  | .Mov_Rj _ _ => .Mov_Rj
  | .Ldc => .Ldc
  | .Push _ => .Push
  | .Pop _ => .Pop
  | .Xch_d9 _ => .Xch_d9
  | .Xch_Ri _ => .Xch_Ri
  | .Jmp _ => .Jmp
  | .Jmpf _ => .Jmpf
  | .Br _ => .Br
  | .Brf _ => .Brf
  | .Bz _ => .Bz
  | .Bnz _ => .Bnz
  | .Bp _ _ _ => .Bp
  | .Bpc _ _ _ => .Bpc
  | .Bn _ _ _ => .Bn
  | .Dbnz_d9 _ _ => .Dbnz_d9
  | .Dbnz_Ri _ _ => .Dbnz_Ri
  | .Be_i8 _ _ => .Be_i8
  | .Be_d9 _ _ => .Be_d9
  | .Be_Rj _ _ _ => .Be_Rj
  | .Bne_i8 _ _ => .Bne_i8
  | .Bne_d9 _ _ => .Bne_d9
  | .Bne_Rj _ _ _ => .Bne_Rj
  | .Call _ => .Call
  | .Callf _ => .Callf
  | .Callr _ => .Callr
  | .Ret => .Ret
  | .Reti => .Reti
  | .Clr1 _ _ => .Clr1
  | .Set1 _ _ => .Set1
  | .Not1 _ _ => .Not1
  | .Nop => .Nop
  | .Ldf => .Ldf
  | .Stf => .Stf

/-- The operands of an evaluated instruction in order, as the generated code names them `a`, `b`,
`c`; `u8` operands are numbers like the others. -/
def Instr.vals : Instr Int Nat → List Int
  | .Add_i8 a => [a]
  | .Add_d9 a => [a]
  | .Add_Ri a => [(a : Int)]
  | .Addc_i8 a => [a]
  | .Addc_d9 a => [a]
  | .Addc_Ri a => [(a : Int)]
  | .Sub_i8 a => [a]
  | .Sub_d9 a => [a]
  | .Sub_Ri a => [(a : Int)]
  | .Subc_i8 a => [a]
  | .Subc_d9 a => [a]
  | .Subc_Ri a => [(a : Int)]
  | .Inc_d9 a => [a]
  | .Inc_Ri a => [(a : Int)]
  | .Dec_d9 a => [a]
  | .Dec_Ri a => [(a : Int)]
  | .Mul => []
  | .Div => []
  | .And_i8 a => [a]
  | .And_d9 a => [a]
  | .And_Ri a => [(a : Int)]
  | .Or_i8 a => [a]
  | .Or_d9 a => [a]
  | .Or_Ri a => [(a : Int)]
  | .Xor_i8 a => [a]
  | .Xor_d9 a => [a]
  | .Xor_Ri a => [(a : Int)]
  | .Rol => []
  | .Rolc => []
  | .Ror => []
  | .Rorc => []
  | .Ld_d9 a => [a]
  | .Ld_Ri a => [(a : Int)]
  | .St_d9 a => [a]
  | .St_Ri a => [(a : Int)]
  | .Mov_d9 a b => [a, b]
  | .Mov_Rj a b => [a, (b : Int)]
  | .Ldc => []
  | .Push a => [a]
  | .Pop a => [a]
  | .Xch_d9 a => [a]
  | .Xch_Ri a => [(a : Int)]
  | .Jmp a => [a]
  | .Jmpf a => [a]
  | .Br a => [a]
  | .Brf a => [a]
  | .Bz a => [a]
  | .Bnz a => [a]
  | .Bp a b c => [a, b, c]
  | .Bpc a b c => [a, b, c]
  | .Bn a b c => [a, b, c]
  | .Dbnz_d9 a b => [a, b]
  | .Dbnz_Ri a b => [(a : Int), b]
  | .Be_i8 a b => [a, b]
  | .Be_d9 a b => [a, b]
  | .Be_Rj a b c => [(a : Int), b, c]
  | .Bne_i8 a b => [a, b]
  | .Bne_d9 a b => [a, b]
  | .Bne_Rj a b c => [(a : Int), b, c]
  | .Call a => [a]
  | .Callf a => [a]
  | .Callr a => [a]
  | .Ret => []
  | .Reti => []
  | .Clr1 a b => [a, b]
  | .Set1 a b => [a, b]
  | .Not1 a b => [a, b]
  | .Nop => []
  | .Ldf => []
  | .Stf => []

/-- Applying a variant to extracted operands: `as i32` for `Ex`, `as u8` for `IM`
(waterbear-instruction-derive/src/lib.rs 78–97).  `none` if the number of operands is wrong. -/
def Form.build : Form → List Nat → Option (Instr Int Nat)
  | .Add_i8, [a] => some (.Add_i8 (wrap32 a))
  | .Add_d9, [a] => some (.Add_d9 (wrap32 a))
  | .Add_Ri, [a] => some (.Add_Ri (a % 256))
  | .Addc_i8, [a] => some (.Addc_i8 (wrap32 a))
  | .Addc_d9, [a] => some (.Addc_d9 (wrap32 a))
  | .Addc_Ri, [a] => some (.Addc_Ri (a % 256))
  | .Sub_i8, [a] => some (.Sub_i8 (wrap32 a))
  | .Sub_d9, [a] => some (.Sub_d9 (wrap32 a))
  | .Sub_Ri, [a] => some (.Sub_Ri (a % 256))
  | .Subc_i8, [a] => some (.Subc_i8 (wrap32 a))
  | .Subc_d9, [a] => some (.Subc_d9 (wrap32 a))
  | .Subc_Ri, [a] => some (.Subc_Ri (a % 256))
  | .Inc_d9, [a] => some (.Inc_d9 (wrap32 a))
  | .Inc_Ri, [a] => some (.Inc_Ri (a % 256))
  | .Dec_d9, [a] => some (.Dec_d9 (wrap32 a))
  | .Dec_Ri, [a] => some (.Dec_Ri (a % 256))
  | .Mul, [] => some .Mul
  | .Div, [] => some .Div
  | .And_i8, [a] => some (.And_i8 (wrap32 a))
  | .And_d9, [a] => some (.And_d9 (wrap32 a))
  | .And_Ri, [a] => some (.And_Ri (a % 256))
  | .Or_i8, [a] => some (.Or_i8 (wrap32 a))
  | .Or_d9, [a] => some (.Or_d9 (wrap32 a))
  | .Or_Ri, [a] => some (.Or_Ri (a % 256))
  | .Xor_i8, [a] => some (.Xor_i8 (wrap32 a))
  | .Xor_d9, [a] => some (.Xor_d9 (wrap32 a))
  | .Xor_Ri, [a] => some (.Xor_Ri (a % 256))
  | .Rol, [] => some .Rol
  | .Rolc, [] => some .Rolc
  | .Ror, [] => some .Ror
  | .Rorc, [] => some .Rorc
  | .Ld_d9, [a] => some (.Ld_d9 (wrap32 a))
  | .Ld_Ri, [a] => some (.Ld_Ri (a % 256))
  | .St_d9, [a] => some (.St_d9 (wrap32 a))
  | .St_Ri, [a] => some (.St_Ri (a % 256))
  | .Mov_d9, [a, b] => some (.Mov_d9 (wrap32 a) (wrap32 b))
  | .Mov_Rj, [a, b] => some (.Mov_Rj (wrap32 a) (b % 256))
  | .Ldc, [] => some .Ldc
  | .Push, [a] => some (.Push (wrap32 a))
  | .Pop, [a] => some (.Pop (wrap32 a))
  | .Xch_d9, [a] => some (.Xch_d9 (wrap32 a))
  | .Xch_Ri, [a] => some (.Xch_Ri (a % 256))
  | .Jmp, [a] => some (.Jmp (wrap32 a))
  | .Jmpf, [a] => some (.Jmpf (wrap32 a))
  | .Br, [a] => some (.Br (wrap32 a))
  | .Brf, [a] => some (.Brf (wrap32 a))
  | .Bz, [a] => some (.Bz (wrap32 a))
  | .Bnz, [a] => some (.Bnz (wrap32 a))
  | .Bp, [a, b, c] => some (.Bp (wrap32 a) (wrap32 b) (wrap32 c))
  | .Bpc, [a, b, c] => some (.Bpc (wrap32 a) (wrap32 b) (wrap32 c))
  | .Bn, [a, b, c] => some (.Bn (wrap32 a) (wrap32 b) (wrap32 c))
  | .Dbnz_d9, [a, b] => some (.Dbnz_d9 (wrap32 a) (wrap32 b))
  | .Dbnz_Ri, [a, b] => some (.Dbnz_Ri (a % 256) (wrap32 b))
  | .Be_i8, [a, b] => some (.Be_i8 (wrap32 a) (wrap32 b))
  | .Be_d9, [a, b] => some (.Be_d9 (wrap32 a) (wrap32 b))
  | .Be_Rj, [a, b, c] => some (.Be_Rj (a % 256) (wrap32 b) (wrap32 c))
  | .Bne_i8, [a, b] => some (.Bne_i8 (wrap32 a) (wrap32 b))
  | .Bne_d9, [a, b] => some (.Bne_d9 (wrap32 a) (wrap32 b))
  | .Bne_Rj, [a, b, c] => some (.Bne_Rj (a % 256) (wrap32 b) (wrap32 c))
  | .Call, [a] => some (.Call (wrap32 a))
  | .Callf, [a] => some (.Callf (wrap32 a))
  | .Callr, [a] => some (.Callr (wrap32 a))
  | .Ret, [] => some .Ret
  | .Reti, [] => some .Reti
  | .Clr1, [a, b] => some (.Clr1 (wrap32 a) (wrap32 b))
  | .Set1, [a, b] => some (.Set1 (wrap32 a) (wrap32 b))
  | .Not1, [a, b] => some (.Not1 (wrap32 a) (wrap32 b))
  | .Nop, [] => some .Nop
  | .Ldf, [] => some .Ldf
  | .Stf, [] => some .Stf
  | _, _ => none

/-- `exists` (waterbear-instruction-derive/src/lib.rs 121–152): the lower-cased part of a variant's
identifier before the first underscore. -/
def Form.mnemonic (f : Form) : Text := lower (f.ident.takeWhile (· ≠ '_'))

/-- Instr::exists, waterbear-instruction-derive/src/lib.rs 146–152 -/
def instrExists (name : Text) : Bool := Form.all.any fun f => f.mnemonic = name

/-- The parsed bit pattern of a variant; `[]` stands for a compile-time panic of the macro, which
`Form.ranges_ok` in the lemmas excludes. -/
def Form.ranges (f : Form) : List (List Derive.BitRange) :=
  (Derive.parseBitPattern f.pattern).getD []

/-- The names `a`, `b`, `c`, ... given to operands (waterbear-instruction-derive/src/lib.rs 582–612) -/
def operandNames (n : Nat) : List Char := ['a', 'b', 'c'].take n

/-- The operands by name, `as u32`. -/
def operandEnv (vals : List Int) (name : Char) : Nat :=
  match ((operandNames vals.length).zip vals).lookup name with
  | some v => toU32 v
  | none => 0

/-- Instr::size, waterbear-instruction-derive/src/lib.rs 103–119 and 140–144 -/
def Instr.size {Ex IM : Type} (i : Instr Ex IM) : Nat := i.form.ranges.length

/-- Instr::encode, waterbear-instruction-derive/src/lib.rs 37–62 and 156–160 -/
def Instr.encode (i : Instr Int Nat) : List UInt8 :=
  Derive.encodeRanges (operandEnv i.vals) i.form.ranges

/-- The match arm of one variant in decode_raw: pattern and guard,
waterbear-instruction-derive/src/lib.rs 88–98 -/
def Form.matches (f : Form) (bytes : List UInt8) (b0 : UInt8) : Bool :=
  (Derive.allPossibleOpcodes (f.ranges.headD [])).contains b0.toNat
    && (f.fields.isEmpty || bytes.length ≥ f.ranges.length)

/-- decode_raw, waterbear-instruction-derive/src/lib.rs 66–101 and 162–167: `bytes[0]` panics on an
empty slice; the first matching arm wins. -/
def decodeRaw (bytes : List UInt8) : Res (Option (Instr Int Nat)) :=
  match bytes with
  | [] => .panic
  | b0 :: _ =>
    match Form.all.find? (fun f => f.matches bytes b0) with
    | some f => .ok (f.build ((operandNames f.fields.length).map (Derive.extract f.ranges bytes)))
    | none => .ok none

/-- decode_from_raw's rel16, src/instruction.rs 541–547: `rel as u16` read as `i16` -/
def rawRel16 (rel : Int) : Int :=
  if rel % 65536 < 32768 then rel % 65536 else rel % 65536 - 65536

/-- decode_from_raw's rel8, src/instruction.rs 549–555: `rel as u8` read as `i8` -/
def rawRel8 (rel : Int) : Int :=
  if rel % 256 < 128 then rel % 256 else rel % 256 - 256

/-- decode_from_raw, src/instruction.rs 540–652 -/
def decodeFromRaw : Instr Int Nat → Instr Int Nat
  | .Add_i8 a => .Add_i8 a
  | .Add_d9 a => .Add_d9 a
  | .Add_Ri a => .Add_Ri a
  | .Addc_i8 a => .Addc_i8 a
  | .Addc_d9 a => .Addc_d9 a
  | .Addc_Ri a => .Addc_Ri a
  | .Sub_i8 a => .Sub_i8 a
  | .Sub_d9 a => .Sub_d9 a
  | .Sub_Ri a => .Sub_Ri a
  | .Subc_i8 a => .Subc_i8 a
  | .Subc_d9 a => .Subc_d9 a
  | .Subc_Ri a => .Subc_Ri a
  | .Inc_d9 a => .Inc_d9 a
  | .Inc_Ri a => .Inc_Ri a
  | .Dec_d9 a => .Dec_d9 a
  | .Dec_Ri a => .Dec_Ri a
  | .Mul => .Mul
  | .Div => .Div
  | .And_i8 a => .And_i8 a
  | .And_d9 a => .And_d9 a
  | .And_Ri a => .And_Ri a
  | .Or_i8 a => .Or_i8 a
  | .Or_d9 a => .Or_d9 a
  | .Or_Ri a => .Or_Ri a
  | .Xor_i8 a => .Xor_i8 a
  | .Xor_d9 a => .Xor_d9 a
  | .Xor_Ri a => .Xor_Ri a
  | .Rol => .Rol
  | .Rolc => .Rolc
  | .Ror => .Ror
  | .Rorc => .Rorc
  | .Ld_d9 a => .Ld_d9 a
  | .Ld_Ri a => .Ld_Ri a
  | .St_d9 a => .St_d9 a
  | .St_Ri a => .St_Ri a
  | .Mov_d9 a b => .Mov_d9 a b
  | .Mov_Rj a b => .Mov_Rj a b
  | .Ldc => .Ldc
  | .Push a => .Push a
  | .Pop a => .Pop a
  | .Xch_d9 a => .Xch_d9 a
  | .Xch_Ri a => .Xch_Ri a
  | .Jmp a => .Jmp a
  | .Jmpf a => .Jmpf a
  | .Br a => .Br (rawRel8 a)
  | .Brf a => .Brf (rawRel16 a)
  | .Bz a => .Bz (rawRel8 a)
  | .Bnz a => .Bnz (rawRel8 a)
  | .Bp a b c => .Bp a b (rawRel8 c)
  | .Bpc a b c => .Bpc a b (rawRel8 c)
  | .Bn a b c => .Bn a b (rawRel8 c)
  | .Dbnz_d9 a b => .Dbnz_d9 a (rawRel8 b)
  | .Dbnz_Ri a b => .Dbnz_Ri a (rawRel8 b)
  | .Be_i8 a b => .Be_i8 a (rawRel8 b)
  | .Be_d9 a b => .Be_d9 a (rawRel8 b)
  | .Be_Rj a b c => .Be_Rj a b (rawRel8 c)
  | .Bne_i8 a b => .Bne_i8 a (rawRel8 b)
  | .Bne_d9 a b => .Bne_d9 a (rawRel8 b)
  | .Bne_Rj a b c => .Bne_Rj a b (rawRel8 c)
  | .Call a => .Call a
  | .Callf a => .Callf a
  | .Callr a => .Callr (rawRel16 a)
  | .Ret => .Ret
  | .Reti => .Reti
  | .Clr1 a b => .Clr1 a b
  | .Set1 a b => .Set1 a b
  | .Not1 a b => .Not1 a b
  | .Nop => .Nop
  | .Ldf => .Ldf
  | .Stf => .Stf

/-- Instr::decode, src/instruction.rs 238–242 -/
def decode (bytes : List UInt8) : Res (Option (Instr Int Nat)) := do
  let raw ← decodeRaw bytes
  .ok (raw.map decodeFromRaw)

/-- eval, src/instruction.rs 348–355 -/
def evalBits (m : Mode) (env : Env) (bits : Nat) (e : Expr) : Res Int := do
  let value ← e.eval m env
  if value >>> bits ≠ 0 then .err (.numOutOfRange bits value) else .ok value

/-- rel8, src/instruction.rs 373–385; `pos as i32` truncates. -/
def evalRel8 (m : Mode) (env : Env) (pos : Nat) (e : Expr) : Res Int := do
  let address ← e.eval m env
  if 0 ≤ address ∧ address ≤ 65535 then do
    let value ← m.norm (address - wrap32 pos)
    if -128 ≤ value ∧ value ≤ 127 then .ok value else .err (.signedNumOutOfRange 8 value)
  else .err (.invalidAddress address)

/-- eval12, src/instruction.rs 387–403; `addr` is in 0..65535, so `as usize` is harmless. -/
def evalAbs12 (m : Mode) (env : Env) (pos : Nat) (e : Expr) : Res Int := do
  let addr ← evalBits m env 16 e
  let valTop := addr.toNat &&& 0xF000
  let posTop := pos &&& 0xF000
  if valTop ≠ posTop then .err (.addrBitsDontMatch pos addr)
  else .ok ((addr.toNat &&& 0x0FFF : Nat) : Int)

/-- rel16, src/instruction.rs 405–417 -/
def evalRel16 (m : Mode) (env : Env) (pos : Nat) (e : Expr) : Res Int := do
  let address ← e.eval m env
  if 0 ≤ address ∧ address ≤ 65535 then do
    let d ← m.norm (address - wrap32 pos)
    let value ← m.norm (d + 1)
    if -32768 ≤ value ∧ value ≤ 32767 then .ok value else .err (.signedNumOutOfRange 16 value)
  else .err (.invalidAddress address)

/-- Instr::eval, src/instruction.rs 421–538, in the environment of the current scope (the three
environments of lines 423–425 differ only in the word used in messages); `pos` is the position of
the next instruction. -/
def Instr.evalIn (m : Mode) (env : Env) (pos : Nat) : Instr Expr IM → Res (Instr Int Nat)
  | .Add_i8 a => do
    let x0 ← evalBits m env 8 a
    .ok (.Add_i8 x0)
  | .Add_d9 a => do
    let x0 ← evalBits m env 9 a
    .ok (.Add_d9 x0)
  | .Add_Ri a => .ok (.Add_Ri a.index)
  | .Addc_i8 a => do
    let x0 ← evalBits m env 8 a
    .ok (.Addc_i8 x0)
  | .Addc_d9 a => do
    let x0 ← evalBits m env 9 a
    .ok (.Addc_d9 x0)
  | .Addc_Ri a => .ok (.Addc_Ri a.index)
  | .Sub_i8 a => do
    let x0 ← evalBits m env 8 a
    .ok (.Sub_i8 x0)
  | .Sub_d9 a => do
    let x0 ← evalBits m env 9 a
    .ok (.Sub_d9 x0)
  | .Sub_Ri a => .ok (.Sub_Ri a.index)
  | .Subc_i8 a => do
    let x0 ← evalBits m env 8 a
    .ok (.Subc_i8 x0)
  | .Subc_d9 a => do
    let x0 ← evalBits m env 9 a
    .ok (.Subc_d9 x0)
  | .Subc_Ri a => .ok (.Subc_Ri a.index)
  | .Inc_d9 a => do
    let x0 ← evalBits m env 9 a
    .ok (.Inc_d9 x0)
  | .Inc_Ri a => .ok (.Inc_Ri a.index)
  | .Dec_d9 a => do
    let x0 ← evalBits m env 9 a
    .ok (.Dec_d9 x0)
  | .Dec_Ri a => .ok (.Dec_Ri a.index)
  | .Mul => .ok .Mul
  | .Div => .ok .Div
  | .And_i8 a => do
    let x0 ← evalBits m env 8 a
    .ok (.And_i8 x0)
  | .And_d9 a => do
    let x0 ← evalBits m env 9 a
    .ok (.And_d9 x0)
  | .And_Ri a => .ok (.And_Ri a.index)
  | .Or_i8 a => do
    let x0 ← evalBits m env 8 a
    .ok (.Or_i8 x0)
  | .Or_d9 a => do
    let x0 ← evalBits m env 9 a
    .ok (.Or_d9 x0)
  | .Or_Ri a => .ok (.Or_Ri a.index)
  | .Xor_i8 a => do
    let x0 ← evalBits m env 8 a
    .ok (.Xor_i8 x0)
  | .Xor_d9 a => do
    let x0 ← evalBits m env 9 a
    .ok (.Xor_d9 x0)
  | .Xor_Ri a => .ok (.Xor_Ri a.index)
  | .Rol => .ok .Rol
  | .Rolc => .ok .Rolc
  | .Ror => .ok .Ror
  | .Rorc => .ok .Rorc
  | .Ld_d9 a => do
    let x0 ← evalBits m env 9 a
    .ok (.Ld_d9 x0)
  | .Ld_Ri a => .ok (.Ld_Ri a.index)
  | .St_d9 a => do
    let x0 ← evalBits m env 9 a
    .ok (.St_d9 x0)
  | .St_Ri a => .ok (.St_Ri a.index)
  | .Mov_d9 a b => do
    let x0 ← evalBits m env 8 a
    let x1 ← evalBits m env 9 b
    .ok (.Mov_d9 x0 x1)
  | .Mov_Rj a b => do
    let x0 ← evalBits m env 8 a
    .ok (.Mov_Rj x0 b.index)
  | .Ldc => .ok .Ldc
  | .Push a => do
    let x0 ← evalBits m env 9 a
    .ok (.Push x0)
  | .Pop a => do
    let x0 ← evalBits m env 9 a
    .ok (.Pop x0)
  | .Xch_d9 a => do
    let x0 ← evalBits m env 9 a
    .ok (.Xch_d9 x0)
  | .Xch_Ri a => .ok (.Xch_Ri a.index)
  | .Jmp a => do
    let x0 ← evalAbs12 m env pos a
    .ok (.Jmp x0)
  | .Jmpf a => do
    let x0 ← evalBits m env 16 a
    .ok (.Jmpf x0)
  | .Br a => do
    let x0 ← evalRel8 m env pos a
    .ok (.Br x0)
  | .Brf a => do
    let x0 ← evalRel16 m env pos a
    .ok (.Brf x0)
  | .Bz a => do
    let x0 ← evalRel8 m env pos a
    .ok (.Bz x0)
  | .Bnz a => do
    let x0 ← evalRel8 m env pos a
    .ok (.Bnz x0)
  | .Bp a b c => do
    let x0 ← evalBits m env 9 a
    let x1 ← evalBits m env 3 b
    let x2 ← evalRel8 m env pos c
    .ok (.Bp x0 x1 x2)
  | .Bpc a b c => do
    let x0 ← evalBits m env 9 a
    let x1 ← evalBits m env 3 b
    let x2 ← evalRel8 m env pos c
    .ok (.Bpc x0 x1 x2)
  | .Bn a b c => do
    let x0 ← evalBits m env 9 a
    let x1 ← evalBits m env 3 b
    let x2 ← evalRel8 m env pos c
    .ok (.Bn x0 x1 x2)
  | .Dbnz_d9 a b => do
    let x0 ← evalBits m env 9 a
    let x1 ← evalRel8 m env pos b
    .ok (.Dbnz_d9 x0 x1)
  | .Dbnz_Ri a b => do
    let x1 ← evalRel8 m env pos b
    .ok (.Dbnz_Ri a.index x1)
  | .Be_i8 a b => do
    let x0 ← evalBits m env 8 a
    let x1 ← evalRel8 m env pos b
    .ok (.Be_i8 x0 x1)
  | .Be_d9 a b => do
    let x0 ← evalBits m env 9 a
    let x1 ← evalRel8 m env pos b
    .ok (.Be_d9 x0 x1)
  | .Be_Rj a b c => do
    let x1 ← evalBits m env 8 b
    let x2 ← evalRel8 m env pos c
    .ok (.Be_Rj a.index x1 x2)
  | .Bne_i8 a b => do
    let x0 ← evalBits m env 8 a
    let x1 ← evalRel8 m env pos b
    .ok (.Bne_i8 x0 x1)
  | .Bne_d9 a b => do
    let x0 ← evalBits m env 9 a
    let x1 ← evalRel8 m env pos b
    .ok (.Bne_d9 x0 x1)
  | .Bne_Rj a b c => do
    let x1 ← evalBits m env 8 b
    let x2 ← evalRel8 m env pos c
    .ok (.Bne_Rj a.index x1 x2)
  | .Call a => do
    let x0 ← evalAbs12 m env pos a
    .ok (.Call x0)
  | .Callf a => do
    let x0 ← evalBits m env 16 a
    .ok (.Callf x0)
  | .Callr a => do
    let x0 ← evalRel16 m env pos a
    .ok (.Callr x0)
  | .Ret => .ok .Ret
  | .Reti => .ok .Reti
  | .Clr1 a b => do
    let x0 ← evalBits m env 9 a
    let x1 ← evalBits m env 3 b
    .ok (.Clr1 x0 x1)
  | .Set1 a b => do
    let x0 ← evalBits m env 9 a
    let x1 ← evalBits m env 3 b
    .ok (.Set1 x0 x1)
  | .Not1 a b => do
    let x0 ← evalBits m env 9 a
    let x1 ← evalBits m env 3 b
    .ok (.Not1 x0 x1)
  | .Nop => .ok .Nop
  | .Ldf => .ok .Ldf
  | .Stf => .ok .Stf

/-- Instr::eval, src/instruction.rs 421–538, with the look-up of the scope (`as_env`, which panics
for an unknown one). -/
def Instr.eval (m : Mode) (names : Names) (label : Text) (pos : Nat) (i : Instr Expr IM) :
    Res (Instr Int Nat) := do
  let env ← names.asEnv label
  i.evalIn m env pos

/-- Display for Instr, src/instruction.rs 244–344; `sx` and `si` print expressions and indirection
modes. -/
def Instr.display {Ex IM : Type} (sx : Ex → Text) (si : IM → Text) : Instr Ex IM → Text
  | .Add_i8 a => "add   #".toList ++ sx a
  | .Add_d9 a => "add   ".toList ++ sx a
  | .Add_Ri a => "add   ".toList ++ si a
  | .Addc_i8 a => "addc  #".toList ++ sx a
  | .Addc_d9 a => "addc  ".toList ++ sx a
  | .Addc_Ri a => "addc  ".toList ++ si a
  | .Sub_i8 a => "sub   #".toList ++ sx a
  | .Sub_d9 a => "sub   ".toList ++ sx a
  | .Sub_Ri a => "sub   ".toList ++ si a
  | .Subc_i8 a => "subc  #".toList ++ sx a
  | .Subc_d9 a => "subc  ".toList ++ sx a
  | .Subc_Ri a => "subc  ".toList ++ si a
  | .Inc_d9 a => "inc   ".toList ++ sx a
  | .Inc_Ri a => "inc   ".toList ++ si a
  | .Dec_d9 a => "dec   ".toList ++ sx a
  | .Dec_Ri a => "dec   ".toList ++ si a
  | .Mul => "mul".toList
  | .Div => "div".toList
  | .And_i8 a => "and   #".toList ++ sx a
  | .And_d9 a => "and   ".toList ++ sx a
  | .And_Ri a => "and   ".toList ++ si a
  | .Or_i8 a => "or    #".toList ++ sx a
  | .Or_d9 a => "or    ".toList ++ sx a
  | .Or_Ri a => "or    ".toList ++ si a
  | .Xor_i8 a => "xor   #".toList ++ sx a
  | .Xor_d9 a => "xor   ".toList ++ sx a
  | .Xor_Ri a => "xor   ".toList ++ si a
  | .Rol => "rol".toList
  | .Rolc => "rolc".toList
  | .Ror => "ror".toList
  | .Rorc => "rorc".toList
  | .Ld_d9 a => "ld    ".toList ++ sx a
  | .Ld_Ri a => "ld    ".toList ++ si a
  | .St_d9 a => "st    ".toList ++ sx a
  | .St_Ri a => "st    ".toList ++ si a
  | .Mov_d9 a b => "mov   #".toList ++ sx a ++ ", ".toList ++ sx b
  | .Mov_Rj a b => "mov   #".toList ++ sx a ++ ", ".toList ++ si b
  | .Ldc => "ldc".toList
  | .Push a => "push  ".toList ++ sx a
  | .Pop a => "pop   ".toList ++ sx a
  | .Xch_d9 a => "xch   ".toList ++ sx a
  | .Xch_Ri a => "xch   ".toList ++ si a
  | .Jmp a => "jmp   ".toList ++ sx a
  | .Jmpf a => "jmpf  ".toList ++ sx a
  | .Br a => "br    ".toList ++ sx a
  | .Brf a => "brf   ".toList ++ sx a
  | .Bz a => "bz    ".toList ++ sx a
  | .Bnz a => "bnz   ".toList ++ sx a
  | .Bp a b c => "bp    ".toList ++ sx a ++ ", ".toList ++ sx b ++ ", ".toList ++ sx c
  | .Bpc a b c => "bpc   ".toList ++ sx a ++ ", ".toList ++ sx b ++ ", ".toList ++ sx c
  | .Bn a b c => "bn    ".toList ++ sx a ++ ", ".toList ++ sx b ++ ", ".toList ++ sx c
  | .Dbnz_d9 a b => "dbnz  ".toList ++ sx a ++ ", ".toList ++ sx b
  | .Dbnz_Ri a b => "dbnz  ".toList ++ si a ++ ", ".toList ++ sx b
  | .Be_i8 a b => "be    #".toList ++ sx a ++ ", ".toList ++ sx b
  | .Be_d9 a b => "be    ".toList ++ sx a ++ ", ".toList ++ sx b
  | .Be_Rj a b c => "be    ".toList ++ si a ++ ", #".toList ++ sx b ++ ", ".toList ++ sx c
  | .Bne_i8 a b => "bne   #".toList ++ sx a ++ ", ".toList ++ sx b
  | .Bne_d9 a b => "bne   ".toList ++ sx a ++ ", ".toList ++ sx b
  | .Bne_Rj a b c => "bne   ".toList ++ si a ++ ", #".toList ++ sx b ++ ", ".toList ++ sx c
  | .Call a => "call  ".toList ++ sx a
  | .Callf a => "callf ".toList ++ sx a
  | .Callr a => "callr ".toList ++ sx a
  | .Ret => "ret".toList
  | .Reti => "reti".toList
  | .Clr1 a b => "clr1  ".toList ++ sx a ++ ", ".toList ++ sx b
  | .Set1 a b => "set1  ".toList ++ sx a ++ ", ".toList ++ sx b
  | .Not1 a b => "not1  ".toList ++ sx a ++ ", ".toList ++ sx b
  | .Nop => "nop".toList
  | .Ldf => "ldf".toList
  | .Stf => "stf".toList

end Verif
