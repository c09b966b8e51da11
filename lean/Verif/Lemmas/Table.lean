import Verif.Model.Instr
/-
Helper: the parsed bit patterns, written out.  Generated; `Form.ranges_eq` checks it.
-/
namespace Verif

def Form.tbl : Form → List (List Derive.BitRange)
  | .Add_i8 => [[.lit 129 8], [.ref 'a' 7 0]]
  | .Add_d9 => [[.lit 65 7, .ref 'a' 8 8], [.ref 'a' 7 0]]
  | .Add_Ri => [[.lit 33 6, .ref 'a' 1 0]]
  | .Addc_i8 => [[.lit 145 8], [.ref 'a' 7 0]]
  | .Addc_d9 => [[.lit 73 7, .ref 'a' 8 8], [.ref 'a' 7 0]]
  | .Addc_Ri => [[.lit 37 6, .ref 'a' 1 0]]
  | .Sub_i8 => [[.lit 161 8], [.ref 'a' 7 0]]
  | .Sub_d9 => [[.lit 81 7, .ref 'a' 8 8], [.ref 'a' 7 0]]
  | .Sub_Ri => [[.lit 41 6, .ref 'a' 1 0]]
  | .Subc_i8 => [[.lit 177 8], [.ref 'a' 7 0]]
  | .Subc_d9 => [[.lit 89 7, .ref 'a' 8 8], [.ref 'a' 7 0]]
  | .Subc_Ri => [[.lit 45 6, .ref 'a' 1 0]]
  | .Inc_d9 => [[.lit 49 7, .ref 'a' 8 8], [.ref 'a' 7 0]]
  | .Inc_Ri => [[.lit 25 6, .ref 'a' 1 0]]
  | .Dec_d9 => [[.lit 57 7, .ref 'a' 8 8], [.ref 'a' 7 0]]
  | .Dec_Ri => [[.lit 29 6, .ref 'a' 1 0]]
  | .Mul => [[.lit 48 8]]
  | .Div => [[.lit 64 8]]
  | .And_i8 => [[.lit 225 8], [.ref 'a' 7 0]]
  | .And_d9 => [[.lit 113 7, .ref 'a' 8 8], [.ref 'a' 7 0]]
  | .And_Ri => [[.lit 57 6, .ref 'a' 1 0]]
  | .Or_i8 => [[.lit 209 8], [.ref 'a' 7 0]]
  | .Or_d9 => [[.lit 105 7, .ref 'a' 8 8], [.ref 'a' 7 0]]
  | .Or_Ri => [[.lit 53 6, .ref 'a' 1 0]]
  | .Xor_i8 => [[.lit 241 8], [.ref 'a' 7 0]]
  | .Xor_d9 => [[.lit 121 7, .ref 'a' 8 8], [.ref 'a' 7 0]]
  | .Xor_Ri => [[.lit 61 6, .ref 'a' 1 0]]
  | .Rol => [[.lit 224 8]]
  | .Rolc => [[.lit 240 8]]
  | .Ror => [[.lit 192 8]]
  | .Rorc => [[.lit 208 8]]
  | .Ld_d9 => [[.lit 1 7, .ref 'a' 8 8], [.ref 'a' 7 0]]
  | .Ld_Ri => [[.lit 1 6, .ref 'a' 1 0]]
  | .St_d9 => [[.lit 9 7, .ref 'a' 8 8], [.ref 'a' 7 0]]
  | .St_Ri => [[.lit 5 6, .ref 'a' 1 0]]
  | .Mov_d9 => [[.lit 17 7, .ref 'b' 8 8], [.ref 'b' 7 0], [.ref 'a' 7 0]]
  | .Mov_Rj => [[.lit 9 6, .ref 'b' 1 0], [.ref 'a' 7 0]]
  | .Ldc => [[.lit 193 8]]
  | .Push => [[.lit 48 7, .ref 'a' 8 8], [.ref 'a' 7 0]]
  | .Pop => [[.lit 56 7, .ref 'a' 8 8], [.ref 'a' 7 0]]
  | .Xch_d9 => [[.lit 97 7, .ref 'a' 8 8], [.ref 'a' 7 0]]
  | .Xch_Ri => [[.lit 49 6, .ref 'a' 1 0]]
  | .Jmp => [[.lit 1 3, .ref 'a' 11 11, .lit 1 1, .ref 'a' 10 8], [.ref 'a' 7 0]]
  | .Jmpf => [[.lit 33 8], [.ref 'a' 15 8], [.ref 'a' 7 0]]
  | .Br => [[.lit 1 8], [.ref 'a' 7 0]]
  | .Brf => [[.lit 17 8], [.ref 'a' 7 0], [.ref 'a' 15 8]]
  | .Bz => [[.lit 128 8], [.ref 'a' 7 0]]
  | .Bnz => [[.lit 144 8], [.ref 'a' 7 0]]
  | .Bp => [[.lit 3 3, .ref 'a' 8 8, .lit 1 1, .ref 'b' 2 0], [.ref 'a' 7 0], [.ref 'c' 7 0]]
  | .Bpc => [[.lit 2 3, .ref 'a' 8 8, .lit 1 1, .ref 'b' 2 0], [.ref 'a' 7 0], [.ref 'c' 7 0]]
  | .Bn => [[.lit 4 3, .ref 'a' 8 8, .lit 1 1, .ref 'b' 2 0], [.ref 'a' 7 0], [.ref 'c' 7 0]]
  | .Dbnz_d9 => [[.lit 41 7, .ref 'a' 8 8], [.ref 'a' 7 0], [.ref 'b' 7 0]]
  | .Dbnz_Ri => [[.lit 21 6, .ref 'a' 1 0], [.ref 'b' 7 0]]
  | .Be_i8 => [[.lit 49 8], [.ref 'a' 7 0], [.ref 'b' 7 0]]
  | .Be_d9 => [[.lit 25 7, .ref 'a' 8 8], [.ref 'a' 7 0], [.ref 'b' 7 0]]
  | .Be_Rj => [[.lit 13 6, .ref 'a' 1 0], [.ref 'b' 7 0], [.ref 'c' 7 0]]
  | .Bne_i8 => [[.lit 65 8], [.ref 'a' 7 0], [.ref 'b' 7 0]]
  | .Bne_d9 => [[.lit 33 7, .ref 'a' 8 8], [.ref 'a' 7 0], [.ref 'b' 7 0]]
  | .Bne_Rj => [[.lit 17 6, .ref 'a' 1 0], [.ref 'b' 7 0], [.ref 'c' 7 0]]
  | .Call => [[.lit 0 3, .ref 'a' 11 11, .lit 1 1, .ref 'a' 10 8], [.ref 'a' 7 0]]
  | .Callf => [[.lit 32 8], [.ref 'a' 15 8], [.ref 'a' 7 0]]
  | .Callr => [[.lit 16 8], [.ref 'a' 7 0], [.ref 'a' 15 8]]
  | .Ret => [[.lit 160 8]]
  | .Reti => [[.lit 176 8]]
  | .Clr1 => [[.lit 6 3, .ref 'a' 8 8, .lit 1 1, .ref 'b' 2 0], [.ref 'a' 7 0]]
  | .Set1 => [[.lit 7 3, .ref 'a' 8 8, .lit 1 1, .ref 'b' 2 0], [.ref 'a' 7 0]]
  | .Not1 => [[.lit 5 3, .ref 'a' 8 8, .lit 1 1, .ref 'b' 2 0], [.ref 'a' 7 0]]
  | .Nop => [[.lit 0 8]]
  | .Ldf => [[.lit 80 8]]
  | .Stf => [[.lit 81 8]]

theorem Form.parse_eq (f : Form) : Derive.parseBitPattern f.pattern = some f.tbl := by
  cases f <;> decide +kernel

theorem Form.ranges_eq (f : Form) : f.ranges = f.tbl := by
  unfold Form.ranges; rw [Form.parse_eq]; rfl

def Form.opTbl : Form → List Nat
  | .Add_i8 => [129]
  | .Add_d9 => [131, 130]
  | .Add_Ri => [135, 133, 134, 132]
  | .Addc_i8 => [145]
  | .Addc_d9 => [147, 146]
  | .Addc_Ri => [151, 149, 150, 148]
  | .Sub_i8 => [161]
  | .Sub_d9 => [163, 162]
  | .Sub_Ri => [167, 165, 166, 164]
  | .Subc_i8 => [177]
  | .Subc_d9 => [179, 178]
  | .Subc_Ri => [183, 181, 182, 180]
  | .Inc_d9 => [99, 98]
  | .Inc_Ri => [103, 101, 102, 100]
  | .Dec_d9 => [115, 114]
  | .Dec_Ri => [119, 117, 118, 116]
  | .Mul => [48]
  | .Div => [64]
  | .And_i8 => [225]
  | .And_d9 => [227, 226]
  | .And_Ri => [231, 229, 230, 228]
  | .Or_i8 => [209]
  | .Or_d9 => [211, 210]
  | .Or_Ri => [215, 213, 214, 212]
  | .Xor_i8 => [241]
  | .Xor_d9 => [243, 242]
  | .Xor_Ri => [247, 245, 246, 244]
  | .Rol => [224]
  | .Rolc => [240]
  | .Ror => [192]
  | .Rorc => [208]
  | .Ld_d9 => [3, 2]
  | .Ld_Ri => [7, 5, 6, 4]
  | .St_d9 => [19, 18]
  | .St_Ri => [23, 21, 22, 20]
  | .Mov_d9 => [35, 34]
  | .Mov_Rj => [39, 37, 38, 36]
  | .Ldc => [193]
  | .Push => [97, 96]
  | .Pop => [113, 112]
  | .Xch_d9 => [195, 194]
  | .Xch_Ri => [199, 197, 198, 196]
  | .Jmp => [63, 59, 61, 57, 62, 58, 60, 56, 47, 43, 45, 41, 46, 42, 44, 40]
  | .Jmpf => [33]
  | .Br => [1]
  | .Brf => [17]
  | .Bz => [128]
  | .Bnz => [144]
  | .Bp => [127, 123, 125, 121, 126, 122, 124, 120, 111, 107, 109, 105, 110, 106, 108, 104]
  | .Bpc => [95, 91, 93, 89, 94, 90, 92, 88, 79, 75, 77, 73, 78, 74, 76, 72]
  | .Bn => [159, 155, 157, 153, 158, 154, 156, 152, 143, 139, 141, 137, 142, 138, 140, 136]
  | .Dbnz_d9 => [83, 82]
  | .Dbnz_Ri => [87, 85, 86, 84]
  | .Be_i8 => [49]
  | .Be_d9 => [51, 50]
  | .Be_Rj => [55, 53, 54, 52]
  | .Bne_i8 => [65]
  | .Bne_d9 => [67, 66]
  | .Bne_Rj => [71, 69, 70, 68]
  | .Call => [31, 27, 29, 25, 30, 26, 28, 24, 15, 11, 13, 9, 14, 10, 12, 8]
  | .Callf => [32]
  | .Callr => [16]
  | .Ret => [160]
  | .Reti => [176]
  | .Clr1 => [223, 219, 221, 217, 222, 218, 220, 216, 207, 203, 205, 201, 206, 202, 204, 200]
  | .Set1 => [255, 251, 253, 249, 254, 250, 252, 248, 239, 235, 237, 233, 238, 234, 236, 232]
  | .Not1 => [191, 187, 189, 185, 190, 186, 188, 184, 175, 171, 173, 169, 174, 170, 172, 168]
  | .Nop => [0]
  | .Ldf => [80]
  | .Stf => [81]

theorem Form.opcodes_eq (f : Form) : Derive.allPossibleOpcodes (f.ranges.headD []) = f.opTbl := by
  rw [Form.ranges_eq]; cases f <;> decide +kernel

theorem Form.mem_all (f : Form) : f ∈ Form.all := by
  cases f <;> decide

end Verif
