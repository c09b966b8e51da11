import Verif.Model.Instr
/-
Specification: the instruction set as documented in docs/instructions.md, independent of the
bit patterns in the source code.  The rows are copied from the manual by tools/gen_doc.py.
-/
namespace Verif.Spec

/-- Operand kinds as named in the manual. -/
inductive Kind where
  | i8   -- `#i8`: immediate byte
  | d9   -- `d9`: 9-bit direct address
  | ri   -- `@Ri`: indirection mode 0..3
  | b3   -- `b3`: bit number
  | r8   -- `r8`: 8-bit relative address
  | a12  -- `a12`: low 12 bits of an absolute address
  | a16  -- `a16`: absolute address
  | r16  -- `r16`: 16-bit relative address
  deriving DecidableEq, Repr

/-- The values an encoded field of each kind can hold. -/
def Kind.holds : Kind → Int → Prop
  | .i8, v => 0 ≤ v ∧ v < 256
  | .d9, v => 0 ≤ v ∧ v < 512
  | .ri, v => 0 ≤ v ∧ v < 4
  | .b3, v => 0 ≤ v ∧ v < 8
  | .r8, v => -128 ≤ v ∧ v < 128
  | .a12, v => 0 ≤ v ∧ v < 4096
  | .a16, v => 0 ≤ v ∧ v < 65536
  | .r16, v => -32768 ≤ v ∧ v < 32768

/-- One row of the manual: name, operands (kind and the letter used for its bits), bit pattern. -/
structure Row where
  name : String
  operands : List (Kind × Char)
  pattern : String
  deriving DecidableEq, Repr

/-- One bit of a pattern. -/
inductive DocBit where
  | const (b : Bool)
  | opnd (letter : Char) (idx : Nat)
  deriving DecidableEq, Repr

/-- Reads a pattern such as `1000001[d8] [d7]...`: digits are constant bits, `[xn]` is bit `n` of
the operand with letter `x`, blanks separate bytes. -/
def readPattern : List Char → List DocBit
  | [] => []
  | '0' :: cs => .const false :: readPattern cs
  | '1' :: cs => .const true :: readPattern cs
  | '[' :: x :: d :: ']' :: cs => .opnd x (d.toNat - 48) :: readPattern cs
  | '[' :: x :: d :: e :: ']' :: cs => .opnd x ((d.toNat - 48) * 10 + (e.toNat - 48)) :: readPattern cs
  | _ :: cs => readPattern cs

/-- Bit `i` of an integer in two's complement. -/
def intBit (v : Int) (i : Nat) : Bool := (v / 2 ^ i) % 2 = 1

/-- The value of a documented bit for operand values `vals` (in the order of the row). -/
def Row.bitValue (row : Row) (vals : List Int) : DocBit → Bool
  | .const b => b
  | .opnd letter i =>
    match ((row.operands.map (·.2)).zip vals).lookup letter with
    | some v => intBit v i
    | none => false

/-- The row of the manual for each instruction form. -/
def row : Form → Row
  | .Add_i8 => ⟨"add", [(.i8, 'i')], "10000001 [i7][i6][i5][i4][i3][i2][i1][i0]"⟩  -- line 64
  | .Add_d9 => ⟨"add", [(.d9, 'd')], "1000001[d8] [d7][d6][d5][d4][d3][d2][d1][d0]"⟩  -- line 65
  | .Add_Ri => ⟨"add", [(.ri, 'r')], "100001[r1][r0]"⟩  -- line 66
  | .Addc_i8 => ⟨"addc", [(.i8, 'i')], "10010001 [i7][i6][i5][i4][i3][i2][i1][i0]"⟩  -- line 77
  | .Addc_d9 => ⟨"addc", [(.d9, 'd')], "1001001[d8] [d7][d6][d5][d4][d3][d2][d1][d0]"⟩  -- line 78
  | .Addc_Ri => ⟨"addc", [(.ri, 'r')], "100101[r1][r0]"⟩  -- line 79
  | .Sub_i8 => ⟨"sub", [(.i8, 'i')], "10100001 [i7][i6][i5][i4][i3][i2][i1][i0]"⟩  -- line 90
  | .Sub_d9 => ⟨"sub", [(.d9, 'd')], "1010001[d8] [d7][d6][d5][d4][d3][d2][d1][d0]"⟩  -- line 91
  | .Sub_Ri => ⟨"sub", [(.ri, 'r')], "101001[r1][r0]"⟩  -- line 92
  | .Subc_i8 => ⟨"subc", [(.i8, 'i')], "10110001 [i7][i6][i5][i4][i3][i2][i1][i0]"⟩  -- line 103
  | .Subc_d9 => ⟨"subc", [(.d9, 'd')], "1011001[d8] [d7][d6][d5][d4][d3][d2][d1][d0]"⟩  -- line 104
  | .Subc_Ri => ⟨"subc", [(.ri, 'r')], "101101[r1][r0]"⟩  -- line 105
  | .Inc_d9 => ⟨"inc", [(.d9, 'd')], "0110001[d8] [d7][d6][d5][d4][d3][d2][d1][d0]"⟩  -- line 115
  | .Inc_Ri => ⟨"inc", [(.ri, 'r')], "011001[r1][r0]"⟩  -- line 116
  | .Dec_d9 => ⟨"dec", [(.d9, 'd')], "0111001[d8] [d7][d6][d5][d4][d3][d2][d1][d0]"⟩  -- line 126
  | .Dec_Ri => ⟨"dec", [(.ri, 'r')], "011101[r1][r0]"⟩  -- line 127
  | .Mul => ⟨"mul", [], "00110000"⟩  -- line 141
  | .Div => ⟨"div", [], "01000000"⟩  -- line 161
  | .And_i8 => ⟨"and", [(.i8, 'i')], "11100001 [i7][i6][i5][i4][i3][i2][i1][i0]"⟩  -- line 178
  | .And_d9 => ⟨"and", [(.d9, 'd')], "1110001[d8] [d7][d6][d5][d4][d3][d2][d1][d0]"⟩  -- line 179
  | .And_Ri => ⟨"and", [(.ri, 'r')], "111001[r1][r0]"⟩  -- line 180
  | .Or_i8 => ⟨"or", [(.i8, 'i')], "11010001 [i7][i6][i5][i4][i3][i2][i1][i0]"⟩  -- line 191
  | .Or_d9 => ⟨"or", [(.d9, 'd')], "1101001[d8] [d7][d6][d5][d4][d3][d2][d1][d0]"⟩  -- line 192
  | .Or_Ri => ⟨"or", [(.ri, 'r')], "110101[r1][r0]"⟩  -- line 193
  | .Xor_i8 => ⟨"xor", [(.i8, 'i')], "11110001 [i7][i6][i5][i4][i3][i2][i1][i0]"⟩  -- line 204
  | .Xor_d9 => ⟨"xor", [(.d9, 'd')], "1111001[d8] [d7][d6][d5][d4][d3][d2][d1][d0]"⟩  -- line 205
  | .Xor_Ri => ⟨"xor", [(.ri, 'r')], "111101[r1][r0]"⟩  -- line 206
  | .Rol => ⟨"rol", [], "11100000"⟩  -- line 217
  | .Rolc => ⟨"rolc", [], "11110000"⟩  -- line 231
  | .Ror => ⟨"ror", [], "11000000"⟩  -- line 242
  | .Rorc => ⟨"rorc", [], "11010000"⟩  -- line 255
  | .Ld_d9 => ⟨"ld", [(.d9, 'd')], "0000001[d8] [d7][d6][d5][d4][d3][d2][d1][d0]"⟩  -- line 296
  | .Ld_Ri => ⟨"ld", [(.ri, 'r')], "000001[r1][r0]"⟩  -- line 297
  | .St_d9 => ⟨"st", [(.d9, 'd')], "0001001[d8] [d7][d6][d5][d4][d3][d2][d1][d0]"⟩  -- line 308
  | .St_Ri => ⟨"st", [(.ri, 'r')], "000101[r1][r0]"⟩  -- line 309
  | .Mov_d9 => ⟨"mov", [(.i8, 'i'), (.d9, 'd')], "0010001[d8] [d7][d6][d5][d4][d3][d2][d1][d0] [i7][i6][i5][i4][i3][i2][i1][i0]"⟩  -- line 320
  | .Mov_Rj => ⟨"mov", [(.i8, 'i'), (.ri, 'r')], "001001[r1][r0] [i7][i6][i5][i4][i3][i2][i1][i0]"⟩  -- line 321
  | .Ldc => ⟨"ldc", [], "11000001"⟩  -- line 334
  | .Push => ⟨"push", [(.d9, 'd')], "0110000[d8] [d7][d6][d5][d4][d3][d2][d1][d0]"⟩  -- line 346
  | .Pop => ⟨"pop", [(.d9, 'd')], "0111000[d8] [d7][d6][d5][d4][d3][d2][d1][d0]"⟩  -- line 359
  | .Xch_d9 => ⟨"xch", [(.d9, 'd')], "1100001[d8] [d7][d6][d5][d4][d3][d2][d1][d0]"⟩  -- line 370
  | .Xch_Ri => ⟨"xch", [(.ri, 'r')], "110001[r1][r0]"⟩  -- line 371
  | .Jmp => ⟨"jmp", [(.a12, 'a')], "001[a11]1[a10][a9][a8] [a7][a6][a5][a4][a3][a2][a1][a0]"⟩  -- line 402
  | .Jmpf => ⟨"jmpf", [(.a16, 'a')], "00100001 [a15][a14][a13][a12][a11][a10][a9][a8] [a7][a6][a5][a4][a3][a2][a1][a0]"⟩  -- line 413
  | .Br => ⟨"br", [(.r8, 'r')], "00000001 [r7][r6][r5][r4][r3][r2][r1][r0]"⟩  -- line 426
  | .Brf => ⟨"brf", [(.r16, 'r')], "00010001 [r7][r6][r5][r4][r3][r2][r1][r0] [r15][r14][r13][r12][r11][r10][r9][r8]"⟩  -- line 439
  | .Bz => ⟨"bz", [(.r8, 'r')], "10000000 [r7][r6][r5][r4][r3][r2][r1][r0]"⟩  -- line 452
  | .Bnz => ⟨"bnz", [(.r8, 'a')], "10010000 [a7][a6][a5][a4][a3][a2][a1][a0]"⟩  -- line 465
  | .Bp => ⟨"bp", [(.d9, 'd'), (.b3, 'b'), (.r8, 'r')], "011[d8]1[b2][b1][b0] [d7][d6][d5][d4][d3][d2][d1][d0] [r7][r6][r5][r4][r3][r2][r1][r0]"⟩  -- line 478
  | .Bpc => ⟨"bpc", [(.d9, 'd'), (.b3, 'b'), (.r8, 'r')], "010[d8]1[b2][b1][b0] [d7][d6][d5][d4][d3][d2][d1][d0] [r7][r6][r5][r4][r3][r2][r1][r0]"⟩  -- line 491
  | .Bn => ⟨"bn", [(.d9, 'd'), (.b3, 'b'), (.r8, 'r')], "100[d8]1[b2][b1][b0] [d7][d6][d5][d4][d3][d2][d1][d0] [r7][r6][r5][r4][r3][r2][r1][r0]"⟩  -- line 504
  | .Dbnz_d9 => ⟨"dbnz", [(.d9, 'd'), (.r8, 'r')], "0101001[d8] [d7][d6][d5][d4][d3][d2][d1][d0] [r7][r6][r5][r4][r3][r2][r1][r0]"⟩  -- line 518
  | .Dbnz_Ri => ⟨"dbnz", [(.ri, 'R'), (.r8, 'r')], "010101[R1][R0] [r7][r6][r5][r4][r3][r2][r1][r0]"⟩  -- line 519
  | .Be_i8 => ⟨"be", [(.i8, 'i'), (.r8, 'r')], "00110001 [i7][i6][i5][i4][i3][i2][i1][i0] [r7][r6][r5][r4][r3][r2][r1][r0]"⟩  -- line 532
  | .Be_d9 => ⟨"be", [(.d9, 'd'), (.r8, 'r')], "0011001[d8] [d7][d6][d5][d4][d3][d2][d1][d0] [r7][r6][r5][r4][r3][r2][r1][r0]"⟩  -- line 533
  | .Be_Rj => ⟨"be", [(.ri, 'R'), (.i8, 'i'), (.r8, 'r')], "001101[R1][R0] [i7][i6][i5][i4][i3][i2][i1][i0] [r7][r6][r5][r4][r3][r2][r1][r0]"⟩  -- line 534
  | .Bne_i8 => ⟨"bne", [(.i8, 'i'), (.r8, 'r')], "01000001 [i7][i6][i5][i4][i3][i2][i1][i0] [r7][r6][r5][r4][r3][r2][r1][r0]"⟩  -- line 553
  | .Bne_d9 => ⟨"bne", [(.d9, 'd'), (.r8, 'r')], "0100001[d8] [d7][d6][d5][d4][d3][d2][d1][d0] [r7][r6][r5][r4][r3][r2][r1][r0]"⟩  -- line 554
  | .Bne_Rj => ⟨"bne", [(.ri, 'R'), (.i8, 'i'), (.r8, 'r')], "010001[R1][R0] [i7][i6][i5][i4][i3][i2][i1][i0] [r7][r6][r5][r4][r3][r2][r1][r0]"⟩  -- line 555
  | .Call => ⟨"call", [(.a12, 'a')], "000[a11]1[a10][a9][a8] [a7][a6][a5][a4][a3][a2][a1][a0]"⟩  -- line 577
  | .Callf => ⟨"callf", [(.a16, 'a')], "00100000 [a15][a14][a13][a12][a11][a10][a9][a8] [a7][a6][a5][a4][a3][a2][a1][a0]"⟩  -- line 590
  | .Callr => ⟨"callr", [(.r16, 'r')], "00010000 [r7][r6][r5][r4][r3][r2][r1][r0] [r15][r14][r13][r12][r11][r10][r9][r8]"⟩  -- line 606
  | .Ret => ⟨"ret", [], "10100000"⟩  -- line 618
  | .Reti => ⟨"reti", [], "10110000"⟩  -- line 631
  | .Clr1 => ⟨"clr1", [(.d9, 'd'), (.b3, 'b')], "110[d8]1[b2][b1][b0] [d7][d6][d5][d4][d3][d2][d1][d0]"⟩  -- line 265
  | .Set1 => ⟨"set1", [(.d9, 'd'), (.b3, 'b')], "111[d8]1[b2][b1][b0] [d7][d6][d5][d4][d3][d2][d1][d0]"⟩  -- line 275
  | .Not1 => ⟨"not1", [(.d9, 'd'), (.b3, 'b')], "101[d8]1[b2][b1][b0] [d7][d6][d5][d4][d3][d2][d1][d0]"⟩  -- line 285
  | .Nop => ⟨"nop", [], "00000000"⟩  -- line 641
  | .Ldf => ⟨"ldf", [], "01010000"⟩  -- line 380
  | .Stf => ⟨"stf", [], "01010001"⟩  -- line 389

/-- The manual's size of an instruction in bytes. -/
def Row.size (r : Row) : Nat := (readPattern r.pattern.toList).length / 8

/-- The constant bits among the first eight agree with the byte. -/
def constBitsAgree : List DocBit → UInt8 → Bool
  | [c7, c6, c5, c4, c3, c2, c1, c0], b =>
    [(c7, 7), (c6, 6), (c5, 5), (c4, 4), (c3, 3), (c2, 2), (c1, 1), (c0, 0)].all fun
      | (.const c, k) => b.toNat.testBit k == c
      | (.opnd _ _, _) => true
  | _, _ => false

/-- A first byte selects the row if it agrees with the constant bits of the row's first byte. -/
def Row.selects (r : Row) (b : UInt8) : Bool := constBitsAgree ((readPattern r.pattern.toList).take 8) b

/-- The operand kinds of a form. -/
def kinds (f : Form) : List Kind := (row f).operands.map (·.1)

/-- Value by value, the operands can be held by fields of the given kinds. -/
def holdsAll : List Kind → List Int → Prop
  | [], [] => True
  | k :: ks, v :: vs => k.holds v ∧ holdsAll ks vs
  | _, _ => False

/-- The operands of an instruction as it is written, left to right.  Before evaluation they are
expressions or indirection modes, afterwards numbers or register numbers. -/
def operands {α β : Type} : Instr α β → List (Sum α β)
  | .Add_i8 a => [.inl a]
  | .Add_d9 a => [.inl a]
  | .Add_Ri a => [.inr a]
  | .Addc_i8 a => [.inl a]
  | .Addc_d9 a => [.inl a]
  | .Addc_Ri a => [.inr a]
  | .Sub_i8 a => [.inl a]
  | .Sub_d9 a => [.inl a]
  | .Sub_Ri a => [.inr a]
  | .Subc_i8 a => [.inl a]
  | .Subc_d9 a => [.inl a]
  | .Subc_Ri a => [.inr a]
  | .Inc_d9 a => [.inl a]
  | .Inc_Ri a => [.inr a]
  | .Dec_d9 a => [.inl a]
  | .Dec_Ri a => [.inr a]
  | .Mul => []
  | .Div => []
  | .And_i8 a => [.inl a]
  | .And_d9 a => [.inl a]
  | .And_Ri a => [.inr a]
  | .Or_i8 a => [.inl a]
  | .Or_d9 a => [.inl a]
  | .Or_Ri a => [.inr a]
  | .Xor_i8 a => [.inl a]
  | .Xor_d9 a => [.inl a]
  | .Xor_Ri a => [.inr a]
  | .Rol => []
  | .Rolc => []
  | .Ror => []
  | .Rorc => []
  | .Ld_d9 a => [.inl a]
  | .Ld_Ri a => [.inr a]
  | .St_d9 a => [.inl a]
  | .St_Ri a => [.inr a]
  | .Mov_d9 a b => [.inl a, .inl b]
  | .Mov_Rj a b => [.inl a, .inr b]
  | .Ldc => []
  | .Push a => [.inl a]
  | .Pop a => [.inl a]
  | .Xch_d9 a => [.inl a]
  | .Xch_Ri a => [.inr a]
  | .Jmp a => [.inl a]
  | .Jmpf a => [.inl a]
  | .Br a => [.inl a]
  | .Brf a => [.inl a]
  | .Bz a => [.inl a]
  | .Bnz a => [.inl a]
  | .Bp a b c => [.inl a, .inl b, .inl c]
  | .Bpc a b c => [.inl a, .inl b, .inl c]
  | .Bn a b c => [.inl a, .inl b, .inl c]
  | .Dbnz_d9 a b => [.inl a, .inl b]
  | .Dbnz_Ri a b => [.inr a, .inl b]
  | .Be_i8 a b => [.inl a, .inl b]
  | .Be_d9 a b => [.inl a, .inl b]
  | .Be_Rj a b c => [.inr a, .inl b, .inl c]
  | .Bne_i8 a b => [.inl a, .inl b]
  | .Bne_d9 a b => [.inl a, .inl b]
  | .Bne_Rj a b c => [.inr a, .inl b, .inl c]
  | .Call a => [.inl a]
  | .Callf a => [.inl a]
  | .Callr a => [.inl a]
  | .Ret => []
  | .Reti => []
  | .Clr1 a b => [.inl a, .inl b]
  | .Set1 a b => [.inl a, .inl b]
  | .Not1 a b => [.inl a, .inl b]
  | .Nop => []
  | .Ldf => []
  | .Stf => []

/-- The operands of an evaluated instruction, left to right, as numbers. -/
def values (i : Instr Int Nat) : List Int :=
  (operands i).map fun
    | .inl x => x
    | .inr n => n

/-- All operands of the instruction fit their fields. -/
def InRange (i : Instr Int Nat) : Prop := holdsAll (kinds i.form) (values i)

/-- The field value that makes an operand of value `v` mean `v`, for an instruction whose successor
is at address `next`; `none` if the operand is not representable. -/
def Kind.field (k : Kind) (next : Nat) (v : Int) : Option Int :=
  match k with
  | .i8 => if 0 ≤ v ∧ v < 256 then some v else none
  | .d9 => if 0 ≤ v ∧ v < 512 then some v else none
  | .ri => if 0 ≤ v ∧ v < 4 then some v else none
  | .b3 => if 0 ≤ v ∧ v < 8 then some v else none
  | .r8 =>
    if (0 ≤ v ∧ v < 65536) ∧ (-128 ≤ v - next ∧ v - next < 128) then some (v - next) else none
  | .a12 =>
    if (0 ≤ v ∧ v < 65536) ∧ v / 4096 = (next % 65536) / 4096 then some (v % 4096) else none
  | .a16 => if 0 ≤ v ∧ v < 65536 then some v else none
  | .r16 =>
    if (0 ≤ v ∧ v < 65536) ∧ (-32768 ≤ v - (next - 1) ∧ v - (next - 1) < 32768)
    then some (v - (next - 1)) else none

/-- All fields, or `none` if some operand is not representable. -/
def fields (next : Nat) : List Kind → List Int → Option (List Int)
  | [], [] => some []
  | k :: ks, v :: vs =>
    match k.field next v, fields next ks vs with
    | some x, some xs => some (x :: xs)
    | _, _ => none
  | _, _ => none

/-- The errors that report an operand that does not fit. -/
def isRangeError : Err → Bool
  | .numOutOfRange _ _ => true
  | .signedNumOutOfRange _ _ => true
  | .invalidAddress _ => true
  | .addrBitsDontMatch _ _ => true
  | _ => false

/-- The value of an operand. -/
def operandValue (m : Mode) (env : Env) : Sum Expr IM → Res Int
  | .inl e => e.eval m env
  | .inr r => .ok r.index

/-- `vs` are the values of the operands, in order. -/
def OperandValues (m : Mode) (env : Env) : List (Sum Expr IM) → List Int → Prop
  | [], [] => True
  | o :: os, v :: vs => operandValue m env o = .ok v ∧ OperandValues m env os vs
  | _, _ => False

end Verif.Spec
