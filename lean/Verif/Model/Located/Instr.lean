import Verif.Model.Located.Basic
/-
Instr::eval (src/instruction.rs 348–538) and make_instr (src/parser.rs 917–1112) with spans.  Written by
tools/gen_located.py from Model/Instr.lean and Model/MakeInstr.lean, which transcribe the code.
-/
namespace Verif.Located

/-- The instruction with other expressions -/
def mapInstr {A B : Type} (f : A → B) : Instr A IM → Instr B IM
  | .Add_i8 a => .Add_i8 (f a)
  | .Add_d9 a => .Add_d9 (f a)
  | .Add_Ri a => .Add_Ri a
  | .Addc_i8 a => .Addc_i8 (f a)
  | .Addc_d9 a => .Addc_d9 (f a)
  | .Addc_Ri a => .Addc_Ri a
  | .Sub_i8 a => .Sub_i8 (f a)
  | .Sub_d9 a => .Sub_d9 (f a)
  | .Sub_Ri a => .Sub_Ri a
  | .Subc_i8 a => .Subc_i8 (f a)
  | .Subc_d9 a => .Subc_d9 (f a)
  | .Subc_Ri a => .Subc_Ri a
  | .Inc_d9 a => .Inc_d9 (f a)
  | .Inc_Ri a => .Inc_Ri a
  | .Dec_d9 a => .Dec_d9 (f a)
  | .Dec_Ri a => .Dec_Ri a
  | .Mul => .Mul
  | .Div => .Div
  | .And_i8 a => .And_i8 (f a)
  | .And_d9 a => .And_d9 (f a)
  | .And_Ri a => .And_Ri a
  | .Or_i8 a => .Or_i8 (f a)
  | .Or_d9 a => .Or_d9 (f a)
  | .Or_Ri a => .Or_Ri a
  | .Xor_i8 a => .Xor_i8 (f a)
  | .Xor_d9 a => .Xor_d9 (f a)
  | .Xor_Ri a => .Xor_Ri a
  | .Rol => .Rol
  | .Rolc => .Rolc
  | .Ror => .Ror
  | .Rorc => .Rorc
  | .Ld_d9 a => .Ld_d9 (f a)
  | .Ld_Ri a => .Ld_Ri a
  | .St_d9 a => .St_d9 (f a)
  | .St_Ri a => .St_Ri a
  | .Mov_d9 a b => .Mov_d9 (f a) (f b)
  | .Mov_Rj a b => .Mov_Rj (f a) b
  | .Ldc => .Ldc
  | .Push a => .Push (f a)
  | .Pop a => .Pop (f a)
  | .Xch_d9 a => .Xch_d9 (f a)
  | .Xch_Ri a => .Xch_Ri a
  | .Jmp a => .Jmp (f a)
  | .Jmpf a => .Jmpf (f a)
  | .Br a => .Br (f a)
  | .Brf a => .Brf (f a)
  | .Bz a => .Bz (f a)
  | .Bnz a => .Bnz (f a)
  | .Bp a b c => .Bp (f a) (f b) (f c)
  | .Bpc a b c => .Bpc (f a) (f b) (f c)
  | .Bn a b c => .Bn (f a) (f b) (f c)
  | .Dbnz_d9 a b => .Dbnz_d9 (f a) (f b)
  | .Dbnz_Ri a b => .Dbnz_Ri a (f b)
  | .Be_i8 a b => .Be_i8 (f a) (f b)
  | .Be_d9 a b => .Be_d9 (f a) (f b)
  | .Be_Rj a b c => .Be_Rj a (f b) (f c)
  | .Bne_i8 a b => .Bne_i8 (f a) (f b)
  | .Bne_d9 a b => .Bne_d9 (f a) (f b)
  | .Bne_Rj a b c => .Bne_Rj a (f b) (f c)
  | .Call a => .Call (f a)
  | .Callf a => .Callf (f a)
  | .Callr a => .Callr (f a)
  | .Ret => .Ret
  | .Reti => .Reti
  | .Clr1 a b => .Clr1 (f a) (f b)
  | .Set1 a b => .Set1 (f a) (f b)
  | .Not1 a b => .Not1 (f a) (f b)
  | .Nop => .Nop
  | .Ldf => .Ldf
  | .Stf => .Stf

/-- The instruction without spans -/
def eraseInstr (i : Instr Expr IM) : Instr Verif.Expr IM := mapInstr Expr.erase i

/-- The expressions of an instruction in the order of its operands -/
def exprsOf {Ex : Type} : Instr Ex IM → List Ex
  | .Add_i8 a => [a]
  | .Add_d9 a => [a]
  | .Add_Ri _ => []
  | .Addc_i8 a => [a]
  | .Addc_d9 a => [a]
  | .Addc_Ri _ => []
  | .Sub_i8 a => [a]
  | .Sub_d9 a => [a]
  | .Sub_Ri _ => []
  | .Subc_i8 a => [a]
  | .Subc_d9 a => [a]
  | .Subc_Ri _ => []
  | .Inc_d9 a => [a]
  | .Inc_Ri _ => []
  | .Dec_d9 a => [a]
  | .Dec_Ri _ => []
  | .Mul => []
  | .Div => []
  | .And_i8 a => [a]
  | .And_d9 a => [a]
  | .And_Ri _ => []
  | .Or_i8 a => [a]
  | .Or_d9 a => [a]
  | .Or_Ri _ => []
  | .Xor_i8 a => [a]
  | .Xor_d9 a => [a]
  | .Xor_Ri _ => []
  | .Rol => []
  | .Rolc => []
  | .Ror => []
  | .Rorc => []
  | .Ld_d9 a => [a]
  | .Ld_Ri _ => []
  | .St_d9 a => [a]
  | .St_Ri _ => []
  | .Mov_d9 a b => [a, b]
  | .Mov_Rj a _ => [a]
  | .Ldc => []
  | .Push a => [a]
  | .Pop a => [a]
  | .Xch_d9 a => [a]
  | .Xch_Ri _ => []
  | .Jmp a => [a]
  | .Jmpf a => [a]
  | .Br a => [a]
  | .Brf a => [a]
  | .Bz a => [a]
  | .Bnz a => [a]
  | .Bp a b c => [a, b, c]
  | .Bpc a b c => [a, b, c]
  | .Bn a b c => [a, b, c]
  | .Dbnz_d9 a b => [a, b]
  | .Dbnz_Ri _ b => [b]
  | .Be_i8 a b => [a, b]
  | .Be_d9 a b => [a, b]
  | .Be_Rj _ b c => [b, c]
  | .Bne_i8 a b => [a, b]
  | .Bne_d9 a b => [a, b]
  | .Bne_Rj _ b c => [b, c]
  | .Call a => [a]
  | .Callf a => [a]
  | .Callr a => [a]
  | .Ret => []
  | .Reti => []
  | .Clr1 a b => [a, b]
  | .Set1 a b => [a, b]
  | .Not1 a b => [a, b]
  | .Nop => []
  | .Ldf => []
  | .Stf => []

/-- eval, src/instruction.rs 348–355 -/
def evalBits (m : Mode) (env : Env) (bits : Nat) (e : Expr) : Res Int := do
  let value ← e.eval m env
  if value >>> bits ≠ 0 then .fail (.numOutOfRange bits value) e.span else .ok value

/-- rel8, src/instruction.rs 373–385 -/
def evalRel8 (m : Mode) (env : Env) (pos : Nat) (e : Expr) : Res Int := do
  let address ← e.eval m env
  if 0 ≤ address ∧ address ≤ 65535 then do
    let value ← .lift (m.norm (address - wrap32 pos))
    if -128 ≤ value ∧ value ≤ 127 then .ok value else .fail (.signedNumOutOfRange 8 value) e.span
  else .fail (.invalidAddress address) e.span

/-- eval12, src/instruction.rs 387–403 -/
def evalAbs12 (m : Mode) (env : Env) (pos : Nat) (e : Expr) : Res Int := do
  let addr ← evalBits m env 16 e
  let valTop := addr.toNat &&& 0xF000
  let posTop := pos &&& 0xF000
  if valTop ≠ posTop then .fail (.addrBitsDontMatch pos addr) e.span
  else .ok ((addr.toNat &&& 0x0FFF : Nat) : Int)

/-- rel16, src/instruction.rs 405–417 -/
def evalRel16 (m : Mode) (env : Env) (pos : Nat) (e : Expr) : Res Int := do
  let address ← e.eval m env
  if 0 ≤ address ∧ address ≤ 65535 then do
    let d ← .lift (m.norm (address - wrap32 pos))
    let value ← .lift (m.norm (d + 1))
    if -32768 ≤ value ∧ value ≤ 32767 then .ok value else .fail (.signedNumOutOfRange 16 value) e.span
  else .fail (.invalidAddress address) e.span

/-- Instr::eval, src/instruction.rs 421–538, in the environment of the current scope (the three
environments of lines 423–425 differ only in the word used in messages); `pos` is the position of
the next instruction. -/
def evalInstrIn (m : Mode) (env : Env) (pos : Nat) : Instr Expr IM → Res (Instr Int Nat)
  | .Add_i8 a => do
    let x0 ← evalBits m env 8 a
    .ok (.Add_i8 x0)
  | .Add_d9 a => do
    let x0 ← evalBits m env 9 a
    .ok (.Add_d9 x0)
  | .Add_Ri a => .ok (.Add_Ri a.index)
  | .Addc_i8 a => do
    let x0 ← evalBits m env 8 a
    .ok (.Addc_i8 x0)
  | .Addc_d9 a => do
    let x0 ← evalBits m env 9 a
    .ok (.Addc_d9 x0)
  | .Addc_Ri a => .ok (.Addc_Ri a.index)
  | .Sub_i8 a => do
    let x0 ← evalBits m env 8 a
    .ok (.Sub_i8 x0)
  | .Sub_d9 a => do
    let x0 ← evalBits m env 9 a
    .ok (.Sub_d9 x0)
  | .Sub_Ri a => .ok (.Sub_Ri a.index)
  | .Subc_i8 a => do
    let x0 ← evalBits m env 8 a
    .ok (.Subc_i8 x0)
  | .Subc_d9 a => do
    let x0 ← evalBits m env 9 a
    .ok (.Subc_d9 x0)
  | .Subc_Ri a => .ok (.Subc_Ri a.index)
  | .Inc_d9 a => do
    let x0 ← evalBits m env 9 a
    .ok (.Inc_d9 x0)
  | .Inc_Ri a => .ok (.Inc_Ri a.index)
  | .Dec_d9 a => do
    let x0 ← evalBits m env 9 a
    .ok (.Dec_d9 x0)
  | .Dec_Ri a => .ok (.Dec_Ri a.index)
  | .Mul => .ok .Mul
  | .Div => .ok .Div
  | .And_i8 a => do
    let x0 ← evalBits m env 8 a
    .ok (.And_i8 x0)
  | .And_d9 a => do
    let x0 ← evalBits m env 9 a
    .ok (.And_d9 x0)
  | .And_Ri a => .ok (.And_Ri a.index)
  | .Or_i8 a => do
    let x0 ← evalBits m env 8 a
    .ok (.Or_i8 x0)
  | .Or_d9 a => do
    let x0 ← evalBits m env 9 a
    .ok (.Or_d9 x0)
  | .Or_Ri a => .ok (.Or_Ri a.index)
  | .Xor_i8 a => do
    let x0 ← evalBits m env 8 a
    .ok (.Xor_i8 x0)
  | .Xor_d9 a => do
    let x0 ← evalBits m env 9 a
    .ok (.Xor_d9 x0)
  | .Xor_Ri a => .ok (.Xor_Ri a.index)
  | .Rol => .ok .Rol
  | .Rolc => .ok .Rolc
  | .Ror => .ok .Ror
  | .Rorc => .ok .Rorc
  | .Ld_d9 a => do
    let x0 ← evalBits m env 9 a
    .ok (.Ld_d9 x0)
  | .Ld_Ri a => .ok (.Ld_Ri a.index)
  | .St_d9 a => do
    let x0 ← evalBits m env 9 a
    .ok (.St_d9 x0)
  | .St_Ri a => .ok (.St_Ri a.index)
  | .Mov_d9 a b => do
    let x0 ← evalBits m env 8 a
    let x1 ← evalBits m env 9 b
    .ok (.Mov_d9 x0 x1)
  | .Mov_Rj a b => do
    let x0 ← evalBits m env 8 a
    .ok (.Mov_Rj x0 b.index)
  | .Ldc => .ok .Ldc
  | .Push a => do
    let x0 ← evalBits m env 9 a
    .ok (.Push x0)
  | .Pop a => do
    let x0 ← evalBits m env 9 a
    .ok (.Pop x0)
  | .Xch_d9 a => do
    let x0 ← evalBits m env 9 a
    .ok (.Xch_d9 x0)
  | .Xch_Ri a => .ok (.Xch_Ri a.index)
  | .Jmp a => do
    let x0 ← evalAbs12 m env pos a
    .ok (.Jmp x0)
  | .Jmpf a => do
    let x0 ← evalBits m env 16 a
    .ok (.Jmpf x0)
  | .Br a => do
    let x0 ← evalRel8 m env pos a
    .ok (.Br x0)
  | .Brf a => do
    let x0 ← evalRel16 m env pos a
    .ok (.Brf x0)
  | .Bz a => do
    let x0 ← evalRel8 m env pos a
    .ok (.Bz x0)
  | .Bnz a => do
    let x0 ← evalRel8 m env pos a
    .ok (.Bnz x0)
  | .Bp a b c => do
    let x0 ← evalBits m env 9 a
    let x1 ← evalBits m env 3 b
    let x2 ← evalRel8 m env pos c
    .ok (.Bp x0 x1 x2)
  | .Bpc a b c => do
    let x0 ← evalBits m env 9 a
    let x1 ← evalBits m env 3 b
    let x2 ← evalRel8 m env pos c
    .ok (.Bpc x0 x1 x2)
  | .Bn a b c => do
    let x0 ← evalBits m env 9 a
    let x1 ← evalBits m env 3 b
    let x2 ← evalRel8 m env pos c
    .ok (.Bn x0 x1 x2)
  | .Dbnz_d9 a b => do
    let x0 ← evalBits m env 9 a
    let x1 ← evalRel8 m env pos b
    .ok (.Dbnz_d9 x0 x1)
  | .Dbnz_Ri a b => do
    let x1 ← evalRel8 m env pos b
    .ok (.Dbnz_Ri a.index x1)
  | .Be_i8 a b => do
    let x0 ← evalBits m env 8 a
    let x1 ← evalRel8 m env pos b
    .ok (.Be_i8 x0 x1)
  | .Be_d9 a b => do
    let x0 ← evalBits m env 9 a
    let x1 ← evalRel8 m env pos b
    .ok (.Be_d9 x0 x1)
  | .Be_Rj a b c => do
    let x1 ← evalBits m env 8 b
    let x2 ← evalRel8 m env pos c
    .ok (.Be_Rj a.index x1 x2)
  | .Bne_i8 a b => do
    let x0 ← evalBits m env 8 a
    let x1 ← evalRel8 m env pos b
    .ok (.Bne_i8 x0 x1)
  | .Bne_d9 a b => do
    let x0 ← evalBits m env 9 a
    let x1 ← evalRel8 m env pos b
    .ok (.Bne_d9 x0 x1)
  | .Bne_Rj a b c => do
    let x1 ← evalBits m env 8 b
    let x2 ← evalRel8 m env pos c
    .ok (.Bne_Rj a.index x1 x2)
  | .Call a => do
    let x0 ← evalAbs12 m env pos a
    .ok (.Call x0)
  | .Callf a => do
    let x0 ← evalBits m env 16 a
    .ok (.Callf x0)
  | .Callr a => do
    let x0 ← evalRel16 m env pos a
    .ok (.Callr x0)
  | .Ret => .ok .Ret
  | .Reti => .ok .Reti
  | .Clr1 a b => do
    let x0 ← evalBits m env 9 a
    let x1 ← evalBits m env 3 b
    .ok (.Clr1 x0 x1)
  | .Set1 a b => do
    let x0 ← evalBits m env 9 a
    let x1 ← evalBits m env 3 b
    .ok (.Set1 x0 x1)
  | .Not1 a b => do
    let x0 ← evalBits m env 9 a
    let x1 ← evalBits m env 3 b
    .ok (.Not1 x0 x1)
  | .Nop => .ok .Nop
  | .Ldf => .ok .Ldf
  | .Stf => .ok .Stf

/-- Instr::eval, src/instruction.rs 421–538, with the look-up of the scope -/
def evalInstr (m : Mode) (names : Names) (label : Text) (pos : Nat) (i : Instr Expr IM) : Res (Instr Int Nat) := do
  let env ← .lift (names.asEnv label)
  evalInstrIn m env pos i

/-- The arms for `add`, src/parser.rs 921–924; `none` is the wrong-arguments arm. -/
def make_add : List Arg → Option (Instr Expr IM)
  | [.imm imm] => some (.Add_i8 imm)
  | [.ex mem] => some (.Add_d9 mem)
  | [.im _ im] => some (.Add_Ri im)
  | _ => none

/-- The arms for `addc`, src/parser.rs 929–932; `none` is the wrong-arguments arm. -/
def make_addc : List Arg → Option (Instr Expr IM)
  | [.imm imm] => some (.Addc_i8 imm)
  | [.ex mem] => some (.Addc_d9 mem)
  | [.im _ im] => some (.Addc_Ri im)
  | _ => none

/-- The arms for `sub`, src/parser.rs 937–940; `none` is the wrong-arguments arm. -/
def make_sub : List Arg → Option (Instr Expr IM)
  | [.imm imm] => some (.Sub_i8 imm)
  | [.ex mem] => some (.Sub_d9 mem)
  | [.im _ im] => some (.Sub_Ri im)
  | _ => none

/-- The arms for `subc`, src/parser.rs 945–948; `none` is the wrong-arguments arm. -/
def make_subc : List Arg → Option (Instr Expr IM)
  | [.imm imm] => some (.Subc_i8 imm)
  | [.ex mem] => some (.Subc_d9 mem)
  | [.im _ im] => some (.Subc_Ri im)
  | _ => none

/-- The arms for `inc`, src/parser.rs 953–955; `none` is the wrong-arguments arm. -/
def make_inc : List Arg → Option (Instr Expr IM)
  | [.ex mem] => some (.Inc_d9 mem)
  | [.im _ im] => some (.Inc_Ri im)
  | _ => none

/-- The arms for `dec`, src/parser.rs 956–958; `none` is the wrong-arguments arm. -/
def make_dec : List Arg → Option (Instr Expr IM)
  | [.ex mem] => some (.Dec_d9 mem)
  | [.im _ im] => some (.Dec_Ri im)
  | _ => none

/-- The arms for `mul`, src/parser.rs 959–960; `none` is the wrong-arguments arm. -/
def make_mul : List Arg → Option (Instr Expr IM)
  | [] => some .Mul
  | _ => none

/-- The arms for `div`, src/parser.rs 961–962; `none` is the wrong-arguments arm. -/
def make_div : List Arg → Option (Instr Expr IM)
  | [] => some .Div
  | _ => none

/-- The arms for `and`, src/parser.rs 963–966; `none` is the wrong-arguments arm. -/
def make_and : List Arg → Option (Instr Expr IM)
  | [.imm imm] => some (.And_i8 imm)
  | [.ex mem] => some (.And_d9 mem)
  | [.im _ im] => some (.And_Ri im)
  | _ => none

/-- The arms for `or`, src/parser.rs 971–974; `none` is the wrong-arguments arm. -/
def make_or : List Arg → Option (Instr Expr IM)
  | [.imm imm] => some (.Or_i8 imm)
  | [.ex mem] => some (.Or_d9 mem)
  | [.im _ im] => some (.Or_Ri im)
  | _ => none

/-- The arms for `xor`, src/parser.rs 979–982; `none` is the wrong-arguments arm. -/
def make_xor : List Arg → Option (Instr Expr IM)
  | [.imm imm] => some (.Xor_i8 imm)
  | [.ex mem] => some (.Xor_d9 mem)
  | [.im _ im] => some (.Xor_Ri im)
  | _ => none

/-- The arms for `rol`, src/parser.rs 987–988; `none` is the wrong-arguments arm. -/
def make_rol : List Arg → Option (Instr Expr IM)
  | [] => some .Rol
  | _ => none

/-- The arms for `rolc`, src/parser.rs 989–990; `none` is the wrong-arguments arm. -/
def make_rolc : List Arg → Option (Instr Expr IM)
  | [] => some .Rolc
  | _ => none

/-- The arms for `ror`, src/parser.rs 991–992; `none` is the wrong-arguments arm. -/
def make_ror : List Arg → Option (Instr Expr IM)
  | [] => some .Ror
  | _ => none

/-- The arms for `rorc`, src/parser.rs 993–994; `none` is the wrong-arguments arm. -/
def make_rorc : List Arg → Option (Instr Expr IM)
  | [] => some .Rorc
  | _ => none

/-- The arms for `ld`, src/parser.rs 995–997; `none` is the wrong-arguments arm. -/
def make_ld : List Arg → Option (Instr Expr IM)
  | [.ex mem] => some (.Ld_d9 mem)
  | [.im _ im] => some (.Ld_Ri im)
  | _ => none

/-- The arms for `st`, src/parser.rs 998–1000; `none` is the wrong-arguments arm. -/
def make_st : List Arg → Option (Instr Expr IM)
  | [.ex mem] => some (.St_d9 mem)
  | [.im _ im] => some (.St_Ri im)
  | _ => none

/-- The arms for `mov`, src/parser.rs 1001–1003; `none` is the wrong-arguments arm. -/
def make_mov : List Arg → Option (Instr Expr IM)
  | [.imm imm, .ex mem] => some (.Mov_d9 imm mem)
  | [.imm imm, .im _ im] => some (.Mov_Rj imm im)
  | _ => none

/-- The arms for `ldc`, src/parser.rs 1011–1012; `none` is the wrong-arguments arm. -/
def make_ldc : List Arg → Option (Instr Expr IM)
  | [] => some .Ldc
  | _ => none

/-- The arms for `push`, src/parser.rs 1013–1014; `none` is the wrong-arguments arm. -/
def make_push : List Arg → Option (Instr Expr IM)
  | [.ex mem] => some (.Push mem)
  | _ => none

/-- The arms for `pop`, src/parser.rs 1015–1016; `none` is the wrong-arguments arm. -/
def make_pop : List Arg → Option (Instr Expr IM)
  | [.ex mem] => some (.Pop mem)
  | _ => none

/-- The arms for `xch`, src/parser.rs 1017–1019; `none` is the wrong-arguments arm. -/
def make_xch : List Arg → Option (Instr Expr IM)
  | [.ex mem] => some (.Xch_d9 mem)
  | [.im _ im] => some (.Xch_Ri im)
  | _ => none

/-- The arms for `jmp`, src/parser.rs 1020–1021; `none` is the wrong-arguments arm. -/
def make_jmp : List Arg → Option (Instr Expr IM)
  | [.ex mem] => some (.Jmp mem)
  | _ => none

/-- The arms for `jmpf`, src/parser.rs 1022–1023; `none` is the wrong-arguments arm. -/
def make_jmpf : List Arg → Option (Instr Expr IM)
  | [.ex mem] => some (.Jmpf mem)
  | _ => none

/-- The arms for `br`, src/parser.rs 1024–1025; `none` is the wrong-arguments arm. -/
def make_br : List Arg → Option (Instr Expr IM)
  | [.ex mem] => some (.Br mem)
  | _ => none

/-- The arms for `brf`, src/parser.rs 1026–1027; `none` is the wrong-arguments arm. -/
def make_brf : List Arg → Option (Instr Expr IM)
  | [.ex mem] => some (.Brf mem)
  | _ => none

/-- The arms for `bz`, src/parser.rs 1028–1029; `none` is the wrong-arguments arm. -/
def make_bz : List Arg → Option (Instr Expr IM)
  | [.ex mem] => some (.Bz mem)
  | _ => none

/-- The arms for `bnz`, src/parser.rs 1030–1031; `none` is the wrong-arguments arm. -/
def make_bnz : List Arg → Option (Instr Expr IM)
  | [.ex mem] => some (.Bnz mem)
  | _ => none

/-- The arms for `bp`, src/parser.rs 1032–1033; `none` is the wrong-arguments arm. -/
def make_bp : List Arg → Option (Instr Expr IM)
  | [.ex m1, .ex m2, .ex m3] => some (.Bp m1 m2 m3)
  | _ => none

/-- The arms for `bpc`, src/parser.rs 1038–1039; `none` is the wrong-arguments arm. -/
def make_bpc : List Arg → Option (Instr Expr IM)
  | [.ex m1, .ex m2, .ex m3] => some (.Bpc m1 m2 m3)
  | _ => none

/-- The arms for `bn`, src/parser.rs 1044–1045; `none` is the wrong-arguments arm. -/
def make_bn : List Arg → Option (Instr Expr IM)
  | [.ex m1, .ex m2, .ex m3] => some (.Bn m1 m2 m3)
  | _ => none

/-- The arms for `dbnz`, src/parser.rs 1050–1052; `none` is the wrong-arguments arm. -/
def make_dbnz : List Arg → Option (Instr Expr IM)
  | [.ex m1, .ex m2] => some (.Dbnz_d9 m1 m2)
  | [.im _ im, .ex mem] => some (.Dbnz_Ri im mem)
  | _ => none

/-- The arms for `be`, src/parser.rs 1060–1065; `none` is the wrong-arguments arm. -/
def make_be : List Arg → Option (Instr Expr IM)
  | [.imm imm, .ex mem] => some (.Be_i8 imm mem)
  | [.ex m1, .ex m2] => some (.Be_d9 m1 m2)
  | [.im _ im, .imm imm, .ex mem] => some (.Be_Rj im imm mem)
  | _ => none

/-- The arms for `bne`, src/parser.rs 1074–1079; `none` is the wrong-arguments arm. -/
def make_bne : List Arg → Option (Instr Expr IM)
  | [.imm imm, .ex mem] => some (.Bne_i8 imm mem)
  | [.ex m1, .ex m2] => some (.Bne_d9 m1 m2)
  | [.im _ im, .imm imm, .ex mem] => some (.Bne_Rj im imm mem)
  | _ => none

/-- The arms for `call`, src/parser.rs 1088–1089; `none` is the wrong-arguments arm. -/
def make_call : List Arg → Option (Instr Expr IM)
  | [.ex mem] => some (.Call mem)
  | _ => none

/-- The arms for `callf`, src/parser.rs 1090–1091; `none` is the wrong-arguments arm. -/
def make_callf : List Arg → Option (Instr Expr IM)
  | [.ex mem] => some (.Callf mem)
  | _ => none

/-- The arms for `callr`, src/parser.rs 1092–1093; `none` is the wrong-arguments arm. -/
def make_callr : List Arg → Option (Instr Expr IM)
  | [.ex mem] => some (.Callr mem)
  | _ => none

/-- The arms for `ret`, src/parser.rs 1094–1095; `none` is the wrong-arguments arm. -/
def make_ret : List Arg → Option (Instr Expr IM)
  | [] => some .Ret
  | _ => none

/-- The arms for `reti`, src/parser.rs 1096–1097; `none` is the wrong-arguments arm. -/
def make_reti : List Arg → Option (Instr Expr IM)
  | [] => some .Reti
  | _ => none

/-- The arms for `clr1`, src/parser.rs 1098–1099; `none` is the wrong-arguments arm. -/
def make_clr1 : List Arg → Option (Instr Expr IM)
  | [.ex d9, .ex b3] => some (.Clr1 d9 b3)
  | _ => none

/-- The arms for `set1`, src/parser.rs 1100–1101; `none` is the wrong-arguments arm. -/
def make_set1 : List Arg → Option (Instr Expr IM)
  | [.ex d9, .ex b3] => some (.Set1 d9 b3)
  | _ => none

/-- The arms for `not1`, src/parser.rs 1102–1103; `none` is the wrong-arguments arm. -/
def make_not1 : List Arg → Option (Instr Expr IM)
  | [.ex d9, .ex b3] => some (.Not1 d9 b3)
  | _ => none

/-- The arms for `nop`, src/parser.rs 1104–1105; `none` is the wrong-arguments arm. -/
def make_nop : List Arg → Option (Instr Expr IM)
  | [] => some .Nop
  | _ => none

/-- The arms for `ldf`, src/parser.rs 1106–1107; `none` is the wrong-arguments arm. -/
def make_ldf : List Arg → Option (Instr Expr IM)
  | [] => some .Ldf
  | _ => none

/-- The arms for `stf`, src/parser.rs 1108–1109; `none` is the wrong-arguments arm. -/
def make_stf : List Arg → Option (Instr Expr IM)
  | [] => some .Stf
  | _ => none

/-- The arms of make_instr by mnemonic, src/parser.rs 917–1112, in source order: the arms of one
mnemonic are adjacent. -/
def makers : List (Text × (List Arg → Option (Instr Expr IM))) :=
  [("add".toList, make_add),
   ("addc".toList, make_addc),
   ("sub".toList, make_sub),
   ("subc".toList, make_subc),
   ("inc".toList, make_inc),
   ("dec".toList, make_dec),
   ("mul".toList, make_mul),
   ("div".toList, make_div),
   ("and".toList, make_and),
   ("or".toList, make_or),
   ("xor".toList, make_xor),
   ("rol".toList, make_rol),
   ("rolc".toList, make_rolc),
   ("ror".toList, make_ror),
   ("rorc".toList, make_rorc),
   ("ld".toList, make_ld),
   ("st".toList, make_st),
   ("mov".toList, make_mov),
   ("ldc".toList, make_ldc),
   ("push".toList, make_push),
   ("pop".toList, make_pop),
   ("xch".toList, make_xch),
   ("jmp".toList, make_jmp),
   ("jmpf".toList, make_jmpf),
   ("br".toList, make_br),
   ("brf".toList, make_brf),
   ("bz".toList, make_bz),
   ("bnz".toList, make_bnz),
   ("bp".toList, make_bp),
   ("bpc".toList, make_bpc),
   ("bn".toList, make_bn),
   ("dbnz".toList, make_dbnz),
   ("be".toList, make_be),
   ("bne".toList, make_bne),
   ("call".toList, make_call),
   ("callf".toList, make_callf),
   ("callr".toList, make_callr),
   ("ret".toList, make_ret),
   ("reti".toList, make_reti),
   ("clr1".toList, make_clr1),
   ("set1".toList, make_set1),
   ("not1".toList, make_not1),
   ("nop".toList, make_nop),
   ("ldf".toList, make_ldf),
   ("stf".toList, make_stf)]

/-- make_instr, src/parser.rs 917–1112 -/
def makeInstr (s : Span) (name : Text) (args : List Arg) : Res (Instr Expr IM) :=
  match makers.lookup name with
  | some f =>
    match f args with
    | some i => .ok i
    | none => .fail (.wrongInstructionArgs name) s
  | none => .fail (.unknownInstruction name) s

end Verif.Located
