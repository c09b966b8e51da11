import Verif.Model.Ast
/-
make_instr, src/parser.rs 917–1112.  Transcribed by tools/gen_make_instr.py.
-/
namespace Verif

/-- The arms for `add`, src/parser.rs 921–924; `none` is the wrong-arguments arm. -/
def make_add : List Arg → Option (Instr Expr IM)
  | [.imm imm] => some (.Add_i8 imm)
  | [.ex mem] => some (.Add_d9 mem)
  | [.im im] => some (.Add_Ri im)
  | _ => none

/-- The arms for `addc`, src/parser.rs 929–932; `none` is the wrong-arguments arm. -/
def make_addc : List Arg → Option (Instr Expr IM)
  | [.imm imm] => some (.Addc_i8 imm)
  | [.ex mem] => some (.Addc_d9 mem)
  | [.im im] => some (.Addc_Ri im)
  | _ => none

/-- The arms for `sub`, src/parser.rs 937–940; `none` is the wrong-arguments arm. -/
def make_sub : List Arg → Option (Instr Expr IM)
  | [.imm imm] => some (.Sub_i8 imm)
  | [.ex mem] => some (.Sub_d9 mem)
  | [.im im] => some (.Sub_Ri im)
  | _ => none

/-- The arms for `subc`, src/parser.rs 945–948; `none` is the wrong-arguments arm. -/
def make_subc : List Arg → Option (Instr Expr IM)
  | [.imm imm] => some (.Subc_i8 imm)
  | [.ex mem] => some (.Subc_d9 mem)
  | [.im im] => some (.Subc_Ri im)
  | _ => none

/-- The arms for `inc`, src/parser.rs 953–955; `none` is the wrong-arguments arm. -/
def make_inc : List Arg → Option (Instr Expr IM)
  | [.ex mem] => some (.Inc_d9 mem)
  | [.im im] => some (.Inc_Ri im)
  | _ => none

/-- The arms for `dec`, src/parser.rs 956–958; `none` is the wrong-arguments arm. -/
def make_dec : List Arg → Option (Instr Expr IM)
  | [.ex mem] => some (.Dec_d9 mem)
  | [.im im] => some (.Dec_Ri im)
  | _ => none

/-- The arms for `mul`, src/parser.rs 959–960; `none` is the wrong-arguments arm. -/
def make_mul : List Arg → Option (Instr Expr IM)
  | [] => some .Mul
  | _ => none

/-- The arms for `div`, src/parser.rs 961–962; `none` is the wrong-arguments arm. -/
def make_div : List Arg → Option (Instr Expr IM)
  | [] => some .Div
  | _ => none

/-- The arms for `and`, src/parser.rs 963–966; `none` is the wrong-arguments arm. -/
def make_and : List Arg → Option (Instr Expr IM)
  | [.imm imm] => some (.And_i8 imm)
  | [.ex mem] => some (.And_d9 mem)
  | [.im im] => some (.And_Ri im)
  | _ => none

/-- The arms for `or`, src/parser.rs 971–974; `none` is the wrong-arguments arm. -/
def make_or : List Arg → Option (Instr Expr IM)
  | [.imm imm] => some (.Or_i8 imm)
  | [.ex mem] => some (.Or_d9 mem)
  | [.im im] => some (.Or_Ri im)
  | _ => none

/-- The arms for `xor`, src/parser.rs 979–982; `none` is the wrong-arguments arm. -/
def make_xor : List Arg → Option (Instr Expr IM)
  | [.imm imm] => some (.Xor_i8 imm)
  | [.ex mem] => some (.Xor_d9 mem)
  | [.im im] => some (.Xor_Ri im)
  | _ => none

/-- The arms for `rol`, src/parser.rs 987–988; `none` is the wrong-arguments arm. -/
def make_rol : List Arg → Option (Instr Expr IM)
  | [] => some .Rol
  | _ => none

/-- The arms for `rolc`, src/parser.rs 989–990; `none` is the wrong-arguments arm. -/
def make_rolc : List Arg → Option (Instr Expr IM)
  | [] => some .Rolc
  | _ => none

/-- The arms for `ror`, src/parser.rs 991–992; `none` is the wrong-arguments arm. -/
def make_ror : List Arg → Option (Instr Expr IM)
  | [] => some .Ror
  | _ => none

/-- The arms for `rorc`, src/parser.rs 993–994; `none` is the wrong-arguments arm. -/
def make_rorc : List Arg → Option (Instr Expr IM)
  | [] => some .Rorc
  | _ => none

/-- The arms for `ld`, src/parser.rs 995–997; `none` is the wrong-arguments arm. -/
def make_ld : List Arg → Option (Instr Expr IM)
  | [.ex mem] => some (.Ld_d9 mem)
  | [.im im] => some (.Ld_Ri im)
  | _ => none

/-- The arms for `st`, src/parser.rs 998–1000; `none` is the wrong-arguments arm. -/
def make_st : List Arg → Option (Instr Expr IM)
  | [.ex mem] => some (.St_d9 mem)
  | [.im im] => some (.St_Ri im)
  | _ => none

/-- The arms for `mov`, src/parser.rs 1001–1003; `none` is the wrong-arguments arm. -/
def make_mov : List Arg → Option (Instr Expr IM)
  | [.imm imm, .ex mem] => some (.Mov_d9 imm mem)
  | [.imm imm, .im im] => some (.Mov_Rj imm im)
  | _ => none

/-- The arms for `ldc`, src/parser.rs 1011–1012; `none` is the wrong-arguments arm. -/
def make_ldc : List Arg → Option (Instr Expr IM)
  | [] => some .Ldc
  | _ => none

/-- The arms for `push`, src/parser.rs 1013–1014; `none` is the wrong-arguments arm. -/
def make_push : List Arg → Option (Instr Expr IM)
  | [.ex mem] => some (.Push mem)
  | _ => none

/-- The arms for `pop`, src/parser.rs 1015–1016; `none` is the wrong-arguments arm. -/
def make_pop : List Arg → Option (Instr Expr IM)
  | [.ex mem] => some (.Pop mem)
  | _ => none

/-- The arms for `xch`, src/parser.rs 1017–1019; `none` is the wrong-arguments arm. -/
def make_xch : List Arg → Option (Instr Expr IM)
  | [.ex mem] => some (.Xch_d9 mem)
  | [.im im] => some (.Xch_Ri im)
  | _ => none

/-- The arms for `jmp`, src/parser.rs 1020–1021; `none` is the wrong-arguments arm. -/
def make_jmp : List Arg → Option (Instr Expr IM)
  | [.ex mem] => some (.Jmp mem)
  | _ => none

/-- The arms for `jmpf`, src/parser.rs 1022–1023; `none` is the wrong-arguments arm. -/
def make_jmpf : List Arg → Option (Instr Expr IM)
  | [.ex mem] => some (.Jmpf mem)
  | _ => none

/-- The arms for `br`, src/parser.rs 1024–1025; `none` is the wrong-arguments arm. -/
def make_br : List Arg → Option (Instr Expr IM)
  | [.ex mem] => some (.Br mem)
  | _ => none

/-- The arms for `brf`, src/parser.rs 1026–1027; `none` is the wrong-arguments arm. -/
def make_brf : List Arg → Option (Instr Expr IM)
  | [.ex mem] => some (.Brf mem)
  | _ => none

/-- The arms for `bz`, src/parser.rs 1028–1029; `none` is the wrong-arguments arm. -/
def make_bz : List Arg → Option (Instr Expr IM)
  | [.ex mem] => some (.Bz mem)
  | _ => none

/-- The arms for `bnz`, src/parser.rs 1030–1031; `none` is the wrong-arguments arm. -/
def make_bnz : List Arg → Option (Instr Expr IM)
  | [.ex mem] => some (.Bnz mem)
  | _ => none

/-- The arms for `bp`, src/parser.rs 1032–1033; `none` is the wrong-arguments arm. -/
def make_bp : List Arg → Option (Instr Expr IM)
  | [.ex m1, .ex m2, .ex m3] => some (.Bp m1 m2 m3)
  | _ => none

/-- The arms for `bpc`, src/parser.rs 1038–1039; `none` is the wrong-arguments arm. -/
def make_bpc : List Arg → Option (Instr Expr IM)
  | [.ex m1, .ex m2, .ex m3] => some (.Bpc m1 m2 m3)
  | _ => none

/-- The arms for `bn`, src/parser.rs 1044–1045; `none` is the wrong-arguments arm. -/
def make_bn : List Arg → Option (Instr Expr IM)
  | [.ex m1, .ex m2, .ex m3] => some (.Bn m1 m2 m3)
  | _ => none

/-- The arms for `dbnz`, src/parser.rs 1050–1052; `none` is the wrong-arguments arm. -/
def make_dbnz : List Arg → Option (Instr Expr IM)
  | [.ex m1, .ex m2] => some (.Dbnz_d9 m1 m2)
  | [.im im, .ex mem] => some (.Dbnz_Ri im mem)
  | _ => none

/-- The arms for `be`, src/parser.rs 1060–1065; `none` is the wrong-arguments arm. -/
def make_be : List Arg → Option (Instr Expr IM)
  | [.imm imm, .ex mem] => some (.Be_i8 imm mem)
  | [.ex m1, .ex m2] => some (.Be_d9 m1 m2)
  | [.im im, .imm imm, .ex mem] => some (.Be_Rj im imm mem)
  | _ => none

/-- The arms for `bne`, src/parser.rs 1074–1079; `none` is the wrong-arguments arm. -/
def make_bne : List Arg → Option (Instr Expr IM)
  | [.imm imm, .ex mem] => some (.Bne_i8 imm mem)
  | [.ex m1, .ex m2] => some (.Bne_d9 m1 m2)
  | [.im im, .imm imm, .ex mem] => some (.Bne_Rj im imm mem)
  | _ => none

/-- The arms for `call`, src/parser.rs 1088–1089; `none` is the wrong-arguments arm. -/
def make_call : List Arg → Option (Instr Expr IM)
  | [.ex mem] => some (.Call mem)
  | _ => none

/-- The arms for `callf`, src/parser.rs 1090–1091; `none` is the wrong-arguments arm. -/
def make_callf : List Arg → Option (Instr Expr IM)
  | [.ex mem] => some (.Callf mem)
  | _ => none

/-- The arms for `callr`, src/parser.rs 1092–1093; `none` is the wrong-arguments arm. -/
def make_callr : List Arg → Option (Instr Expr IM)
  | [.ex mem] => some (.Callr mem)
  | _ => none

/-- The arms for `ret`, src/parser.rs 1094–1095; `none` is the wrong-arguments arm. -/
def make_ret : List Arg → Option (Instr Expr IM)
  | [] => some .Ret
  | _ => none

/-- The arms for `reti`, src/parser.rs 1096–1097; `none` is the wrong-arguments arm. -/
def make_reti : List Arg → Option (Instr Expr IM)
  | [] => some .Reti
  | _ => none

/-- The arms for `clr1`, src/parser.rs 1098–1099; `none` is the wrong-arguments arm. -/
def make_clr1 : List Arg → Option (Instr Expr IM)
  | [.ex d9, .ex b3] => some (.Clr1 d9 b3)
  | _ => none

/-- The arms for `set1`, src/parser.rs 1100–1101; `none` is the wrong-arguments arm. -/
def make_set1 : List Arg → Option (Instr Expr IM)
  | [.ex d9, .ex b3] => some (.Set1 d9 b3)
  | _ => none

/-- The arms for `not1`, src/parser.rs 1102–1103; `none` is the wrong-arguments arm. -/
def make_not1 : List Arg → Option (Instr Expr IM)
  | [.ex d9, .ex b3] => some (.Not1 d9 b3)
  | _ => none

/-- The arms for `nop`, src/parser.rs 1104–1105; `none` is the wrong-arguments arm. -/
def make_nop : List Arg → Option (Instr Expr IM)
  | [] => some .Nop
  | _ => none

/-- The arms for `ldf`, src/parser.rs 1106–1107; `none` is the wrong-arguments arm. -/
def make_ldf : List Arg → Option (Instr Expr IM)
  | [] => some .Ldf
  | _ => none

/-- The arms for `stf`, src/parser.rs 1108–1109; `none` is the wrong-arguments arm. -/
def make_stf : List Arg → Option (Instr Expr IM)
  | [] => some .Stf
  | _ => none

/-- The arms of make_instr by mnemonic, src/parser.rs 917–1112, in source order: the arms of one
mnemonic are adjacent. -/
def makers : List (Text × (List Arg → Option (Instr Expr IM))) :=
  [("add".toList, make_add),
   ("addc".toList, make_addc),
   ("sub".toList, make_sub),
   ("subc".toList, make_subc),
   ("inc".toList, make_inc),
   ("dec".toList, make_dec),
   ("mul".toList, make_mul),
   ("div".toList, make_div),
   ("and".toList, make_and),
   ("or".toList, make_or),
   ("xor".toList, make_xor),
   ("rol".toList, make_rol),
   ("rolc".toList, make_rolc),
   ("ror".toList, make_ror),
   ("rorc".toList, make_rorc),
   ("ld".toList, make_ld),
   ("st".toList, make_st),
   ("mov".toList, make_mov),
   ("ldc".toList, make_ldc),
   ("push".toList, make_push),
   ("pop".toList, make_pop),
   ("xch".toList, make_xch),
   ("jmp".toList, make_jmp),
   ("jmpf".toList, make_jmpf),
   ("br".toList, make_br),
   ("brf".toList, make_brf),
   ("bz".toList, make_bz),
   ("bnz".toList, make_bnz),
   ("bp".toList, make_bp),
   ("bpc".toList, make_bpc),
   ("bn".toList, make_bn),
   ("dbnz".toList, make_dbnz),
   ("be".toList, make_be),
   ("bne".toList, make_bne),
   ("call".toList, make_call),
   ("callf".toList, make_callf),
   ("callr".toList, make_callr),
   ("ret".toList, make_ret),
   ("reti".toList, make_reti),
   ("clr1".toList, make_clr1),
   ("set1".toList, make_set1),
   ("not1".toList, make_not1),
   ("nop".toList, make_nop),
   ("ldf".toList, make_ldf),
   ("stf".toList, make_stf)]

/-- make_instr, src/parser.rs 917–1112.  The `Option` of the Rust result is always `Some`. -/
def makeInstr (name : Text) (args : List Arg) : Res (Instr Expr IM) :=
  match makers.lookup name with
  | some f =>
    match f args with
    | some i => .ok i
    | none => .err (.wrongInstructionArgs name)
  | none => .err (.unknownInstruction name)

end Verif
