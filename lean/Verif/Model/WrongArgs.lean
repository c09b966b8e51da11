import Verif.Model.Print
/-
The forms of an instruction that are listed if its arguments are wrong.  The table is transcribed by
tools/gen_wrong_args.py.
-/
namespace Verif

/-- ArgType, src/ast.rs 68–79 -/
inductive ArgType where
  | Imm | D9 | IM | B3 | A12 | A16 | R8 | R16 | Macro
  deriving DecidableEq, Repr

/-- ArgType::to_str, src/ast.rs 112–124 -/
def ArgType.text : ArgType → Text
  | .Imm => "#i8".toList
  | .D9 => "d9".toList
  | .IM => "@Ri".toList
  | .B3 => "b3".toList
  | .A12 => "a12".toList
  | .A16 => "a16".toList
  | .R8 => "r8".toList
  | .R16 => "r16".toList
  | .Macro => "%arg".toList

/-- The last argument of wrong_args (src/parser.rs 88–98) for each instruction, src/parser.rs 924–1108 -/
def wrongForms : List (Text × List (List ArgType)) := [
  ("add".toList, [[.Imm], [.D9], [.IM]]),  -- line 924
  ("addc".toList, [[.Imm], [.D9], [.IM]]),  -- line 932
  ("sub".toList, [[.Imm], [.D9], [.IM]]),  -- line 940
  ("subc".toList, [[.Imm], [.D9], [.IM]]),  -- line 948
  ("inc".toList, [[.D9], [.IM]]),  -- line 955
  ("dec".toList, [[.D9], [.IM]]),  -- line 958
  ("mul".toList, []),  -- line 960
  ("div".toList, []),  -- line 962
  ("and".toList, [[.Imm], [.D9], [.IM]]),  -- line 966
  ("or".toList, [[.Imm], [.D9], [.IM]]),  -- line 974
  ("xor".toList, [[.Imm], [.D9], [.IM]]),  -- line 982
  ("rol".toList, []),  -- line 988
  ("rolc".toList, []),  -- line 990
  ("ror".toList, []),  -- line 992
  ("rorc".toList, []),  -- line 994
  ("ld".toList, [[.D9], [.IM]]),  -- line 997
  ("st".toList, [[.D9], [.IM]]),  -- line 1000
  ("mov".toList, [[.Imm, .D9], [.Imm, .IM]]),  -- line 1003
  ("ldc".toList, []),  -- line 1012
  ("push".toList, [[.D9]]),  -- line 1014
  ("pop".toList, [[.D9]]),  -- line 1016
  ("xch".toList, [[.D9], [.IM]]),  -- line 1019
  ("jmp".toList, [[.A12]]),  -- line 1021
  ("jmpf".toList, [[.A16]]),  -- line 1023
  ("br".toList, [[.R8]]),  -- line 1025
  ("brf".toList, [[.R16]]),  -- line 1027
  ("bz".toList, [[.R8]]),  -- line 1029
  ("bnz".toList, [[.R8]]),  -- line 1031
  ("bp".toList, [[.D9, .B3, .R8]]),  -- line 1033
  ("bpc".toList, [[.D9, .B3, .R8]]),  -- line 1039
  ("bn".toList, [[.D9, .B3, .R8]]),  -- line 1045
  ("dbnz".toList, [[.D9, .R8], [.IM, .R8]]),  -- line 1052
  ("be".toList, [[.Imm, .R8], [.D9, .R8], [.IM, .Imm, .R8]]),  -- line 1065
  ("bne".toList, [[.Imm, .R8], [.D9, .R8], [.IM, .Imm, .R8]]),  -- line 1079
  ("call".toList, [[.A12]]),  -- line 1089
  ("callf".toList, [[.A16]]),  -- line 1091
  ("callr".toList, [[.R16]]),  -- line 1093
  ("ret".toList, []),  -- line 1095
  ("reti".toList, []),  -- line 1097
  ("clr1".toList, [[.D9, .B3]]),  -- line 1099
  ("set1".toList, [[.D9, .B3]]),  -- line 1101
  ("not1".toList, [[.D9, .B3]]),  -- line 1103
  ("nop".toList, []),  -- line 1105
  ("ldf".toList, []),  -- line 1107
  ("stf".toList, [])]  -- line 1109

/-- Joined by `, `, as the loop in src/lib.rs 802–821 does -/
def commaList : List Text → Text
  | [] => []
  | [t] => t
  | t :: ts => t ++ ", ".toList ++ commaList ts

/-- What print_error writes after the excerpt for WrongInstructionArgs, src/lib.rs 779–826; colours are not modelled. -/
def wrongArgsText (name : Text) (forms : List (List ArgType)) : Text :=
  (if forms = [] ∨ forms = [[]] then name ++ " expects 0 arguments.\n\n".toList
   else
    "Allowed form".toList ++ (if forms.length > 1 then "s".toList else []) ++ " for instruction ".toList ++ name ++
      ":\n".toList ++
      forms.flatMap fun form => "  ".toList ++ name ++ " ".toList ++ commaList (form.map ArgType.text) ++ "\n".toList) ++
  "\n".toList

end Verif
