#!/usr/bin/env python3
"""Transcribes the forms that make_instr (src/parser.rs) gives to wrong_args into lean/Verif/Model/WrongArgs.lean."""
import os
import re

here = os.path.dirname(os.path.abspath(__file__))
src = open('/repo/src/parser.rs').read()
start = src.index('pub fn make_instr(')
body = src[start:]
rows = []
for m in re.finditer(r'\("(\w+)", _\) => wrong_args\(\s*span,\s*"(\w+)",\s*(vec!\[.*?\]),?\s*\),\n', body, re.S):
    name, shown, forms = m.groups()
    assert name == shown
    line = src[:start + m.start()].count('\n') + 1
    inner = re.sub(r'\s', '', forms)[5:-1]
    lists = re.findall(r'vec!\[(.*?)\]', inner)
    rows.append((name, [re.findall(r'ArgType::(\w+)', l) for l in lists], line))

out = ['''import Verif.Model.Print
/-
The forms of an instruction that are listed if its arguments are wrong.  The table is transcribed by
tools/gen_wrong_args.py.
-/
namespace Verif

/-- ArgType, src/ast.rs 68–79 -/
inductive ArgType where
  | Imm | D9 | IM | B3 | A12 | A16 | R8 | R16 | Macro
  deriving DecidableEq, Repr

/-- ArgType::to_str, src/ast.rs 112–124 -/
def ArgType.text : ArgType → Text
  | .Imm => "#i8".toList
  | .D9 => "d9".toList
  | .IM => "@Ri".toList
  | .B3 => "b3".toList
  | .A12 => "a12".toList
  | .A16 => "a16".toList
  | .R8 => "r8".toList
  | .R16 => "r16".toList
  | .Macro => "%arg".toList

/-- The last argument of wrong_args (src/parser.rs 88–98) for each instruction, src/parser.rs 924–1108 -/
def wrongForms : List (Text × List (List ArgType)) := [''']
for i, (name, lists, line) in enumerate(rows):
    text = ', '.join('[' + ', '.join('.' + t for t in l) + ']' for l in lists)
    comma = ',' if i + 1 < len(rows) else ']'
    out.append(f'  ("{name}".toList, [{text}]){comma}  -- line {line}')
out.append('''
/-- Joined by `, `, as the loop in src/lib.rs 802–821 does -/
def commaList : List Text → Text
  | [] => []
  | [t] => t
  | t :: ts => t ++ ", ".toList ++ commaList ts

/-- What print_error writes after the excerpt for WrongInstructionArgs, src/lib.rs 779–826; colours are not modelled. -/
def wrongArgsText (name : Text) (forms : List (List ArgType)) : Text :=
  (if forms = [] ∨ forms = [[]] then name ++ " expects 0 arguments.\\n\\n".toList
   else
    "Allowed form".toList ++ (if forms.length > 1 then "s".toList else []) ++ " for instruction ".toList ++ name ++
      ":\\n".toList ++
      forms.flatMap fun form => "  ".toList ++ name ++ " ".toList ++ commaList (form.map ArgType.text) ++ "\\n".toList) ++
  "\\n".toList

end Verif''')
open(os.path.join(here, '..', 'lean', 'Verif', 'Model', 'WrongArgs.lean'), 'w').write('\n'.join(out) + '\n')
print(len(rows))
