#!/usr/bin/env python3
"""Transcribes make_instr (src/parser.rs) into lean/Verif/Model/MakeInstr.lean."""
import re
src = open('/repo/src/parser.rs').read()
lines = src.split('\n')
start = next(i for i, l in enumerate(lines) if l.startswith('pub fn make_instr'))
end = next(i for i in range(start, len(lines)) if lines[i] == '}')
body = '\n'.join(lines[start:end])
arms = re.findall(r'\("(\w+)", \[(.*?)\]\) => (?:\{\s*)?instr\(span, (\w+)(?:\((.*?)\)\)|\))', body, re.S)
wrong = re.findall(r'\("(\w+)", _\) => wrong_args', body)
order, table = [], {}
for name, pats, ctor, args in arms:
    if name not in table:
        order.append(name); table[name] = []
    ps, vs = [], []
    for p in [x for x in re.findall(r'(Imm|Ex|IM)\((?:_, )?(\w+)\)', pats)]:
        k = {'Imm': 'imm', 'Ex': 'ex', 'IM': 'im'}[p[0]]
        ps.append(f'.{k} {p[1]}'); vs.append(p[1])
    a = re.findall(r'(\w+)\.clone\(', args or '')
    table[name].append((ps, ctor, a))
assert order == wrong, (order, wrong)
out = ['import Verif.Model.Ast', '/-', f'make_instr, src/parser.rs {start+1}–{end+1}.  Transcribed by tools/gen_make_instr.py.', '-/', 'namespace Verif', '']
for n in order:
    ls = [k+1 for k in range(start, end) if f'("{n}",' in lines[k]]
    out.append(f'/-- The arms for `{n}`, src/parser.rs {ls[0]}–{ls[-1]}; `none` is the wrong-arguments arm. -/')
    out.append(f'def make_{n} : List Arg → Option (Instr Expr IM)')
    for ps, ctor, a in table[n]:
        out.append(f'  | [{", ".join(ps)}] => some ' + (f'(.{ctor} {" ".join(a)})' if a else f'.{ctor}'))
    out.append('  | _ => none')
    out.append('')
out += [f'/-- The arms of make_instr by mnemonic, src/parser.rs {start+1}–{end+1}, in source order: the arms of one',
        'mnemonic are adjacent. -/',
        'def makers : List (Text × (List Arg → Option (Instr Expr IM))) :=']
out += ['  [' + ',\n   '.join(f'("{n}".toList, make_{n})' for n in order) + ']']
out += ['', f'/-- make_instr, src/parser.rs {start+1}–{end+1}.  The `Option` of the Rust result is always `Some`. -/',
 'def makeInstr (name : Text) (args : List Arg) : Res (Instr Expr IM) :=',
 '  match makers.lookup name with',
 '  | some f =>',
 '    match f args with',
 '    | some i => .ok i',
 '    | none => .err (.wrongInstructionArgs name)',
 '  | none => .err (.unknownInstruction name)', '', 'end Verif', '']
open('/verif/lean/Verif/Model/MakeInstr.lean', 'w').write('\n'.join(out))
print(len(arms), len(order))
