#!/usr/bin/env python3
"""Generates lean/Verif/Lemmas/InstrCases.lean: the per-constructor cases of two lemmas, from the
operand kinds in lean/Verif/Spec/InstrSet.lean."""
import re
rows = []
for l in open('/verif/lean/Verif/Spec/InstrSet.lean'):
    m = re.match(r'  \| \.(\w+) => ⟨"\w+", \[(.*?)\], ', l)
    if m: rows.append((m.group(1), re.findall(r'\(\.(\w+),', m.group(2))))
W = dict(i8=8, d9=9, ri=2, b3=3, r8=8, a12=12, a16=16, r16=16)
LO = dict(i8=(0,256), d9=(0,512), ri=(0,4), b3=(0,8), r8=(-128,128), a12=(0,4096), a16=(0,65536), r16=(-32768,32768))
V = 'abc'
def dec(k, t):  # decoded operand from field expression t : Nat
    if k == 'ri': return f'({t} % 256)'
    s = f'wrap32 (({t} : Nat) : Int)'
    return f'(rawRel8 ({s}))' if k == 'r8' else f'(rawRel16 ({s}))' if k == 'r16' else f'({s})'
out = ['''import Verif.Lemmas.Fields
/-
Helper lemmas: the cases of decode/encode for each instruction form.  Generated by
tools/gen_cases.py.
-/
namespace Verif
open Derive Spec

theorem build_fieldVals (i : Instr Int Nat) (h : InRange i) :
    (i.form.build (fieldVals i.form i.vals)).map decodeFromRaw = some i := by
  cases i with''']
for n, ks in rows:
    if not ks:
        out.append(f'  | {n} => rfl'); continue
    vs = V[:len(ks)]
    out.append(f'  | {n} ' + ' '.join(vs) + ' =>')
    hs = ' ∧ '.join(f'({LO[k][0]} ≤ ({v} : Int) ∧ ({v} : Int) < {LO[k][1]})' for k, v in zip(ks, vs)) + ' ∧ True'
    out.append(f'    have h : {hs} := h')
    terms = ' '.join(dec(k, f'toU32 ({v} : Int) % 2 ^ {W[k]}') for k, v in zip(ks, vs))
    out.append(f'    show some (Instr.{n} {terms}) = _')
    path = ['h.1', 'h.2.1', 'h.2.2.1']
    out.append('    rw [' + ', '.join(f'field_{k} {path[j]}' for j, k in enumerate(ks)) + ']')
out.append('''
theorem build_vals (f : Form) (xs : List Nat) (h : xs.length = f.fields.length) :
    ∃ i, f.build xs = some i ∧ (decodeFromRaw i).form = f ∧
      fieldVals f (decodeFromRaw i).vals = List.zipWith (fun x (p : Char × Nat) => x % 2 ^ p.2) xs f.widths ∧
      (decodeFromRaw i).vals = List.zipWith Kind.read (kinds f) xs := by
  cases f with''')
for n, ks in rows:
    vs = V[:len(ks)]
    out.append(f'  | {n} =>')
    pats = '[' + ', '.join(vs) + ']'
    out.append(f'    obtain ⟨{", ".join(list(vs) + ["rfl"])}⟩ := list_len_{len(ks)} h')
    if not ks:
        out.append('    exact ⟨_, rfl, rfl, rfl, rfl⟩'); continue
    lhs = '[' + ', '.join(f'toU32 {dec(k, v) if k != "ri" else "((" + v + " % 256 : Nat) : Int)"} % 2 ^ {W[k]}' for k, v in zip(ks, vs)) + ']'
    out.append(f'    refine ⟨_, rfl, rfl, ?_, rfl⟩')
    out.append(f'    show {lhs} = _')
    out.append('    rw [' + ', '.join(f'rfield_{k}' for k in dict.fromkeys(ks)) + ']' if False else '    simp only [' + ', '.join(f'rfield_{k}' for k in dict.fromkeys(ks)) + ']')
    out.append('    rfl')
out.append('\nend Verif')
open('/verif/lean/Verif/Lemmas/InstrCases.lean', 'w').write('\n'.join(out) + '\n')

# evaluation of operands
E = dict(i8='evalBits m env 8 {v}', d9='evalBits m env 9 {v}', b3='evalBits m env 3 {v}', a16='evalBits m env 16 {v}',
         a12='evalAbs12 m env next {v}', r8='evalRel8 m env next {v}', r16='evalRel16 m env next {v}', ri='(Res.ok ({v}.index : Int))')
out = ['''import Verif.Lemmas.EvalFields
/-
Helper lemma: `Instr.evalIn` evaluates the operands in order.  Generated by tools/gen_cases.py.
-/
namespace Verif
open Spec

theorem evalIn_eq (m : Mode) (env : Env) (next : Nat) (e : Instr Expr IM) :
    ((e.evalIn m env next) >>= fun i => .ok (i.form, i.vals)) =
      (evalFields m env next (kinds e.form) (operands e) >>= fun xs => .ok (e.form, xs)) := by
  cases e with''']
for n, ks in rows:
    if not ks:
        out.append(f'  | {n} => rfl'); continue
    vs = V[:len(ks)]
    out.append(f'  | {n} ' + ' '.join(vs) + ' =>')
    ev = [(j, k, v, E[k].format(v=v)) for j, (k, v) in enumerate(zip(ks, vs)) if k != 'ri']
    args = ' '.join(f'x{j}' if k != 'ri' else f'{v}.index' for j, (k, v) in enumerate(zip(ks, vs)))
    inner = f'Res.ok (Instr.{n} {args})'
    for j, k, v, e in reversed(ev): inner = f'({e} >>= fun x{j} => {inner})'
    rin = 'Res.ok ([] : List Int)'
    for j, (k, v) in reversed(list(enumerate(zip(ks, vs)))):
        rin = f'({E[k].format(v=v)} >>= fun x{j} => {rin} >>= fun ys => Res.ok (x{j} :: ys))'
    out.append(f'    show ({inner} >>= fun i => Res.ok (i.form, i.vals)) = ({rin} >>= fun xs => Res.ok (Form.{n}, xs))')
    if not ev: out.append('    rfl')
    for idx, (j, k, v, e) in enumerate(ev):
        if idx == 0: out.append(f'    cases {e} <;> try rfl')
        else: out.append(f'    simp only [Res.ok_bind]\n    cases {e} <;> try rfl')
out.append('\nend Verif')
open('/verif/lean/Verif/Lemmas/EvalCases.lean', 'w').write('\n'.join(out) + '\n')
# the same for the model with places
text = '\n'.join(out) + '\n'
text = text.replace('import Verif.Lemmas.EvalFields', 'import Verif.Lemmas.Located.EvalFields').replace('`Instr.evalIn`', '`Located.evalInstrIn`')
text = text.replace('namespace Verif\nopen Spec', 'namespace Verif.Located\nopen Verif.Spec').replace('end Verif', 'end Verif.Located')
text = text.replace('((e.evalIn m env next) >>=', '((evalInstrIn m env next e) >>=')
open('/verif/lean/Verif/Lemmas/Located/EvalCases.lean', 'w').write(text)
