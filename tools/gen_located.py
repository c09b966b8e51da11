#!/usr/bin/env python3
"""Writes lean/Verif/Model/Located/Instr.lean from Model/Instr.lean and Model/MakeInstr.lean: the located forms of
Instr::eval and make_instr differ from the plain ones only in the types of expressions, arguments and outcomes."""
import re
base = '/verif/lean/Verif/Model/'
instr = open(base + 'Instr.lean').read()
make = open(base + 'MakeInstr.lean').read()

ctors = re.search(r'inductive Instr \(Ex IM : Type\) where\n(.*?)\n  deriving', instr, re.S).group(1)
forms = []
for l in ctors.split('\n'):
    m = re.match(r'\s*\| (\w+)(.*)', l)
    kinds = []
    for names, t in re.findall(r'\(([\w ]+) : (\w+)\)', m.group(2)):
        kinds += [t] * len(names.split())
    forms.append((m.group(1), kinds))

out = ['import Verif.Model.Located.Basic', '/-',
       'Instr::eval (src/instruction.rs 348–538) and make_instr (src/parser.rs 917–1112) with spans.  Written by',
       'tools/gen_located.py from Model/Instr.lean and Model/MakeInstr.lean, which transcribe the code.', '-/',
       'namespace Verif.Located', '',
       '/-- The instruction with other expressions -/', 'def mapInstr {A B : Type} (f : A → B) : Instr A IM → Instr B IM']
for c, kinds in forms:
    vs = 'abc'[:len(kinds)]
    l = ' '.join(['.' + c] + list(vs))
    r = ' '.join(['.' + c] + [f'(f {v})' if k == 'Ex' else v for v, k in zip(vs, kinds)])
    out.append(f'  | {l} => {r}')
out.append('')
out += ['/-- The instruction without spans -/', 'def eraseInstr (i : Instr Expr IM) : Instr Verif.Expr IM := mapInstr Expr.erase i', '']
out += ['/-- The expressions of an instruction in the order of its operands -/',
        'def exprsOf {Ex : Type} : Instr Ex IM → List Ex']
for c, kinds in forms:
    vs = 'abc'[:len(kinds)]
    l = ' '.join(['.' + c] + [v if k == 'Ex' else '_' for v, k in zip(vs, kinds)])
    out.append(f'  | {l} => [{", ".join(v for v, k in zip(vs, kinds) if k == "Ex")}]')
out.append('')
out.append('''/-- eval, src/instruction.rs 348–355 -/
def evalBits (m : Mode) (env : Env) (bits : Nat) (e : Expr) : Res Int := do
  let value ← e.eval m env
  if value >>> bits ≠ 0 then .fail (.numOutOfRange bits value) e.span else .ok value

/-- rel8, src/instruction.rs 373–385 -/
def evalRel8 (m : Mode) (env : Env) (pos : Nat) (e : Expr) : Res Int := do
  let address ← e.eval m env
  if 0 ≤ address ∧ address ≤ 65535 then do
    let value ← .lift (m.norm (address - wrap32 pos))
    if -128 ≤ value ∧ value ≤ 127 then .ok value else .fail (.signedNumOutOfRange 8 value) e.span
  else .fail (.invalidAddress address) e.span

/-- eval12, src/instruction.rs 387–403 -/
def evalAbs12 (m : Mode) (env : Env) (pos : Nat) (e : Expr) : Res Int := do
  let addr ← evalBits m env 16 e
  let valTop := addr.toNat &&& 0xF000
  let posTop := pos &&& 0xF000
  if valTop ≠ posTop then .fail (.addrBitsDontMatch pos addr) e.span
  else .ok ((addr.toNat &&& 0x0FFF : Nat) : Int)

/-- rel16, src/instruction.rs 405–417 -/
def evalRel16 (m : Mode) (env : Env) (pos : Nat) (e : Expr) : Res Int := do
  let address ← e.eval m env
  if 0 ≤ address ∧ address ≤ 65535 then do
    let d ← .lift (m.norm (address - wrap32 pos))
    let value ← .lift (m.norm (d + 1))
    if -32768 ≤ value ∧ value ≤ 32767 then .ok value else .fail (.signedNumOutOfRange 16 value) e.span
  else .fail (.invalidAddress address) e.span
''')
ev = re.search(r'/-- Instr::eval, src/instruction.rs 421–538, in the environment.*?\n(?=/-- Instr::eval)', instr, re.S).group(0)
ev = ev.replace('def Instr.evalIn (m : Mode) (env : Env) (pos : Nat) : Instr Expr IM →', 'def evalInstrIn (m : Mode) (env : Env) (pos : Nat) : Instr Expr IM →')
out.append(ev.rstrip('\n'))
out.append('')
out.append('''/-- Instr::eval, src/instruction.rs 421–538, with the look-up of the scope -/
def evalInstr (m : Mode) (names : Names) (label : Text) (pos : Nat) (i : Instr Expr IM) : Res (Instr Int Nat) := do
  let env ← .lift (names.asEnv label)
  evalInstrIn m env pos i
''')
mk = re.search(r'/-- The arms for `add`.*?(?=/-- make_instr)', make, re.S).group(0)
mk = re.sub(r'\.im im', '.im _ im', mk)
mk = re.sub(r'\.im (im\d|r\w*)', r'.im _ \1', mk)
out.append(mk.rstrip('\n'))
out.append('')
out.append('''/-- make_instr, src/parser.rs 917–1112 -/
def makeInstr (s : Span) (name : Text) (args : List Arg) : Res (Instr Expr IM) :=
  match makers.lookup name with
  | some f =>
    match f args with
    | some i => .ok i
    | none => .fail (.wrongInstructionArgs name) s
  | none => .fail (.unknownInstruction name) s

end Verif.Located
''')
open(base + 'Located/Instr.lean', 'w').write('\n'.join(out))
print(len(forms))
