#!/usr/bin/env python3
"""Transcribes src/instruction.rs (enum, eval, decode_from_raw, Display) into Lean tables.
Run as: gen_instr.py /repo/src/instruction.rs > lean/Verif/Model/Instr.lean"""
import re, sys
src = open(sys.argv[1]).read().split('\n')
def find(prefix):
    return next(i for i, l in enumerate(src) if l.startswith(prefix))
# enum
i0 = find('pub enum Instr<Ex, IM>')
variants = []  # (name, kinds, pattern, line)
i = i0 + 1
while src[i] != '}':
    m = re.match(r'\s*#\[instr = "(.*)"\]', src[i])
    if m:
        pat = m.group(1)
        m2 = re.match(r'\s*(\w+)(?:\(([^)]*)\))?,', src[i+1])
        kinds = [k.strip() for k in m2.group(2).split(',')] if m2.group(2) else []
        variants.append((m2.group(1), kinds, pat, i+1))
        i += 1
    i += 1
names = [v[0] for v in variants]
V = ['a', 'b', 'c']
def block(start, kind):
    """match arms between line index start and the closing of the match, one per variant"""
    text = '\n'.join(src[start:])
    arms = {}
    for n, kinds, _, _ in variants:
        if kinds:
            m = re.search(r'\n\s*' + n + r'\(([^)]*)\) => ', text)
        else:
            m = re.search(r'\n\s*' + n + r' => ', text)
        body = text[m.end():]
        line = start + 1 + text[:m.end()].count('\n')
        # read the body up to the top-level comma (or closing brace)
        d = 0; out = ''; instr = False
        for ch in body:
            if ch == '"': instr = not instr
            if not instr:
                if ch in '({': d += 1
                if ch in ')}': d -= 1
                if d < 0 or (d == 0 and ch == ','): break
            out += ch
            if not instr and d == 0 and ch == '}': break
        params = [p.strip() for p in m.group(1).split(',')] if kinds else []
        arms[n] = (params, ' '.join(out.split()).strip('{} ') if kind != 'fmt' else out, line)
    return arms
def splitargs(s):
    d = 0; cur = ''; out = []
    for ch in s:
        if ch in '(': d += 1
        if ch in ')': d -= 1
        if ch == ',' and d == 0:
            out.append(cur.strip()); cur = ''
        else: cur += ch
    if cur.strip(): out.append(cur.strip())
    return out
ev = block(find('impl Instr<Expr, IndirectionMode>'), 'eval')
dec = block(find('fn decode_from_raw'), 'dec')
dis = block(find('impl fmt::Display for Instr'), 'fmt')
P = print
P('''import Verif.Model.Expr
import Verif.Model.Derive
/-
The instruction set (src/instruction.rs).  Transcribed from the source by tools/gen_instr.py:
the constructors, bit patterns, and the arms of `eval`, `decode_from_raw` and `Display` follow
the Rust text one for one.
-/
namespace Verif

''' + f'''/-- `enum Instr<Ex, IM>`, src/instruction.rs {i0+1}–{i+1} -/
inductive Instr (Ex IM : Type) where''')
for n, kinds, pat, line in variants:
    P('  | ' + n + ''.join(f' ({V[k]} : {t})' for k, t in enumerate(kinds)))
P('  deriving DecidableEq, Repr\n')
P('''/-- The variants of `Instr` without their operands (the macro generates one match arm for each). -/
inductive Form where''')
for n in names: P('  | ' + n)
P('  deriving DecidableEq, Repr\n')
P('/-- All variants in declaration order. -/\ndef Form.all : List Form :=\n  [' + ',\n   '.join(', '.join('.'+n for n in names[j:j+8]) for j in range(0, len(names), 8)) + ']\n')
P(f'''/-- The `#[instr = "..."]` attributes, src/instruction.rs {variants[0][3]}–{variants[-1][3]} -/
def Form.pattern : Form → Text''')
for n, kinds, pat, line in variants: P(f'  | .{n} => "{pat}".toList')
P('''
/-- The variant's identifier in the source; `exists` uses the part before the underscore. -/
def Form.ident : Form → Text''')
for n in names: P(f'  | .{n} => "{n}".toList')
P('''
/-- The types of the variant's fields: `true` for `Ex`, `false` for `IM`. -/
def Form.fields : Form → List Bool''')
for n, kinds, pat, line in variants: P(f'  | .{n} => [' + ', '.join('true' if t == 'Ex' else 'false' for t in kinds) + ']')
def pat_(n, kinds): return f'.{n}' + ''.join(f' {V[k]}' for k in range(len(kinds)))
def patw(n, kinds): return f'.{n}' + ''.join(' _' for k in range(len(kinds)))
P('''
/-- Which match arm an instruction takes. -/
def Instr.form {Ex IM : Type} : Instr Ex IM → Form''')
for n, kinds, pat, line in variants: P(f'  | {patw(n, kinds)} => .{n}')
P('''
/-- The operands of an evaluated instruction in order, as the generated code names them `a`, `b`,
`c`; `u8` operands are numbers like the others. -/
def Instr.vals : Instr Int Nat → List Int''')
for n, kinds, pat, line in variants: P(f'  | {pat_(n, kinds)} => [' + ', '.join(V[k] if t == 'Ex' else f'({V[k]} : Int)' for k, t in enumerate(kinds)) + ']')
P('''
/-- Applying a variant to extracted operands: `as i32` for `Ex`, `as u8` for `IM`
(waterbear-instruction-derive/src/lib.rs 78–97).  `none` if the number of operands is wrong. -/
def Form.build : Form → List Nat → Option (Instr Int Nat)''')
for n, kinds, pat, line in variants:
    P(f'  | .{n}, [' + ', '.join(V[k] for k in range(len(kinds))) + f'] => some ' + (f'(.{n}' + ''.join(f' (wrap32 {V[k]})' if t == 'Ex' else f' ({V[k]} % 256)' for k, t in enumerate(kinds)) + ')' if kinds else f'.{n}'))
P('  | _, _ => none')
P(f'''
/-- `exists` (waterbear-instruction-derive/src/lib.rs 121–152): the lower-cased part of a variant's
identifier before the first underscore. -/
def Form.mnemonic (f : Form) : Text := lower (f.ident.takeWhile (· ≠ '_'))

/-- Instr::exists, waterbear-instruction-derive/src/lib.rs 146–152 -/
def instrExists (name : Text) : Bool := Form.all.any fun f => f.mnemonic = name

/-- The parsed bit pattern of a variant; `[]` stands for a compile-time panic of the macro, which
`Form.ranges_ok` in the lemmas excludes. -/
def Form.ranges (f : Form) : List (List Derive.BitRange) :=
  (Derive.parseBitPattern f.pattern).getD []

/-- The names `a`, `b`, `c`, ... given to operands (waterbear-instruction-derive/src/lib.rs 582–612) -/
def operandNames (n : Nat) : List Char := ['a', 'b', 'c'].take n

/-- The operands by name, `as u32`. -/
def operandEnv (vals : List Int) (name : Char) : Nat :=
  match ((operandNames vals.length).zip vals).lookup name with
  | some v => toU32 v
  | none => 0

/-- Instr::size, waterbear-instruction-derive/src/lib.rs 103–119 and 140–144 -/
def Instr.size {{Ex IM : Type}} (i : Instr Ex IM) : Nat := i.form.ranges.length

/-- Instr::encode, waterbear-instruction-derive/src/lib.rs 37–62 and 156–160 -/
def Instr.encode (i : Instr Int Nat) : List UInt8 :=
  Derive.encodeRanges (operandEnv i.vals) i.form.ranges

/-- The match arm of one variant in decode_raw: pattern and guard,
waterbear-instruction-derive/src/lib.rs 88–98 -/
def Form.matches (f : Form) (bytes : List UInt8) (b0 : UInt8) : Bool :=
  (Derive.allPossibleOpcodes (f.ranges.headD [])).contains b0.toNat
    && (f.fields.isEmpty || bytes.length ≥ f.ranges.length)

/-- decode_raw, waterbear-instruction-derive/src/lib.rs 66–101 and 162–167: `bytes[0]` panics on an
empty slice; the first matching arm wins. -/
def decodeRaw (bytes : List UInt8) : Res (Option (Instr Int Nat)) :=
  match bytes with
  | [] => .panic
  | b0 :: _ =>
    match Form.all.find? (fun f => f.matches bytes b0) with
    | some f => .ok (f.build ((operandNames f.fields.length).map (Derive.extract f.ranges bytes)))
    | none => .ok none

/-- decode_from_raw's rel16, src/instruction.rs 541–547: `rel as u16` read as `i16` -/
def rawRel16 (rel : Int) : Int :=
  if rel % 65536 < 32768 then rel % 65536 else rel % 65536 - 65536

/-- decode_from_raw's rel8, src/instruction.rs 549–555: `rel as u8` read as `i8` -/
def rawRel8 (rel : Int) : Int :=
  if rel % 256 < 128 then rel % 256 else rel % 256 - 256
''')
P(f'/-- decode_from_raw, src/instruction.rs {find("fn decode_from_raw")+1}–652 -/\ndef decodeFromRaw : Instr Int Nat → Instr Int Nat')
for n, kinds, pat, line in variants:
    params, body, ln = dec[n]
    assert body.startswith(n)
    args = splitargs(body[len(n)+1:-1]) if kinds else []
    outs = []
    for a in args:
        m = re.match(r'rel(8|16)\((\w+)\)$', a)
        if m: outs.append(f'(rawRel{m.group(1)} {V[params.index(m.group(2))]})')
        else: outs.append(V[params.index(a)])
    P(f'  | {pat_(n, kinds)} => .{n}' + ''.join(' ' + o for o in outs))
P('''
/-- Instr::decode, src/instruction.rs 238–242 -/
def decode (bytes : List UInt8) : Res (Option (Instr Int Nat)) := do
  let raw ← decodeRaw bytes
  .ok (raw.map decodeFromRaw)

/-- eval, src/instruction.rs 348–355 -/
def evalBits (m : Mode) (env : Env) (bits : Nat) (e : Expr) : Res Int := do
  let value ← e.eval m env
  if value >>> bits ≠ 0 then .err (.numOutOfRange bits value) else .ok value

/-- rel8, src/instruction.rs 373–385; `pos as i32` truncates. -/
def evalRel8 (m : Mode) (env : Env) (pos : Nat) (e : Expr) : Res Int := do
  let address ← e.eval m env
  if 0 ≤ address ∧ address ≤ 65535 then do
    let value ← m.norm (address - wrap32 pos)
    if -128 ≤ value ∧ value ≤ 127 then .ok value else .err (.signedNumOutOfRange 8 value)
  else .err (.invalidAddress address)

/-- eval12, src/instruction.rs 387–403; `addr` is in 0..65535, so `as usize` is harmless. -/
def evalAbs12 (m : Mode) (env : Env) (pos : Nat) (e : Expr) : Res Int := do
  let addr ← evalBits m env 16 e
  let valTop := addr.toNat &&& 0xF000
  let posTop := pos &&& 0xF000
  if valTop ≠ posTop then .err (.addrBitsDontMatch pos addr)
  else .ok ((addr.toNat &&& 0x0FFF : Nat) : Int)

/-- rel16, src/instruction.rs 405–417 -/
def evalRel16 (m : Mode) (env : Env) (pos : Nat) (e : Expr) : Res Int := do
  let address ← e.eval m env
  if 0 ≤ address ∧ address ≤ 65535 then do
    let d ← m.norm (address - wrap32 pos)
    let value ← m.norm (d + 1)
    if -32768 ≤ value ∧ value ≤ 32767 then .ok value else .err (.signedNumOutOfRange 16 value)
  else .err (.invalidAddress address)
''')
P(f'/-- Instr::eval, src/instruction.rs 421–538, in the environment of the current scope (the three\nenvironments of lines 423–425 differ only in the word used in messages); `pos` is the position of\nthe next instruction. -/\ndef Instr.evalIn (m : Mode) (env : Env) (pos : Nat) : Instr Expr IM → Res (Instr Int Nat)')
for n, kinds, pat, line in variants:
    params, body, ln = ev[n]
    assert body.startswith(n), (n, body)
    args = splitargs(body[len(n)+1:-1]) if kinds else []
    lets = []; outs = []
    for k, a in enumerate(args):
        a = a.strip(', ')
        m = re.match(r'(eval(?:3|8|9|16))\((\w+), &\wenv\)\?$', a)
        if m:
            lets.append(f'let x{k} ← evalBits m env {m.group(1)[4:]} {V[params.index(m.group(2))]}'); outs.append(f'x{k}'); continue
        m = re.match(r'(eval12|rel8|rel16)\((\w+), pos, &lenv\)\?$', a)
        if m:
            fn = {'eval12':'evalAbs12','rel8':'evalRel8','rel16':'evalRel16'}[m.group(1)]
            lets.append(f'let x{k} ← {fn} m env pos {V[params.index(m.group(2))]}'); outs.append(f'x{k}'); continue
        m = re.match(r'(\w+)\.index\(\)$', a)
        assert m, (n, a)
        outs.append(f'{V[params.index(m.group(1))]}.index')
    res = f'.ok (.{n}' + ''.join(' ' + o for o in outs) + ')' if outs else f'.ok .{n}'
    if lets: P(f'  | {pat_(n, kinds)} => do\n' + ''.join('    ' + l + '\n' for l in lets) + '    ' + res)
    else: P(f'  | {pat_(n, kinds)} => {res}')
P('''
/-- Instr::eval, src/instruction.rs 421–538, with the look-up of the scope (`as_env`, which panics
for an unknown one). -/
def Instr.eval (m : Mode) (names : Names) (label : Text) (pos : Nat) (i : Instr Expr IM) :
    Res (Instr Int Nat) := do
  let env ← names.asEnv label
  i.evalIn m env pos
''')
P(f'/-- Display for Instr, src/instruction.rs 244–344; `sx` and `si` print expressions and indirection\nmodes. -/\ndef Instr.display {{Ex IM : Type}} (sx : Ex → Text) (si : IM → Text) : Instr Ex IM → Text')
for n, kinds, pat, line in variants:
    params, body, ln = dis[n]
    m = re.match(r'write!\(f, "([^"]*)"(?:, (.*))?\)', body)
    fmt = m.group(1); args = splitargs(m.group(2) or '')
    pieces = fmt.split('{}')
    out = []
    for k, p in enumerate(pieces):
        if p: out.append(f'"{p}".toList')
        if k < len(args):
            idx = params.index(args[k])
            out.append(f'{"sx" if kinds[idx]=="Ex" else "si"} {V[idx]}')
    P(f'  | {pat_(n, kinds)} => ' + ' ++ '.join(out))
P('\nend Verif')
