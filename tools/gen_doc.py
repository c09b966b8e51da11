#!/usr/bin/env python3
"""Copies the instruction tables of docs/instructions.md into lean/Verif/Spec/InstrSet.lean.
Run as: gen_doc.py /repo > lean/Verif/Spec/InstrSet.lean"""
import re, sys
repo = sys.argv[1]
rows = []
for ln, l in enumerate(open(repo + '/docs/instructions.md'), 1):
    m = re.match(r'^\| `([a-z0-9]+)([^|`]*)` *\| `([01\[][^`]*)`', l)
    if m:
        ops = [o.strip() for o in m.group(2).split(',') if o.strip()]
        rows.append((m.group(1), ops, m.group(3), ln))
K = {'#i8': 'i8', 'd9': 'd9', '@Ri': 'ri', 'b3': 'b3', 'r8': 'r8', 'a12': 'a12', 'a16': 'a16', 'r16': 'r16'}
def letters(name, ops, pat):
    out = []
    for o in ops:
        k = K[o]
        if k == 'ri': out.append('R' if '[R1]' in pat else 'r')
        else: out.append({'i8': 'i', 'd9': 'd', 'b3': 'b', 'r8': 'r', 'a12': 'a', 'a16': 'a', 'r16': 'r'}[k])
    if name == 'bnz': out = ['a']   # the manual writes [a7]..[a0] for this row
    return out
variants = []
inside = False
for l in open(repo + '/src/instruction.rs'):
    if l.startswith('pub enum Instr<'): inside = True
    elif inside and l.startswith('}'): break
    elif inside:
        m = re.match(r'\s*(\w+)(?:\(([^)]*)\))?,', l)
        if m: variants.append((m.group(1), m.group(2)))
SUF = {'i8': '#i8', 'd9': 'd9', 'Ri': '@Ri', 'Rj': '@Ri'}
print('''import Verif.Model.Instr
/-
Specification: the instruction set as documented in docs/instructions.md, independent of the
bit patterns in the source code.  The rows are copied from the manual by tools/gen_doc.py.
-/
namespace Verif.Spec

/-- Operand kinds as named in the manual. -/
inductive Kind where
  | i8   -- `#i8`: immediate byte
  | d9   -- `d9`: 9-bit direct address
  | ri   -- `@Ri`: indirection mode 0..3
  | b3   -- `b3`: bit number
  | r8   -- `r8`: 8-bit relative address
  | a12  -- `a12`: low 12 bits of an absolute address
  | a16  -- `a16`: absolute address
  | r16  -- `r16`: 16-bit relative address
  deriving DecidableEq, Repr

/-- The values an encoded field of each kind can hold. -/
def Kind.holds : Kind → Int → Prop
  | .i8, v => 0 ≤ v ∧ v < 256
  | .d9, v => 0 ≤ v ∧ v < 512
  | .ri, v => 0 ≤ v ∧ v < 4
  | .b3, v => 0 ≤ v ∧ v < 8
  | .r8, v => -128 ≤ v ∧ v < 128
  | .a12, v => 0 ≤ v ∧ v < 4096
  | .a16, v => 0 ≤ v ∧ v < 65536
  | .r16, v => -32768 ≤ v ∧ v < 32768

/-- One row of the manual: name, operands (kind and the letter used for its bits), bit pattern. -/
structure Row where
  name : String
  operands : List (Kind × Char)
  pattern : String
  deriving DecidableEq, Repr

/-- One bit of a pattern. -/
inductive DocBit where
  | const (b : Bool)
  | opnd (letter : Char) (idx : Nat)
  deriving DecidableEq, Repr

/-- Reads a pattern such as `1000001[d8] [d7]...`: digits are constant bits, `[xn]` is bit `n` of
the operand with letter `x`, blanks separate bytes. -/
def readPattern : List Char → List DocBit
  | [] => []
  | '0' :: cs => .const false :: readPattern cs
  | '1' :: cs => .const true :: readPattern cs
  | '[' :: x :: d :: ']' :: cs => .opnd x (d.toNat - 48) :: readPattern cs
  | '[' :: x :: d :: e :: ']' :: cs => .opnd x ((d.toNat - 48) * 10 + (e.toNat - 48)) :: readPattern cs
  | _ :: cs => readPattern cs

/-- Bit `i` of an integer in two's complement. -/
def intBit (v : Int) (i : Nat) : Bool := (v / 2 ^ i) % 2 = 1

/-- The value of a documented bit for operand values `vals` (in the order of the row). -/
def Row.bitValue (row : Row) (vals : List Int) : DocBit → Bool
  | .const b => b
  | .opnd letter i =>
    match ((row.operands.map (·.2)).zip vals).lookup letter with
    | some v => intBit v i
    | none => false

/-- The row of the manual for each instruction form. -/
def row : Form → Row''')
used = set()
for v, args in variants:
    nm, _, suf = v.partition('_')
    nm = nm.lower()
    cands = [r for r in rows if r[0] == nm]
    if suf and len(cands) > 1:
        key = SUF[suf]
        # the operand that distinguishes the forms
        if nm == 'mov': c2 = [r for r in cands if r[1][1] == ('d9' if suf == 'd9' else '@Ri')]
        else: c2 = [r for r in cands if r[1][0] == key]
        cands = c2
    assert len(cands) == 1, (v, cands)
    name, ops, pat, ln = cands[0]
    used.add(ln)
    ls = letters(name, ops, pat)
    o = '[' + ', '.join(f'(.{K[x]}, \'{c}\')' for x, c in zip(ops, ls)) + ']'
    print(f'  | .{v} => ⟨"{name}", {o}, "{pat}"⟩  -- line {ln}')
assert len(used) == len(rows) == len(variants), (len(used), len(rows))
print('''
/-- The manual's size of an instruction in bytes. -/
def Row.size (r : Row) : Nat := (readPattern r.pattern.toList).length / 8

/-- The constant bits among the first eight agree with the byte. -/
def constBitsAgree : List DocBit → UInt8 → Bool
  | [c7, c6, c5, c4, c3, c2, c1, c0], b =>
    [(c7, 7), (c6, 6), (c5, 5), (c4, 4), (c3, 3), (c2, 2), (c1, 1), (c0, 0)].all fun
      | (.const c, k) => b.toNat.testBit k == c
      | (.opnd _ _, _) => true
  | _, _ => false

/-- A first byte selects the row if it agrees with the constant bits of the row's first byte. -/
def Row.selects (r : Row) (b : UInt8) : Bool := constBitsAgree ((readPattern r.pattern.toList).take 8) b

/-- The operand kinds of a form. -/
def kinds (f : Form) : List Kind := (row f).operands.map (·.1)

/-- Value by value, the operands can be held by fields of the given kinds. -/
def holdsAll : List Kind → List Int → Prop
  | [], [] => True
  | k :: ks, v :: vs => k.holds v ∧ holdsAll ks vs
  | _, _ => False

/-- All operands of the instruction fit their fields. -/
def InRange (i : Instr Int Nat) : Prop := holdsAll (kinds i.form) i.vals

/-- The operands of an unevaluated instruction, left to right: expressions or indirection modes. -/
def operands : Instr Expr IM → List (Sum Expr IM)''')
for v, args in variants:
    ts = [t.strip() for t in args.split(',')] if args else []
    vs = 'abc'[:len(ts)]
    print(f'  | .{v}' + ''.join(' ' + x for x in vs) + ' => [' + ', '.join(('.inl ' if t == 'Ex' else '.inr ') + x for x, t in zip(vs, ts)) + ']')
print('''
/-- The field value that makes an operand of value `v` mean `v`, for an instruction whose successor
is at address `next`; `none` if the operand is not representable. -/
def Kind.field (k : Kind) (next : Nat) (v : Int) : Option Int :=
  match k with
  | .i8 => if 0 ≤ v ∧ v < 256 then some v else none
  | .d9 => if 0 ≤ v ∧ v < 512 then some v else none
  | .ri => if 0 ≤ v ∧ v < 4 then some v else none
  | .b3 => if 0 ≤ v ∧ v < 8 then some v else none
  | .r8 =>
    if (0 ≤ v ∧ v < 65536) ∧ (-128 ≤ v - next ∧ v - next < 128) then some (v - next) else none
  | .a12 =>
    if (0 ≤ v ∧ v < 65536) ∧ v / 4096 = (next % 65536) / 4096 then some (v % 4096) else none
  | .a16 => if 0 ≤ v ∧ v < 65536 then some v else none
  | .r16 =>
    if (0 ≤ v ∧ v < 65536) ∧ (-32768 ≤ v - (next - 1) ∧ v - (next - 1) < 32768)
    then some (v - (next - 1)) else none

/-- All fields, or `none` if some operand is not representable. -/
def fields (next : Nat) : List Kind → List Int → Option (List Int)
  | [], [] => some []
  | k :: ks, v :: vs =>
    match k.field next v, fields next ks vs with
    | some x, some xs => some (x :: xs)
    | _, _ => none
  | _, _ => none

/-- The errors that report an operand that does not fit. -/
def isRangeError : Err → Bool
  | .numOutOfRange _ _ => true
  | .signedNumOutOfRange _ _ => true
  | .invalidAddress _ => true
  | .addrBitsDontMatch _ _ => true
  | _ => false

/-- The value of an operand. -/
def operandValue (m : Mode) (env : Env) : Sum Expr IM → Res Int
  | .inl e => e.eval m env
  | .inr r => .ok r.index

/-- `vs` are the values of the operands, in order. -/
def OperandValues (m : Mode) (env : Env) : List (Sum Expr IM) → List Int → Prop
  | [], [] => True
  | o :: os, v :: vs => operandValue m env o = .ok v ∧ OperandValues m env os vs
  | _, _ => False

end Verif.Spec''')
