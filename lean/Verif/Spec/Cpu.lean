/-
Specification: how the CPU computes jump targets (docs/instructions.md, sections jmp, jmpf, br,
brf, call, callf, callr and the conditional branches).  `next` is the address of the following
instruction, `code` the bytes of the instruction.  The program counter has 16 bits.
-/
namespace Verif.Spec

/-- A byte read as a signed number. -/
def signExt8 (b : UInt8) : Int := if b.toNat < 128 then b.toNat else (b.toNat : Int) - 256

/-- `br` and conditional branches: the last byte, signed, is added to the address of the following
instruction. -/
def shortTarget (next : Nat) (code : List UInt8) : Option Int :=
  code.getLast?.map fun b => ((next : Int) + signExt8 b) % 65536

/-- `brf`, `callr`: the address of the following instruction, minus one, plus the little-endian
offset, modulo 65536. -/
def longTarget (next : Nat) : List UInt8 → Option Int
  | [_, lo, hi] => some (((next : Int) - 1 + (lo.toNat + 256 * hi.toNat)) % 65536)
  | _ => none

/-- `jmp`, `call`: the low 12 bits of the program counter are replaced by the bits
`a11` (bit 4 of the first byte), `a10..a8` (bits 2..0 of the first byte), `a7..a0`. -/
def pageTarget (next : Nat) : List UInt8 → Option Int
  | [b0, b1] =>
    some ((next % 65536 / 4096 * 4096
      + (b0.toNat / 16 % 2 * 2048 + b0.toNat % 8 * 256 + b1.toNat) : Nat) : Int)
  | _ => none

/-- `jmpf`, `callf`: big-endian absolute address. -/
def farTarget : List UInt8 → Option Int
  | [_, hi, lo] => some ((hi.toNat * 256 + lo.toNat : Nat) : Int)
  | _ => none

end Verif.Spec
