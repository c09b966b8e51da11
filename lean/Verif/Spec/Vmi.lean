import Verif.Model.Vmi
/-
Specification of VMI files, after the table at https://mc.pp.se/dc/vms/vmi.html (the layout in `src/lib.rs`).
-/
namespace Verif.Spec

/-- The last component of a path. -/
def FileName (path name : Text) : Prop :=
  ∃ dir, path = dir ++ name ∧ '/' ∉ name ∧ (dir = [] ∨ dir.getLast? = some '/')

/-- A file name without its extension `.vms`, if it has it. -/
def BaseName (name base : Text) : Prop :=
  name = base ++ ".vms".toList ∨ (base = name ∧ ¬ ∃ b, name = b ++ ".vms".toList)

/-- The bytes of `out` from position `pos` on are those of `src`, filled with zeros or cut to `len` bytes. -/
def Field (out : List UInt8) (pos len : Nat) (src : List UInt8) : Prop :=
  ∀ j < len, out[pos + j]? = some (src.getD j 0)

/-- A date and time as the clock gives it. -/
structure ClockTime.Valid (t : ClockTime) : Prop where
  year : 0 ≤ t.year ∧ t.year < 65536
  month : 1 ≤ t.month ∧ t.month ≤ 12
  day : 1 ≤ t.day ∧ t.day ≤ 31
  hour : t.hour < 24
  minute : t.minute < 60
  second : t.second < 60

/-- Days since Sunday. -/
def dayNumber : Weekday → Nat
  | .sun => 0 | .mon => 1 | .tue => 2 | .wed => 3 | .thu => 4 | .fri => 5 | .sat => 6

/-- The parts of a VMI file. -/
structure VmiFile (vms : List UInt8) (name base : Text) (copyright : Text) (game : Bool) (now : ClockTime)
    (out : List UInt8) : Prop where
  length : out.length = 108
  /-- four characters of the resource name masked with `SEGA` -/
  checksum : ∀ j < 4, out[j]? = some ((utf8 base).getD j 0 &&& [0x53, 0x45, 0x47, 0x41].getD j 0)
  /-- the description in the header of the VMS file, which a game has at 0x200 -/
  description : ∀ j < 32, ∃ b, vms[(if game then 0x200 else 0) + 0x10 + j]? = some b ∧ out[0x04 + j]? = some b
  copyright : Field out 0x24 32 (utf8 copyright)
  year : ∃ lo hi : UInt8, out[0x44]? = some lo ∧ out[0x45]? = some hi ∧ (lo.toNat + 256 * hi.toNat : Nat) = now.year
  month : ∃ b : UInt8, out[0x46]? = some b ∧ b.toNat = now.month
  day : ∃ b : UInt8, out[0x47]? = some b ∧ b.toNat = now.day
  hour : ∃ b : UInt8, out[0x48]? = some b ∧ b.toNat = now.hour
  minute : ∃ b : UInt8, out[0x49]? = some b ∧ b.toNat = now.minute
  second : ∃ b : UInt8, out[0x4A]? = some b ∧ b.toNat = now.second
  weekday : ∃ b : UInt8, out[0x4B]? = some b ∧ b.toNat = dayNumber now.weekday
  /-- version 0.0 -/
  version : out[0x4C]? = some 0 ∧ out[0x4D]? = some 0
  /-- file number 1 -/
  number : out[0x4E]? = some 1 ∧ out[0x4F]? = some 0
  resource : Field out 0x50 8 (utf8 base)
  filename : Field out 0x58 12 (utf8 name)
  /-- whether the file is a game -/
  mode : out[0x64]? = some (if game then 2 else 0) ∧ out[0x65]? = some 0
  reserved : out[0x66]? = some 0 ∧ out[0x67]? = some 0
  /-- the length of the VMS file, modulo 2³² -/
  size : ∃ a b c d : UInt8, out[0x68]? = some a ∧ out[0x69]? = some b ∧ out[0x6A]? = some c ∧ out[0x6B]? = some d ∧
    a.toNat + 256 * b.toNat + 65536 * c.toNat + 16777216 * d.toNat = vms.length % 2 ^ 32

end Verif.Spec
