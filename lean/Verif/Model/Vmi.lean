import Verif.Model.Parser

/-! # VMI files: `generate_vmi` in `src/lib.rs` -/

namespace Verif

/-- chrono's `Weekday` (src/lib.rs 459–467 matches on it). -/
inductive Weekday
  | mon | tue | wed | thu | fri | sat | sun

/-- What src/lib.rs 439–467 reads off the clock. The clock itself is not modelled: the time is a parameter. -/
structure ClockTime where
  year : Int
  month : Nat
  day : Nat
  hour : Nat
  minute : Nat
  second : Nat
  weekday : Weekday

/-- src/lib.rs 459–467 -/
def Weekday.number : Weekday → UInt8
  | .sun => 0
  | .mon => 1
  | .tue => 2
  | .wed => 3
  | .thu => 4
  | .fri => 5
  | .sat => 6

/-- `input_file.split('/')` (src/lib.rs 366, 375) -/
def splitSlash : Text → List Text
  | [] => [[]]
  | c :: t =>
    match splitSlash t with
    | [] => [[c]]
    | p :: ps => if c = '/' then [] :: p :: ps else (c :: p) :: ps

/-- `parts[parts.len() - 1]` (src/lib.rs 367, 376) -/
def vmsFilename (path : Text) : Text := (splitSlash path).getLastD []

/-- Replacing a match of the regex `\.vms$` by nothing (src/lib.rs 368–369). -/
def vmsBasename (filename : Text) : Text :=
  if ".vms".toList.isSuffixOf filename then filename.take (filename.length - 4) else filename

/-- The loops of src/lib.rs 390–416: `bytes[at + idx]` becomes byte `idx` of the text, or nul after its end. -/
def putField (bytes : List UInt8) (pos len : Nat) (src : List UInt8) : List UInt8 :=
  (List.range len).foldl (fun bs idx => bs.set (pos + idx) (if idx < src.length then src.getD idx 0 else 0)) bytes

/-- The loop of src/lib.rs 384–386, which panics if the VMS file is too short. -/
def putDescription (bytes vms : List UInt8) (offset : Nat) : Res (List UInt8) :=
  (List.range 32).foldl (fun r idx => do
    let bs ← r
    match vms[offset + 0x10 + idx]? with
    | some b => .ok (bs.set (0x4 + idx) b)
    | none => .panic) (.ok bytes)

/-- The low bytes of a number, `to_le_bytes` (src/lib.rs 431, 443) -/
def leBytes : Nat → Nat → List UInt8
  | 0, _ => []
  | n + 1, v => (v % 256).toUInt8 :: leBytes n (v / 256)

/-- Everything but checksum, size and time (src/lib.rs 388–422). -/
def putNames (bs : List UInt8) (path copyright : Text) (offset : Nat) : List UInt8 :=
  let filename := vmsFilename path
  let basename := vmsBasename filename
  let bs := putField bs 0x24 32 (utf8 copyright)
  let bs := (bs.set 0x4E 1).set (0x4E + 1) 0
  let bs := putField bs 0x50 8 (utf8 basename)
  let bs := putField bs 0x58 12 (utf8 filename)
  if offset > 0 then bs.set 0x64 0b00000010 else bs

/-- src/lib.rs 424–428 -/
def putChecksum (bs : List UInt8) : List UInt8 :=
  let bs := bs.set 0 (bs.getD 0x50 0 &&& 'S'.toNat.toUInt8)
  let bs := bs.set 1 (bs.getD (0x50 + 1) 0 &&& 'E'.toNat.toUInt8)
  let bs := bs.set 2 (bs.getD (0x50 + 2) 0 &&& 'G'.toNat.toUInt8)
  bs.set 3 (bs.getD (0x50 + 3) 0 &&& 'A'.toNat.toUInt8)

/-- src/lib.rs 438–467 -/
def putTime (bs : List UInt8) (now : ClockTime) : List UInt8 :=
  let bs := putField bs 0x44 2 (leBytes 2 (now.year % 65536).toNat)
  let bs := bs.set 0x46 now.month.toUInt8
  let bs := bs.set 0x47 now.day.toUInt8
  let bs := bs.set 0x48 now.hour.toUInt8
  let bs := bs.set 0x49 now.minute.toUInt8
  let bs := bs.set 0x4A now.second.toUInt8
  bs.set 0x4B now.weekday.number

/-- src/lib.rs 348–474 without reading and writing the files: the bytes of the VMI file for a VMS file with the given
contents at the given path. -/
def generateVmi (vms : List UInt8) (path copyright : Text) (offset : Nat) (now : ClockTime) : Res (List UInt8) := do
  let bs ← putDescription (List.replicate 108 0) vms offset
  let bs := putChecksum (putNames bs path copyright offset)
  let bs := putField bs 0x68 4 (leBytes 8 vms.length)
  .ok (putTime bs now)

/-- The offset chosen by the `vmi` command (src/lib.rs 253–255). -/
def vmiCommand (vms : List UInt8) (path copyright : Text) (game : Bool) (now : ClockTime) : Res (List UInt8) :=
  generateVmi vms path copyright (if game then 0x200 else 0) now

end Verif
