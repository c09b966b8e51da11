import Verif.Model.Basic
/-
The procedural macro `#[derive(Instruction)]` (waterbear-instruction-derive/src/lib.rs): a
compiler from bit patterns such as `"1000001[a8] [a7]...[a0]"` to the functions `size`, `encode`
and `decode_raw`.  The model interprets what the generated code computes.
-/
namespace Verif.Derive

/-- waterbear-instruction-derive/src/lib.rs 188–201 -/
inductive Bit where
  | lit (b : Nat)
  | ref (name : Char) (idx : Nat)
  deriving DecidableEq, Repr

/-- waterbear-instruction-derive/src/lib.rs 203–207 -/
inductive BitRange where
  | lit (value size : Nat)
  | ref (name : Char) (high low : Nat)
  deriving DecidableEq, Repr

/-- Bit::is_literal, lib.rs 194–201 -/
def Bit.isLit : Bit → Bool
  | .lit _ => true
  | .ref _ _ => false

/-- Decimal digits of a bit index followed by `]`; part of the regex of match_token (lib.rs 248) -/
def matchIdx : Nat → List Char → Option (Nat × List Char)
  | _, [] => none
  | acc, c :: cs =>
    if c.isDigit then matchIdx (acc * 10 + (c.toNat - 48)) cs
    else if c = ']' then some (acc, cs)
    else none

/-- match_token, lib.rs 246–267.  Returns the bit and the rest of the text.  Simplification: the
stray `:?` in the regex (a leading colon reaches `panic!`) is treated as "no match", which makes
the caller panic as well. -/
def matchToken : List Char → Option (Bit × List Char)
  | '0' :: cs => some (.lit 0, cs)
  | '1' :: cs => some (.lit 1, cs)
  | '[' :: n :: d :: cs =>
    if n.isLower ∧ d.isDigit then
      (matchIdx 0 (d :: cs)).map fun (i, rest) => (.ref n i, rest)
    else none
  | _ => none

/-- The loop of tokenize_bit_pattern, lib.rs 276–285; `none` is the `panic!`.  The fuel is the
length of the text. -/
def tokenizeLoop : Nat → List Char → Option (List Bit)
  | _, [] => some []
  | 0, _ :: _ => none
  | n + 1, cs =>
    match matchToken cs with
    | some (b, rest) => (tokenizeLoop n rest).map (b :: ·)
    | none => none

/-- tokenize_bit_pattern, lib.rs 269–287: whitespace is deleted first. -/
def tokenize (pattern : List Char) : Option (List Bit) :=
  let text := pattern.filter (fun c => !c.isWhitespace)
  tokenizeLoop text.length text

/-- chunk_to_range, lib.rs 289–312.  The chunk is given in reverse order (last bit first), as it is
accumulated by `bitsToRange`. -/
def chunkToRange (chunk : List Bit) : Option BitRange :=
  match chunk.head?, chunk.getLast? with
  | some (.lit b0), some _ =>
    let rec value : Nat → List Bit → Nat
      | _, [] => 0
      | idx, .lit b :: bs => (b <<< idx) ||| value (idx + 1) bs
      | idx, .ref _ _ :: bs => value (idx + 1) bs
    some (.lit (value 0 (.lit b0 :: chunk.tail)) chunk.length)
  | some (.ref _ low), some (.ref name high) => some (.ref name high low)
  | _, _ => none

/-- bits_to_range, lib.rs 314–364; `current` is the current chunk in reverse order. -/
def bitsToRangeLoop : List Bit → List Bit → List (List Bit)
  | current, [] => if current.isEmpty then [] else [current]
  | current, bit :: bits =>
    match current with
    | [] => bitsToRangeLoop [bit] bits
    | .lit _ :: _ =>
      if bit.isLit then bitsToRangeLoop (bit :: current) bits
      else current :: bitsToRangeLoop [bit] bits
    | .ref name idx :: _ =>
      match bit with
      | .lit _ => current :: bitsToRangeLoop [bit] bits
      | .ref cname cidx =>
        if name = cname ∧ idx - 1 = cidx then bitsToRangeLoop (bit :: current) bits
        else current :: bitsToRangeLoop [bit] bits

/-- bits_to_range, lib.rs 314–364 -/
def bitsToRange (bits : List Bit) : Option (List BitRange) :=
  (bitsToRangeLoop [] bits).mapM chunkToRange

/-- Groups of eight, lib.rs 562–573 -/
def chunks8 : Nat → List Bit → List (List Bit)
  | 0, _ => []
  | n + 1, bits => bits.take 8 :: chunks8 n (bits.drop 8)

/-- parse_bit_pattern, lib.rs 557–580; `none` is the `panic!`. -/
def parseBitPattern (pattern : List Char) : Option (List (List BitRange)) :=
  match tokenize pattern with
  | none => none
  | some bits =>
    if bits.length % 8 ≠ 0 then none
    else (chunks8 (bits.length / 8) bits).mapM bitsToRange

/-- make_mask, lib.rs 366–372 -/
def makeMask (numBits : Nat) : Nat :=
  (List.range numBits).foldl (fun val idx => val ||| (1 <<< idx)) 0

/-- bit_combinations, lib.rs 374–386 (size 0 is never used; the code would not terminate). -/
def bitCombinations : Nat → List Nat
  | 0 => []
  | 1 => [1, 0]
  | size + 1 =>
    (bitCombinations size).flatMap fun num => [(1 <<< size) ||| num, (0 <<< size) ||| num]

/-- literal_combinations, lib.rs 388–418, already reversed as its only caller does (lib.rs 445–449);
a `BitLiteral(value, size)` is a pair. -/
def literalCombinations : List BitRange → List (List (Nat × Nat))
  | [] => []
  | .lit bits size :: rs => [(bits, size)] :: literalCombinations rs
  | .ref _ high low :: rs =>
    let size := (1 + high) - low
    (bitCombinations size).map (fun num => (num, size)) :: literalCombinations rs

/-- combinations_to_bits, lib.rs 420–442 -/
def combinationsToBits : List (List (Nat × Nat)) → Nat × List Nat
  | [] => (0, [])
  | [c] => ((c.head?.map (·.2)).getD 0, c.map (·.1))
  | c :: cs =>
    let (size, bytes) := combinationsToBits cs
    let localSize := (c.head?.map (·.2)).getD 0
    (size + localSize, c.flatMap fun (num, _) => bytes.map fun byte => ((num <<< size) % 256) ||| byte)

/-- all_possible_opcodes, lib.rs 444–453.  Simplification: not sorted, since the result is only used
as the alternatives of one match arm. -/
def allPossibleOpcodes (ranges : List BitRange) : List Nat :=
  (combinationsToBits (literalCombinations ranges)).2

/-- byte_to_tokens, lib.rs 517–555: the values of the tokens that the generated code joins by `|`.
`env` gives each operand `as u32`. -/
def byteTokens (env : Char → Nat) : Nat → List BitRange → List Nat
  | _, [] => []
  | pos, .lit bits size :: rs => ((bits <<< (pos - size)) % 256) :: byteTokens env (pos - size) rs
  | pos, .ref name high low :: rs =>
    let size := (1 + high) - low
    let mask := makeMask size <<< ((high + 1) - size)
    let lshift : Int := (pos : Int) - (size : Int)
    let shiftAmount : Int := (low : Int) - lshift
    let tok :=
      if shiftAmount = 0 then (mask &&& env name) % 256
      else if shiftAmount > 0 then ((mask &&& env name) >>> shiftAmount.toNat) % 256
      else ((mask &&& env name) <<< (-shiftAmount).toNat) % 256
    tok :: byteTokens env (pos - size) rs

/-- One byte of the generated `encode`, lib.rs 552–554 -/
def encodeByte (env : Char → Nat) (ranges : List BitRange) : UInt8 :=
  UInt8.ofNat ((byteTokens env 8 ranges).foldl (· ||| ·) 0)

/-- The generated `encode`, lib.rs 37–62 and 155–160 -/
def encodeRanges (env : Char → Nat) (ranges : List (List BitRange)) : List UInt8 :=
  ranges.map (encodeByte env)

/-- The tokens of ranges_to_extractors for one name in one byte, lib.rs 485–504; `bit` counts down
from 8. -/
def byteExtractors (byte : Nat) (name : Char) : Nat → List BitRange → List Nat
  | _, [] => []
  | bit, .lit _ size :: rs => byteExtractors byte name (bit - size) rs
  | bit, .ref n high low :: rs =>
    let size := (high + 1) - low
    let mask := makeMask size <<< (bit - size)
    let shiftBack := bit - size
    let shiftForward := (high + 1) - size
    if n = name then
      (((byte &&& mask) >>> shiftBack) <<< shiftForward) :: byteExtractors byte name (bit - size) rs
    else byteExtractors byte name (bit - size) rs

/-- The extractor of one operand, lib.rs 462–515: the tokens of all bytes joined by `|`.  Bytes are
only read under the guard `bytes.len() >= len` (lib.rs 94), so pairing is safe. -/
def extract (ranges : List (List BitRange)) (bytes : List UInt8) (name : Char) : Nat :=
  ((ranges.zip bytes).flatMap fun (rs, b) => byteExtractors b.toNat name 8 rs).foldl (· ||| ·) 0

end Verif.Derive
