import Verif.Spec.Disasm
import Verif.Spec.Messages
/-
Specification: the comments in the listing of a disassembly.
-/
namespace Verif.Spec.ListingNotes
open Verif.Spec

/-- Positions, in base sixteen with at least four digits, with commas between them -/
def positionsText (ps : List Nat) : Text := ", ".toList.intercalate (ps.map Messages.hex4)

/-- A line that stands for bytes of the binary -/
def standsForBytes (d : DStmt) : Bool :=
  match d.stmt with
  | .instr _ => true
  | .dir (.byte _) => true
  | _ => false

/-- The lines that stand for bytes, each with the other lines directly before it; `before` are those seen so far. -/
def grouped (before : List DStmt) : List DStmt → List (List DStmt × DStmt)
  | [] => []
  | d :: ds => if standsForBytes d then (before, d) :: grouped [] ds else grouped (before ++ [d]) ds

/-- The comments on lines of their own, without the empty ones -/
def remarks (ds : List DStmt) : List Text :=
  ds.filterMap fun d => match d.stmt with
    | .comment t => if t = [] then none else some t
    | _ => none

/-- Two positions of instructions that have a byte in common -/
def ShareByte (bytes : List UInt8) (p q : Nat) : Prop :=
  ∃ i j k, InstrAt bytes p i ∧ InstrAt bytes q j ∧ p ≤ k ∧ k < p + i.size ∧ q ≤ k ∧ k < q + j.size

/-- From the listed instruction at `q`, control can go to `p`. -/
def ComesFrom (bytes : List UInt8) (out : List DStmt) (p q : Nat) : Prop :=
  ListedAt out q ∧ ∃ i, InstrAt bytes q i ∧ Flows q i p

/-- The listed instruction at `q` is a jump into another memory. -/
def LeavesMemory (bytes : List UInt8) (out : List DStmt) (q : Nat) : Prop :=
  2 ≤ q ∧ ListedAt out (q - 2) ∧ ∃ i j, InstrAt bytes (q - 2) j ∧ InstrAt bytes q i ∧ toOtherMemory j i

/-- A character of the ASCII set that can be printed -/
def PrintableByte (b : UInt8) : Prop := 0x20 ≤ b.toNat ∧ b.toNat < 0x7F

/-- How a byte is shown in a comment: as it is, as an escape, or as a dot -/
inductive ShownAs : UInt8 → Text → Prop where
  | char {b} : PrintableByte b → ShownAs b [Char.ofNat b.toNat]
  | tab : ShownAs 9 ['\\', 't']
  | newline : ShownAs 10 ['\\', 'n']
  | return : ShownAs 13 ['\\', 'r']
  | other {b} : ¬ PrintableByte b → b ≠ 9 → b ≠ 10 → b ≠ 13 → ShownAs b ['.']

/-- A list of bytes, one after the other -/
inductive ShownText : List UInt8 → Text → Prop where
  | nil : ShownText [] []
  | cons {b bs t u} : ShownAs b t → ShownText bs u → ShownText (b :: bs) (t ++ u)

/-- A line of the file: the position or room for it, if positions are wanted, the statement and the comment -/
def ListingLine (withPositions : Bool) (d : DStmt) (line : Text) : Prop :=
  ∃ t, d.stmt.print = .ok t ∧
    line = (if withPositions then (d.pos.elim "    ".toList Messages.hex4) ++ "| ".toList else []) ++ t ++
      d.comment.elim [] (fun c => " ; ".toList ++ c) ++ ['\n']

end Verif.Spec.ListingNotes
