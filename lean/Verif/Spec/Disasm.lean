import Verif.Model.Disasm
import Verif.Spec.InstrSet
import Verif.Spec.Cpu
/-
Specification for the disassembler: what a listing shows, and where control flows.
-/
namespace Verif.Spec

/-- The instruction at a position of a binary. -/
def InstrAt (bytes : List UInt8) (p : Nat) (i : Instr Int Nat) : Prop :=
  p < bytes.length ∧ decode (bytes.drop p) = .ok (some i)

/-- After these instructions the next one is not executed: unconditional jumps and returns. -/
def endsFlow : Form → Prop
  | .Jmp | .Jmpf | .Br | .Brf | .Ret | .Reti => True
  | _ => False

/-- `Target p i t`: the instruction `i` at `p` is a branch, jump or call to the address `t`.  A target before the start
of the memory is negative. -/
inductive Target (p : Nat) (i : Instr Int Nat) : Int → Prop where
  | short {d} : (kinds i.form).getLast? = some .r8 → (values i).getLast? = some d → Target p i (p + i.size + d)
  | long {d} : (kinds i.form).getLast? = some .r16 → (values i).getLast? = some d → Target p i (p + i.size - 1 + d)
  | page {a} : kinds i.form = [.a12] → values i = [a] →
      Target p i ((((p + i.size) % 65536) / 4096 * 4096 : Nat) + a)
  | far {a} : kinds i.form = [.a16] → values i = [a] → Target p i a

/-- `Flows p i t`: from the instruction `i` at `p`, control can go to the address `t`. -/
def Flows (p : Nat) (i : Instr Int Nat) (t : Int) : Prop := (¬ endsFlow i.form ∧ t = p + i.size) ∨ Target p i t

/-- `not1 ext, 0` directly before a `jmpf`: it jumps to another memory. -/
def toOtherMemory (i j : Instr Int Nat) : Prop := i = .Not1 0x10D 0 ∧ j.form = .Jmpf

/-- The listing shows an instruction at this position. -/
def ListedAt (out : List DStmt) (p : Nat) : Prop := ∃ d ∈ out, d.pos = some p ∧ ∃ i, d.stmt = .instr i

/-- The positions control can reach from the entry points, within the binary. -/
inductive Reached (entries : List Nat) (bytes : List UInt8) : Nat → Prop where
  | entry {p} : p ∈ entries → p < bytes.length → Reached entries bytes p
  | flow {p i t} : Reached entries bytes p → InstrAt bytes p i → Flows p i (t : Nat) → t < bytes.length →
      Reached entries bytes t

/-- The listing shows these bytes in a `.byte` line at this position. -/
def Shown (out : List DStmt) (p : Nat) (bs : List UInt8) : Prop :=
  ∃ d ∈ out, d.pos = some p ∧ d.stmt = .dir (.byte (bs.map fun b => .expr (.number b.toNat .hex)))

/-- The lines that stand for bytes of the binary. -/
def Content (d : DStmt) (p : Nat) : Prop :=
  d.pos = some p ∧ ((∃ i, d.stmt = .instr i) ∨ ∃ bs, d.stmt = .dir (.byte bs))

/-- The position of the instruction a list of lines starts with, after comments. -/
def nextListed : List DStmt → Option Nat
  | [] => none
  | d :: ds =>
    match d.stmt with
    | .comment _ => nextListed ds
    | .instr _ => d.pos
    | _ => none

/-- The listing has a label line for this position: the next line, after comments, is the instruction there. -/
def LabelAt (out : List DStmt) (n : Text) (p : Nat) : Prop :=
  ∃ pre post d, out = pre ++ d :: post ∧ d.stmt = .label n ∧ nextListed post = some p

/-- The listing defines a name: as an alias of a number, or as the label of a position. -/
def Defines (out : List DStmt) (n : Text) (v : Int) : Prop :=
  (∃ d ∈ out, ∃ r, d.stmt = .alias n (.number v r)) ∨ ∃ p : Nat, LabelAt out n p ∧ v = p

end Verif.Spec
