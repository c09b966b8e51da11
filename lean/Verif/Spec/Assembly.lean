import Verif.Model.Ast
import Verif.Spec.InstrSet
/-
Specification of assembling a program without macros and includes: where every statement is placed,
what the names mean, which bytes each statement emits, what the output image is.
Independent of the passes of src/asm.rs.
-/
namespace Verif.Spec

/-- A name starting with a dot is local. -/
def dotted : Text → Bool
  | '.' :: _ => true
  | _ => false

/-- The number of bytes of a `.byte` list. -/
def byteCount : List ByteValue → Nat
  | [] => 0
  | .expr _ :: vs => 1 + byteCount vs
  | .str bs :: vs => bs.length + byteCount vs

/-- The smallest multiple of `k` that is at least `p`, for `k > 0`. -/
def leastMultiple (k p : Nat) : Nat := if p % k = 0 then p else p + (k - p % k)

/-- The position after a statement at position `p`; `none` for statements that cannot be laid out.
`.cnop a, 0` moves to the absolute position `a`. -/
def advance (p : Nat) : Stmt → Option Nat
  | .dir (.byte vs) => some (p + byteCount vs)
  | .dir (.org n) => some n
  | .dir (.word es) => some (p + 2 * es.length)
  | .dir (.text n _) => some (p + n)
  | .dir (.string n _) => some (p + n)
  | .dir (.incl _ _) => none
  | .dir (.cnop (.number a _) (.number k _)) =>
    if a < 0 ∨ k < 0 then none
    else if k = 0 then some a.toNat
    else some (leastMultiple k.toNat p + a.toNat)
  | .dir (.cnop _ _) => none
  | .instr i => some (p + (row i.form).size)
  | .label _ | .variable _ _ | .alias _ _ | .comment _ => some p
  | .macroCall _ _ => none

/-- The scope (last global label, lower case) after a statement. -/
def nextScope (scope : Text) : Stmt → Text
  | .label n => if dotted n then scope else lower n
  | _ => scope

/-- A statement with its address and scope. -/
structure Placed where
  addr : Nat
  scope : Text
  stmt : Stmt

/-- Lays out the statements from position `p`. -/
def place : Nat → Text → List Stmt → Option (List Placed)
  | _, _, [] => some []
  | p, scope, x :: xs =>
    match advance p x with
    | none => none
    | some p' =>
      match place p' (nextScope scope x) xs with
      | none => none
      | some rest => some (⟨p, scope, x⟩ :: rest)

/-- The layout of a program: it starts at address 0, outside any global label. -/
def layout (stmts : List Stmt) : Option (List Placed) := place 0 [] stmts

/-- Where a placed statement ends. -/
def Placed.end_ (q : Placed) : Nat := (advance q.addr q.stmt).getD 0

/-- The position after the placed statements, starting from `p`. -/
def stop (p : Nat) : List Placed → Nat
  | [] => p
  | q :: qs => stop q.end_ qs

/-- The largest position reached. -/
def reach : List Placed → Nat
  | [] => 0
  | q :: qs => max q.end_ (reach qs)

/-- The layout stays below 2 GiB. -/
def Fits (ps : List Placed) : Prop := ∀ q ∈ ps, q.end_ < 2147483647

/-- Global labels with their addresses. -/
def globalLabels : List Placed → List (Text × Int)
  | [] => []
  | ⟨p, _, .label n⟩ :: qs => if dotted n then globalLabels qs else (lower n, p) :: globalLabels qs
  | _ :: qs => globalLabels qs

/-- Local labels of a scope with their addresses. -/
def localLabels (scope : Text) : List Placed → List (Text × Int)
  | [] => []
  | ⟨p, s, .label n⟩ :: qs =>
    if dotted n ∧ s = scope then (lower n, p) :: localLabels scope qs else localLabels scope qs
  | _ :: qs => localLabels scope qs

/-- Variable and alias definitions in order. -/
def definitions : List Stmt → List (Text × Expr)
  | [] => []
  | .variable n e :: xs => (lower n, e) :: definitions xs
  | .alias n e :: xs => (lower n, e) :: definitions xs
  | _ :: xs => definitions xs

/-- No label is defined twice: global names are distinct, and so are local names of each scope. -/
def LabelsDistinct (ps : List Placed) : Prop :=
  ((globalLabels ps).map (·.1)).Nodup ∧ ∀ scope, ((localLabels scope ps).map (·.1)).Nodup

/-- The label `n` is defined twice, as a global label or in one local scope. -/
def DefinedTwice (ps : List Placed) (n : Text) : Prop :=
  2 ≤ ((globalLabels ps).map (·.1)).count n ∨ ∃ scope, 2 ≤ ((localLabels scope ps).map (·.1)).count n

/-- `Vars m known defs vals`: the definitions, in order, have the values `vals`; each sees the
bindings `known` and the definitions before it. -/
inductive Vars (m : Mode) : List (Text × Int) → List (Text × Expr) → List (Text × Int) → Prop where
  | nil {known} : Vars m known [] []
  | cons {known n e v ds vs} : e.eval m (fun x => known.lookup x) = .ok v →
      Vars m (known ++ [(n, v)]) ds vs → Vars m known ((n, e) :: ds) ((n, v) :: vs)

/-- The meaning of (lower-case) names at a place: dotted names are the local labels of the scope,
others the global labels and variables. -/
def meaning (globals locals : List (Text × Int)) : Env := fun n =>
  if dotted n then locals.lookup n else globals.lookup n

/-- The bytes of a `.byte` list. -/
inductive ByteItems (m : Mode) (env : Env) : List ByteValue → List UInt8 → Prop where
  | nil : ByteItems m env [] []
  | expr {e v b vs bs} : e.eval m env = .ok v → -128 ≤ v → v ≤ 255 → (b.toNat : Int) = v % 256 →
      ByteItems m env vs bs → ByteItems m env (.expr e :: vs) (b :: bs)
  | str {s vs bs} : ByteItems m env vs bs → ByteItems m env (.str s :: vs) (s ++ bs)

/-- The bytes of a `.word` list: little endian. -/
inductive WordItems (m : Mode) (env : Env) : List Expr → List UInt8 → Prop where
  | nil : WordItems m env [] []
  | cons {e v lo hi es bs} : e.eval m env = .ok v → -32768 ≤ v → v ≤ 65535 →
      (lo.toNat : Int) + 256 * hi.toNat = v % 65536 →
      WordItems m env es bs → WordItems m env (e :: es) (lo :: hi :: bs)

/-- `Emits m env p x bs`: statement `x` at address `p` emits the bytes `bs`. -/
inductive Emits (m : Mode) (env : Env) (p : Nat) : Stmt → List UInt8 → Prop where
  | byte {vs bs} : ByteItems m env vs bs → Emits m env p (.dir (.byte vs)) bs
  | word {es bs} : WordItems m env es bs → Emits m env p (.dir (.word es)) bs
  | text {n bs} : bs.length ≤ n → Emits m env p (.dir (.text n bs)) (bs ++ List.replicate (n - bs.length) 32)
  | string {n bs} : bs.length ≤ n → Emits m env p (.dir (.string n bs)) (bs ++ List.replicate (n - bs.length) 0)
  | org {n} : n ≤ 65535 → Emits m env p (.dir (.org n)) []
  | cnop {a k} : Emits m env p (.dir (.cnop a k)) []
  | instr {i j} : i.evalIn m env (p + (row i.form).size) = .ok j → Emits m env p (.instr i) j.encode
  | label {n} : Emits m env p (.label n) []
  | variable {n e} : Emits m env p (.variable n e) []
  | alias {n e} : Emits m env p (.alias n e) []
  | comment {t} : Emits m env p (.comment t) []

/-- All placed statements emit their bytes; `ws` lists address and bytes of each. -/
inductive EmitsAll (m : Mode) (globals : List (Text × Int)) (all : List Placed) :
    List Placed → List (Nat × List UInt8) → Prop where
  | nil : EmitsAll m globals all [] []
  | cons {q qs bs ws} : Emits m (meaning globals (localLabels q.scope all)) q.addr q.stmt bs →
      EmitsAll m globals all qs ws → EmitsAll m globals all (q :: qs) ((q.addr, bs) :: ws)

/-- The write `w` covers position `j`. -/
def covers (w : Nat × List UInt8) (j : Nat) : Prop := w.1 ≤ j ∧ j < w.1 + w.2.length

/-- Byte `j` of the image is `b`: the last write covering `j` put it there, or none covers `j`. -/
def ImageByte (ws : List (Nat × List UInt8)) (j : Nat) (b : UInt8) : Prop :=
  (∃ before w after, ws = before ++ w :: after ∧ covers w j ∧ (∀ w' ∈ after, ¬ covers w' j) ∧
    w.2[j - w.1]? = some b) ∨
  ((∀ w ∈ ws, ¬ covers w j) ∧ b = 0)

/-- `Assembles m stmts out`: the program means the bytes `out`. -/
def Assembles (m : Mode) (stmts : List Stmt) (out : List UInt8) : Prop :=
  ∃ ps vars ws, layout stmts = some ps ∧ LabelsDistinct ps ∧
    Vars m (globalLabels ps) (definitions stmts) vars ∧
    ((globalLabels ps ++ vars).map (·.1)).Nodup ∧
    EmitsAll m (globalLabels ps ++ vars) ps ps ws ∧
    out.length = reach ps ∧
    ∀ j b, out[j]? = some b → ImageByte ws j b

/-- What the parser guarantees of global labels: lower case, not empty. -/
def SourceLabels (stmts : List Stmt) : Prop :=
  ∀ n, Stmt.label n ∈ stmts → dotted n = false → lower n = n ∧ n ≠ []

/-- What the parser guarantees of number literals in `.cnop`: 32 bits, not negative (a minus sign
is a separate operator). -/
def SourceCnop (stmts : List Stmt) : Prop :=
  ∀ a k, Stmt.dir (.cnop a k) ∈ stmts →
    (∀ v r, a = .number v r → 0 ≤ v ∧ v ≤ 2147483647) ∧ (∀ v r, k = .number v r → 0 ≤ v ∧ v ≤ 2147483647)

/-- Programs as they come from the parser. -/
def Source (stmts : List Stmt) : Prop := SourceLabels stmts ∧ SourceCnop stmts

/-- If the program can be laid out, the layout stays below 2 GiB. -/
def Below2GiB (stmts : List Stmt) : Prop := ∀ ps, layout stmts = some ps → Fits ps

/-- The expressions evaluated in a statement. -/
def exprsOf : Stmt → List Expr
  | .dir (.byte vs) => vs.filterMap fun
    | .expr e => some e
    | .str _ => none
  | .dir (.word es) => es
  | .instr i => (operands i).filterMap fun
    | .inl e => some e
    | .inr _ => none
  | .variable _ e => [e]
  | .alias _ e => [e]
  | _ => []

/-- No `.cnop` moves backwards (only `.cnop a, 0` can). -/
def CnopForward (ps : List Placed) : Prop :=
  ∀ q ∈ ps, ∀ a k, q.stmt = .dir (.cnop a k) → q.addr ≤ q.end_

/-- `stmts` is a program as the parser makes them, laid out as `ps` below 2 GiB (and, for a checked
build, without a backward `.cnop a, 0`, which that build cannot execute). -/
structure Laid (m : Mode) (stmts : List Stmt) (ps : List Placed) : Prop where
  source : Source stmts
  layout : layout stmts = some ps
  fits : Fits ps
  forward : m = .wrapping ∨ CnopForward ps

/-- `AtEnd m stmts p env`: after `stmts` the position is `p` and names mean what `env` says. -/
def AtEnd (m : Mode) (stmts : List Stmt) (p : Nat) (env : Env) : Prop :=
  ∃ ps vars, layout stmts = some ps ∧ p = stop 0 ps ∧
    Vars m (globalLabels ps) (definitions stmts) vars ∧
    env = meaning (globalLabels ps ++ vars) (localLabels (stmts.foldl nextScope []) ps)

/-- `out` with `bs` written at `p`, extended with zeros as needed. -/
def overlay (out : List UInt8) (p : Nat) (bs : List UInt8) : List UInt8 :=
  let full := out ++ List.replicate (p + bs.length - out.length) 0
  full.take p ++ bs ++ full.drop (p + bs.length)

end Verif.Spec
