import Verif.Model.Ast
/-
The assembler proper (src/asm.rs 232–371, 567–698): label pass, name pass, byte generation.
-/
namespace Verif

/-- The `for statement in statements.iter()` loops: run `step` over the statements. -/
def runSteps {σ : Type} (step : σ → Stmt → Res σ) : List Stmt → σ → Res σ
  | [], s => .ok s
  | x :: xs, s => do
    let s' ← step s x
    runSteps step xs s'

/-- `name.starts_with(".")` -/
def isDotted (name : Text) : Bool := name.head? == some '.'

/-- add_name, src/asm.rs 567–582; the map is an association list, newest binding first. -/
def addName (name : Text) (value : Int) (names : List (Text × Int)) : Res (List (Text × Int)) :=
  match names.lookup name with
  | some _ => .err (.nameAlreadyExists name)
  | none => .ok ((name, value) :: names)

/-- The local variables of compute_labels, src/asm.rs 597–601. -/
structure LabelState where
  globals : List (Text × Int)
  locals : List (Text × List (Text × Int))
  local_ : List (Text × Int)
  currentGlobal : Text
  pos : Int
  deriving DecidableEq, Repr

/-- The loop body of compute_labels, src/asm.rs 602–636. -/
def labelStep (m : Mode) (s : LabelState) : Stmt → Res LabelState
  | .dir d => do
    let size ← d.size m s.pos
    let pos ← m.norm (s.pos + size)
    .ok { s with pos := pos }
  | .label name =>
    if isDotted name then do
      let local_ ← addName (lower name) s.pos s.local_
      .ok { s with local_ := local_ }
    else do
      let globals ← addName (lower name) s.pos s.globals
      .ok { s with
        globals := globals
        locals := (s.currentGlobal, s.local_) :: s.locals
        local_ := []
        currentGlobal := lower name }
  | .instr i => do
    let pos ← m.norm (s.pos + i.size)
    .ok { s with pos := pos }
  | .variable _ _ => .ok s
  | .alias _ _ => .ok s
  | .comment _ => .ok s
  | .macroCall _ _ => .panic

/-- compute_labels, src/asm.rs 596–641; returns globals and locals. -/
def computeLabels (m : Mode) (stmts : List Stmt) :
    Res (List (Text × Int) × List (Text × List (Text × Int))) := do
  let s ← runSteps (labelStep m) stmts ⟨[], [], [], [], 0⟩
  match s.locals.lookup s.currentGlobal with
  | some _ => .ok (s.globals, s.locals)
  | none => .ok (s.globals, (s.currentGlobal, s.local_) :: s.locals)

/-- The local variables of compute_names, src/asm.rs 645–648. -/
structure NameState where
  globals : List (Text × Int)
  pos : Int
  maxPos : Int
  deriving DecidableEq, Repr

/-- The update at the end of the loop body of compute_names, src/asm.rs 675–677. -/
def NameState.moveTo (s : NameState) (pos : Int) : NameState :=
  { s with pos := pos, maxPos := if pos > s.maxPos then pos else s.maxPos }

/-- MapEnv::get, src/asm.rs 856–878 -/
def mapEnv (globals : List (Text × Int)) : Env := fun name => globals.lookup name

/-- The loop body of compute_names, src/asm.rs 649–678. -/
def nameStep (m : Mode) (s : NameState) : Stmt → Res NameState
  | .dir d => do
    let size ← d.size m s.pos
    let pos ← m.norm (s.pos + size)
    .ok (s.moveTo pos)
  | .label _ => .ok (s.moveTo s.pos)
  | .instr i => do
    let pos ← m.norm (s.pos + i.size)
    .ok (s.moveTo pos)
  | .variable name e => do
    let v ← e.eval m (mapEnv s.globals)
    let globals ← addName (lower name) v s.globals
    .ok ({ s with globals := globals }.moveTo s.pos)
  | .alias name e => do
    let v ← e.eval m (mapEnv s.globals)
    let globals ← addName (lower name) v s.globals
    .ok ({ s with globals := globals }.moveTo s.pos)
  | .comment _ => .ok (s.moveTo s.pos)
  | .macroCall _ _ => .panic

/-- compute_names, src/asm.rs 643–698; returns `max_pos + 1` as an `i32`.  Copying the maps to the
value-only maps of `Names` (679–690) keeps the bindings. -/
def computeNames (m : Mode) (stmts : List Stmt) : Res (Int × Names) := do
  let labels ← computeLabels m stmts
  let s ← runSteps (nameStep m) stmts ⟨labels.1, 0, 0⟩
  let max ← m.norm (s.maxPos + 1)
  .ok (max, ⟨s.globals, labels.2⟩)

/-- `output[pos] = b; pos = pos + 1`: indexing outside the vector panics. -/
def writeByte (out : List UInt8) (pos : Nat) (b : UInt8) : Res (List UInt8 × Nat) :=
  if pos < out.length then .ok (out.set pos b, pos + 1) else .panic

/-- The loops writing several known bytes, e.g. src/asm.rs 278–281. -/
def writeBytes : List UInt8 → Nat → List UInt8 → Res (List UInt8 × Nat)
  | out, pos, [] => .ok (out, pos)
  | out, pos, b :: bs => do
    let (out', pos') ← writeByte out pos b
    writeBytes out' pos' bs

/-- `value & mask` for a non-negative mask, as a machine byte. -/
def lowByte (v : Int) : UInt8 := UInt8.ofNat (i32and v 0xFF).toNat

/-- The `.byte` loop, src/asm.rs 254–283 -/
def writeByteValues (m : Mode) (env : Env) : List UInt8 → Nat → List ByteValue → Res (List UInt8 × Nat)
  | out, pos, [] => .ok (out, pos)
  | out, pos, .expr e :: rest => do
    let v ← e.eval m env
    if v < -128 ∨ v > 255 then .err (.byteOutOfRange v)
    else do
      let (out', pos') ← writeByte out pos (lowByte v)
      writeByteValues m env out' pos' rest
  | out, pos, .str bytes :: rest => do
    let (out', pos') ← writeBytes out pos bytes
    writeByteValues m env out' pos' rest

/-- The `.word` loop, src/asm.rs 325–338: `w = (value & 0xFFFF) as u16`, low byte first. -/
def writeWords (m : Mode) (env : Env) : List UInt8 → Nat → List Expr → Res (List UInt8 × Nat)
  | out, pos, [] => .ok (out, pos)
  | out, pos, e :: rest => do
    let v ← e.eval m env
    if v < -32768 ∨ v > 65535 then .err (.wordOutOfRange v)
    else do
      let w := (i32and v 0xFFFF).toNat
      let (out1, pos1) ← writeByte out pos (UInt8.ofNat (w &&& 0xFF))
      let (out2, pos2) ← writeByte out1 pos1 (UInt8.ofNat ((w >>> 8) &&& 0xFF))
      writeWords m env out2 pos2 rest

/-- `pos + d as usize` on 64-bit `usize`, where `d` is an `i32`. -/
def addUsize (m : Mode) (pos : Nat) (d : Int) : Res Nat :=
  let t := pos + (d % 18446744073709551616).toNat
  if t < 18446744073709551616 then .ok t
  else match m with
    | .checked => .panic
    | .wrapping => .ok (t - 18446744073709551616)

/-- The local variables of generate_bytes, src/asm.rs 239–246. -/
structure GenState where
  pos : Nat
  currentGlobal : Text
  out : List UInt8
  deriving DecidableEq, Repr

/-- `.text`/`.string`, src/asm.rs 284–316: the bytes, then padding. -/
def writePadded (s : GenState) (size : Nat) (bytes : List UInt8) (pad : UInt8) : Res GenState :=
  if bytes.length > size then .err (.bytesLongerThanLength size bytes.length)
  else do
    let (out, pos) ← writeBytes s.out s.pos bytes
    let (out', pos') ← writeBytes out pos (List.replicate (size - bytes.length) pad)
    .ok { s with out := out', pos := pos' }

/-- The loop body of generate_bytes, src/asm.rs 247–368. -/
def genStep (m : Mode) (names : Names) (s : GenState) : Stmt → Res GenState
  | .dir (.byte vs) => do
    let env ← names.asEnv s.currentGlobal
    let (out, pos) ← writeByteValues m env s.out s.pos vs
    .ok { s with out := out, pos := pos }
  | .dir (.text size bytes) => writePadded s size bytes 32
  | .dir (.string size bytes) => writePadded s size bytes 0
  | .dir (.org location) =>
    if location > 0xFFFF then .err (.invalidCodeLocation (wrap32 location))
    else .ok { s with pos := location }
  | .dir (.word es) => do
    let env ← names.asEnv s.currentGlobal
    let (out, pos) ← writeWords m env s.out s.pos es
    .ok { s with out := out, pos := pos }
  | .dir (.incl _ _) => .panic
  | .dir (.cnop add multiple) => do
    let d ← (Directive.cnop add multiple).size m (wrap32 s.pos)
    let pos ← addUsize m s.pos d
    .ok { s with pos := pos }
  | .label name => if isDotted name then .ok s else .ok { s with currentGlobal := name }
  | .instr i => do
    let nextPos ← addUsize m s.pos i.size
    let j ← i.eval m names s.currentGlobal nextPos
    let (out, pos) ← writeBytes s.out s.pos j.encode
    .ok { s with out := out, pos := pos }
  | .variable _ _ => .ok s
  | .alias _ _ => .ok s
  | .comment _ => .ok s
  | .macroCall _ _ => .panic

/-- assemble, src/asm.rs 232–237.  `max_pos as usize - 1` for the negative `i32` that a wrapping
build can produce asks for more memory than exists: the allocation panics. -/
def assemble (m : Mode) (stmts : List Stmt) : Res (List UInt8) := do
  let (maxPos, names) ← computeNames m stmts
  if maxPos < 1 then .panic
  else do
    let s ← runSteps (genStep m names) stmts ⟨0, [], List.replicate (maxPos - 1).toNat 0⟩
    .ok s.out

/-- `HashMap::insert`: replaces the value of an existing key. -/
def mapInsert {β : Type} (k : Text) (v : β) (l : List (Text × β)) : List (Text × β) :=
  (k, v) :: l.filter (fun x => x.1 != k)

/-- Copying a map key by key in the order `keys` visits it, src/asm.rs 679–682 and 685–688. -/
def copyMap (order : List Text → List Text) (l : List (Text × Int)) : List (Text × Int) :=
  (order (l.map (·.1))).foldl (fun acc k => mapInsert k ((l.lookup k).getD 0) acc) []

/-- The same for the map of local maps, src/asm.rs 683–690. -/
def copyLocals (order : List Text → List Text) (l : List (Text × List (Text × Int))) :
    List (Text × List (Text × Int)) :=
  (order (l.map (·.1))).foldl (fun acc k => mapInsert k (copyMap order ((l.lookup k).getD [])) acc) []

/-- compute_names with the copying loops of src/asm.rs 679–690, which visit keys in an arbitrary
`order`. -/
def computeNamesIn (order : List Text → List Text) (m : Mode) (stmts : List Stmt) : Res (Int × Names) := do
  let labels ← computeLabels m stmts
  let s ← runSteps (nameStep m) stmts ⟨labels.1, 0, 0⟩
  let max ← m.norm (s.maxPos + 1)
  .ok (max, ⟨copyMap order s.globals, copyLocals order labels.2⟩)

/-- assemble, src/asm.rs 232–237, with map copies in an arbitrary `order`. -/
def assembleIn (order : List Text → List Text) (m : Mode) (stmts : List Stmt) : Res (List UInt8) := do
  let (maxPos, names) ← computeNamesIn order m stmts
  if maxPos < 1 then .panic
  else do
    let s ← runSteps (genStep m names) stmts ⟨0, [], List.replicate (maxPos - 1).toNat 0⟩
    .ok s.out

end Verif
