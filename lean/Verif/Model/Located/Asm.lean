import Verif.Model.Located.Parser
/-
Macro expansion (src/asm.rs 700–852) and the assembler proper (src/asm.rs 232–371, 567–698) with spans.
-/
namespace Verif.Located

/-! ### Macros -/

/-- The loop body of replace_args, src/asm.rs 723–746; `inv` is the span of the macro call. -/
def replaceArg (fuel : Nat) (inv : Span) (labels : List (Text × Text)) (argmap : List (Text × Arg)) : Arg → Res Arg
  | .macroArg s n =>
    match argmap.lookup n with
    | some a => .ok a
    | none => .fail (.invalidMacroArg n) s
  | .imm e => do
    let x ← e.replaceMacroArgs fuel inv labels argmap
    .ok (.imm x)
  | .ex e => do
    let x ← e.replaceMacroArgs fuel inv labels argmap
    .ok (.ex x)
  | .im s r => .ok (.im s r)

/-- replace_args, src/asm.rs 716–749 -/
def replaceArgs (fuel : Nat) (inv : Span) (labels : List (Text × Text)) (argmap : List (Text × Arg)) :
    List Arg → Res (List Arg)
  | [] => .ok []
  | arg :: rest => do
    let a ← replaceArg fuel inv labels argmap arg
    let as ← replaceArgs fuel inv labels argmap rest
    .ok (a :: as)

/-- gen_labels, src/asm.rs 751–771 -/
def genLabels (uuid : Nat → Text) : List MacroStmt → List (Text × Text) → Nat → Res (List (Text × Text) × Nat)
  | [], map, k => .ok (map, k)
  | .macroLabel s n :: rest, map, k =>
    match map.lookup n with
    | none => genLabels uuid rest ((n, genLabel n (uuid k)) :: map) (k + 1)
    | some _ => .fail (.duplicateLabel n) s
  | _ :: rest, map, k => genLabels uuid rest map k

/-- The loop over the macro's body in expand, src/asm.rs 801–850; `again` is the recursive call, `inv` the span of the
call.  Labels keep the span they have in the body (841–847). -/
def expandBody (uuid : Nat → Text) (macros : Macros) (fuel : Nat)
    (again : Span → Text → List Arg → Nat → Res (List Stmt × Nat)) (inv : Span)
    (labels : List (Text × Text)) (argmap : List (Text × Arg)) :
    List MacroStmt → Nat → Res (List Stmt × Nat)
  | [], k => .ok ([], k)
  | .instr s iname iargs :: rest, k =>
    match macros.lookup (iname, iargs.length) with
    | some _ => do
      let args ← replaceArgs fuel inv labels argmap iargs
      let (new, k) ← again (s.withParent inv) iname args k
      let (out, k) ← expandBody uuid macros fuel again inv labels argmap rest k
      .ok (new ++ out, k)
    | none => do
      let args ← replaceArgs fuel inv labels argmap iargs
      let i ← makeInstr (s.withParent inv) iname args
      let (out, k) ← expandBody uuid macros fuel again inv labels argmap rest k
      .ok (.instr (s.withParent inv) i :: out, k)
  | .label s n :: rest, k => do
    let (out, k) ← expandBody uuid macros fuel again inv labels argmap rest k
    .ok (.label s n :: out, k)
  | .macroLabel s n :: rest, k =>
    match labels.lookup n with
    | none => .panic
    | some l => do
      let (out, k) ← expandBody uuid macros fuel again inv labels argmap rest k
      .ok (.label s l :: out, k)

/-- The argument map of expand, src/asm.rs 788–797 -/
def argMap (names : List (Span × Text)) (args : List Arg) : List (Text × Arg) := ((names.map (·.2)).zip args).reverse

/-- expand, src/asm.rs 773–852 -/
def expand (uuid : Nat → Text) (macros : Macros) : Nat → Span → Text → List Arg → Nat → Res (List Stmt × Nat)
  | 0, _, _, _, _ => .loop
  | fuel + 1, s, name, args, k =>
    match macros.lookup (name, args.length) with
    | none => .fail (.noSuchMacro name) s
    | some d =>
      if args.length ≠ d.args.length then .err ⟨.wrongNumberOfMacroArgs name, .spans s d.span⟩
      else do
        let (labels, k) ← genLabels uuid d.body [] k
        expandBody uuid macros fuel (expand uuid macros fuel) s labels (argMap d.args args) d.body k

/-- The loop of expand_macros, src/asm.rs 700–714 -/
def expandStmts (uuid : Nat → Text) (macros : Macros) (fuel : Nat) : List Stmt → Nat → Res (List Stmt × Nat)
  | [], k => .ok ([], k)
  | .macroCall s name args :: rest, k => do
    let (new, k) ← expand uuid macros fuel s name args k
    let (out, k) ← expandStmts uuid macros fuel rest k
    .ok (new ++ out, k)
  | x :: rest, k => do
    let (out, k) ← expandStmts uuid macros fuel rest k
    .ok (x :: out, k)

/-- expand_macros, src/asm.rs 700–714 -/
def expandMacros (uuid : Nat → Text) (fuel : Nat) (p : Program) : Res Program := do
  let (out, _) ← expandStmts uuid p.macros fuel p.stmts 0
  .ok ⟨p.macros, out⟩

/-- The statement without spans -/
def Stmt.erase : Stmt → Verif.Stmt
  | .dir d => .dir d.erase
  | .label _ n => .label n
  | .instr _ i => .instr (eraseInstr i)
  | .variable _ n e => .variable n e.erase
  | .alias _ n e => .alias n e.erase
  | .comment t => .comment t
  | .macroCall _ n args => .macroCall n (args.map Arg.erase)

/-- A statement of a macro without spans -/
def MacroStmt.erase : MacroStmt → Verif.MacroStmt
  | .instr _ n args => .instr n (args.map Arg.erase)
  | .label _ n => .label n
  | .macroLabel _ n => .macroLabel n

/-- A macro without spans -/
def MacroDef.erase (d : MacroDef) : Verif.MacroDef := ⟨d.name, d.args.map Prod.snd, d.body.map MacroStmt.erase⟩

/-- Macros without spans -/
def eraseMacros (m : Macros) : Verif.Macros := m.map fun x => (x.1, x.2.erase)

/-- A program without spans -/
def Program.erase (p : Program) : Verif.Program := ⟨eraseMacros p.macros, p.stmts.map Stmt.erase⟩

/-! ### Names -/

/-- The `for statement in statements.iter()` loops -/
def runSteps {σ : Type} (step : σ → Stmt → Res σ) : List Stmt → σ → Res σ
  | [], s => .ok s
  | x :: xs, s => do
    let s' ← step s x
    runSteps step xs s'

/-- NameValue, src/asm.rs 584–588 -/
structure NameValue where
  span : Span
  value : Int
  deriving DecidableEq, Repr

/-- add_name, src/asm.rs 567–582: the place of the new definition, then that of the old one -/
def addName (name : Text) (value : NameValue) (names : List (Text × NameValue)) : Res (List (Text × NameValue)) :=
  match names.lookup name with
  | some old => .err ⟨.nameAlreadyExists name, .spans value.span old.span⟩
  | none => .ok ((name, value) :: names)

/-- A map without spans -/
def eraseNames (l : List (Text × NameValue)) : List (Text × Int) := l.map fun x => (x.1, x.2.value)

/-- The local variables of compute_labels, src/asm.rs 597–601 -/
structure LabelState where
  globals : List (Text × NameValue)
  locals : List (Text × List (Text × NameValue))
  local_ : List (Text × NameValue)
  currentGlobal : Text
  pos : Int
  deriving DecidableEq, Repr

/-- The loop body of compute_labels, src/asm.rs 602–636 -/
def labelStep (m : Mode) (s : LabelState) : Stmt → Res LabelState
  | .dir d => do
    let size ← d.size m s.pos
    let pos ← .lift (m.norm (s.pos + size))
    .ok { s with pos := pos }
  | .label sp name =>
    if isDotted name then do
      let local_ ← addName (lower name) ⟨sp, s.pos⟩ s.local_
      .ok { s with local_ := local_ }
    else do
      let globals ← addName (lower name) ⟨sp, s.pos⟩ s.globals
      .ok { s with
        globals := globals
        locals := (s.currentGlobal, s.local_) :: s.locals
        local_ := []
        currentGlobal := lower name }
  | .instr _ i => do
    let pos ← .lift (m.norm (s.pos + i.size))
    .ok { s with pos := pos }
  | .variable _ _ _ => .ok s
  | .alias _ _ _ => .ok s
  | .comment _ => .ok s
  | .macroCall _ _ _ => .panic

/-- compute_labels, src/asm.rs 596–641 -/
def computeLabels (m : Mode) (stmts : List Stmt) :
    Res (List (Text × NameValue) × List (Text × List (Text × NameValue))) := do
  let s ← runSteps (labelStep m) stmts ⟨[], [], [], [], 0⟩
  match s.locals.lookup s.currentGlobal with
  | some _ => .ok (s.globals, s.locals)
  | none => .ok (s.globals, (s.currentGlobal, s.local_) :: s.locals)

/-- The local variables of compute_names, src/asm.rs 645–648 -/
structure NameState where
  globals : List (Text × NameValue)
  pos : Int
  maxPos : Int
  deriving DecidableEq, Repr

/-- The update at the end of the loop body of compute_names, src/asm.rs 675–677 -/
def NameState.moveTo (s : NameState) (pos : Int) : NameState :=
  { s with pos := pos, maxPos := if pos > s.maxPos then pos else s.maxPos }

/-- MapEnv::get, src/asm.rs 856–878 -/
def mapEnv (globals : List (Text × NameValue)) : Env := fun name => (globals.lookup name).map (·.value)

/-- A variable or an alias in compute_names, src/asm.rs 659–668 -/
def defineName (m : Mode) (s : NameState) (sp : Span) (name : Text) (e : Expr) : Res NameState := do
  let v ← e.eval m (mapEnv s.globals)
  let globals ← addName (lower name) ⟨sp, v⟩ s.globals
  .ok ({ s with globals := globals }.moveTo s.pos)

/-- The loop body of compute_names, src/asm.rs 649–678 -/
def nameStep (m : Mode) (s : NameState) : Stmt → Res NameState
  | .dir d => do
    let size ← d.size m s.pos
    let pos ← .lift (m.norm (s.pos + size))
    .ok (s.moveTo pos)
  | .label _ _ => .ok (s.moveTo s.pos)
  | .instr _ i => do
    let pos ← .lift (m.norm (s.pos + i.size))
    .ok (s.moveTo pos)
  | .variable sp name e => defineName m s sp name e
  | .alias sp name e => defineName m s sp name e
  | .comment _ => .ok (s.moveTo s.pos)
  | .macroCall _ _ _ => .panic

/-- compute_names, src/asm.rs 643–698 -/
def computeNames (m : Mode) (stmts : List Stmt) : Res (Int × Names) := do
  let labels ← computeLabels m stmts
  let s ← runSteps (nameStep m) stmts ⟨labels.1, 0, 0⟩
  let max ← .lift (m.norm (s.maxPos + 1))
  .ok (max, ⟨eraseNames s.globals, labels.2.map fun x => (x.1, eraseNames x.2)⟩)

/-! ### Bytes -/

/-- The `.byte` loop, src/asm.rs 254–283 -/
def writeByteValues (m : Mode) (env : Env) : List UInt8 → Nat → List ByteValue → Res (List UInt8 × Nat)
  | out, pos, [] => .ok (out, pos)
  | out, pos, .expr e :: rest => do
    let v ← e.eval m env
    if v < -128 ∨ v > 255 then .fail (.byteOutOfRange v) e.span
    else do
      let (out', pos') ← .lift (writeByte out pos (lowByte v))
      writeByteValues m env out' pos' rest
  | out, pos, .str _ bytes :: rest => do
    let (out', pos') ← .lift (writeBytes out pos bytes)
    writeByteValues m env out' pos' rest

/-- The `.word` loop, src/asm.rs 325–338 -/
def writeWords (m : Mode) (env : Env) : List UInt8 → Nat → List Expr → Res (List UInt8 × Nat)
  | out, pos, [] => .ok (out, pos)
  | out, pos, e :: rest => do
    let v ← e.eval m env
    if v < -32768 ∨ v > 65535 then .fail (.wordOutOfRange v) e.span
    else do
      let w := (i32and v 0xFFFF).toNat
      let (out1, pos1) ← .lift (writeByte out pos (UInt8.ofNat (w &&& 0xFF)))
      let (out2, pos2) ← .lift (writeByte out1 pos1 (UInt8.ofNat ((w >>> 8) &&& 0xFF)))
      writeWords m env out2 pos2 rest

/-- `.text`/`.string`, src/asm.rs 284–316 -/
def writePadded (s : GenState) (sp : Span) (size : Nat) (bytes : List UInt8) (pad : UInt8) : Res GenState :=
  if bytes.length > size then .fail (.bytesLongerThanLength size bytes.length) sp
  else do
    let (out, pos) ← .lift (writeBytes s.out s.pos bytes)
    let (out', pos') ← .lift (writeBytes out pos (List.replicate (size - bytes.length) pad))
    .ok { s with out := out', pos := pos' }

/-- The loop body of generate_bytes, src/asm.rs 247–368 -/
def genStep (m : Mode) (names : Names) (s : GenState) : Stmt → Res GenState
  | .dir (.byte _ vs) => do
    let env ← .lift (names.asEnv s.currentGlobal)
    let (out, pos) ← writeByteValues m env s.out s.pos vs
    .ok { s with out := out, pos := pos }
  | .dir (.text sp size bytes) => writePadded s sp size bytes 32
  | .dir (.string sp size bytes) => writePadded s sp size bytes 0
  | .dir (.org sp location) =>
    if location > 0xFFFF then .fail (.invalidCodeLocation (wrap32 location)) sp
    else .ok { s with pos := location }
  | .dir (.word _ es) => do
    let env ← .lift (names.asEnv s.currentGlobal)
    let (out, pos) ← writeWords m env s.out s.pos es
    .ok { s with out := out, pos := pos }
  | .dir (.incl _ _ _) => .panic
  | .dir (.cnop sp add multiple) => do
    let d ← (Directive.cnop sp add multiple).size m (wrap32 s.pos)
    let pos ← .lift (addUsize m s.pos d)
    .ok { s with pos := pos }
  | .label _ name => if isDotted name then .ok s else .ok { s with currentGlobal := name }
  | .instr _ i => do
    let nextPos ← .lift (addUsize m s.pos i.size)
    let j ← evalInstr m names s.currentGlobal nextPos i
    let (out, pos) ← .lift (writeBytes s.out s.pos j.encode)
    .ok { s with out := out, pos := pos }
  | .variable _ _ _ => .ok s
  | .alias _ _ _ => .ok s
  | .comment _ => .ok s
  | .macroCall _ _ _ => .panic

/-- assemble, src/asm.rs 232–237 -/
def assemble (m : Mode) (stmts : List Stmt) : Res (List UInt8) := do
  let (maxPos, names) ← computeNames m stmts
  if maxPos < 1 then .panic
  else do
    let s ← runSteps (genStep m names) stmts ⟨0, [], List.replicate (maxPos - 1).toNat 0⟩
    .ok s.out

end Verif.Located
