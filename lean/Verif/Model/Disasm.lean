import Verif.Model.Print
/-
The disassembler, src/disasm.rs.  HashMaps are association lists (insertion is `cons`), HashSets are lists;
no result depends on the order of iteration.  Positions and lengths are `usize`, so binaries are below 2 GiB
(`next as i32` is exact).
-/
namespace Verif

/-- The raw instruction graph, src/disasm.rs 1030–1034: instructions by position, and the pairs (from, to) of the
jumps; `jump_to` and `jump_from` hold the same pairs. -/
structure Graph where
  instrs : List (Nat × Instr Int Nat)
  jumps : List (Nat × Nat)

/-- InstructionGraph::new, src/disasm.rs 1060–1066 -/
def Graph.new : Graph := ⟨[], []⟩

/-- src/disasm.rs 1100–1103 -/
def Graph.get (g : Graph) (pos : Nat) : Option (Instr Int Nat) := g.instrs.lookup pos

/-- src/disasm.rs 1105–1108 -/
def Graph.instr (g : Graph) (pos : Nat) (i : Instr Int Nat) : Graph := ⟨(pos, i) :: g.instrs, g.jumps⟩

/-- src/disasm.rs 1110–1119 -/
def Graph.jumpTo (g : Graph) (src dst : Nat) : Graph := ⟨g.instrs, (src, dst) :: g.jumps⟩

/-- src/disasm.rs 1121–1123 -/
def Graph.contains (g : Graph) (pos : Nat) : Bool := (g.get pos).isSome

/-- instr_arrived_from, src/disasm.rs 1093–1098 -/
def Graph.arrivedFrom (g : Graph) (pos src : Nat) : Bool := g.jumps.contains (src, pos)

/-- The test in targets, compute_labels and lift_instr (src/disasm.rs 805–813, 360–369, 592–600): this `jmpf` is
reached from a `not1 ext, 0` directly before it, so it jumps to the flash memory. -/
def Graph.toFlash (g : Graph) (pos : Nat) : Bool :=
  decide (2 ≤ pos) &&
    (match g.get (pos - 2) with
      | some (.Not1 0x10D 0) => g.arrivedFrom pos (pos - 2)
      | _ => false)

/-- `as i32` of a `usize` -/
def asI32 (n : Nat) : Int := wrap32 n

/-- rel16, src/disasm.rs 738–740 -/
def rel16 (rel : Int) (next : Nat) : Nat := toUsize (rel + next - 1)

/-- rel8, src/disasm.rs 742–744 -/
def rel8 (rel : Int) (next : Nat) : Nat := toUsize (rel + next)

/-- The address of `jmp` and `call`, src/disasm.rs 797–799 -/
def abs12 (next : Nat) (a : Int) : Nat := (next &&& 0xF000) ||| (toUsize a &&& 0x0FFF)

/-- targets, src/disasm.rs 746–918; all instructions not listed are followed by the next one. -/
def targets (pos : Nat) (i : Instr Int Nat) (g : Graph) : List Nat :=
  let next := pos + i.size
  match i with
  | .Jmp abs => [abs12 next abs]
  | .Jmpf abs => if g.toFlash pos then [] else [toUsize abs]
  | .Br rel => [rel8 rel next]
  | .Brf rel => [rel16 rel next]
  | .Bz rel => [rel8 rel next, next]
  | .Bnz rel => [rel8 rel next, next]
  | .Bp _ _ rel => [rel8 rel next, next]
  | .Bpc _ _ rel => [rel8 rel next, next]
  | .Bn _ _ rel => [rel8 rel next, next]
  | .Dbnz_d9 _ rel => [rel8 rel next, next]
  | .Dbnz_Ri _ rel => [rel8 rel next, next]
  | .Be_i8 _ rel => [rel8 rel next, next]
  | .Be_d9 _ rel => [rel8 rel next, next]
  | .Be_Rj _ _ rel => [rel8 rel next, next]
  | .Bne_i8 _ rel => [rel8 rel next, next]
  | .Bne_d9 _ rel => [rel8 rel next, next]
  | .Bne_Rj _ _ rel => [rel8 rel next, next]
  | .Call a12 => [abs12 next a12, next]
  | .Callf a16 => [toUsize a16, next]
  | .Callr r16 => [rel16 r16 next, next]
  | .Ret => []
  | .Reti => []
  | _ => [next]

/-- The body of the loop over `locs`, src/disasm.rs 933–957: the state is the graph and the positions for the next
round. -/
def visit (bytes : List UInt8) (pos : Nat) (st : Graph × List Nat) : Res (Graph × List Nat) :=
  if bytes.length ≤ pos then .ok st
  else do
    match ← decode (bytes.drop pos) with
    | some i =>
      let ts := targets pos i st.1
      let g := (ts.foldl (fun g t => g.jumpTo pos t) st.1).instr pos i
      .ok (g, st.2 ++ ts.filter fun t => !g.contains t)
    | none => .err (.noInstruction pos (bytes.getD pos 0).toNat)

/-- One round, src/disasm.rs 929–957 -/
def visitAll (bytes : List UInt8) : List Nat → Graph × List Nat → Res (Graph × List Nat)
  | [], st => .ok st
  | pos :: locs, st => do
    let st ← visit bytes pos st
    visitAll bytes locs st

/-- The outer loop, src/disasm.rs 927–958 -/
def traceLoop (bytes : List UInt8) : Nat → Graph → List Nat → Res Graph
  | _, g, [] => .ok g
  | 0, _, _ => .loop
  | fuel + 1, g, locs => do
    let (g, positions) ← visitAll bytes locs (g, [])
    traceLoop bytes fuel g positions

/-- build_instruction_graph, src/disasm.rs 920–960.  As many rounds as needed (`C49`). -/
def trace (entries : List Nat) (bytes : List UInt8) : Res Graph := traceLoop bytes (bytes.length + 3) Graph.new entries

/-! Names -/

/-- src/disasm.rs 962–966 -/
structure DNames where
  labels : List (Nat × Text)
  pswBits : List (Nat × Text)
  aliases : List (Nat × Text)

/-- compute_bit_aliases, src/disasm.rs 211–219 -/
def pswTable : List (String × Nat) :=
  [
   ("cy", 7), ("ac", 6), ("irbk1", 4), ("irbk0", 3), ("ov", 2), ("rambk0", 1), ("p", 0)
  ]

/-- compute_aliases, src/disasm.rs 221–278, up to the loop -/
def aliasTable : List (String × Nat) :=
  [
   ("acc", 0x100), ("psw", 0x101), ("b", 0x102), ("c", 0x103), ("trl", 0x104), ("trh", 0x105), ("sp", 0x106),
   ("pcon", 0x107), ("ie", 0x108), ("ip", 0x109), ("ext", 0x10D), ("ocr", 0x10E), ("t0con", 0x110),
   ("t0prr", 0x111), ("t0l", 0x112), ("t0lr", 0x113), ("t0h", 0x114), ("t0hr", 0x115), ("t1cnt", 0x118),
   ("t1lc", 0x11A), ("t1l", 0x11B), ("t1lr", 0x11B), ("t1hc", 0x11C), ("t1h", 0x11D), ("t1hr", 0x11D),
   ("mcr", 0x120), ("stad", 0x122), ("cnr", 0x123), ("tdr", 0x124), ("xbnk", 0x125), ("vccr", 0x127),
   ("scon0", 0x130), ("sbuf0", 0x131), ("sbr", 0x132), ("scon1", 0x134), ("sbuf1", 0x135), ("p1", 0x144),
   ("p1ddr", 0x145), ("p1fcr", 0x146), ("p3", 0x14C), ("p3ddr", 0x14D), ("p3int", 0x14E), ("fpr", 0x154),
   ("p7", 0x15C), ("i01cr", 0x15D), ("i23cr", 0x15E), ("isl", 0x15F), ("mplsw", 0x160), ("mplsta", 0x161),
   ("mplrst", 0x162), ("vsel", 0x163), ("vrmad1", 0x164), ("vrmad2", 0x165), ("vtrbf", 0x166),
   ("vlreg", 0x167), ("btcr", 0x17F), ("xram", 0x180)
  ]

/-- compute_aliases, src/disasm.rs 279–287 -/
def moreAliases (aliases : List (Nat × Text)) : List Nat → List (Nat × Text)
  | [] => aliases
  | loc :: locs =>
    moreAliases
      (if (aliases.lookup loc).isSome then aliases
       else if loc ≥ 0x180 ∧ loc ≤ 0x1FB then (loc, "xram_".toList ++ lower (zeroPad 4 (digitsOf 16 loc))) :: aliases
       else (loc, "sfr_".toList ++ lower (zeroPad 4 (digitsOf 16 loc))) :: aliases) locs

/-- compute_aliases, src/disasm.rs 221–287 -/
def aliases : List (Nat × Text) :=
  moreAliases (aliasTable.foldl (fun l p => (p.2, p.1.toList) :: l) []) ((List.range 0x100).map (· + 0x100))

/-- compute_bit_aliases, src/disasm.rs 211–219 -/
def pswBits : List (Nat × Text) := pswTable.foldl (fun l p => (p.2, p.1.toList) :: l) []

/-- gen_label's name, src/disasm.rs 1011–1015 -/
def labelName (pos : Nat) : Text := "label_".toList ++ zeroPad 4 (digitsOf 16 pos)

/-- The body of compute_labels, src/disasm.rs 289–468: the address that gets a label because of this instruction -/
def labelFor (g : Graph) (pos : Nat) (i : Instr Int Nat) : Option Nat :=
  let next := pos + i.size
  match i with
  | .Jmp abs => some (abs12 next abs)
  | .Jmpf abs => if g.toFlash pos then none else some (toUsize abs)
  | .Br rel => some (rel8 rel next)
  | .Brf rel => some (rel16 rel next)
  | .Bz rel => some (rel8 rel next)
  | .Bnz rel => some (rel8 rel next)
  | .Bp _ _ rel => some (rel8 rel next)
  | .Bpc _ _ rel => some (rel8 rel next)
  | .Bn _ _ rel => some (rel8 rel next)
  | .Dbnz_d9 _ rel => some (rel8 rel next)
  | .Dbnz_Ri _ rel => some (rel8 rel next)
  | .Be_i8 _ rel => some (rel8 rel next)
  | .Be_d9 _ rel => some (rel8 rel next)
  | .Be_Rj _ _ rel => some (rel8 rel next)
  | .Bne_i8 _ rel => some (rel8 rel next)
  | .Bne_d9 _ rel => some (rel8 rel next)
  | .Bne_Rj _ _ rel => some (rel8 rel next)
  | .Call a12 => some (abs12 next a12)
  | .Callf a16 => some (toUsize a16)
  | .Callr r16 => some (rel16 r16 next)
  | _ => none

/-- compute_labels, src/disasm.rs 289–468.  gen_label does nothing if the label exists; as the name is a function
of the address, inserting it again is the same. -/
def disLabels (g : Graph) : List (Nat × Text) :=
  g.instrs.filterMap fun p => (labelFor g p.1 p.2).map fun a => (a, labelName a)

/-- build_names, src/disasm.rs 203–209 -/
def buildNames (g : Graph) : DNames := ⟨disLabels g, pswBits, aliases⟩

/-- label_expr, src/disasm.rs 165–170 -/
def labelExpr (names : DNames) (addr : Nat) : Expr :=
  match names.labels.lookup addr with
  | some n => .name n
  | none => .num (asI32 addr)

/-- mem_expr, src/disasm.rs 172–177 -/
def memExpr (names : DNames) (addr : Int) : Expr :=
  match names.aliases.lookup (toUsize addr) with
  | some n => .name n
  | none => .num addr

/-- bits_expr, src/disasm.rs 179–188 -/
def bitsExpr (names : DNames) (mem addr : Int) : Expr :=
  if mem = 0x0101 then
    match names.pswBits.lookup (toUsize addr) with
    | some n => .name n
    | none => .num addr
  else .num addr

/-- lift_instr, src/disasm.rs 470–736.  The code lifts all instructions of the graph (1037–1056) before emitting
them; here each is lifted when it is emitted. -/
def liftInstr (pos : Nat) (g : Graph) (names : DNames) (i : Instr Int Nat) : Res (Instr Expr IM) :=
  let next := pos + i.size
  match i with
  | .Add_i8 imm => .ok (.Add_i8 (.num imm))
  | .Add_d9 d9 => .ok (.Add_d9 (memExpr names d9))
  | .Add_Ri ri => do
    let ri' ← IM.from ri
    .ok (.Add_Ri ri')
  | .Addc_i8 imm => .ok (.Addc_i8 (.num imm))
  | .Addc_d9 d9 => .ok (.Addc_d9 (memExpr names d9))
  | .Addc_Ri ri => do
    let ri' ← IM.from ri
    .ok (.Addc_Ri ri')
  | .Sub_i8 imm => .ok (.Sub_i8 (.num imm))
  | .Sub_d9 d9 => .ok (.Sub_d9 (memExpr names d9))
  | .Sub_Ri ri => do
    let ri' ← IM.from ri
    .ok (.Sub_Ri ri')
  | .Subc_i8 imm => .ok (.Subc_i8 (.num imm))
  | .Subc_d9 d9 => .ok (.Subc_d9 (memExpr names d9))
  | .Subc_Ri ri => do
    let ri' ← IM.from ri
    .ok (.Subc_Ri ri')
  | .Inc_d9 d9 => .ok (.Inc_d9 (memExpr names d9))
  | .Inc_Ri ri => do
    let ri' ← IM.from ri
    .ok (.Inc_Ri ri')
  | .Dec_d9 d9 => .ok (.Dec_d9 (memExpr names d9))
  | .Dec_Ri ri => do
    let ri' ← IM.from ri
    .ok (.Dec_Ri ri')
  | .Mul => .ok .Mul
  | .Div => .ok .Div
  | .And_i8 imm => .ok (.And_i8 (.num imm))
  | .And_d9 d9 => .ok (.And_d9 (memExpr names d9))
  | .And_Ri ri => do
    let ri' ← IM.from ri
    .ok (.And_Ri ri')
  | .Or_i8 imm => .ok (.Or_i8 (.num imm))
  | .Or_d9 d9 => .ok (.Or_d9 (memExpr names d9))
  | .Or_Ri ri => do
    let ri' ← IM.from ri
    .ok (.Or_Ri ri')
  | .Xor_i8 imm => .ok (.Xor_i8 (.num imm))
  | .Xor_d9 d9 => .ok (.Xor_d9 (memExpr names d9))
  | .Xor_Ri ri => do
    let ri' ← IM.from ri
    .ok (.Xor_Ri ri')
  | .Rol => .ok .Rol
  | .Rolc => .ok .Rolc
  | .Ror => .ok .Ror
  | .Rorc => .ok .Rorc
  | .Ld_d9 d9 => .ok (.Ld_d9 (memExpr names d9))
  | .Ld_Ri ri => do
    let ri' ← IM.from ri
    .ok (.Ld_Ri ri')
  | .St_d9 d9 => .ok (.St_d9 (memExpr names d9))
  | .St_Ri ri => do
    let ri' ← IM.from ri
    .ok (.St_Ri ri')
  | .Mov_d9 imm d9 => .ok (.Mov_d9 (.num imm) (memExpr names d9))
  | .Mov_Rj imm ri => do
    let ri' ← IM.from ri
    .ok (.Mov_Rj (.num imm) ri')
  | .Ldc => .ok .Ldc
  | .Push d9 => .ok (.Push (memExpr names d9))
  | .Pop d9 => .ok (.Pop (memExpr names d9))
  | .Xch_d9 d9 => .ok (.Xch_d9 (memExpr names d9))
  | .Xch_Ri ri => do
    let ri' ← IM.from ri
    .ok (.Xch_Ri ri')
  | .Jmp abs => .ok (.Jmp (labelExpr names (abs12 next abs)))
  | .Jmpf abs =>
    let address := toUsize abs
    if g.toFlash pos then .ok (.Jmpf (.num (asI32 address))) else .ok (.Jmpf (labelExpr names address))
  | .Br rel => .ok (.Br (labelExpr names (rel8 rel next)))
  | .Brf rel => .ok (.Brf (labelExpr names (rel16 rel next)))
  | .Bz rel => .ok (.Bz (labelExpr names (rel8 rel next)))
  | .Bnz rel => .ok (.Bnz (labelExpr names (rel8 rel next)))
  | .Bp dir b3 rel => .ok (.Bp (memExpr names dir) (bitsExpr names dir b3) (labelExpr names (rel8 rel next)))
  | .Bpc dir b3 rel => .ok (.Bpc (memExpr names dir) (bitsExpr names dir b3) (labelExpr names (rel8 rel next)))
  | .Bn dir b3 rel => .ok (.Bn (memExpr names dir) (bitsExpr names dir b3) (labelExpr names (rel8 rel next)))
  | .Dbnz_d9 dir rel => .ok (.Dbnz_d9 (memExpr names dir) (labelExpr names (rel8 rel next)))
  | .Dbnz_Ri ind rel => do
    let ind' ← IM.from ind
    .ok (.Dbnz_Ri ind' (labelExpr names (rel8 rel next)))
  | .Be_i8 imm rel => .ok (.Be_i8 (.num imm) (labelExpr names (rel8 rel next)))
  | .Be_d9 dir rel => .ok (.Be_d9 (memExpr names dir) (labelExpr names (rel8 rel next)))
  | .Be_Rj ind imm rel => do
    let ind' ← IM.from ind
    .ok (.Be_Rj ind' (.num imm) (labelExpr names (rel8 rel next)))
  | .Bne_i8 imm rel => .ok (.Bne_i8 (.num imm) (labelExpr names (rel8 rel next)))
  | .Bne_d9 dir rel => .ok (.Bne_d9 (memExpr names dir) (labelExpr names (rel8 rel next)))
  | .Bne_Rj ind imm rel => do
    let ind' ← IM.from ind
    .ok (.Bne_Rj ind' (.num imm) (labelExpr names (rel8 rel next)))
  | .Call a12 => .ok (.Call (labelExpr names (abs12 next a12)))
  | .Callf a16 => .ok (.Callf (labelExpr names (toUsize a16)))
  | .Callr r16 => .ok (.Callr (labelExpr names (rel16 r16 next)))
  | .Ret => .ok .Ret
  | .Reti => .ok .Reti
  | .Clr1 dir b3 => .ok (.Clr1 (memExpr names dir) (bitsExpr names dir b3))
  | .Set1 dir b3 => .ok (.Set1 (memExpr names dir) (bitsExpr names dir b3))
  | .Not1 dir b3 => .ok (.Not1 (memExpr names dir) (bitsExpr names dir b3))
  | .Nop => .ok .Nop
  | .Ldf => .ok .Ldf
  | .Stf => .ok .Stf

/-! Statements -/

/-- DStatement, src/disasm.rs 1174–1178 -/
structure DStmt where
  pos : Option Nat
  stmt : Stmt
  comment : Option Text
  deriving DecidableEq

/-- push_comment, src/disasm.rs 1259–1261 -/
def DStmt.note (t : Text) : DStmt := ⟨none, .comment t, none⟩

/-- push_org, src/disasm.rs 1251–1257 -/
def DStmt.org (pos : Nat) : DStmt := ⟨some pos, .dir (.org pos), none⟩

/-- push_label, src/disasm.rs 1267–1269 -/
def DStmt.label (n : Text) : DStmt := ⟨none, .label n, none⟩

/-- push_cnop, src/disasm.rs 1226–1236 -/
def DStmt.cnop (add multiple : Nat) : DStmt := ⟨none, .dir (.cnop (.num (asI32 add)) (.num (asI32 multiple))), none⟩

/-- push_alias, src/disasm.rs 1238–1244 -/
def DStmt.alias (n : Text) (v : Nat) : DStmt := ⟨none, .alias n (.num (asI32 v)), none⟩

/-- A byte in the comment of a `.byte` line, src/disasm.rs 1196–1207 -/
def byteText (b : UInt8) : Text :=
  if 32 ≤ b ∧ b ≤ 126 then [Char.ofNat b.toNat]
  else if b = 9 then "\\t".toList
  else if b = 10 then "\\n".toList
  else if b = 13 then "\\r".toList
  else ".".toList

/-- DStatement::bytes, src/disasm.rs 1189–1213 -/
def DStmt.bytes (pos : Nat) (bytes : List UInt8) : DStmt :=
  ⟨some pos, .dir (.byte (bytes.map fun b => .expr (.num b.toNat))),
    if bytes.any fun b => decide (32 ≤ b ∧ b ≤ 126) then some (bytes.flatMap byteText) else none⟩

/-- byte_range, src/disasm.rs 157–163 -/
def byteRange (bytes : List UInt8) (mask : Nat → Bool) (pos : Nat) : List UInt8 :=
  bytes.drop pos |>.take (((List.range (bytes.length - pos)).takeWhile fun k => !mask (pos + k)).length)

/-- all_zeros, src/disasm.rs 140–147 -/
def allZeros (bytes : List UInt8) : Bool := bytes.all (· = 0)

/-- build_byte_mask, src/disasm.rs 190–201.  An instruction past the end would panic; there is none (`C51`). -/
def Graph.mask (g : Graph) (p : Nat) : Bool := g.instrs.any fun q => q.1 ≤ p && p < q.1 + q.2.size

/-- find_overlaps, src/disasm.rs 1068–1091 -/
def Graph.overlaps (g : Graph) (pos : Nat) : List Nat :=
  match g.get pos with
  | some i =>
    (if 1 ≤ pos then
      match g.get (pos - 1) with
      | some j => if j.size + (pos - 1) - 1 ≥ pos then [pos - 1] else []
      | none => []
     else []) ++
    ((List.range i.size).filter (1 ≤ ·)).filterMap fun k => if g.contains (k + pos) then some (k + pos) else none
  | none => []

/-- Positions in a comment, src/disasm.rs 54–63 -/
def positionList (ps : List Nat) : Text := joinWith ", ".toList (ps.map fun p => zeroPad 4 (digitsOf 16 p))

/-- The comment about the origins of an instruction, src/disasm.rs 68–86.  The origins are below the size of the
binary, so filtering all positions gives them in order. -/
def arrivedComment (g : Graph) (flag : Bool) (size pos : Nat) : Option Text :=
  let origins := (List.range size).filter fun q => g.arrivedFrom pos q
  if flag && !origins.isEmpty then some ("Arrived from: ".toList ++ positionList origins) else none

/-- The lines before an entry point, src/disasm.rs 40–44 -/
def entryPart (entries : List Nat) (pos : Nat) : List DStmt :=
  if entries.contains pos then [.note [], .note "Entry point".toList, .org pos] else []

/-- The lines before an instruction after data, src/disasm.rs 47–52 -/
def afterData (entries : List Nat) (g : Graph) (written : Nat → Bool) (pos : Nat) : List DStmt :=
  if decide (0 < pos) && !g.mask (pos - 1) && !entries.contains pos then
    .note [] :: (if !written (pos - 1) then [.org pos] else [])
  else []

/-- The label of an instruction, src/disasm.rs 53–55 -/
def labelPart (names : DNames) (pos : Nat) : List DStmt :=
  match names.labels.lookup pos with
  | some n => [.label n]
  | none => []

/-- The comment about overlapping instructions, src/disasm.rs 56–69 -/
def overlapPart (g : Graph) (pos : Nat) : List DStmt :=
  if (g.overlaps pos).isEmpty then [] else [.note ("Overlaps with: ".toList ++ positionList (g.overlaps pos))]

/-- The data starting at a position, at most 16 bytes, src/disasm.rs 97–98, 149–155 -/
def chunkAt (bytes : List UInt8) (g : Graph) (pos : Nat) : List UInt8 := (byteRange bytes g.mask pos).take 16

/-- The lines before data, src/disasm.rs 100–106 -/
def beforeData (g : Graph) (written : Nat → Bool) (pos : Nat) : List DStmt :=
  (if decide (0 < pos) && g.mask (pos - 1) then [.note []] else []) ++
  (if decide (0 < pos) && !written (pos - 1) && !g.mask (pos - 1) then [.note [], .org pos] else [])

/-- The main loop, src/disasm.rs 39–115; `written` is the written_mask. -/
def emitLoop (flag : Bool) (entries : List Nat) (bytes : List UInt8) (g : Graph) (names : DNames) :
    Nat → Nat → (Nat → Bool) → Res (List DStmt)
  | 0, pos, _ => if pos < bytes.length then .loop else .ok []
  | fuel + 1, pos, written =>
    if pos < bytes.length then
      match g.get pos with
      | some i => do
        let lifted ← liftInstr pos g names i
        let rest ← emitLoop flag entries bytes g names fuel (pos + 1) written
        .ok (entryPart entries pos ++ afterData entries g written pos ++ labelPart names pos ++ overlapPart g pos ++
          ⟨some pos, .instr lifted, arrivedComment g flag bytes.length pos⟩ :: rest)
      | none =>
        if !g.mask pos then do
          if !allZeros (chunkAt bytes g pos) then do
            let rest ← emitLoop flag entries bytes g names fuel (pos + (chunkAt bytes g pos).length)
              (fun p => written p || (decide (pos ≤ p) && decide (p < pos + (chunkAt bytes g pos).length)))
            .ok (entryPart entries pos ++ beforeData g written pos ++ .bytes pos (chunkAt bytes g pos) :: rest)
          else do
            let rest ← emitLoop flag entries bytes g names fuel (pos + (chunkAt bytes g pos).length) written
            .ok (entryPart entries pos ++ rest)
        else do
          let rest ← emitLoop flag entries bytes g names fuel (pos + 1) written
          .ok (entryPart entries pos ++ rest)
    else .ok []

/-- sorted_psw_bits and sorted_aliases, src/disasm.rs 977–993: all keys are below 0x200. -/
def sortedNames (l : List (Nat × Text)) : List DStmt :=
  (List.range 0x200).filterMap fun k => (l.lookup k).map fun n => .alias n k

/-- The end of the listing, src/disasm.rs 117–128 -/
def epilogue (size : Nat) (names : DNames) : List DStmt :=
  [.note "\nPad size of binary".toList, .cnop (size % 0x200) 0x200, .note "\nPSW bits".toList] ++
  sortedNames names.pswBits ++ [.note "\nSpecial Function Registers".toList] ++ sortedNames names.aliases

/-- disassemble, src/disasm.rs 16–131 -/
def disassemble (flag : Bool) (entries : List Nat) (bytes : List UInt8) : Res (List DStmt) := do
  let g ← trace entries bytes
  let names := buildNames g
  let body ← emitLoop flag entries bytes g names bytes.length 0 (fun _ => false)
  .ok (body ++ epilogue bytes.length names)

/-- A line of the listing, src/lib.rs 508–521 -/
def printLine (positions : Bool) (d : DStmt) : Res Text := do
  let t ← d.stmt.print
  .ok ((if positions then
      match d.pos with
      | some p => zeroPad 4 (digitsOf 16 p) ++ "| ".toList
      | none => "    | ".toList
    else []) ++ t ++
    (match d.comment with
      | some c => " ; ".toList ++ c
      | none => []) ++ "\n".toList)

/-- The listing, src/lib.rs 507–522 -/
def printListing (positions : Bool) : List DStmt → Res Text
  | [] => .ok []
  | d :: ds => do
    let t ← printLine positions d
    let ts ← printListing positions ds
    .ok (t ++ ts)

/-- The entry points of the file types, src/lib.rs 491–505 -/
def gameEntries : List Nat := [0, 0x3, 0xb, 0x13, 0x1b, 0x23, 0x2b, 0x33, 0x3b, 0x43, 0x4b, 0x130]
def biosEntries : List Nat := gameEntries ++ [0x100, 0x108, 0x110, 0x120, 0x130, 0x140, 0x1f0]

end Verif
