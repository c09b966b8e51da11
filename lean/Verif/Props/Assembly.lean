import Verif.Lemmas.AsmAppend
import Verif.Lemmas.AsmFresh
/-
Properties of assembling a program without macros and includes: C16–C19, C21–C30.
The specification is Spec/Assembly.lean.
-/
namespace Verif.Props
open Verif Verif.Spec

/-- A program used in examples: labels, a local label, a variable, data, alignment. -/
def sample : List Stmt := [
  .variable "size".toList (.num 3),
  .dir (.org 16),
  .label "main".toList,
  .instr (.Add_i8 (.name "size".toList)),
  .label ".loop".toList,
  .instr (.Br (.name ".loop".toList)),
  .dir (.byte [.expr (.uminus (.num 1)), .str [72, 105]]),
  .dir (.cnop (.num 0) (.num 8)),
  .label "data".toList,
  .dir (.word [.name "data".toList, .name "main".toList]),
  .dir (.text 4 [79, 75])]

theorem sample_source : Source sample := by
  constructor
  · intro n hn hd
    simp only [sample, List.mem_cons, List.not_mem_nil, Stmt.label.injEq, reduceCtorEq, false_or, or_false] at hn
    rcases hn with rfl | rfl | rfl
    · decide
    · revert hd; decide
    · decide
  · intro a k hk
    simp only [sample, List.mem_cons, List.not_mem_nil, Stmt.dir.injEq, Directive.cnop.injEq, reduceCtorEq,
      false_or, or_false] at hk
    obtain ⟨rfl, rfl⟩ := hk
    constructor <;> intro v r h <;> cases h <;> omega

def sampleOut : List UInt8 := List.replicate 16 0 ++ [0x81, 3, 1, 254, 255, 72, 105, 0, 24, 0, 16, 0, 79, 75, 32, 32]

theorem sample_assembles : assemble .checked sample = .ok sampleOut := by decide +kernel

theorem sample_laid : ∃ ps, Laid .checked sample ps := laid_of_ok sample_source (.inl rfl) sample_assembles

/-- C16: in a successful assembly a label has, at every place where it is visible, the address of the
statement that follows it: global labels are visible everywhere, local labels in their scope. -/
theorem C16_label_value (m : Mode) (stmts : List Stmt) (ps : List Placed) (out : List UInt8)
    (hL : Laid m stmts ps) (h : assemble m stmts = .ok out) :
    ∃ mx names, computeNames m stmts = .ok (mx, names) ∧
      ∀ q ∈ ps, ∀ n, q.stmt = .label n → ∀ q' ∈ ps, (dotted n = true → q'.scope = q.scope) →
        ∃ env, names.asEnv q'.scope = .ok env ∧ env (lower n) = some (q.addr : Int) := by
  obtain ⟨mx, names, vals, h1, hd, hv, hnd, _, henv⟩ := names_of_ok hL h
  refine ⟨mx, names, h1, ?_⟩
  intro q hq n hn q' hq' hsc
  refine ⟨_, henv q' hq', ?_⟩
  unfold meaning
  rw [dotted_lower]
  by_cases hdn : dotted n = true
  · rw [if_pos hdn]
    exact lookup_of_mem (hd.2 _) (localLabels_mem.mpr ⟨q, hq, n, hn, hdn, (hsc hdn).symm, rfl, rfl⟩)
  · rw [if_neg hdn]
    refine lookup_of_mem hnd ?_
    rw [List.mem_append]
    exact .inl (globalLabels_mem.mpr ⟨q, hq, n, hn, by simpa using hdn, rfl, rfl⟩)

/-- C17: after any part `pre` of an assembled program the label pass and the byte generation are at
the same position, the one given by the layout. -/
theorem C17_positions_agree (m : Mode) (pre post : List Stmt) (ps : List Placed) (out : List UInt8)
    (hL : Laid m (pre ++ post) ps) (h : assemble m (pre ++ post) = .ok out) :
    ∃ ps1 ps2 mx names sl sg, ps = ps1 ++ ps2 ∧ layout pre = some ps1 ∧
      computeNames m (pre ++ post) = .ok (mx, names) ∧
      runSteps (labelStep m) pre ⟨[], [], [], [], 0⟩ = .ok sl ∧
      runSteps (genStep m names) pre ⟨0, [], List.replicate (mx - 1).toNat 0⟩ = .ok sg ∧
      sl.pos = (sg.pos : Int) ∧ sg.pos = stop 0 ps1 := by
  obtain ⟨ps1, ps2, mx, names, sl, sg, h1, h2, h3, h4, h5, h6, h7⟩ :=
    positions hL.source.1 hL.layout hL.fits hL.forward h
  exact ⟨ps1, ps2, mx, names, sl, sg, h1, h2, h3, h4, h6, by rw [h5, h7], h7⟩

/-- C18: a label defined twice (globally, or in one local scope) is a duplicate-name error, and the
name reported is one that is defined twice. -/
theorem C18_duplicate_label (m : Mode) (stmts : List Stmt) (ps : List Placed) (n : Text)
    (hL : Laid m stmts ps) (h : DefinedTwice ps n) :
    ∃ n', DefinedTwice ps n' ∧ assemble m stmts = .err (.nameAlreadyExists n') := by
  rcases assemble_spec m hL.source.1 hL.layout hL.fits hL.forward with ⟨hd, _⟩ | h'
  · exact (not_distinct h hd).elim
  · exact h'

/-- C18: two definitions of a variable, or of a variable and a global label, are a duplicate-name
error, provided the definitions have values (otherwise the first without a value may be reported). -/
theorem C18_duplicate_variable (m : Mode) (stmts : List Stmt) (ps : List Placed) (vals : List (Text × Int))
    (hL : Laid m stmts ps) (hv : Vars m (globalLabels ps) (definitions stmts) vals)
    (h : ¬ ((globalLabels ps).map (·.1) ++ (definitions stmts).map (·.1)).Nodup) :
    ∃ n, assemble m stmts = .err (.nameAlreadyExists n) := by
  rcases assemble_spec m hL.source.1 hL.layout hL.fits hL.forward with ⟨hd, he⟩ | ⟨n, _, he⟩
  · obtain ⟨n, hn⟩ := varsF_reject m (definitions stmts) (globalLabels ps) vals hd.1 hv h
    refine ⟨n, ?_⟩
    rw [he, hn]; rfl
  · exact ⟨n, he⟩

/-- C18: in any case such a program is not assembled. -/
theorem C18_duplicates_rejected (m : Mode) (stmts : List Stmt) (ps : List Placed) (out : List UInt8)
    (hL : Laid m stmts ps) (h : assemble m stmts = .ok out) :
    LabelsDistinct ps ∧ ((globalLabels ps).map (·.1) ++ (definitions stmts).map (·.1)).Nodup := by
  obtain ⟨_, _, vals, _, hd, hv, hnd, _⟩ := names_of_ok hL h
  refine ⟨hd, ?_⟩
  rw [List.map_append] at hnd
  rwa [Vars.names hv] at hnd

/-- C18: no spurious rejection: the name reported is defined twice. -/
theorem C18_no_spurious (m : Mode) (stmts : List Stmt) (ps : List Placed) (n : Text) (hL : Laid m stmts ps)
    (h : assemble m stmts = .err (.nameAlreadyExists n)) :
    DefinedTwice ps n ∨ 2 ≤ ((globalLabels ps).map (·.1) ++ (definitions stmts).map (·.1)).count n := by
  rcases assemble_spec m hL.source.1 hL.layout hL.fits hL.forward with ⟨hd, he⟩ | ⟨n', hn, he⟩
  · right
    rw [he] at h
    rcases Res.bind_eq_err.mp h with h | ⟨g, _, h⟩
    · have := varsF_dup m _ _ _ h
      rw [List.count_append] at this ⊢
      rw [List.map_reverse, List.count_reverse] at this
      exact this
    · rcases Res.bind_eq_err.mp h with h | ⟨ws, _, h⟩
      · exact (NoDup.emitAll m _ _ n h).elim
      · cases h
  · rw [he] at h
    cases h
    exact .inl hn

/-- C19: at every statement, a dotted name means exactly the local label of that name in the same
scope. -/
theorem C19_local_scope (m : Mode) (stmts : List Stmt) (ps : List Placed) (out : List UInt8)
    (hL : Laid m stmts ps) (h : assemble m stmts = .ok out) :
    ∃ mx names, computeNames m stmts = .ok (mx, names) ∧
      ∀ q ∈ ps, ∃ env, names.asEnv q.scope = .ok env ∧
        ∀ x v, dotted x = true → (env x = some v ↔
          ∃ q' ∈ ps, ∃ n, q'.stmt = .label n ∧ dotted n = true ∧ q'.scope = q.scope ∧ x = lower n ∧ v = (q'.addr : Int)) := by
  obtain ⟨mx, names, vals, h1, hd, hv, hnd, _, henv⟩ := names_of_ok hL h
  refine ⟨mx, names, h1, fun q hq => ⟨_, henv q hq, ?_⟩⟩
  intro x v hx
  unfold meaning
  rw [if_pos hx, ← localLabels_mem]
  exact ⟨lookup_some_mem, lookup_of_mem (hd.2 _)⟩

/-- Equal local names under two global labels; the same under one. -/
example : assemble .checked [.label "a".toList, .label ".x".toList, .instr (.Br (.name ".X".toList)),
    .label "b".toList, .instr (.Br (.name ".x".toList)), .label ".x".toList] = .ok [1, 254, 1, 0] := by decide +kernel
example : assemble .checked [.label "a".toList, .label ".x".toList, .label ".X".toList] =
    .err (.nameAlreadyExists ".x".toList) := by decide +kernel
/-- A variable and a label of the same name. -/
example : assemble .checked [.label "a".toList, .variable "A".toList (.num 1)] =
    .err (.nameAlreadyExists "a".toList) := by decide +kernel

/-- C21: the output is as long as the largest position reached. -/
theorem C21_length (m : Mode) (stmts : List Stmt) (out : List UInt8) (hs : Source stmts)
    (hb : m = .checked ∨ Below2GiB stmts) (h : assemble m stmts = .ok out) :
    ∃ ps, layout stmts = some ps ∧ (∀ q ∈ ps, q.end_ ≤ out.length) ∧
      (out.length = 0 ∨ ∃ q ∈ ps, out.length = q.end_) := by
  obtain ⟨ps, vars, ws, h1, _, _, _, _, h6, _⟩ := assemble_sound hs hb h
  refine ⟨ps, h1, fun q hq => by rw [h6]; exact le_reach hq, ?_⟩
  rw [h6]
  exact reach_attained ps

/-- C22: each output byte is the byte the last statement covering its position emitted, or zero. -/
theorem C22_image (m : Mode) (stmts : List Stmt) (out : List UInt8) (hs : Source stmts)
    (hb : m = .checked ∨ Below2GiB stmts) (h : assemble m stmts = .ok out) :
    ∃ ps vars ws, layout stmts = some ps ∧ Vars m (globalLabels ps) (definitions stmts) vars ∧
      EmitsAll m (globalLabels ps ++ vars) ps ps ws ∧ ∀ j b, out[j]? = some b ↔ j < reach ps ∧ ImageByte ws j b := by
  obtain ⟨ps, vars, ws, h1, _, h3, _, h5, h6, h7⟩ := assemble_sound hs hb h
  refine ⟨ps, vars, ws, h1, h3, h5, fun j b => ⟨fun hj => ⟨?_, h7 j b hj⟩, fun ⟨hj, hb⟩ => ?_⟩⟩
  · rw [← h6]
    exact (List.getElem?_eq_some_iff.mp hj).1
  · have : out = image (List.replicate (reach ps) 0) ws := image_unique h6 h7
    rw [this]
    refine image_spec _ _ _ _ ?_ hb
    simp [hj]

/-- C22, complete version: a program is assembled to `out` exactly if `out` is its meaning. -/
theorem C22_assembles_iff (m : Mode) (stmts : List Stmt) (ps : List Placed) (out : List UInt8)
    (hL : Laid m stmts ps) : assemble m stmts = .ok out ↔ Assembles m stmts out :=
  assemble_iff m hL.source.1 hL.layout hL.fits hL.forward out

/-- A later statement overwrites an earlier one, the gap stays zero. -/
example : assemble .checked [.dir (.byte [.str [1, 2, 3]]), .dir (.org 1), .dir (.byte [.str [9]]),
    .dir (.org 5), .dir (.byte [.str [7]])] = .ok [1, 9, 3, 0, 0, 7] := by decide +kernel

/-- C23: below 2 GiB (and with no backward `.cnop` in a checked build), assembling panics only by an
overflow in evaluating one of the program's expressions; in particular no write is out of bounds. -/
theorem C23_no_out_of_bounds (m : Mode) (stmts : List Stmt) (ps : List Placed) (hL : Laid m stmts ps)
    (hlit : ∀ x ∈ stmts, ∀ e ∈ exprsOf x, Literals32 e) (h : assemble m stmts = .panic) :
    ∃ x ∈ stmts, ∃ e ∈ exprsOf x, ∃ env, Env32 env ∧ Overflows m env e :=
  assemble_panic hL.source.1 hL.layout hL.fits hL.forward hlit h

example : assemble .checked [.dir (.byte [.expr (.plus (.num 2147483647) (.num 1))])] = .panic := by decide +kernel

/-- C23: the 2 GiB limit is needed: this program without any expression arithmetic panics. -/
theorem C23_needs_2gib :
    assemble .checked [.dir (.org 2147483647), .dir (.byte [.expr (.num 1)])] = .panic := by decide +kernel

/-- C23: so is the condition on `.cnop`: a checked build panics on a backward `.cnop a, 0`. -/
theorem C23_needs_forward_cnop :
    assemble .checked [.dir (.byte [.str [1, 2, 3]]), .dir (.cnop (.num 1) (.num 0))] = .panic ∧
    assemble .wrapping [.dir (.byte [.str [1, 2, 3]]), .dir (.cnop (.num 1) (.num 0)), .dir (.byte [.str [9]])] =
      .ok [1, 9, 3] := by decide +kernel

/-- C24: a `.byte` list at the end of a program that assembles to `out0`: the program assembles
exactly if every item is in range, and then the items' bytes are written at the current position. -/
theorem C24_byte (m : Mode) (pre : List Stmt) (vs : List ByteValue) (ps : List Placed) (out0 : List UInt8)
    (hL : Laid m (pre ++ [.dir (.byte vs)]) ps) (h0 : assemble m pre = .ok out0) :
    ∃ p env, AtEnd m pre p env ∧ ∀ out, assemble m (pre ++ [.dir (.byte vs)]) = .ok out ↔
      ∃ bs, ByteItems m env vs bs ∧ out = overlay out0 p bs := by
  obtain ⟨p, env, h1, h2⟩ := append_data hL rfl h0
  refine ⟨p, env, h1, fun out => ?_⟩
  rw [h2]
  simp only [emitF, Res.bind_eq_ok, byteItemsF_ok, Res.ok.injEq]
  exact ⟨fun ⟨bs, h, e⟩ => ⟨bs, h, e.symm⟩, fun ⟨bs, h, e⟩ => ⟨bs, h, e.symm⟩⟩

/-- C24: the first item outside -128..255 is reported. -/
theorem C24_out_of_range (m : Mode) (pre : List Stmt) (before after : List ByteValue) (e : Expr) (v : Int)
    (ps : List Placed) (out0 : List UInt8)
    (hL : Laid m (pre ++ [.dir (.byte (before ++ .expr e :: after))]) ps) (h0 : assemble m pre = .ok out0)
    (hv : v < -128 ∨ 255 < v)
    (hb : ∀ p env, AtEnd m pre p env → e.eval m env = .ok v ∧ ∃ bs, ByteItems m env before bs) :
    assemble m (pre ++ [.dir (.byte (before ++ .expr e :: after))]) = .err (.byteOutOfRange v) := by
  obtain ⟨p, env, h1, h2⟩ := append_data hL rfl h0
  obtain ⟨he, bs, hbs⟩ := hb p env h1
  rw [h2]
  simp only [emitF]
  rw [byteItemsF_range he hv ((byteItemsF_ok m env before bs).mpr hbs), Res.err_bind]

/-- C24: the size reserved is the number of bytes emitted. -/
theorem C24_size (m : Mode) (env : Env) (vs : List ByteValue) (bs : List UInt8) (p : Int)
    (h : ByteItems m env vs bs) (hlt : bs.length < 2147483648) :
    (Directive.byte vs).size m p = .ok (bs.length : Int) := by
  have hl := byteItemsF_length m env vs bs ((byteItemsF_ok m env vs bs).mpr h)
  simp only [Directive.size, byteCount_eq]
  rw [← hl, wrap32_nat hlt]

/-- `-1, "Hi", 255, -128`. -/
example : ByteItems .checked (fun _ => none)
    [.expr (.uminus (.num 1)), .str [72, 105], .expr (.num 255), .expr (.uminus (.num 128))] [255, 72, 105, 255, 128] := by
  rw [← byteItemsF_ok]; decide +kernel
example : assemble .checked (sample ++ [.dir (.byte [.expr (.num 7), .expr (.num 256)])]) = .err (.byteOutOfRange 256) := by
  decide +kernel

/-- C25: the same for `.word`. -/
theorem C25_word (m : Mode) (pre : List Stmt) (es : List Expr) (ps : List Placed) (out0 : List UInt8)
    (hL : Laid m (pre ++ [.dir (.word es)]) ps) (h0 : assemble m pre = .ok out0) :
    ∃ p env, AtEnd m pre p env ∧ ∀ out, assemble m (pre ++ [.dir (.word es)]) = .ok out ↔
      ∃ bs, WordItems m env es bs ∧ out = overlay out0 p bs := by
  obtain ⟨p, env, h1, h2⟩ := append_data hL rfl h0
  refine ⟨p, env, h1, fun out => ?_⟩
  rw [h2]
  simp only [emitF, Res.bind_eq_ok, wordItemsF_ok, Res.ok.injEq]
  exact ⟨fun ⟨bs, h, e⟩ => ⟨bs, h, e.symm⟩, fun ⟨bs, h, e⟩ => ⟨bs, h, e.symm⟩⟩

/-- C25: the first value outside -32768..65535 is reported. -/
theorem C25_out_of_range (m : Mode) (pre : List Stmt) (before after : List Expr) (e : Expr) (v : Int)
    (ps : List Placed) (out0 : List UInt8)
    (hL : Laid m (pre ++ [.dir (.word (before ++ e :: after))]) ps) (h0 : assemble m pre = .ok out0)
    (hv : v < -32768 ∨ 65535 < v)
    (hb : ∀ p env, AtEnd m pre p env → e.eval m env = .ok v ∧ ∃ bs, WordItems m env before bs) :
    assemble m (pre ++ [.dir (.word (before ++ e :: after))]) = .err (.wordOutOfRange v) := by
  obtain ⟨p, env, h1, h2⟩ := append_data hL rfl h0
  obtain ⟨he, bs, hbs⟩ := hb p env h1
  rw [h2]
  simp only [emitF]
  rw [wordItemsF_range he hv ((wordItemsF_ok m env before bs).mpr hbs), Res.err_bind]

/-- C25: two bytes per value. -/
theorem C25_size (m : Mode) (env : Env) (es : List Expr) (bs : List UInt8) (p : Int)
    (h : WordItems m env es bs) (hlt : bs.length < 2147483648) :
    bs.length = 2 * es.length ∧ (Directive.word es).size m p = .ok (bs.length : Int) := by
  have hl := wordItemsF_length m env es bs ((wordItemsF_ok m env es bs).mpr h)
  refine ⟨hl, ?_⟩
  simp only [Directive.size]
  rw [Nat.mul_comm, ← hl, wrap32_nat hlt]

/-- `$1234, -2` -/
example : WordItems .checked (fun _ => none) [.num 0x1234, .uminus (.num 2)] [0x34, 0x12, 0xFE, 0xFF] := by
  rw [← wordItemsF_ok]; decide +kernel

/-- C16, seen in the output: `.word n` emits the address of the label `n`, low byte first. -/
theorem C16_word_of_label (m : Mode) (pre : List Stmt) (n : Text) (ps ps0 : List Placed) (out0 : List UInt8)
    (hL : Laid m (pre ++ [.dir (.word [.name n])]) ps) (h0 : assemble m pre = .ok out0)
    (hl : layout pre = some ps0) (q : Placed) (hq : q ∈ ps0) (hn : q.stmt = .label n) (hd : dotted n = false)
    (ha : q.addr ≤ 65535) :
    ∃ lo hi : UInt8, lo.toNat + 256 * hi.toNat = q.addr ∧
      assemble m (pre ++ [.dir (.word [.name n])]) = .ok (overlay out0 (stop 0 ps0) [lo, hi]) := by
  obtain ⟨p, env, ⟨ps', vars, h1, rfl, hv, rfl⟩, h2⟩ := C25_word m pre [.name n] ps out0 hL h0
  rw [hl] at h1
  cases h1
  obtain ⟨ps1, hl1, hf1, hc1⟩ : ∃ ps1, layout pre = some ps1 ∧ Fits ps1 ∧ (m = .wrapping ∨ CnopForward ps1) := by
    obtain ⟨ps0', ps1, sc, hl0, _, rfl, _⟩ := place_append hL.layout
    exact ⟨ps0', hl0, fun q hq => hL.fits q (by simp [hq]), hL.forward.imp id fun h q hq => h q (by simp [hq])⟩
  rw [hl] at hl1
  cases hl1
  obtain ⟨_, _, vals, _, hdist, hv', hnd, _, _⟩ := names_of_ok ⟨source_prefix hL.source, hl, hf1, hc1⟩ h0
  have : vals = vars := Vars.unique hv' hv
  subst this
  have hev : (Expr.name n).eval m (meaning (globalLabels ps0 ++ vals) (localLabels (pre.foldl nextScope []) ps0)) =
      .ok (q.addr : Int) := by
    have : (globalLabels ps0 ++ vals).lookup (lower n) = some (q.addr : Int) := by
      refine lookup_of_mem hnd ?_
      rw [List.mem_append]
      exact .inl (globalLabels_mem.mpr ⟨q, hq, n, hn, hd, rfl, rfl⟩)
    simp only [Expr.eval, meaning, dotted_lower, hd, this]
    simp
  refine ⟨UInt8.ofNat (q.addr % 256), UInt8.ofNat (q.addr / 256), ?_, ?_⟩
  · simp only [UInt8.toNat_ofNat']
    omega
  · rw [h2]
    refine ⟨_, .cons hev (by omega) (by omega) ?_ .nil, rfl⟩
    simp only [UInt8.toNat_ofNat']
    omega

/-- C26: `.text n s` writes the string and spaces up to `n` bytes; a longer string is an error. -/
theorem C26_text (m : Mode) (pre : List Stmt) (n : Nat) (s : List UInt8) (ps : List Placed) (out0 : List UInt8)
    (hL : Laid m (pre ++ [.dir (.text n s)]) ps) (h0 : assemble m pre = .ok out0) :
    ∃ p env, AtEnd m pre p env ∧
      (s.length ≤ n → assemble m (pre ++ [.dir (.text n s)]) =
        .ok (overlay out0 p (s ++ List.replicate (n - s.length) 0x20))) ∧
      (n < s.length → assemble m (pre ++ [.dir (.text n s)]) = .err (.bytesLongerThanLength n s.length)) := by
  obtain ⟨p, env, h1, h2⟩ := append_data hL rfl h0
  refine ⟨p, env, h1, fun hle => ?_, fun hlt => ?_⟩
  · rw [h2]; simp only [emitF]; rw [if_neg (by omega)]; rfl
  · rw [h2]; simp only [emitF]; rw [if_pos hlt]; rfl

/-- C26: `.string n s` pads with zeros. -/
theorem C26_string (m : Mode) (pre : List Stmt) (n : Nat) (s : List UInt8) (ps : List Placed) (out0 : List UInt8)
    (hL : Laid m (pre ++ [.dir (.string n s)]) ps) (h0 : assemble m pre = .ok out0) :
    ∃ p env, AtEnd m pre p env ∧
      (s.length ≤ n → assemble m (pre ++ [.dir (.string n s)]) =
        .ok (overlay out0 p (s ++ List.replicate (n - s.length) 0))) ∧
      (n < s.length → assemble m (pre ++ [.dir (.string n s)]) = .err (.bytesLongerThanLength n s.length)) := by
  obtain ⟨p, env, h1, h2⟩ := append_data hL rfl h0
  refine ⟨p, env, h1, fun hle => ?_, fun hlt => ?_⟩
  · rw [h2]; simp only [emitF]; rw [if_neg (by omega)]; rfl
  · rw [h2]; simp only [emitF]; rw [if_pos hlt]; rfl

example : assemble .checked (sample ++ [.dir (.string 3 [65])]) = .ok (sampleOut ++ [65, 0, 0]) := by decide +kernel
example : assemble .checked (sample ++ [.dir (.text 1 [65, 66])]) = .err (.bytesLongerThanLength 1 2) := by decide +kernel
example : ∃ ps, Laid .checked (sample ++ [.dir (.string 3 [65])]) ps :=
  laid_of_ok (by
    constructor
    · intro n hn; exact sample_source.1 n (by simpa using hn)
    · intro a k hk; exact sample_source.2 a k (by simpa using hk)) (.inl rfl)
    (show _ = Res.ok (sampleOut ++ [65, 0, 0]) by decide +kernel)

/-- C27: `.cnop a, k` with `k > 0` at position `p` moves to `a` plus the smallest multiple of `k` not
below `p` (if that is below 2 GiB). -/
theorem C27_cnop (m : Mode) (p a k L : Nat) (ra rk : Radix) (hk : 0 < k) (hdvd : L % k = 0) (hge : p ≤ L)
    (hleast : ∀ M, M % k = 0 → p ≤ M → L ≤ M) (hlt : L + a < 2147483648) :
    (Directive.cnop (.number a ra) (.number k rk)).size m p = .ok ((L + a : Nat) - (p : Int)) := by
  have hL : leastMultiple k p = L := by
    obtain ⟨t, ht⟩ := leastMultiple_dvd hk p
    have h1 := hleast (leastMultiple k p) (by rw [ht]; exact Nat.mul_mod_right _ _) (le_leastMultiple k p)
    have h2 : leastMultiple k p ≤ k * (L / k) := leastMultiple_le hk (by
      have := Nat.div_add_mod L k
      omega)
    have := Nat.div_add_mod L k
    omega
  refine dir_size m (p := p) (p' := L + a) ?_ (by omega) hlt
  simp only [advance]
  rw [if_neg (by omega), if_neg (by omega)]
  simp only [Int.toNat_natCast, hL]

/-- Such an `L` exists for all `p` and `k > 0`. -/
theorem C27_exists (p k : Nat) (hk : 0 < k) : ∃ L, L % k = 0 ∧ p ≤ L ∧ L < p + k ∧ ∀ M, M % k = 0 → p ≤ M → L ≤ M := by
  refine ⟨leastMultiple k p, ?_, le_leastMultiple k p, ?_, ?_⟩
  · obtain ⟨t, ht⟩ := leastMultiple_dvd hk p
    rw [ht]; exact Nat.mul_mod_right _ _
  · unfold leastMultiple
    have := Nat.mod_lt p hk
    split <;> omega
  · intro M hM hp
    have h := Nat.div_add_mod M k
    have := leastMultiple_le (t := M / k) hk (by omega : p ≤ k * (M / k))
    omega

example : (Directive.cnop (.num 5) (.num 8)).size .checked 17 = .ok ((24 + 5) - 17) := by decide +kernel

/-- C28: comments change nothing, not even errors. -/
theorem C28_comment (m : Mode) (pre post : List Stmt) (t : Text) :
    assemble m (pre ++ .comment t :: post) = assemble m (pre ++ post) :=
  assemble_drop m (fun _ => rfl) (fun _ => rfl) (fun _ _ => rfl) pre post

/-- C28: so does a local label whose name is new and unused. -/
theorem C28_local_label (m : Mode) (pre post : List Stmt) (n : Text) (hd : dotted n = true)
    (hnew : ∀ n', Stmt.label n' ∈ pre ++ post → lower n' ≠ lower n)
    (hunused : ∀ x ∈ pre ++ post, ∀ e ∈ exprsOf x, ∀ n', Occurs n' e → lower n' ≠ lower n) :
    assemble m (pre ++ .label n :: post) = assemble m (pre ++ post) :=
  assemble_local_label m hd hnew hunused

/-- C28: so does a variable whose name is new and unused, if its expression has a value. -/
theorem C28_variable (m : Mode) (pre post : List Stmt) (n : Text) (e : Expr) (x : Stmt)
    (hx : x = .variable n e ∨ x = .alias n e) (hval : ∀ env, ∃ v, e.eval m env = .ok v)
    (hnew : ∀ n', Stmt.label n' ∈ pre ++ post → lower n' ≠ lower n)
    (hnew' : ∀ n' e', Stmt.variable n' e' ∈ pre ++ post ∨ Stmt.alias n' e' ∈ pre ++ post → lower n' ≠ lower n)
    (hunused : ∀ x ∈ pre ++ post, ∀ e ∈ exprsOf x, ∀ n', Occurs n' e → lower n' ≠ lower n) :
    assemble m (pre ++ x :: post) = assemble m (pre ++ post) :=
  assemble_variable m hx hval hnew hnew' hunused

/-- C28: a new global label can change the outcome: it opens a new scope for local labels. -/
theorem C28_global_label_scopes :
    assemble .checked [.label "a".toList, .label ".x".toList, .instr (.Br (.name ".x".toList))] = .ok [1, 254] ∧
    assemble .checked [.label "a".toList, .label ".x".toList, .label "b".toList, .instr (.Br (.name ".x".toList))] =
      .err (.nameNotFound ".x".toList) := by decide +kernel

/-- C29: the value of a variable is that of its expression when all labels and the variables before
it are known. -/
theorem C29_variable_value (m : Mode) (pre post : List Stmt) (n : Text) (e : Expr) (x : Stmt) (ps : List Placed)
    (out : List UInt8) (hx : x = .variable n e ∨ x = .alias n e)
    (hL : Laid m (pre ++ x :: post) ps) (h : assemble m (pre ++ x :: post) = .ok out) :
    ∃ mx names vals v, computeNames m (pre ++ x :: post) = .ok (mx, names) ∧
      Vars m (globalLabels ps) (definitions pre) vals ∧
      e.eval m (fun y => (globalLabels ps ++ vals).lookup y) = .ok v ∧
      names.globals.lookup (lower n) = some v := by
  obtain ⟨mx, names, vals, h1, hd, hv, hnd, hg, henv⟩ := names_of_ok hL h
  have hdef : definitions (pre ++ x :: post) = definitions pre ++ (lower n, e) :: definitions post := by
    rw [definitions_append]
    rcases hx with rfl | rfl <;> rfl
  rw [hdef] at hv
  obtain ⟨v1, v2, rfl, hv1, hv2⟩ := hv.split
  cases hv2 with
  | cons he hr =>
    refine ⟨mx, names, v1, _, h1, hv1, he, ?_⟩
    rw [hg, lookup_reverse hnd]
    refine lookup_of_mem hnd ?_
    simp

/-- C29: if the definitions before it are in order and its expression fails there, its error is
reported; in particular a use of a variable defined only later is an unknown-name error. -/
theorem C29_variable_error (m : Mode) (pre post : List Stmt) (n : Text) (e : Expr) (x : Stmt) (ps : List Placed)
    (vals : List (Text × Int)) (er : Err) (hx : x = .variable n e ∨ x = .alias n e)
    (hL : Laid m (pre ++ x :: post) ps) (hd : LabelsDistinct ps)
    (hv : Vars m (globalLabels ps) (definitions pre) vals) (hnd : ((globalLabels ps ++ vals).map (·.1)).Nodup)
    (he : e.eval m (fun y => (globalLabels ps ++ vals).lookup y) = .err er) :
    assemble m (pre ++ x :: post) = .err er := by
  have hdef : definitions (pre ++ x :: post) = definitions pre ++ (lower n, e) :: definitions post := by
    rw [definitions_append]
    rcases hx with rfl | rfl <;> rfl
  rcases assemble_spec m hL.source.1 hL.layout hL.fits hL.forward with ⟨_, h⟩ | ⟨n, hn, _⟩
  · rw [h, hdef, varsF_prefix m _ _ vals _ _ _ er hnd hv he, Res.err_bind]
  · exact (not_distinct hn hd).elim

/-- A later label may be used, a later variable may not. -/
example : assemble .checked [.variable "a".toList (.name "end".toList), .dir (.byte [.expr (.name "a".toList)]),
    .label "end".toList] = .ok [1] := by decide +kernel
example : assemble .checked [.variable "a".toList (.name "b".toList), .variable "b".toList (.num 1)] =
    .err (.nameNotFound "b".toList) := by decide +kernel

/-- C30: the order in which hash maps are visited does not matter. -/
theorem C30_hash_order (order : List Text → List Text) (ho : ∀ ks x, x ∈ order ks ↔ x ∈ ks) (m : Mode)
    (stmts : List Stmt) : assembleIn order m stmts = assemble m stmts :=
  assembleIn_eq ho m stmts

/-- C30: an overflow-checked build always terminates. -/
theorem C30_terminates_checked (stmts : List Stmt) (hs : Source stmts) : assemble .checked stmts ≠ .loop :=
  assemble_checked_ne_loop hs.2

/-- C30: every build terminates below 2 GiB. -/
theorem C30_terminates (m : Mode) (stmts : List Stmt) (ps : List Placed) (hL : Laid m stmts ps) :
    assemble m stmts ≠ .loop :=
  assemble_ne_loop hL.source.1 hL.layout hL.fits hL.forward


/-- C30: an unchecked build does not terminate on `.org 2147483647` `.cnop 0,4`. -/
theorem C30_hang : assemble .wrapping [.dir (.org 2147483647), .dir (.cnop (.num 0) (.num 4))] = .loop :=
  assemble_loop hang_step1 (labelStep_loop size_hang)

end Verif.Props
