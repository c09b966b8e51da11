import Verif.Lemmas.TraceMore
/-
Properties C49–C53: disassembling.  `disassemble flag entries bytes` is the listing of a binary; Spec/Disasm.lean says
what a listing shows and where control flows.
-/
namespace Verif.Props
open Verif.Spec

/-- C49: disassembling ends for every binary and all entry points, without a panic. -/
theorem C49_ends (flag : Bool) (entries : List Nat) (bytes : List UInt8) :
    disassemble flag entries bytes ≠ .loop ∧ disassemble flag entries bytes ≠ .panic := by
  unfold disassemble
  cases h : trace entries bytes with
  | loop => exact absurd h (trace_fine entries bytes).1
  | panic => exact absurd h (trace_fine entries bytes).2
  | err e => simp
  | ok g =>
    obtain ⟨out, ho⟩ := emitLoop_fine (flag := flag) (entries := entries) (names := buildNames g) (trace_ok h).sound
      bytes.length 0 (fun _ => false) (by omega)
    simp only [Res.ok_bind, ho]
    exact ⟨nofun, nofun⟩

/-- C49: it fails only if control can reach an instruction that is cut off by the end of the binary, and the error
names its position and first byte. -/
theorem C49_errors (flag : Bool) (entries : List Nat) (bytes : List UInt8) (hlen : bytes.length < 2147483644) (e : Err)
    (h : disassemble flag entries bytes = .err e) :
    ∃ p b, Reached entries bytes p ∧ bytes[p]? = some b ∧ e = .noInstruction p b.toNat ∧
      ∃ f, (row f).selects b = true ∧ bytes.length < p + (row f).size := by
  have ht : trace entries bytes = .err e := by
    unfold disassemble at h
    rcases Res.bind_eq_err.mp h with h | ⟨g, hg, h⟩
    · exact h
    · exfalso
      obtain ⟨out, ho⟩ := emitLoop_fine (flag := flag) (entries := entries) (names := buildNames g) (trace_ok hg).sound
        bytes.length 0 (fun _ => false) (by omega)
      simp only [ho, Res.ok_bind] at h
      cases h
  obtain ⟨p, h1, h2, h3, rfl⟩ := (traceLoop_reached hlen _ (tracing_start bytes entries) (onlyReached_start entries bytes)).2 e ht
  have hb : bytes[p]? = some bytes[p] := List.getElem?_eq_getElem h2
  have hd : bytes.drop p = bytes[p] :: bytes.drop (p + 1) := List.drop_eq_getElem_cons h2
  obtain ⟨f, hf, hx⟩ := C04_decode_total bytes[p] (bytes.drop (p + 1))
  refine ⟨p, bytes[p], h1, hb, by simp [List.getD, hb], f, (hf f).mpr rfl, ?_⟩
  rw [← hd, h3] at hx
  split at hx
  · obtain ⟨i, hi, _⟩ := hx; cases hi
  · rename_i hn
    simp only [List.length_drop] at hn
    omega

example : disassemble true [0] [0x80, 0x00, 0x21, 0x00] = .err (.noInstruction 2 0x21) := by decide +kernel

/-- The body of a listing, and then the epilogue. -/
theorem listing_parts {flag : Bool} {entries : List Nat} {bytes : List UInt8} {body : List DStmt}
    (h : (do
      let g ← trace entries bytes
      emitLoop flag entries bytes g (buildNames g) bytes.length 0 (fun _ => false)) = .ok body) :
    disassemble flag entries bytes = .ok (body ++ epilogue bytes.length ⟨[], pswBits, aliases⟩) := by
  obtain ⟨g, h1, h2⟩ := Res.bind_eq_ok.mp h
  unfold disassemble
  simp only [h1, Res.ok_bind, h2]
  rfl

/-- A listing: `bz`, `ret`, data and a block of zeros. -/
theorem sample_listing : disassemble true [0] [0x80, 0x00, 0xA0, 0x41, 0x00, 0x42] = .ok
    ([⟨none, .comment [], none⟩, ⟨none, .comment "Entry point".toList, none⟩, ⟨some 0, .dir (.org 0), none⟩,
      ⟨some 0, .instr (.Bz (.name "label_0002".toList)), none⟩,
      ⟨none, .label "label_0002".toList, none⟩,
      ⟨some 2, .instr .Ret, some "Arrived from: 0000".toList⟩,
      ⟨none, .comment [], none⟩,
      ⟨some 3, .dir (.byte [.expr (.num 0x41), .expr (.num 0), .expr (.num 0x42)]), some "A.B".toList⟩] ++
      epilogue 6 ⟨[], pswBits, aliases⟩) :=
  listing_parts (by decide +kernel)

/-- C49: "ends" is all that can be said of the time: for a binary of `n` branches to the next instruction, `2 ^ k`
positions are waiting after `k` rounds. -/
theorem C49_blowup (n : Nat) (hn : 2 * n < 2147483640) (k : Nat) (hk : k ≤ n) :
    ∃ g locs, rounds (branches n) k (Graph.new, [0]) = .ok (g, locs) ∧ locs.length = 2 ^ k := by
  obtain ⟨g, h, _⟩ := rounds_branches hn k hk
  exact ⟨g, _, h, by simp⟩

example : branches 3 = [0x80, 0, 0x80, 0, 0x80, 0] := rfl

/-- C50: the entry points are listed, and with an instruction all places in the binary control can go to from there.
The exception is a jump into another memory: `not1 ext, 0` followed by `jmpf`. -/
theorem C50_closed (flag : Bool) (entries : List Nat) (bytes : List UInt8) (out : List DStmt)
    (hlen : bytes.length < 2147483644) (h : disassemble flag entries bytes = .ok out) :
    (∀ e ∈ entries, e < bytes.length → ListedAt out e) ∧
    ∀ (p : Nat) (i : Instr Int Nat) (t : Nat), ListedAt out p → InstrAt bytes p i → Flows p i t → t < bytes.length →
      (2 ≤ p → ∀ j, ListedAt out (p - 2) → InstrAt bytes (p - 2) j → ¬ toOtherMemory j i) →
      ListedAt out t := by
  obtain ⟨g, body, h1, rfl, h2⟩ := disassemble_ok h
  have ht := trace_ok h1
  have hl := listed_iff (size := bytes.length) ht.sound h2
  simp only [hl]
  refine ⟨fun e he hlt => (ht.entries e he hlt).resolve_right (by simp), fun p i t hp hpi hf hlt hx => ?_⟩
  obtain ⟨j, hj⟩ := Option.isSome_iff_exists.mp hp
  have hji : j = i := by
    have := (ht.sound p j hj).2
    rw [hpi.2] at this
    simp only [Res.ok.injEq, Option.some.injEq] at this
    exact this.symm
  subst hji
  refine (ht.closed p j hj t ?_ hlt).resolve_right (by simp)
  rw [mem_targets (decode_inRange hpi.2) (flows_instr hpi hlen) (by omega)]
  refine ⟨hf, fun ⟨e1, e2⟩ => ?_⟩
  obtain ⟨g1, g2, _⟩ := toFlash_iff.mp e2
  exact hx g1 _ (by simp [Graph.contains, g2]) (ht.sound _ _ g2) ⟨rfl, e1⟩

/-- C50: nothing else is listed: control can reach every listed instruction. -/
theorem C50_reached (flag : Bool) (entries : List Nat) (bytes : List UInt8) (out : List DStmt)
    (hlen : bytes.length < 2147483644) (h : disassemble flag entries bytes = .ok out) (p : Nat) (hp : ListedAt out p) :
    Reached entries bytes p := by
  obtain ⟨g, body, h1, rfl, h2⟩ := disassemble_ok h
  have ht := trace_ok h1
  exact (traceLoop_reached hlen _ (tracing_start bytes entries) (onlyReached_start entries bytes)).1 g h1 p
    ((listed_iff ht.sound h2 p).mp hp)

/-- The flow of control is that of the CPU, as long as no 16-bit address overflows. -/
theorem C50_flow_cpu (bytes : List UInt8) (p : Nat) (i : Instr Int Nat) (hp : p + 3 < 65536) (hi : InstrAt bytes p i)
    (t : Nat) (ht : t < 65536) (h : Flows p i t) :
    t = p + i.size ∨
    ((kinds i.form).getLast? = some .r8 ∧ shortTarget (p + i.size) i.encode = some (t : Int)) ∨
    (kinds i.form = [.r16] ∧ longTarget (p + i.size) i.encode = some (t : Int)) ∨
    (kinds i.form = [.a12] ∧ pageTarget (p + i.size) i.encode = some (t : Int)) ∨
    (kinds i.form = [.a16] ∧ farTarget i.encode = some (t : Int)) := by
  have hr := decode_inRange hi.2
  have hsz := (C03_size i).2.2.1
  have hr16 : (kinds i.form).getLast? = some .r16 → kinds i.form = [.r16] ∧ (i.form = .Brf ∨ i.form = .Callr) := by
    cases i <;> first | (intro h; cases h; done) | (intro _; exact ⟨rfl, .inl rfl⟩) | (intro _; exact ⟨rfl, .inr rfl⟩)
  have ha12 : kinds i.form = [.a12] → i.form = .Jmp ∨ i.form = .Call := by
    cases i <;> first | (intro h; cases h; done) | (intro _; exact .inl rfl) | (intro _; exact .inr rfl)
  have ha16 : kinds i.form = [.a16] → i.form = .Jmpf ∨ i.form = .Callf := by
    cases i <;> first | (intro h; cases h; done) | (intro _; exact .inl rfl) | (intro _; exact .inr rfl)
  rcases flows_iff.mp h with ⟨_, he⟩ | ⟨d, h1, h2, he⟩ | ⟨d, h1, h2, he⟩ | ⟨d, h1, h2, he⟩ | ⟨d, h1, h2, he⟩
  · exact .inl (by omega)
  · refine .inr (.inl ⟨h1, ?_⟩)
    have hd : -128 ≤ d ∧ d < 128 := by
      exact holdsAll_getLast hr h1 h2
    obtain ⟨b, hb, hb'⟩ := encode_getLast h1 (v := d) (by rw [← values_eq]; exact h2)
    unfold shortTarget
    rw [hb, Option.map_some, r8_value hd hb']
    congr 1
    omega
  · obtain ⟨hk, hf⟩ := hr16 h1
    refine .inr (.inr (.inl ⟨hk, ?_⟩))
    have hv : i.vals = [d] := by
      have hl := vals_length i
      rw [hk] at hl
      rw [values_eq] at h2
      obtain ⟨x, hx⟩ := List.length_eq_one_iff.mp hl
      rw [hx] at h2 ⊢
      simpa using h2
    have henc : ∃ b0, i.encode = [b0, Derive.encodeByte (operandEnv [d]) [.ref 'a' 7 0],
        Derive.encodeByte (operandEnv [d]) [.ref 'a' 15 8]] := by
      rw [encode_eq, hv]
      rcases hf with hf | hf <;> rw [hf] <;> exact ⟨_, rfl⟩
    obtain ⟨b0, henc⟩ := henc
    rw [henc]
    simp only [longTarget, encodeByte_low, encodeByte_high]
    have ha : operandEnv [d] 'a' = toU32 d := rfl
    rw [ha]
    have hm := toU32_mod d
    congr 1
    generalize toU32 d = u at *
    omega
  · refine .inr (.inr (.inr (.inl ⟨h1, ?_⟩)))
    have hd : 0 ≤ d ∧ d < 4096 := by
      have hr' := hr
      unfold InRange at hr'
      rw [h1, h2] at hr'
      exact hr'.1
    obtain ⟨b0, b1, hb, hsum⟩ := page_extract d i.form (ha12 h1)
    rw [encode_eq, ← values_eq, h2, hb]
    simp only [pageTarget, hsum, Option.some.injEq]
    have : (toU32 d : Int) = d := toU32_of_nonneg (by omega)
    omega
  · refine .inr (.inr (.inr (.inr ⟨h1, ?_⟩)))
    have hd : 0 ≤ d ∧ d < 65536 := by
      have hr' := hr
      unfold InRange at hr'
      rw [h1, h2] at hr'
      exact hr'.1
    have henc : ∃ b0, i.encode = [b0, Derive.encodeByte (operandEnv [d]) [.ref 'a' 15 8],
        Derive.encodeByte (operandEnv [d]) [.ref 'a' 7 0]] := by
      rw [encode_eq, ← values_eq, h2]
      rcases ha16 h1 with hf | hf <;> rw [hf] <;> exact ⟨_, rfl⟩
    obtain ⟨b0, henc⟩ := henc
    rw [henc]
    simp only [farTarget, encodeByte_low, encodeByte_high]
    have ha : operandEnv [d] 'a' = toU32 d := rfl
    rw [ha]
    have hm : (toU32 d : Int) = d := toU32_of_nonneg (by omega)
    congr 1
    omega

/-- C51: an instruction line shows the instruction that is encoded at its position. -/
theorem C51_instructions (flag : Bool) (entries : List Nat) (bytes : List UInt8) (out : List DStmt)
    (h : disassemble flag entries bytes = .ok out) (d : DStmt) (hd : d ∈ out) (l : Instr Expr IM) (hl : d.stmt = .instr l) :
    ∃ p i, d.pos = some p ∧ InstrAt bytes p i ∧ l.form = i.form ∧ l.size = i.size ∧
      p + i.size ≤ bytes.length ∧ i.encode = (bytes.drop p).take i.size := by
  obtain ⟨g, body, h1, rfl, h2⟩ := disassemble_ok h
  have ht := trace_ok h1
  rcases List.mem_append.mp hd with hd | hd
  · rcases emits_major h2 d hd with hm | ⟨p, i, l', _, hi, h3, h4, h5⟩ | ⟨q, _, _, _, rfl⟩
    · exact absurd hl (hm l []).1
    · rw [hl] at h5
      cases h5
      have hs := ht.sound p i hi
      obtain ⟨l', a1, a2, _⟩ := lift_spec p g (buildNames g) i (decode_inRange hs.2)
      rw [h3] at a1
      cases a1
      obtain ⟨c1, c2, _⟩ := C02_encode_decode _ _ hs.2
      refine ⟨p, i, h4, hs, a2, by rw [size_eq, size_eq, a2], ?_, c1⟩
      rw [List.length_drop] at c2
      have := hs.1
      omega
    · cases hl
  · exact absurd hl (epilogue_minor d hd l []).1

/-- C52: every byte of the binary is part of a listed instruction, shown in a `.byte` line, or zero. -/
theorem C52_covered (flag : Bool) (entries : List Nat) (bytes : List UInt8) (out : List DStmt)
    (h : disassemble flag entries bytes = .ok out) (k : Nat) (hk : k < bytes.length) :
    (∃ p i, ListedAt out p ∧ InstrAt bytes p i ∧ p ≤ k ∧ k < p + i.size) ∨
    (∃ q bs, Shown out q bs ∧ q ≤ k ∧ k < q + bs.length ∧ bs[k - q]? = bytes[k]?) ∨
    bytes[k]? = some 0 := by
  obtain ⟨g, body, h1, rfl, h2⟩ := disassemble_ok h
  have ht := trace_ok h1
  cases hm : g.mask k with
  | true =>
    refine .inl ?_
    simp only [Graph.mask, List.any_eq_true, Bool.and_eq_true, decide_eq_true_eq] at hm
    obtain ⟨⟨p, i⟩, m1, m2, m3⟩ := hm
    obtain ⟨j, hj⟩ := get_of_mem ht.sound m1
    have hi := mem_sound h1 m1
    exact ⟨p, i, (listed_iff ht.sound h2 p).mpr (by simp [Graph.contains, hj]), hi, m2, m3⟩
  | false =>
    rcases emits_byte h2 k (Nat.zero_le _) hk hm with ⟨q, a1, a2, a3, a4, a5⟩ | hz
    · refine .inr (.inl ⟨q, chunkAt bytes g q, ⟨_, List.mem_append_left _ a3, rfl, rfl⟩, a4, a5, ?_⟩)
      have := (chunk_spec a1 a2).2.2.2.1
      rw [this, List.getElem?_take, if_pos (by omega), List.getElem?_drop, Nat.add_sub_cancel' a4]
    · exact .inr (.inr hz)

/-- C52: a `.byte` line shows the 1 to 16 bytes at its position, and none of them belongs to an instruction. -/
theorem C52_data (flag : Bool) (entries : List Nat) (bytes : List UInt8) (out : List DStmt)
    (h : disassemble flag entries bytes = .ok out) (d : DStmt) (hd : d ∈ out) (vs : List ByteValue)
    (hv : d.stmt = .dir (.byte vs)) :
    ∃ q bs, d.pos = some q ∧ Shown out q bs ∧ vs = bs.map (fun b => .expr (.number b.toNat .hex)) ∧
      1 ≤ bs.length ∧ bs.length ≤ 16 ∧ q + bs.length ≤ bytes.length ∧
      bs = (bytes.drop q).take bs.length ∧
      ∀ p i, ListedAt out p → InstrAt bytes p i → p + i.size ≤ q ∨ q + bs.length ≤ p := by
  obtain ⟨g, body, h1, rfl, h2⟩ := disassemble_ok h
  have ht := trace_ok h1
  rcases List.mem_append.mp hd with hd' | hd'
  · rcases emits_major h2 d hd' with hm | ⟨p, i, l', _, hi, h3, h4, h5⟩ | ⟨q, _, a1, a2, rfl⟩
    · exact absurd hv (hm .Nop vs).2
    · rw [hv] at h5; cases h5
    · obtain ⟨c1, c2, c3, c4, c5⟩ := chunk_spec a1 a2
      simp only [DStmt.bytes, Stmt.dir.injEq, Directive.byte.injEq] at hv
      refine ⟨q, chunkAt bytes g q, rfl, ⟨_, hd, rfl, rfl⟩, hv.symm, c1, c2, c3, c4, ?_⟩
      intro p i hp hi
      obtain ⟨j, hj⟩ := Option.isSome_iff_exists.mp ((listed_iff ht.sound h2 p).mp hp)
      have hji : j = i := by
        have := (ht.sound p j hj).2
        rw [hi.2] at this
        simp only [Res.ok.injEq, Option.some.injEq] at this
        exact this.symm
      subst hji
      apply Decidable.byContradiction
      intro hc
      have hcase : ∃ k, q ≤ k ∧ k < q + (chunkAt bytes g q).length ∧ p ≤ k ∧ k < p + j.size := by
        refine ⟨max p q, ?_, ?_, ?_, ?_⟩ <;> have := size_pos j <;> omega
      obtain ⟨k, k1, k2, k3, k4⟩ := hcase
      have := c5 (k - q) (by omega)
      rw [Nat.add_sub_cancel' k1, mask_of_get (bytes := bytes) hj k3 k4] at this
      cases this
  · exact absurd hv (epilogue_minor d hd' .Nop vs).2

/-- C52: the lines are in the order of their positions. -/
theorem C52_ordered (flag : Bool) (entries : List Nat) (bytes : List UInt8) (out : List DStmt)
    (h : disassemble flag entries bytes = .ok out) :
    out.Pairwise fun a b => ∀ p q, Content a p → Content b q → p < q := by
  obtain ⟨g, body, h1, rfl, h2⟩ := disassemble_ok h
  rw [List.pairwise_append]
  have hn : ∀ d ∈ epilogue bytes.length (buildNames g), ∀ p, ¬ Content d p := by
    rintro d hd p ⟨_, ⟨i, hi⟩ | ⟨bs, hb⟩⟩
    · exact (epilogue_minor d hd i []).1 hi
    · exact (epilogue_minor d hd .Nop bs).2 hb
  refine ⟨emits_ordered h2, ?_, fun a _ b hb p q _ hq => absurd hq (hn b hb q)⟩
  rw [List.pairwise_iff_forall_sublist]
  intro a b hab p q hp
  exact absurd hp (hn a (hab.subset (by simp)) p)

/-- C53: the listing defines no name twice, in any case, so that its definitions can all hold together. -/
theorem C53_consistent (flag : Bool) (entries : List Nat) (bytes : List UInt8) (out : List DStmt)
    (h : disassemble flag entries bytes = .ok out) :
    (∀ n v n' v', Defines out n v → Defines out n' v' → lower n = lower n' → v = v') ∧
    ∃ env : Env, ∀ n v, Defines out n v → env (lower n) = some v := by
  obtain ⟨g, body, h1, rfl, h2⟩ := disassemble_ok h
  refine ⟨fun n v n' v' a b => defines_once h2 a b, ?_⟩
  classical
  refine ⟨fun t => if h : ∃ n v, Defines (body ++ epilogue bytes.length (buildNames g)) n v ∧ lower n = t
    then some h.choose_spec.choose else none, fun n v hd => ?_⟩
  have hx : ∃ n' v, Defines (body ++ epilogue bytes.length (buildNames g)) n' v ∧ lower n' = lower n := ⟨n, v, hd, rfl⟩
  simp only [dif_pos hx]
  rw [defines_once h2 hx.choose_spec.choose_spec.1 hd hx.choose_spec.choose_spec.2]

/-- The sample defines its label and, say, the alias `acc`. -/
example : ∃ out, disassemble true [0] [0x80, 0x00, 0xA0, 0x41, 0x00, 0x42] = .ok out ∧
    LabelAt out "label_0002".toList 2 ∧ Defines out "acc".toList 0x100 := by
  refine ⟨_, sample_listing, ?_, ?_⟩
  · exact ⟨[_, _, _, _], _, _, rfl, rfl, rfl⟩
  · exact defines_sfr (k := 0x100) (by decide) (by decide +kernel)

/-- C53: read with the aliases and labels of the listing, an instruction line evaluates to the instruction at its
position, provided that its operands use no other names.  (A target outside the binary, or inside another instruction
that is not listed, has a name but no label line.) -/
theorem C53_operands (m : Mode) (env : Env) (flag : Bool) (entries : List Nat) (bytes : List UInt8) (out : List DStmt)
    (hlen : bytes.length ≤ 65536) (h : disassemble flag entries bytes = .ok out)
    (henv : ∀ n v, Defines out n v → env (lower n) = some v)
    (d : DStmt) (hd : d ∈ out) (l : Instr Expr IM) (hl : d.stmt = .instr l)
    (hnames : ∀ n, .inl (.name n) ∈ operands l → ∃ v, Defines out n v) :
    ∃ p i, d.pos = some p ∧ InstrAt bytes p i ∧ l.evalIn m env (p + l.size) = .ok i := by
  obtain ⟨g, body, h1, rfl, h2⟩ := disassemble_ok h
  have ht := trace_ok h1
  rcases List.mem_append.mp hd with hd | hd
  · rcases emits_major h2 d hd with hm | ⟨p, i, l', _, hi, h3, h4, h5⟩ | ⟨q, _, _, _, rfl⟩
    · exact absurd hl (hm l []).1
    · rw [hl] at h5
      cases h5
      have hs := ht.sound p i hi
      have hsz : l.size = i.size := by
        obtain ⟨l', a1, a2, _⟩ := lift_spec p g (buildNames g) i (decode_inRange hs.2)
        rw [h3] at a1
        cases a1
        rw [size_eq, size_eq, a2]
      refine ⟨p, i, h4, hs, ?_⟩
      rw [hsz]
      exact lift_eval ht.sound h2 hlen henv hi h3 hnames
    · cases hl
  · exact absurd hl (epilogue_minor d hd l []).1

/-- C53: the names in an instruction line are defined if its target, if it has one, is listed or in another memory. -/
theorem C53_names (flag : Bool) (entries : List Nat) (bytes : List UInt8) (out : List DStmt)
    (hlen : bytes.length < 2147483644) (h : disassemble flag entries bytes = .ok out)
    (d : DStmt) (hd : d ∈ out) (l : Instr Expr IM) (hl : d.stmt = .instr l) (p : Nat) (hp : d.pos = some p)
    (i : Instr Int Nat) (hi : InstrAt bytes p i)
    (hall : ∀ t : Int, Target p i t → (∃ q : Nat, t = q ∧ ListedAt out q) ∨
      (2 ≤ p ∧ ListedAt out (p - 2) ∧ ∃ j, InstrAt bytes (p - 2) j ∧ toOtherMemory j i)) :
    ∀ n, .inl (.name n) ∈ operands l → ∃ v, Defines out n v := by
  obtain ⟨g, body, h1, rfl, h2⟩ := disassemble_ok h
  have ht := trace_ok h1
  rcases List.mem_append.mp hd with hd | hd
  · rcases emits_major h2 d hd with hm | ⟨q, j, l', _, hj, h3, h4, h5⟩ | ⟨q, _, _, _, rfl⟩
    · exact absurd hl (hm l []).1
    · rw [hl] at h5
      cases h5
      rw [hp] at h4
      cases h4
      have hji : j = i := by
        have := (ht.sound p j hj).2
        rw [hi.2] at this
        simp only [Res.ok.injEq, Option.some.injEq] at this
        exact this.symm
      subst hji
      have hr := decode_inRange hi.2
      obtain ⟨l', a1, a2, a3⟩ := lift_spec p g (buildNames g) j hr
      rw [h3] at a1
      cases a1
      intro n hn
      rcases op_names (body := body) (size := bytes.length) rfl _ _ _ _ a3 hr n hn with hx | ⟨a, ha, rfl⟩
      · exact hx
      · obtain ⟨⟨t, b1, b2⟩, b3⟩ := labelFor_target ha hr
        rcases hall t b1 with ⟨q, rfl, hq⟩ | ⟨c1, c2, k, c3, rfl, c4⟩
        · have hq' := (listed_iff ht.sound h2 q).mp hq
          obtain ⟨k, hk⟩ := Option.isSome_iff_exists.mp hq'
          have hlt := (ht.sound q k hk).1
          have haq : a = q := by rw [b2]; unfold toUsize; omega
          subst haq
          obtain ⟨pre, post, e1, e2⟩ := emits_labelled h2 a k (labelName a) hk (Nat.zero_le _) hlt (disLabels_of hj ha)
          refine ⟨a, .inr ⟨a, ⟨pre, post ++ epilogue bytes.length (buildNames g), .label (labelName a), ?_, rfl, e2 _⟩, rfl⟩⟩
          rw [e1, List.append_assoc]
          rfl
        · exfalso
          refine b3 ⟨c4, toFlash_iff.mpr ⟨c1, ?_, ?_⟩⟩
          · obtain ⟨k, hk⟩ := Option.isSome_iff_exists.mp ((listed_iff ht.sound h2 _).mp c2)
            have := (ht.sound _ _ hk).2
            rw [c3.2] at this
            simp only [Res.ok.injEq, Option.some.injEq] at this
            rw [hk, ← this]
          · obtain ⟨k, hk⟩ := Option.isSome_iff_exists.mp ((listed_iff ht.sound h2 _).mp c2)
            have := (ht.sound _ _ hk).2
            rw [c3.2] at this
            simp only [Res.ok.injEq, Option.some.injEq] at this
            have := ht.jumps _ _ hk this.symm
            rw [Nat.sub_add_cancel c1] at this
            exact this
    · cases hl
  · exact absurd hl (epilogue_minor d hd l []).1

/-- C53: a target outside the binary has no definition, so that the listing cannot be assembled. -/
theorem C53_dangling : ∃ out, disassemble true [0] [0x01, 0x05] = .ok out ∧
    (∃ d ∈ out, d.stmt = .instr (.Br (.name "label_0007".toList))) ∧
    ∀ v, ¬ Defines out "label_0007".toList v := by
  have h : disassemble true [0] [0x01, 0x05] = .ok
    ([⟨none, .comment [], none⟩, ⟨none, .comment "Entry point".toList, none⟩, ⟨some 0, .dir (.org 0), none⟩,
      ⟨some 0, .instr (.Br (.name "label_0007".toList)), none⟩] ++ epilogue 2 ⟨[], pswBits, aliases⟩) := by
    decide +kernel
  refine ⟨_, h, ⟨_, List.mem_append_left _ (List.mem_cons_of_mem _ (List.mem_cons_of_mem _ (List.mem_cons_of_mem _
    (List.mem_cons_self)))), rfl⟩, fun v hd => ?_⟩
  obtain ⟨g, body, h1, h3, h2⟩ := disassemble_ok h
  rw [h3] at hd
  have := (defines_label (a := 7) (trace_ok h1).sound h2 hd).2
  simp at this

end Verif.Props
