import Verif.Lemmas.Branch
/-
Properties C01–C09: instruction encoding, decoding and operand evaluation.
`Instr Int Nat` is an instruction with evaluated operands, `Instr Expr IM` one with operand
expressions.  The documented instruction set is Spec/InstrSet.lean, the CPU's target rules are
Spec/Cpu.lean.
-/
namespace Verif.Props
open Verif.Spec

/-- C01: decoding an encoded instruction gives it back, whatever bytes follow. -/
theorem C01_decode_encode (i : Instr Int Nat) (rest : List UInt8) (h : InRange i) :
    decode (i.encode ++ rest) = .ok (some i) :=
  decode_encode i rest h

example : InRange (.Bp 0x1ff 7 (-128)) ∧ InRange (.Mov_Rj 255 3) ∧ InRange (.Brf (-32768)) := by
  refine ⟨?_, ?_, ?_⟩ <;> simp [InRange, kinds, row, Instr.form, values, operands, holdsAll, Kind.holds]

/-- C02: a decoded instruction encodes to the bytes it was decoded from; its operands are in range. -/
theorem C02_encode_decode (bytes : List UInt8) (i : Instr Int Nat) (h : decode bytes = .ok (some i)) :
    i.encode = bytes.take i.size ∧ i.size ≤ bytes.length ∧ InRange i := by
  refine ⟨encode_decode h, ?_, decode_inRange h⟩
  rw [size_eq]
  exact (decode_some h).1

example : decode [0x78, 0x4c, 0xfe, 0x55] = .ok (some (.Bp 0x14c 0 (-2))) := by decide +kernel

/-- C03: `size` is the encoded length, between 1 and 3, and evaluating the operands keeps it. -/
theorem C03_size (i : Instr Int Nat) :
    i.size = i.encode.length ∧ 1 ≤ i.size ∧ i.size ≤ 3 ∧ i.size = (row i.form).size := by
  rw [size_eq, encode_length, docSize_eq]
  exact ⟨rfl, i.form.len_pos, i.form.len_le, rfl⟩

theorem C03_size_eval (m : Mode) (env : Env) (next : Nat) (e : Instr Expr IM) (i : Instr Int Nat)
    (h : e.evalIn m env next = .ok i) : i.size = e.size ∧ i.encode.length = e.size := by
  rw [encode_length, size_eq, size_eq, (evalIn_ok h).2]
  exact ⟨rfl, rfl⟩

example : ((.Add_d9 (.plus (.num 1) (.name ['x'])) : Instr Expr IM)).evalIn .checked (fun _ => some 3) 2
    = .ok (.Add_d9 4) := by decide +kernel

/-- C04: every first byte selects exactly one row of the manual; decoding a byte string starting
with it never panics, fails exactly if the string is shorter than that row's size, and otherwise
gives an instruction of that row. -/
theorem C04_decode_total (b : UInt8) (rest : List UInt8) :
    ∃ f : Form, (∀ g : Form, (row g).selects b = true ↔ g = f) ∧
      (if (row f).size ≤ rest.length + 1 then ∃ i, decode (b :: rest) = .ok (some i) ∧ i.form = f
       else decode (b :: rest) = .ok none) := by
  obtain ⟨f, hf, hu⟩ := form_unique b
  refine ⟨f, fun g => ?_, ?_⟩
  · rw [selects_iff]
    exact ⟨hu g, fun h => h ▸ hf⟩
  · rw [docSize_eq]
    exact decode_of_opcode b rest f hf

/-- The precondition "non-empty" is needed: the generated decoder indexes the first byte. -/
theorem C04_decode_empty : decode [] = .panic := rfl

example : (row .Jmp).selects 0x3f = true ∧ (row .Jmpf).selects 0x21 = true := by decide +kernel

/-- C05: the encoding is, bit for bit (byte `j`, bit `7-k`), the pattern printed in the manual. -/
theorem C05_documented_bits (i : Instr Int Nat) :
    (readPattern (row i.form).pattern.toList).length = 8 * i.encode.length ∧
    ∀ (j k : Nat) (b : UInt8), i.encode[j]? = some b → k < 8 →
      ∃ d, (readPattern (row i.form).pattern.toList)[8 * j + k]? = some d ∧
        b.toNat.testBit (7 - k) = (row i.form).bitValue (values i) d := by
  rw [values_eq]
  exact encode_doc_bits i

example : (Instr.Jmp 0xABC : Instr Int Nat).encode = [0x3A, 0xBC] := by decide +kernel

/-- C06: if evaluating an instruction succeeds then all operands have values, each fits its
documented field, the fields are exactly the documented function of the values, and the result is
in range. -/
theorem C06_no_truncation (m : Mode) (env : Env) (next : Nat) (hn : next < 2147483648)
    (e : Instr Expr IM) (i : Instr Int Nat) (h : e.evalIn m env next = .ok i) :
    InRange i ∧ i.form = e.form ∧ ∃ vs, OperandValues m env (operands e) vs ∧
      fields next (kinds e.form) vs = some (values i) := by
  obtain ⟨hf, vs, h1, h2⟩ := evalIn_fields hn h
  rw [← values_eq] at h2
  refine ⟨?_, hf, vs, h1, h2⟩
  unfold InRange
  rw [hf]
  exact fields_holds _ _ _ h2

/-- C06: if some operand's value does not fit, an out-of-range error is reported. -/
theorem C06_out_of_range (m : Mode) (env : Env) (next : Nat) (hn : next < 2147483648)
    (e : Instr Expr IM) (vs : List Int) (hv : OperandValues m env (operands e) vs)
    (h : fields next (kinds e.form) vs = none) :
    ∃ er, e.evalIn m env next = .err er ∧ isRangeError er = true := by
  have := evalFields_spec hn _ _ vs (shapes e) hv
  rw [h] at this
  obtain ⟨er, h1, h2⟩ := this
  exact ⟨er, evalFields_err h1, h2⟩

/-- C06: if all fit, evaluation succeeds. -/
theorem C06_in_range (m : Mode) (env : Env) (next : Nat) (hn : next < 2147483648)
    (e : Instr Expr IM) (vs xs : List Int) (hv : OperandValues m env (operands e) vs)
    (h : fields next (kinds e.form) vs = some xs) :
    ∃ i, e.evalIn m env next = .ok i ∧ values i = xs ∧ i.form = e.form := by
  simp only [values_eq]
  have := evalFields_spec hn _ _ vs (shapes e) hv
  rw [h] at this
  exact evalFields_ok this

example : OperandValues .checked (fun _ => none) (operands (.Mov_d9 (.num 256) (.num 511))) [256, 511]
    ∧ fields 0 (kinds .Mov_d9) [256, 511] = none
    ∧ fields 0 (kinds .Mov_d9) [255, 511] = some [255, 511] := by
  refine ⟨?_, by decide, by decide⟩
  simp [operands, OperandValues, operandValue, Expr.eval, Expr.num]

/-- C07: an assembled short branch at address `p` lands on the value of its last operand. -/
theorem C07_short_branch_lands (m : Mode) (env : Env) (p : Nat) (e : Instr Expr IM)
    (i : Instr Int Nat) (hp : p + e.size < 2147483648) (hk : (kinds e.form).getLast? = some .r8)
    (h : e.evalIn m env (p + e.size) = .ok i) :
    ∃ x v, (operands e).getLast? = some (.inl x) ∧ x.eval m env = .ok v ∧
      shortTarget (p + e.size) i.encode = some v := by
  obtain ⟨hf, vs, h1, h2⟩ := evalIn_fields hp h
  obtain ⟨v, x, e1, e2, e3⟩ := fields_getLast h2 hk
  obtain ⟨o, e4, e5⟩ := values_getLast h1 e1
  simp only [Kind.field] at e3
  split at e3 <;> rename_i hr
  · simp only [Option.some.injEq] at e3
    cases o with
    | inr r =>
      exfalso
      revert e4 hk
      cases e <;> simp [operands, kinds, row, Instr.form]
    | inl x' =>
      refine ⟨x', v, e4, e5, ?_⟩
      obtain ⟨b, hb, hb'⟩ := encode_getLast (i := i) (by rw [hf]; exact hk) e2
      unfold shortTarget
      rw [hb, Option.map_some, r8_value (by omega) hb', ← e3]
      congr 1
      omega
  · cases e3

/-- C07: given that the other operands fit, a short branch is accepted exactly if the target is a
16-bit address at distance -128..127 from the following instruction. -/
theorem C07_short_branch_accepted (m : Mode) (env : Env) (p : Nat) (e : Instr Expr IM)
    (hp : p + e.size < 2147483648) (ks : List Kind) (hk : kinds e.form = ks ++ [.r8])
    (vs : List Int) (v : Int) (hv : OperandValues m env (operands e) (vs ++ [v]))
    (hl : ks.length = vs.length) :
    (∃ i, e.evalIn m env (p + e.size) = .ok i) ↔
      holdsAll ks vs ∧ (0 ≤ v ∧ v ≤ 65535) ∧ -128 ≤ v - ((p + e.size : Nat) : Int)
        ∧ v - ((p + e.size : Nat) : Int) ≤ 127 := by
  have hs := evalFields_spec hp _ _ _ (shapes e) hv
  have hin := r8_init _ _ hk
  rw [hk, fields_snoc hl] at hs
  constructor
  · rintro ⟨i, hi⟩
    have hi := (evalIn_ok hi).1
    rw [hk] at hi
    split at hs
    · rename_i xs hxs
      split at hxs
      · rename_i a b h1 h2
        refine ⟨holds_of_fields hin h1, ?_⟩
        simp only [Kind.field] at h2
        split at h2 <;> rename_i hr
        · omega
        · cases h2
      · cases hxs
    · obtain ⟨er, he, -⟩ := hs
      rw [he] at hi; cases hi
  · rintro ⟨h1, h2, h3, h4⟩
    rw [fields_of_holds hin h1] at hs
    have : Kind.field .r8 (p + e.size) v = some (v - ((p + e.size : Nat) : Int)) := by
      simp only [Kind.field]
      rw [if_pos]
      omega
    rw [this] at hs
    rw [← hk] at hs
    obtain ⟨i, hi, -⟩ := evalFields_ok hs
    exact ⟨i, hi⟩

example : (kinds .Bn).getLast? = some .r8 ∧ kinds .Dbnz_d9 = [.d9] ++ [.r8] := by decide
example : (Instr.Bn (.num 0x14c) (.num 0) (.num 0x180) : Instr Expr IM).evalIn .checked (fun _ => none) (0x1ff + 3)
    = .err (.signedNumOutOfRange 8 (-130)) := by decide +kernel
example : (Instr.Bn (.num 0x14c) (.num 0) (.num 0x182) : Instr Expr IM).evalIn .checked (fun _ => none) (0x1ff + 3)
    = .ok (.Bn 0x14c 0 (-128)) := by decide +kernel

/-- C08: an assembled `brf` or `callr` at address `p` lands on its operand's value. -/
theorem C08_long_branch_lands (m : Mode) (env : Env) (p : Nat) (e : Instr Expr IM) (x : Expr)
    (i : Instr Int Nat) (he : e = .Brf x ∨ e = .Callr x) (hp : p + e.size < 2147483648)
    (h : e.evalIn m env (p + e.size) = .ok i) :
    ∃ v, x.eval m env = .ok v ∧ longTarget (p + e.size) i.encode = some v := by
  obtain ⟨hf, vs, h1, h2⟩ := evalIn_fields hp h
  have ho : operands e = [.inl x] := by rcases he with rfl | rfl <;> rfl
  have hk : kinds e.form = [.r16] := by rcases he with rfl | rfl <;> rfl
  rw [ho] at h1
  obtain ⟨v, rfl, hv⟩ := single_value h1
  rw [hk] at h2
  obtain ⟨y, hy, hfld⟩ := fields_single h2
  refine ⟨v, hv, ?_⟩
  simp only [Kind.field] at hfld
  split at hfld <;> rename_i hr
  · simp only [Option.some.injEq] at hfld
    have henc : ∃ b0, i.encode = [b0, Derive.encodeByte (operandEnv [y]) [.ref 'a' 7 0],
        Derive.encodeByte (operandEnv [y]) [.ref 'a' 15 8]] := by
      rw [encode_eq, hy, hf]
      rcases he with rfl | rfl <;> exact ⟨_, rfl⟩
    obtain ⟨b0, henc⟩ := henc
    rw [henc]
    simp only [longTarget, encodeByte_low, encodeByte_high]
    have ha : operandEnv [y] 'a' = toU32 y := rfl
    rw [ha]
    have hm := toU32_mod y
    congr 1
    generalize toU32 y = u at *
    omega
  · cases hfld

/-- C08: `brf`/`callr` are accepted exactly if the target is a 16-bit address whose distance from
the CPU's base (next instruction minus one) is a signed 16-bit number. -/
theorem C08_long_branch_accepted (m : Mode) (env : Env) (p : Nat) (e : Instr Expr IM) (x : Expr)
    (he : e = .Brf x ∨ e = .Callr x) (hp : p + e.size < 2147483648) (v : Int)
    (hv : x.eval m env = .ok v) :
    (∃ i, e.evalIn m env (p + e.size) = .ok i) ↔
      (0 ≤ v ∧ v ≤ 65535) ∧ -32768 ≤ v - (((p + e.size : Nat) : Int) - 1)
        ∧ v - (((p + e.size : Nat) : Int) - 1) ≤ 32767 := by
  have ho : operands e = [.inl x] := by rcases he with rfl | rfl <;> rfl
  have hk : kinds e.form = [.r16] := by rcases he with rfl | rfl <;> rfl
  have hvs : OperandValues m env (operands e) [v] := by rw [ho]; exact ⟨hv, trivial⟩
  constructor
  · rintro ⟨i, hi⟩
    obtain ⟨-, vs, h1, h2⟩ := evalIn_fields hp hi
    rw [ho] at h1
    obtain ⟨v', rfl, hv'⟩ := single_value h1
    obtain rfl : v = v' := by rw [hv] at hv'; exact Res.ok.inj hv'
    rw [hk] at h2
    obtain ⟨y, -, hfld⟩ := fields_single h2
    simp only [Kind.field] at hfld
    split at hfld <;> rename_i hr
    · omega
    · cases hfld
  · rintro ⟨h1, h2, h3⟩
    have hs := C06_in_range m env (p + e.size) hp e [v] [v - (((p + e.size : Nat) : Int) - 1)] hvs (by
      rw [hk]
      simp only [fields, Kind.field]
      rw [if_pos (by omega)])
    obtain ⟨i, hi, -⟩ := hs
    exact ⟨i, hi⟩

example : (Instr.Brf (.num 0x1234) : Instr Expr IM).evalIn .checked (fun _ => none) (0xF0 + 3)
    = .ok (.Brf 0x1142) := by decide +kernel
example : (Instr.Callr (.num 0x10) : Instr Expr IM).evalIn .checked (fun _ => none) (0x900E + 3)
    = .err (.signedNumOutOfRange 16 (-36864)) := by decide +kernel

/-- C09: an assembled `jmp` or `call` at address `p` lands on its operand's value. -/
theorem C09_page_jump_lands (m : Mode) (env : Env) (p : Nat) (e : Instr Expr IM) (x : Expr)
    (i : Instr Int Nat) (he : e = .Jmp x ∨ e = .Call x) (hp : p + e.size < 2147483648)
    (h : e.evalIn m env (p + e.size) = .ok i) :
    ∃ v, x.eval m env = .ok v ∧ pageTarget (p + e.size) i.encode = some v := by
  obtain ⟨hf, vs, h1, h2⟩ := evalIn_fields hp h
  have ho : operands e = [.inl x] := by rcases he with rfl | rfl <;> rfl
  have hk : kinds e.form = [.a12] := by rcases he with rfl | rfl <;> rfl
  rw [ho] at h1
  obtain ⟨v, rfl, hv⟩ := single_value h1
  rw [hk] at h2
  obtain ⟨y, hy, hfld⟩ := fields_single h2
  refine ⟨v, hv, ?_⟩
  simp only [Kind.field] at hfld
  split at hfld <;> rename_i hr
  · simp only [Option.some.injEq] at hfld
    obtain ⟨b0, b1, hb, hsum⟩ := page_extract y e.form (by rcases he with rfl | rfl <;> simp [Instr.form])
    rw [encode_eq, hy, hf, hb]
    simp only [pageTarget, hsum, Option.some.injEq]
    have : (toU32 y : Int) = y := toU32_of_nonneg (by omega)
    omega
  · cases hfld

/-- C09: `jmp`/`call` are accepted exactly if the target is a 16-bit address in the 4 KiB page of the
following instruction (the program counter has 16 bits). -/
theorem C09_page_jump_accepted (m : Mode) (env : Env) (p : Nat) (e : Instr Expr IM) (x : Expr)
    (he : e = .Jmp x ∨ e = .Call x) (hp : p + e.size < 2147483648) (v : Int)
    (hv : x.eval m env = .ok v) :
    (∃ i, e.evalIn m env (p + e.size) = .ok i) ↔
      (0 ≤ v ∧ v ≤ 65535) ∧ v / 4096 = ((p + e.size : Nat) : Int) % 65536 / 4096 := by
  have ho : operands e = [.inl x] := by rcases he with rfl | rfl <;> rfl
  have hk : kinds e.form = [.a12] := by rcases he with rfl | rfl <;> rfl
  have hvs : OperandValues m env (operands e) [v] := by rw [ho]; exact ⟨hv, trivial⟩
  constructor
  · rintro ⟨i, hi⟩
    obtain ⟨-, vs, h1, h2⟩ := evalIn_fields hp hi
    rw [ho] at h1
    obtain ⟨v', rfl, hv'⟩ := single_value h1
    obtain rfl : v = v' := by rw [hv] at hv'; exact Res.ok.inj hv'
    rw [hk] at h2
    obtain ⟨y, -, hfld⟩ := fields_single h2
    simp only [Kind.field] at hfld
    split at hfld <;> rename_i hr
    · omega
    · cases hfld
  · rintro ⟨h1, h2⟩
    have hs := C06_in_range m env (p + e.size) hp e [v] [v % 4096] hvs (by
      rw [hk]
      simp only [fields, Kind.field]
      rw [if_pos (by omega)])
    obtain ⟨i, hi, -⟩ := hs
    exact ⟨i, hi⟩

/-- `jmpf`/`callf` land on their operand, which must be a 16-bit address. -/
theorem C09_far_jump_lands (m : Mode) (env : Env) (next : Nat) (e : Instr Expr IM) (x : Expr)
    (i : Instr Int Nat) (he : e = .Jmpf x ∨ e = .Callf x) (hn : next < 2147483648)
    (h : e.evalIn m env next = .ok i) :
    ∃ v, x.eval m env = .ok v ∧ farTarget i.encode = some v := by
  obtain ⟨hf, vs, h1, h2⟩ := evalIn_fields hn h
  have ho : operands e = [.inl x] := by rcases he with rfl | rfl <;> rfl
  have hk : kinds e.form = [.a16] := by rcases he with rfl | rfl <;> rfl
  rw [ho] at h1
  obtain ⟨v, rfl, hv⟩ := single_value h1
  rw [hk] at h2
  obtain ⟨y, hy, hfld⟩ := fields_single h2
  refine ⟨v, hv, ?_⟩
  simp only [Kind.field] at hfld
  split at hfld <;> rename_i hr
  · simp only [Option.some.injEq] at hfld
    have henc : ∃ b0, i.encode = [b0, Derive.encodeByte (operandEnv [y]) [.ref 'a' 15 8],
        Derive.encodeByte (operandEnv [y]) [.ref 'a' 7 0]] := by
      rw [encode_eq, hy, hf]
      rcases he with rfl | rfl <;> exact ⟨_, rfl⟩
    obtain ⟨b0, henc⟩ := henc
    rw [henc]
    simp only [farTarget, encodeByte_low, encodeByte_high]
    have ha : operandEnv [y] 'a' = toU32 y := rfl
    rw [ha]
    have hm : (toU32 y : Int) = y := toU32_of_nonneg (by omega)
    congr 1
    omega
  · cases hfld

example : (Instr.Jmp (.num 0x2FFF) : Instr Expr IM).evalIn .checked (fun _ => none) (0x1FFE + 2)
    = .ok (.Jmp 0xFFF) := by decide +kernel
example : (Instr.Jmp (.num 0x1FFF) : Instr Expr IM).evalIn .checked (fun _ => none) (0x1FFE + 2)
    = .err (.addrBitsDontMatch 0x2000 0x1FFF) := by decide +kernel

end Verif.Props
