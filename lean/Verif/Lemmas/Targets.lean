import Verif.Lemmas.DocBits
/-
Helper lemmas: encoded branch fields as the CPU reads them.
-/
namespace Verif
open Derive Spec

def lastName : Nat → Char
  | 1 => 'a'
  | 2 => 'b'
  | _ => 'c'

theorem operandEnv_last {vals : List Int} {v : Int} (h : vals.getLast? = some v) (hl : vals.length ≤ 3) :
    operandEnv vals (lastName vals.length) = toU32 v := by
  match vals, h with
  | [a], h => simp only [List.getLast?_singleton, Option.some.injEq] at h; subst h; rfl
  | [a, b], h => simp at h; subst h; rfl
  | [a, b, c], h => simp at h; subst h; rfl
  | _ :: _ :: _ :: _ :: _, _ => simp at hl

theorem r8_last (f : Form) (h : (kinds f).getLast? = some .r8) :
    f.tbl.getLast? = some [.ref (lastName (kinds f).length) 7 0] := by
  have : Form.all.all (fun f => (kinds f).getLast? != some .r8 ||
      f.tbl.getLast? == some [.ref (lastName (kinds f).length) 7 0]) = true := by decide +kernel
  have := List.all_eq_true.mp this f f.mem_all
  rw [h] at this
  simpa using this

theorem encodeByte_low (env : Char → Nat) (n : Char) :
    (encodeByte env [.ref n 7 0]).toNat = env n % 256 := by
  have h : byteTokens env 8 [.ref n 7 0] = [(255 &&& env n) % 256] := rfl
  unfold encodeByte
  rw [h]
  simp only [List.foldl_cons, List.foldl_nil, Nat.zero_or, UInt8.toNat_ofNat']
  have e : (255 : Nat) = 2 ^ 8 - 1 := rfl
  have e2 : (256 : Nat) = 2 ^ 8 := rfl
  rw [Nat.and_comm, e, Nat.and_two_pow_sub_one_eq_mod, e2, Nat.mod_mod, Nat.mod_mod]

theorem encodeByte_high (env : Char → Nat) (n : Char) :
    (encodeByte env [.ref n 15 8]).toNat = env n / 256 % 256 := by
  have h : byteTokens env 8 [.ref n 15 8] = [((65280 &&& env n) >>> 8) % 256] := rfl
  unfold encodeByte
  rw [h]
  simp only [List.foldl_cons, List.foldl_nil, Nat.zero_or, UInt8.toNat_ofNat']
  have e : (65280 : Nat) >>> 8 = 2 ^ 8 - 1 := rfl
  have e2 : (256 : Nat) = 2 ^ 8 := rfl
  rw [Nat.shiftRight_and_distrib, e, Nat.and_comm, Nat.and_two_pow_sub_one_eq_mod, e2, Nat.mod_mod,
    Nat.mod_mod, Nat.shiftRight_eq_div_pow]

theorem encode_getLast {i : Instr Int Nat} (h : (kinds i.form).getLast? = some .r8) {v : Int}
    (hv : i.vals.getLast? = some v) :
    ∃ b, i.encode.getLast? = some b ∧ b.toNat = toU32 v % 256 := by
  rw [encode_eq, encodeRanges, List.getLast?_map, r8_last _ h]
  refine ⟨_, rfl, ?_⟩
  rw [encodeByte_low, ← vals_length, operandEnv_last hv]
  rw [vals_length, ← i.form.fields_len]; exact i.form.fields_le

/-- The value of the last operand and its field. -/
theorem fields_getLast {next : Nat} : ∀ {ks : List Kind} {vs xs : List Int} {k : Kind},
    fields next ks vs = some xs → ks.getLast? = some k →
    ∃ v x, vs.getLast? = some v ∧ xs.getLast? = some x ∧ k.field next v = some x
  | [], _, _, _, _, h => by simp at h
  | [k], [], xs, k', h, hk => by simp [fields] at h
  | [k], [v], xs, k', h, hk => by
    simp only [List.getLast?_singleton, Option.some.injEq] at hk
    subst hk
    unfold fields at h
    split at h
    · rename_i x ys h1 h2
      simp only [fields, Option.some.injEq] at h h2
      subst h h2
      exact ⟨v, x, rfl, rfl, h1⟩
    · cases h
  | [k], v :: w :: vs, xs, k', h, hk => by
    unfold fields at h
    split at h
    · rename_i h1 h2; simp [fields] at h2
    · cases h
  | k :: k2 :: ks, [], xs, k', h, hk => by simp [fields] at h
  | k :: k2 :: ks, [v], xs, k', h, hk => by
    unfold fields at h
    split at h
    · rename_i h1 h2; simp [fields] at h2
    · cases h
  | k :: k2 :: ks, v :: w :: vs, xs, k', h, hk => by
    unfold fields at h
    split at h
    · rename_i x ys h1 h2
      simp only [Option.some.injEq] at h
      subst h
      rw [List.getLast?_cons_cons] at hk
      obtain ⟨v', x', e1, e2, e3⟩ := fields_getLast h2 hk
      refine ⟨v', x', by rw [List.getLast?_cons_cons]; exact e1, ?_, e3⟩
      cases ys with
      | nil => simp at e2
      | cons y ys => rw [List.getLast?_cons_cons]; exact e2
    · cases h

theorem values_getLast {m : Mode} {env : Env} : ∀ {os : List (Sum Expr IM)} {vs : List Int} {v : Int},
    OperandValues m env os vs → vs.getLast? = some v →
    ∃ o, os.getLast? = some o ∧ operandValue m env o = .ok v
  | [], [], _, _, h => by simp at h
  | [o], [v], v', h, hv => by
    simp only [List.getLast?_singleton, Option.some.injEq] at hv
    subst hv
    exact ⟨o, rfl, h.1⟩
  | o :: o2 :: os, v :: w :: vs, v', h, hv => by
    rw [List.getLast?_cons_cons] at hv
    rw [List.getLast?_cons_cons]
    exact values_getLast h.2 hv
  | [_], _ :: _ :: _, _, h, _ => h.2.elim
  | _ :: _ :: _, [_], _, h, _ => h.2.elim

theorem evalIn_fields {m : Mode} {env : Env} {next : Nat} (hn : next < 2147483648)
    {e : Instr Expr IM} {i : Instr Int Nat} (h : e.evalIn m env next = .ok i) :
    i.form = e.form ∧ ∃ vs, OperandValues m env (operands e) vs ∧
      fields next (kinds e.form) vs = some i.vals := by
  obtain ⟨h1, h2⟩ := evalIn_ok h
  obtain ⟨vs, hvs⟩ := evalFields_values _ _ _ (shapes e) h1
  refine ⟨h2, vs, hvs, ?_⟩
  have := evalFields_spec hn _ _ vs (shapes e) hvs
  cases hf : fields next (kinds e.form) vs with
  | none =>
    rw [hf] at this
    obtain ⟨er, h3, -⟩ := this
    rw [h1] at h3; cases h3
  | some xs =>
    rw [hf] at this
    simp only [h1, Res.ok.injEq] at this
    rw [this]

theorem page_extract (v : Int) (f : Form) (hf : f = .Jmp ∨ f = .Call) :
    ∃ b0 b1, encodeRanges (operandEnv [v]) f.tbl = [b0, b1] ∧
      b0.toNat / 16 % 2 * 2048 + b0.toNat % 8 * 256 + b1.toNat = toU32 v % 4096 := by
  have hb : ∀ b : Nat, b < 256 → ((b &&& 16) >>> 4) <<< 11 ||| (b &&& 7) <<< 8
      = b / 16 % 2 * 2048 + b % 8 * 256 := by decide +kernel
  have key : ∀ b0 b1 : UInt8, extract f.tbl [b0, b1] 'a'
      = b0.toNat / 16 % 2 * 2048 + b0.toNat % 8 * 256 + b1.toNat := by
    intro b0 b1
    have h1 : extract f.tbl [b0, b1] 'a' =
        ((((b0.toNat &&& 16) >>> 4) <<< 11) ||| ((b0.toNat &&& 7) <<< 8)) ||| (b1.toNat &&& 255) := by
      have : extract f.tbl [b0, b1] 'a' =
        (((0 ||| (((b0.toNat &&& 16) >>> 4) <<< 11)) ||| (((b0.toNat &&& 7) >>> 0) <<< 8)) ||| (((b1.toNat &&& 255) >>> 0) <<< 0)) := by
        rcases hf with rfl | rfl <;> rfl
      rw [this, Nat.zero_or, Nat.shiftRight_zero, Nat.shiftRight_zero, Nat.shiftLeft_zero]
    have h0 := UInt8.toNat_lt b0
    have h2 := UInt8.toNat_lt b1
    have e255 : b1.toNat &&& 255 = b1.toNat := by
      have e : (255 : Nat) = 2 ^ 8 - 1 := rfl
      rw [e, Nat.and_two_pow_sub_one_eq_mod]; omega
    rw [h1, hb _ h0, e255]
    have e3 : b0.toNat / 16 % 2 * 2048 + b0.toNat % 8 * 256
        = 2 ^ 8 * (b0.toNat / 16 % 2 * 8 + b0.toNat % 8) := by omega
    rw [e3, ← Nat.two_pow_add_eq_or_of_lt (by omega)]
  have hw : ('a', 12) ∈ f.widths := by rcases hf with rfl | rfl <;> decide
  have hx := extract_encode f (operandEnv [v]) [] 'a' 12 hw (fun w' h => widths_unique hw h)
  rw [List.append_nil] at hx
  obtain ⟨b0, b1, he⟩ : ∃ b0 b1, encodeRanges (operandEnv [v]) f.tbl = [b0, b1] := by
    rcases hf with rfl | rfl <;> exact ⟨_, _, rfl⟩
  refine ⟨b0, b1, he, ?_⟩
  rw [he, key] at hx
  exact hx

end Verif
