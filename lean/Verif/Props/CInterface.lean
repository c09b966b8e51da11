import Verif.Model.CInterface
import Verif.Lemmas.StringText
/-
C89: the C interface hands its arguments to the program as they are.
-/
namespace Verif.Spec

/-- At the address `p` there are the bytes `bs`, none of which is 0, and then a 0. -/
def CString (mem : Nat → UInt8) (p : Nat) (bs : List UInt8) : Prop :=
  (∀ i, (h : i < bs.length) → mem (p + i) = bs[i]) ∧ mem (p + bs.length) = 0 ∧ ∀ b ∈ bs, b ≠ 0

/-- The strings at the addresses, one for each. -/
inductive CStrings (mem : Nat → UInt8) : List Nat → List (List UInt8) → Prop where
  | nil : CStrings mem [] []
  | cons {p ps bs bss} : CString mem p bs → CStrings mem ps bss → CStrings mem (p :: ps) (bs :: bss)

end Verif.Spec

namespace Verif.Props
open Verif.Spec

theorem cBytes_string {mem : Nat → UInt8} : ∀ {bs : List UInt8} {p fuel : Nat}, CString mem p bs → bs.length < fuel →
    cBytes mem fuel p = .ok bs
  | _, _, 0, _, hf => absurd hf (Nat.not_lt_zero _)
  | [], p, fuel + 1, h, _ => by
    have := h.2.1
    simp only [List.length_nil, Nat.add_zero] at this
    rw [cBytes, if_pos this]
  | b :: bs, p, fuel + 1, ⟨h1, h2, h3⟩, hf => by
    have e : mem p = b := h1 0 (Nat.zero_lt_succ _)
    have hr : cBytes mem fuel (p + 1) = .ok bs := by
      refine cBytes_string ⟨fun i hi => ?_, ?_, fun c hc => h3 c (List.mem_cons_of_mem _ hc)⟩ (Nat.lt_of_succ_lt_succ hf)
      · rw [show p + 1 + i = p + (i + 1) by omega]
        exact h1 (i + 1) (Nat.succ_lt_succ hi)
      · rw [show p + 1 + bs.length = p + (bs.length + 1) by omega]
        exact h2
    rw [cBytes, if_neg (by rw [e]; exact h3 b List.mem_cons_self), hr, Res.ok_bind, e]

/-- **C89**: whatever strings the caller's array points to, in whatever order and with whatever overlap in memory: if all are UTF-8,
the program gets their texts, in order. -/
theorem C89_arguments {mem : Nat → UInt8} {ptrs : List Nat} {args : List Text} (h : CStrings mem ptrs (args.map utf8)) :
    ∃ n, ∀ fuel ≥ n, cArguments mem fuel ptrs = .ok args := by
  generalize hb : args.map utf8 = bss at h
  induction h generalizing args with
  | nil =>
    rw [List.map_eq_nil_iff] at hb
    subst hb
    exact ⟨0, fun _ _ => rfl⟩
  | @cons p ps bs bss h1 _ ih =>
    cases args with
    | nil => cases hb
    | cons a as =>
      obtain ⟨rfl, hb'⟩ := List.cons.inj hb
      obtain ⟨n, hn⟩ := ih hb'
      refine ⟨max n ((utf8 a).length + 1), fun fuel hf => ?_⟩
      rw [cArguments, cArgument, cBytes_string h1 (by omega), Res.ok_bind, decodeUtf8_iff.mpr rfl]
      simp only [Res.ok_bind]
      rw [hn fuel (by omega), Res.ok_bind]

/-- **C89**: if one of them is not UTF-8, the program crashes before anything is done. -/
theorem C89_invalid {mem : Nat → UInt8} {ptrs : List Nat} {bss : List (List UInt8)} (h : CStrings mem ptrs bss) :
    (∃ bs ∈ bss, ¬ ∃ t, utf8 t = bs) ↔ ∃ n, ∀ fuel ≥ n, cArguments mem fuel ptrs = .panic := by
  constructor
  · intro hx
    induction h with
    | nil => obtain ⟨_, hm, _⟩ := hx; cases hm
    | @cons p ps bs bss h1 _ ih =>
      by_cases hu : ∃ t, utf8 t = bs
      · obtain ⟨t, rfl⟩ := hu
        have : ∃ bs ∈ bss, ¬ ∃ t, utf8 t = bs := by
          obtain ⟨b, hm, hn⟩ := hx
          rcases List.mem_cons.mp hm with rfl | hm
          · exact absurd ⟨t, rfl⟩ hn
          · exact ⟨b, hm, hn⟩
        obtain ⟨n, hn⟩ := ih this
        refine ⟨max n ((utf8 t).length + 1), fun fuel hf => ?_⟩
        rw [cArguments, cArgument, cBytes_string h1 (by omega), Res.ok_bind, decodeUtf8_iff.mpr rfl]
        simp only [Res.ok_bind]
        rw [hn fuel (by omega)]
        rfl
      · refine ⟨bs.length + 1, fun fuel hf => ?_⟩
        have hd : decodeUtf8 bs = none := by
          cases e : decodeUtf8 bs with
          | none => rfl
          | some t => exact absurd ⟨t, decodeUtf8_iff.mp e⟩ hu
        rw [cArguments, cArgument, cBytes_string h1 (by omega), Res.ok_bind, hd]
        rfl
  · rintro ⟨n, hn⟩
    refine Classical.byContradiction fun hx => ?_
    obtain ⟨args, rfl⟩ : ∃ args : List Text, bss = args.map utf8 := by
      have : ∀ bs ∈ bss, ∃ t, utf8 t = bs := fun bs hm => Classical.byContradiction fun h => hx ⟨bs, hm, h⟩
      clear h hx
      induction bss with
      | nil => exact ⟨[], rfl⟩
      | cons bs bss ih =>
        obtain ⟨t, rfl⟩ := this bs List.mem_cons_self
        obtain ⟨as, rfl⟩ := ih fun b hb => this b (List.mem_cons_of_mem _ hb)
        exact ⟨t :: as, rfl⟩
    obtain ⟨k, hk⟩ := C89_arguments h
    have := hn (max n k) (Nat.le_max_left _ _)
    rw [hk (max n k) (Nat.le_max_right _ _)] at this
    cases this

/-- Memory with the arguments `waterbear` and `é`, and a string that is not UTF-8 -/
def exampleMemory : Nat → UInt8 := fun p => (utf8 "waterbear".toList ++ [0] ++ utf8 "é".toList ++ [0, 255, 0]).getD p 0

/-- The conditions of C89: two pointers to the same place, and one to the end of `waterbear` -/
example : CStrings exampleMemory [0, 5, 10, 0] (["waterbear".toList, "bear".toList, "é".toList, "waterbear".toList].map utf8) := by
  refine .cons ?_ (.cons ?_ (.cons ?_ (.cons ?_ .nil))) <;> (unfold CString; decide +kernel)

example : CStrings exampleMemory [0, 13] [utf8 "waterbear".toList, [255]] ∧ ¬ ∃ t, utf8 t = [255] := by
  refine ⟨.cons ?_ (.cons ?_ .nil), ?_⟩
  · unfold CString; decide +kernel
  · unfold CString; decide +kernel
  · rintro ⟨t, h⟩
    have := decodeUtf8_iff.mpr h
    rw [show decodeUtf8 [255] = none by decide +kernel] at this
    cases this

end Verif.Props
