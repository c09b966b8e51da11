import Verif.Lemmas.Recase
import Verif.Model.Parser
/-
C20: the case of letters outside strings does not matter.  `Recased` is in Spec/Lexing.lean.
-/
namespace Verif.Props
open Verif.Spec

/-- **C20**: changing the case of letters outside strings changes neither the tokens, nor their places, nor an error
of the lexer, so nothing that is made from them. -/
theorem C20_tokens {seg : Seg} {file : Nat} {t t' : Text} (hp : Plain seg t) (hp' : Plain seg t')
    (h : Recased [] t t') : lexInput seg (Input.new file t') = lexInput seg (Input.new file t) :=
  recased_lexInput hp hp' h

/-- **C20**: in a source text without strings the case of all letters can be changed. -/
theorem C20_no_strings {seg : Seg} (hs : AsciiSeg seg) {file : Nat} {t t' : Text} (ha : ∀ c ∈ t, c.toNat < 128)
    (hq : '"' ∉ t) (h : lower t = lower t') : lexInput seg (Input.new file t') = lexInput seg (Input.new file t) := by
  refine recased_lexInput (plain_of_ascii hs ha) (plain_of_ascii hs ?_) (recased_of_lower hq h)
  have k : ∀ n < 26, (Char.ofNat (65 + n)).toNat < 128 ∧ (Char.ofNat (97 + n)).toNat < 128 := by decide +kernel
  clear hq
  induction t generalizing t' with
  | nil => rw [lower_nil h]; simp
  | cons c t ih =>
    obtain ⟨d, u, rfl, h1, h2⟩ := lower_cons h
    intro x hx
    rcases List.mem_cons.mp hx with rfl | hx
    · exact (caseInd (fun c => c.toNat < 128) (fun n hn => by simp only [(k n hn).1, (k n hn).2]) h1).mp (ha c (by simp))
    · exact ih (fun y hy => ha y (by simp [hy])) h2 x hx

/-- `Start: MOV #$aB, @r1 ; x` and `start: mov #$Ab, @R1 ; X`, and a hexadecimal prefix. -/
example : lower "Start: MOV #$aB, @r1 ; x\n .BYTE 0XfF".toList = lower "start: mov #$Ab, @R1 ; X\n .byte 0xFf".toList ∧
    '"' ∉ "Start: MOV #$aB, @r1 ; x\n .BYTE 0XfF".toList ∧
    (match lexInput plainSeg (Input.new 0 "Start: MOV #$aB, @r1 ; x\n .BYTE 0XfF".toList) with
      | .ok toks => tokKinds toks
      | _ => []) = [.name "start".toList, .colon, .name "mov".toList, .hash, .number 0xAB .hex, .comma, .r1,
        .name ".byte".toList, .number 255 .hex, .eof] := by decide +kernel

/-- Inside strings case matters. -/
example : lexInput plainSeg (Input.new 0 "\"a\"".toList) ≠ lexInput plainSeg (Input.new 0 "\"A\"".toList) := by
  decide +kernel

end Verif.Props
