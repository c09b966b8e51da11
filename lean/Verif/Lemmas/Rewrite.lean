import Verif.Lemmas.Sane
import Verif.Spec.Reread
/-
Programs that were read can be printed and read back, if they satisfy `Rewritable`.
-/
namespace Verif
open Spec

theorem Lits.natural : ∀ {e : Expr}, Lits e → Natural e
  | .number _ _, h => h.1
  | .plus _ _, h | .minus _ _, h | .times _ _, h | .divide _ _, h | .bxor _ _, h | .band _ _, h | .bor _ _, h =>
    ⟨natural h.1, natural h.2⟩
  | .uminus e, h | .upperByte e, h | .lowerByte e, h => natural (e := e) h
  | .name _, _ | .macroLabel _, _ | .macroArg _, _ => trivial

theorem printable_number {v : Int} {r : Radix} (h : 0 ≤ v ∧ v ≤ 2147483647) (ho : r ≠ .octal) : Printable (.number v r) := by
  cases r with
  | octal => exact absurd rfl ho
  | decimal => exact ⟨by omega, by omega⟩
  | hex => exact ⟨h.1, by omega⟩
  | binary => exact ⟨h.1, by omega⟩

theorem Lits.printable : ∀ {e : Expr}, Lits e → NoOctal e → Printable e
  | .number _ _, h, ho => printable_number h ho
  | .plus _ _, h, ho | .minus _ _, h, ho | .times _ _, h, ho | .divide _ _, h, ho | .bxor _ _, h, ho | .band _ _, h, ho
  | .bor _ _, h, ho => ⟨printable h.1 ho.1, printable h.2 ho.2⟩
  | .uminus e, h, ho | .upperByte e, h, ho | .lowerByte e, h, ho => printable (e := e) h ho
  | .name _, h, _ => h.1
  | .macroLabel _, ⟨w, h, e⟩, _ | .macroArg _, ⟨w, h, e⟩, _ => ⟨w, h.1, e⟩

theorem lower_mark {n : Text} (h : SaneMark n) : lower n = n := by
  obtain ⟨w, h, rfl⟩ := h
  simp only [lower, List.map_append]
  rw [show w.map Char.toLower = w from h.2]
  rfl

theorem lower_param {n : Text} (h : SaneParam n) : lower n = n := by
  obtain ⟨w, h, rfl⟩ := h
  simp only [lower, List.map_cons]
  rw [show w.map Char.toLower = w from h.2]
  rfl

theorem Lits.lowered : ∀ {e : Expr}, Lits e → lowerExpr e = e
  | .number _ _, _ => rfl
  | .plus _ _, h | .minus _ _, h | .times _ _, h | .divide _ _, h | .bxor _ _, h | .band _ _, h | .bor _ _, h => by
    rw [lowerExpr, lowered h.1, lowered h.2]
  | .uminus e, h | .upperByte e, h | .lowerByte e, h => by rw [lowerExpr, lowered (e := e) h]
  | .name _, h => by rw [lowerExpr, h.2]
  | .macroLabel _, h => by rw [lowerExpr, lower_mark h]
  | .macroArg _, h => by rw [lowerExpr, lower_param h]

theorem Lits.clean {e : Expr} (h : Lits e) (ho : NoOctal e) : Clean e := ⟨h.printable ho, h.natural⟩

theorem Lits.lower_names : ∀ {e : Expr}, Lits e → ∀ n ∈ namesIn e, lower n = n
  | .number _ _, _, _, hn => by cases hn
  | .plus _ _, h, n, hn | .minus _ _, h, n, hn | .times _ _, h, n, hn | .divide _ _, h, n, hn | .bxor _ _, h, n, hn
  | .band _ _, h, n, hn | .bor _ _, h, n, hn => by
    rcases List.mem_append.mp hn with hn | hn
    · exact lower_names h.1 n hn
    · exact lower_names h.2 n hn
  | .uminus e, h, n, hn | .upperByte e, h, n, hn | .lowerByte e, h, n, hn => lower_names (e := e) h n hn
  | .name _, h, n, hn => by rw [namesIn, List.mem_singleton] at hn; exact hn ▸ h.2
  | .macroLabel _, h, n, hn => by rw [namesIn, List.mem_singleton] at hn; exact hn ▸ lower_mark h
  | .macroArg _, h, n, hn => by rw [namesIn, List.mem_singleton] at hn; exact hn ▸ lower_param h

theorem DataLits.clean {e : Expr} (h : DataLits e) (ho : NoOctal e) (hn : Natural e) : Clean e := by
  rcases h with h | ⟨v, r, rfl, h⟩
  · exact h.clean ho
  · exact ⟨printable_number ⟨hn, h.2⟩ ho, hn⟩

theorem DataLits.lowered {e : Expr} (h : DataLits e) : lowerExpr e = e := by
  rcases h with h | ⟨v, r, rfl, h⟩
  · exact h.lowered
  · rfl

theorem mem_exprs_instr {i : Instr Expr IM} {e : Expr} (h : .inl e ∈ operands i) : e ∈ exprsOf (.instr i) :=
  List.mem_filterMap.mpr ⟨_, h, rfl⟩

theorem mem_exprs_byte {vs : List ByteValue} {e : Expr} (h : .expr e ∈ vs) : e ∈ exprsOf (.dir (.byte vs)) :=
  List.mem_filterMap.mpr ⟨_, h, rfl⟩

theorem SaneStmt.clean {s : Stmt} (h : SaneStmt s) (hr : Rewritable s) : CleanStmt s := by
  cases hr with
  | blank hb => exact .blank hb
  | comment h1 h2 => exact .comment h1 h2
  | label hn => exact .label h.1 (by rw [show lower _ = _ from h.2]; exact hn)
  | instr hi =>
    refine .instr fun e he => ?_
    obtain ⟨h1, h2, h3⟩ := hi e he
    have hl : Lits e := h e (mem_exprs_instr he)
    exact ⟨hl.clean h1, h2, fun n hn => by rw [hl.lower_names n hn]; exact fun e => h3 (e ▸ hn)⟩
  | byte h1 h2 =>
    refine .byte h1 fun v hv => ?_
    rcases h2 v hv with ⟨e, rfl, h3, h4⟩ | ⟨s, rfl, h3⟩
    · exact .expr (DataLits.clean (h e (mem_exprs_byte hv)) h3 h4)
    · exact .str h3
  | word h1 h2 => exact .word h1 fun e he => DataLits.clean (h e he) (h2 e he).1 (h2 e he).2
  | org => exact .org h
  | cnop h1 h2 => exact .cnop (h.1.clean h1) (h.2.clean h2)
  | «variable» h1 => exact .variable h.1.1 (by rw [show lower _ = _ from h.1.2]; exact h.2.1) (h.2.2.clean h1)
  | alias h1 => exact .alias h.1.1 (by rw [show lower _ = _ from h.1.2]; exact h.2.1) (h.2.2.clean h1)

theorem map_same {α : Type} {f : α → α} {l : List α} (h : ∀ a ∈ l, f a = a) : l.map f = l := by
  rw [List.map_congr_left (g := id) h, List.map_id]

theorem SaneStmt.lowers {s : Stmt} (h : SaneStmt s) (hr : Rewritable s) (ht : ∀ t, s ≠ .comment t) : Lowers s s := by
  cases hr with
  | blank _ => exact absurd rfl (ht _)
  | comment _ _ => exact absurd rfl (ht _)
  | @label n _ =>
    have := Lowers.label (n := n)
    rwa [show lower n = n from h.2] at this
  | instr hi =>
    refine .instr rfl (map_same fun o ho => ?_).symm
    cases o with
    | inl e => rw [lowerOperand, Lits.lowered (h e (mem_exprs_instr ho))]
    | inr r => rfl
  | @byte vs _ _ =>
    have := Lowers.byte (vs := vs)
    rwa [map_same fun v hv => by
      cases v with
      | expr e => rw [lowerItem, DataLits.lowered (h e (mem_exprs_byte hv))]
      | str b => rfl] at this
  | @word es _ _ =>
    have := Lowers.word (es := es)
    rwa [map_same (f := lowerExpr) (l := es) fun e he => DataLits.lowered (h e he)] at this
  | org => exact .org
  | @cnop a k _ _ =>
    have := Lowers.cnop (a := a) (k := k)
    rwa [h.1.lowered, h.2.lowered] at this
  | @«variable» n e _ =>
    have := Lowers.variable (n := n) (e := e)
    rwa [show lower n = n from h.1.2, h.2.2.lowered] at this
  | @alias n e _ =>
    have := Lowers.alias (n := n) (e := e)
    rwa [show lower n = n from h.1.2, h.2.2.lowered] at this

end Verif
