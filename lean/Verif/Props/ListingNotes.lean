import Verif.Lemmas.ListingNotes
import Verif.Props.Disassembly
/-
C90: the comments in a disassembly.  The words used are in Spec/ListingNotes.lean; those for listings and for the flow of
control are in Spec/Disasm.lean.
-/
namespace Verif.Props
open Verif.Spec Verif.Spec.ListingNotes

/-- C90: with `--arrived-from`, the comment on the line of an instruction lists, in order, listed instructions from where
control can go there; all of them, except that jumps into another memory may be left out.  There is no comment if there are
none, or without the option. -/
theorem C90_arrived (flag : Bool) (entries : List Nat) (bytes : List UInt8) (out : List DStmt)
    (hlen : bytes.length < 2147483644) (h : disassemble flag entries bytes = .ok out) (d : DStmt) (hd : d ∈ out)
    (l : Instr Expr IM) (hl : d.stmt = .instr l) (p : Nat) (hp : d.pos = some p) :
    ∃ ps : List Nat, ps.Pairwise (· < ·) ∧ (∀ q ∈ ps, ComesFrom bytes out p q) ∧
      (∀ q, ComesFrom bytes out p q → ¬ LeavesMemory bytes out q → q ∈ ps) ∧
      d.comment = if flag = true ∧ ps ≠ [] then some ("Arrived from: ".toList ++ positionsText ps) else none := by
  obtain ⟨g, body, h1, rfl, h2⟩ := disassemble_ok h
  have ht := trace_ok h1
  have hj := trace_jumps h1
  have hli := listed_iff (size := bytes.length) ht.sound h2
  rcases List.mem_append.mp hd with hd | hd
  · have hE : ∀ e ∈ entries, e < bytes.length → g.contains e = true := fun e he hlt =>
      (ht.entries e he hlt).resolve_right (by simp)
    obtain ⟨lines, hg⟩ := grouped_mem body [] hd (by simp [standsForBytes, hl])
    rcases emits_groups h2 hE _ hg with ⟨p', i, l', w, hi, hx⟩ | ⟨q, w, hx⟩
    · cases hx
      cases hp
      have hpl := (ht.sound p i hi).1
      refine ⟨(List.range bytes.length).filter fun q => g.arrivedFrom p q, List.Pairwise.filter _ List.pairwise_lt_range, ?_, ?_, ?_⟩
      · intro q hq
        rw [List.mem_filter] at hq
        obtain ⟨j, g0, a, b⟩ := hj.sound q p (by simpa [Graph.arrivedFrom] using hq.2)
        have hq' := ht.sound q j a
        refine ⟨(hli q).mpr (by simp [Graph.contains, a]), j, hq', ?_⟩
        exact ((mem_targets (decode_inRange hq'.2) (flows_instr hq' hlen) (by omega)).mp b).1
      · rintro q ⟨hq, j, hqj, hf⟩ hm
        obtain ⟨j', hj'⟩ := Option.isSome_iff_exists.mp ((hli q).mp hq)
        have hjj : j' = j := by
          have := (ht.sound q j' hj').2
          rw [hqj.2] at this
          simp only [Res.ok.injEq, Option.some.injEq] at this
          exact this.symm
        subst hjj
        rw [List.mem_filter, List.mem_range]
        refine ⟨hqj.1, ?_⟩
        have := hj.complete q j' hj' p ((mem_targets (decode_inRange hqj.2) (flows_instr hqj hlen) (by omega)).mpr ⟨hf, ?_⟩)
        · simpa [Graph.arrivedFrom] using this
        · rintro ⟨e1, e2⟩
          obtain ⟨g1, g2, _⟩ := toFlash_iff.mp e2
          exact hm ⟨g1, (hli _).mpr (by simp [Graph.contains, g2]), j', _, ht.sound _ _ g2, hqj, rfl, e1⟩
      · simp only [arrivedComment, Bool.and_eq_true, Bool.not_eq_true', positionList_spec]
        generalize (List.range bytes.length).filter (fun q => g.arrivedFrom p q) = ps
        cases flag <;> cases ps <;> simp
    · cases hx; cases hl
  · exact absurd hl (epilogue_minor d hd l []).1

/-- C90: directly before the line of an instruction stand, apart from empty lines, the label and an `.org`: "Entry point"
exactly if it is one, and the list of the listed instructions that have a byte in common with it, if there are any.  Only
an instruction that starts two bytes before is never in that list. -/
theorem C90_remarks (flag : Bool) (entries : List Nat) (bytes : List UInt8) (out : List DStmt)
    (h : disassemble flag entries bytes = .ok out) (lines : List DStmt) (d : DStmt) (hg : (lines, d) ∈ grouped [] out)
    (l : Instr Expr IM) (hl : d.stmt = .instr l) (p : Nat) (hp : d.pos = some p) :
    ∃ ps : List Nat, ps.Pairwise (· < ·) ∧
      (∀ q, q ∈ ps ↔ ListedAt out q ∧ q ≠ p ∧ q + 2 ≠ p ∧ ShareByte bytes p q) ∧
      remarks lines = (if p ∈ entries then ["Entry point".toList] else []) ++
        (if ps = [] then [] else ["Overlaps with: ".toList ++ positionsText ps]) := by
  obtain ⟨g, body, h1, rfl, h2⟩ := disassemble_ok h
  have ht := trace_ok h1
  have hli := listed_iff (size := bytes.length) ht.sound h2
  have hE : ∀ e ∈ entries, e < bytes.length → g.contains e = true := fun e he hlt =>
    (ht.entries e he hlt).resolve_right (by simp)
  rw [grouped_end epilogue_minor] at hg
  rcases emits_groups h2 hE _ hg with ⟨p', i, l', w, hi, hx⟩ | ⟨q, w, hx⟩
  · cases hx
    cases hp
    have hpi := ht.sound p i hi
    refine ⟨g.overlaps p, overlaps_sorted, fun q => ?_, remarks_block⟩
    rw [mem_overlaps hi, hli q]
    have h3 : ∀ {j : Instr Int Nat}, j.size ≤ 3 := fun {j} => (C03_size j).2.2.1
    have hsame : ∀ {q : Nat} {i j : Instr Int Nat}, InstrAt bytes q i → InstrAt bytes q j → i = j := by
      intro q i j a b
      have := a.2
      rw [b.2] at this
      simp only [Res.ok.injEq, Option.some.injEq] at this
      exact this.symm
    constructor
    · rintro (⟨rfl, j, hj, h4⟩ | ⟨h4, h5, h6⟩)
      · exact ⟨by simp [Graph.contains, hj], by omega, by omega, i, j, q + 1, hpi, ht.sound _ _ hj, by omega,
          by have := size_pos i; omega, by omega, by omega⟩
      · obtain ⟨j, hj⟩ := Option.isSome_iff_exists.mp h6
        exact ⟨h6, by omega, by omega, i, j, q, hpi, ht.sound _ _ hj, by omega, h5, by omega,
          by have := size_pos j; omega⟩
    · rintro ⟨h4, h5, h6, i', j', k, a1, a2, a3, a4, a5, a6⟩
      obtain ⟨j, hj⟩ := Option.isSome_iff_exists.mp h4
      cases hsame a1 hpi
      cases hsame a2 (ht.sound _ _ hj)
      have := @h3 j'
      by_cases hq : q < p
      · exact .inl ⟨by omega, j', hj, by omega⟩
      · exact .inr ⟨by omega, by omega, h4⟩
  · cases hx; cases hl

/-- C90: every instruction listed is in one of these groups, and so is every entry point in the binary. -/
theorem C90_entries (flag : Bool) (entries : List Nat) (bytes : List UInt8) (out : List DStmt)
    (h : disassemble flag entries bytes = .ok out) :
    (∀ p, ListedAt out p → ∃ lines d l, (lines, d) ∈ grouped [] out ∧ d.pos = some p ∧ d.stmt = .instr l) ∧
    ∀ e ∈ entries, e < bytes.length → ∃ lines d l, (lines, d) ∈ grouped [] out ∧ d.pos = some e ∧ d.stmt = .instr l ∧
      "Entry point".toList ∈ remarks lines := by
  have h0 : ∀ p, ListedAt out p → ∃ lines d l, (lines, d) ∈ grouped [] out ∧ d.pos = some p ∧ d.stmt = .instr l := by
    rintro p ⟨d, hd, hp, l, hl⟩
    obtain ⟨lines, hg⟩ := grouped_mem out [] hd (by simp [standsForBytes, hl])
    exact ⟨lines, d, l, hg, hp, hl⟩
  refine ⟨h0, fun e he hlt => ?_⟩
  have hle : ListedAt out e := by
    obtain ⟨g, body, h1, rfl, h2⟩ := disassemble_ok h
    have ht := trace_ok h1
    exact (listed_iff ht.sound h2 e).mpr ((ht.entries e he hlt).resolve_right (by simp))
  obtain ⟨lines, d, l, hg, hp, hl⟩ := h0 e hle
  obtain ⟨ps, _, _, hr⟩ := C90_remarks flag entries bytes out h lines d hg l hl e hp
  exact ⟨lines, d, l, hg, hp, hl, by rw [hr, if_pos he]; exact List.mem_append_left _ (.head _)⟩

/-- C90: the comment on a `.byte` line shows its bytes as text, and is there exactly if one of them can be printed; no other
comment stands before it. -/
theorem C90_data (flag : Bool) (entries : List Nat) (bytes : List UInt8) (out : List DStmt)
    (h : disassemble flag entries bytes = .ok out) (lines : List DStmt) (d : DStmt) (hg : (lines, d) ∈ grouped [] out)
    (vs : List ByteValue) (hv : d.stmt = .dir (.byte vs)) :
    ∃ bs : List UInt8, vs = bs.map (fun b => .expr (.number b.toNat .hex)) ∧ remarks lines = [] ∧
      ((∃ b ∈ bs, PrintableByte b) → ∃ t, d.comment = some t ∧ ShownText bs t) ∧
      ((∀ b ∈ bs, ¬ PrintableByte b) → d.comment = none) := by
  obtain ⟨g, body, h1, rfl, h2⟩ := disassemble_ok h
  have ht := trace_ok h1
  have hE : ∀ e ∈ entries, e < bytes.length → g.contains e = true := fun e he hlt =>
    (ht.entries e he hlt).resolve_right (by simp)
  rw [grouped_end epilogue_minor] at hg
  rcases emits_groups h2 hE _ hg with ⟨p', i, l', w, hi, hx⟩ | ⟨q, w, hx⟩
  · cases hx; cases hv
  · cases hx
    simp only [DStmt.bytes, Stmt.dir.injEq, Directive.byte.injEq] at hv
    refine ⟨chunkAt bytes g q, hv.symm, remarks_data, ?_, ?_⟩
    · rintro ⟨b, hb, hp⟩
      refine ⟨_, ?_, bytes_shown _⟩
      simp only [DStmt.bytes]
      rw [if_pos]
      simp only [List.any_eq_true, decide_eq_true_eq]
      exact ⟨b, hb, printable_iff.mpr hp⟩
    · intro hn
      simp only [DStmt.bytes]
      rw [if_neg]
      simp only [List.any_eq_true, decide_eq_true_eq]
      rintro ⟨b, hb, hp⟩
      exact hn b hb (printable_iff.mp hp)

/-- C90: the text of a listing consists of its lines, in order, with their positions, if wanted, and comments. -/
theorem C90_text (withPositions : Bool) : ∀ (out : List DStmt) (text : Text), printListing withPositions out = .ok text →
    ∃ ls : List Text, text = ls.flatten ∧ ls.length = out.length ∧
      ∀ (k : Nat) (d : DStmt) (line : Text), out[k]? = some d → ls[k]? = some line → ListingLine withPositions d line := by
  intro out
  induction out with
  | nil =>
    intro text h
    simp only [printListing, Res.ok.injEq] at h
    exact ⟨[], by simp [← h], rfl, by simp⟩
  | cons d ds ih =>
    intro text h
    obtain ⟨t, h1, h⟩ := Res.bind_eq_ok.mp h
    obtain ⟨ts, h2, h⟩ := Res.bind_eq_ok.mp h
    simp only [Res.ok.injEq] at h
    obtain ⟨ls, a1, a2, a3⟩ := ih ts h2
    refine ⟨t :: ls, by simp [← h, a1], by simp [a2], fun k e line hk hl => ?_⟩
    cases k with
    | zero =>
      simp only [List.getElem?_cons_zero, Option.some.injEq] at hk hl
      subst hk hl
      exact line_text h1
    | succ k =>
      rw [List.getElem?_cons_succ] at hk hl
      exact a3 k e line hk hl

/-- The listing of a branch into its own last byte: the instruction at 2 has a byte in common with both others. -/
theorem overlap_listing : disassemble true [0] [0x41, 0x05, 0xFF, 0xA0] = .ok
    ([⟨none, .comment [], none⟩, ⟨none, .comment "Entry point".toList, none⟩, ⟨some 0, .dir (.org 0), none⟩,
      ⟨none, .comment "Overlaps with: 0002".toList, none⟩,
      ⟨some 0, .instr (.Bne_i8 (.num 5) (.name "label_0002".toList)), none⟩,
      ⟨none, .label "label_0002".toList, none⟩,
      ⟨none, .comment "Overlaps with: 0003".toList, none⟩,
      ⟨some 2, .instr (.Set1 (.name "xram_01a0".toList) (.num 7)), some "Arrived from: 0000".toList⟩,
      ⟨none, .comment "Overlaps with: 0002".toList, none⟩,
      ⟨some 3, .instr .Ret, some "Arrived from: 0000".toList⟩] ++
      epilogue 4 ⟨[], pswBits, aliases⟩) :=
  listing_parts (by decide +kernel)

/-- C90: so an instruction two bytes before is left out of the list although it has a byte in common: the comment at 2 does
not name 0, while the one at 0 names 2. -/
theorem C90_left_out : ∃ out, disassemble true [0] [0x41, 0x05, 0xFF, 0xA0] = .ok out ∧
    ListedAt out 0 ∧ ListedAt out 2 ∧ ShareByte [0x41, 0x05, 0xFF, 0xA0] 2 0 ∧
    ∃ lines d, (lines, d) ∈ grouped [] out ∧ d.pos = some 2 ∧ remarks lines = ["Overlaps with: 0003".toList] := by
  refine ⟨_, overlap_listing, ⟨_, List.mem_append_left _ (.tail _ (.tail _ (.tail _ (.tail _ (.head _))))), rfl, _, rfl⟩,
    ⟨_, List.mem_append_left _ (.tail _ (.tail _ (.tail _ (.tail _ (.tail _ (.tail _ (.tail _ (.head _)))))))), rfl, _, rfl⟩,
    ⟨.Set1 0x1A0 7, .Bne_i8 5 (-1), 2, ⟨by decide, by decide +kernel⟩, ⟨by decide, by decide +kernel⟩, by decide, by decide,
      by decide, by decide⟩, ?_⟩
  rw [grouped_end epilogue_minor]
  exact ⟨_, _, .tail _ (.head _), rfl, rfl⟩

/-- A listing with comments where control comes from, and with a `.byte` line -/
example : ∃ out, disassemble true [0] [0x80, 0x00, 0xA0, 0x41, 0x00, 0x42] = .ok out ∧
    (∃ d ∈ out, d.stmt = .instr .Ret ∧ d.pos = some 2 ∧ d.comment = some "Arrived from: 0000".toList) ∧
    ∃ lines d vs, (lines, d) ∈ grouped [] out ∧ d.stmt = .dir (.byte vs) ∧ d.comment = some "A.B".toList := by
  refine ⟨_, sample_listing,
    ⟨_, List.mem_append_left _ (.tail _ (.tail _ (.tail _ (.tail _ (.tail _ (.head _)))))), rfl, rfl, rfl⟩, ?_⟩
  rw [grouped_end epilogue_minor]
  exact ⟨_, _, _, .tail _ (.tail _ (.head _)), rfl, rfl⟩

/-- The bytes of a line as text -/
example : ShownText [0x41, 0x00, 0x0A, 0x42] "A.\\nB".toList :=
  .cons (t := ['A']) (.char (by constructor <;> decide)) (.cons (t := ['.']) (.other (fun h => by
    have := h.1; revert this; decide) (by decide) (by decide) (by decide))
    (.cons .newline (.cons (t := ['B']) (.char (by constructor <;> decide)) .nil)))

/-- A line as it is written -/
example : ListingLine true ⟨some 2, .instr .Ret, some "Arrived from: 0000".toList⟩ "0002|   ret ; Arrived from: 0000\n".toList :=
  line_text (by decide +kernel)

end Verif.Props
