import Verif.Spec.ListingNotes
import Verif.Lemmas.TraceMore
import Verif.Lemmas.Annotations
/-
The comments in a listing.
-/
namespace Verif
open Verif.Spec Verif.Spec.ListingNotes

theorem positionList_spec (ps : List Nat) : positionList ps = positionsText ps := by
  unfold positionList positionsText
  rw [joinWith_intercalate]
  congr 1
  apply List.map_congr_left
  intro p _
  rw [Located.zeroPad_leftpad, Located.digits_hex]
  rfl

/-! ### Where control comes from -/

/-- All jumps noted are from instructions of the graph to targets, and all targets that are left are noted. -/
structure Jumps (bytes : List UInt8) (g : Graph) : Prop where
  sound : ∀ p t, (p, t) ∈ g.jumps → ∃ i g0, g.get p = some i ∧ t ∈ targets p i g0
  complete : ∀ p i, g.get p = some i → ∀ t ∈ targets p i g, (p, t) ∈ g.jumps

theorem visit_jumps {bytes : List UInt8} {pos : Nat} {st st' : Graph × List Nat} (h : visit bytes pos st = .ok st')
    (hs : Sound bytes st.1) (hj : Jumps bytes st.1) : Jumps bytes st'.1 := by
  obtain ⟨hle, hs'⟩ := visit_le h hs
  rcases visit_ok h with ⟨_, rfl⟩ | ⟨i, h1, h2, h3, _⟩
  · exact hj
  · refine ⟨fun p t hp => ?_, fun p j hp t ht => ?_⟩
    · rcases (h3 _).mp hp with hp | ⟨u, hu, he⟩
      · obtain ⟨j, g0, a, b⟩ := hj.sound p t hp
        exact ⟨j, g0, hle.instrs _ _ a, b⟩
      · cases he
        exact ⟨i, st.1, by rw [get_cons h2, if_pos rfl], hu⟩
    · have ht' := targets_antitone hle p j t ht
      rw [get_cons h2] at hp
      split at hp
      · rename_i he
        subst he
        cases hp
        exact (h3 _).mpr (.inr ⟨t, ht', rfl⟩)
      · exact (h3 _).mpr (.inl (hj.complete p j hp t ht'))

theorem visitAll_jumps {bytes : List UInt8} : ∀ {locs : List Nat} {st st' : Graph × List Nat},
    visitAll bytes locs st = .ok st' → Sound bytes st.1 → Jumps bytes st.1 → Sound bytes st'.1 ∧ Jumps bytes st'.1 := by
  intro locs
  induction locs with
  | nil => intro st st' h hs hj; simp only [visitAll, Res.ok.injEq] at h; exact h ▸ ⟨hs, hj⟩
  | cons p locs ih =>
    intro st st' h hs hj
    obtain ⟨s, h1, h2⟩ := Res.bind_eq_ok.mp h
    exact ih h2 (visit_le h1 hs).2 (visit_jumps h1 hs hj)

theorem traceLoop_jumps {bytes : List UInt8} : ∀ (fuel : Nat) {g g' : Graph} {locs : List Nat},
    traceLoop bytes fuel g locs = .ok g' → Sound bytes g → Jumps bytes g → Jumps bytes g' := by
  intro fuel
  induction fuel with
  | zero =>
    intro g g' locs h hs hj
    cases locs with
    | nil => simp only [traceLoop, Res.ok.injEq] at h; exact h ▸ hj
    | cons => cases h
  | succ fuel ih =>
    intro g g' locs h hs hj
    cases locs with
    | nil => simp only [traceLoop, Res.ok.injEq] at h; exact h ▸ hj
    | cons p locs =>
      simp only [traceLoop] at h
      obtain ⟨st, h1, h2⟩ := Res.bind_eq_ok.mp h
      obtain ⟨a, b⟩ := visitAll_jumps h1 hs hj
      exact ih h2 a b

theorem trace_jumps {bytes : List UInt8} {entries : List Nat} {g : Graph} (h : trace entries bytes = .ok g) :
    Jumps bytes g :=
  traceLoop_jumps _ h (fun p i hp => by simp [Graph.new, Graph.get] at hp)
    ⟨fun p t hp => by simp [Graph.new] at hp, fun p i hp => by simp [Graph.new, Graph.get] at hp⟩

/-! ### Groups of lines -/

theorem minor_silent {d : DStmt} (h : d.minor) : standsForBytes d = false := by
  unfold standsForBytes
  split
  · rename_i i hi; exact absurd hi (h i []).1
  · rename_i bs hb; exact absurd hb (h .Nop bs).2
  · rfl

theorem grouped_minors : ∀ {A : List DStmt} (before rest : List DStmt), (∀ d ∈ A, d.minor) →
    grouped before (A ++ rest) = grouped (before ++ A) rest
  | [], before, rest, _ => by simp
  | a :: A, before, rest, h => by
    rw [List.cons_append, grouped, minor_silent (h a (by simp))]
    rw [if_neg (by simp), grouped_minors _ _ (fun d hd => h d (by simp [hd]))]
    simp

theorem grouped_block {A : List DStmt} {d : DStmt} {rest : List DStmt} (hA : ∀ d ∈ A, d.minor)
    (hd : standsForBytes d = true) : grouped [] (A ++ d :: rest) = (A, d) :: grouped [] rest := by
  rw [grouped_minors _ _ hA, grouped, if_pos hd, List.nil_append]

theorem grouped_end {E : List DStmt} (hE : ∀ d ∈ E, d.minor) : ∀ (ds before : List DStmt),
    grouped before (ds ++ E) = grouped before ds
  | [], before => by
    have := grouped_minors (A := E) before [] hE
    rw [List.append_nil] at this
    rw [List.nil_append, this]
    rfl
  | d :: ds, before => by
    rw [List.cons_append, grouped, grouped, grouped_end hE, grouped_end hE]

theorem entryPart_none {entries : List Nat} {g : Graph} {pos len : Nat}
    (hE : ∀ e ∈ entries, e < len → g.contains e = true) (hl : pos < len) (hn : g.get pos = none) :
    entryPart entries pos = [] := by
  unfold entryPart
  rw [if_neg]
  intro hc
  have := hE pos (by simpa using hc) hl
  simp [Graph.contains, hn] at this

theorem emits_groups {flag : Bool} {entries : List Nat} {bytes : List UInt8} {g : Graph} {names : DNames}
    {pos : Nat} {w : Nat → Bool} {out : List DStmt} (h : Emits flag entries bytes g names pos w out)
    (hE : ∀ e ∈ entries, e < bytes.length → g.contains e = true) : ∀ x ∈ grouped [] out,
      (∃ p i l w, g.get p = some i ∧
        x = (entryPart entries p ++ afterData entries g w p ++ labelPart names p ++ overlapPart g p,
          ⟨some p, .instr l, arrivedComment g flag bytes.length p⟩)) ∨
      ∃ q w, x = (beforeData g w q, .bytes q (chunkAt bytes g q)) := by
  induction h with
  | done => intro x hx; cases hx
  | @instr pos w i l rest hl hi h1 _ ih =>
    intro x hx
    rw [grouped_block (by
      intro d hd
      simp only [List.append_assoc, List.mem_append] at hd
      rcases hd with hd | hd | hd | hd
      · exact entryPart_minor d hd
      · exact afterData_minor d hd
      · exact labelPart_minor d hd
      · exact overlapPart_minor d hd) rfl] at hx
    rcases List.mem_cons.mp hx with rfl | hx
    · exact .inl ⟨_, _, _, _, hi, rfl⟩
    · exact ih x hx
  | @bytes pos w rest hl hi hm hz _ ih =>
    intro x hx
    rw [entryPart_none hE hl hi, List.nil_append, grouped_block beforeData_minor rfl] at hx
    rcases List.mem_cons.mp hx with rfl | hx
    · exact .inr ⟨_, _, rfl⟩
    · exact ih x hx
  | @zeros pos w rest hl hi hm hz _ ih =>
    intro x hx
    rw [entryPart_none hE hl hi, List.nil_append] at hx
    exact ih x hx
  | @inside pos w rest hl hi hm _ ih =>
    intro x hx
    rw [entryPart_none hE hl hi, List.nil_append] at hx
    exact ih x hx

/-- Every line that stands for bytes is in a group. -/
theorem grouped_mem : ∀ (ds before : List DStmt) {d : DStmt}, d ∈ ds → standsForBytes d = true →
    ∃ lines, (lines, d) ∈ grouped before ds
  | [], _, _, h, _ => by cases h
  | e :: ds, before, d, h, hd => by
    rw [grouped]
    rcases List.mem_cons.mp h with rfl | h
    · rw [if_pos hd]; exact ⟨before, .head _⟩
    · split
      · obtain ⟨l, hl⟩ := grouped_mem ds [] h hd
        exact ⟨l, .tail _ hl⟩
      · exact grouped_mem ds _ h hd

theorem remarks_append (a b : List DStmt) : remarks (a ++ b) = remarks a ++ remarks b := by
  simp [remarks]

theorem remarks_block {entries : List Nat} {g : Graph} {names : DNames} {w : Nat → Bool} {p : Nat} :
    remarks (entryPart entries p ++ afterData entries g w p ++ labelPart names p ++ overlapPart g p) =
      (if p ∈ entries then ["Entry point".toList] else []) ++
      (if g.overlaps p = [] then [] else ["Overlaps with: ".toList ++ positionsText (g.overlaps p)]) := by
  have h1 : remarks (entryPart entries p) = if p ∈ entries then ["Entry point".toList] else [] := by
    unfold entryPart
    by_cases hp : p ∈ entries
    · simp [hp, remarks, DStmt.note, DStmt.org]
    · simp [hp, remarks]
  have h2 : remarks (afterData entries g w p) = [] := by
    unfold afterData
    split
    · split <;> simp [remarks, DStmt.note, DStmt.org]
    · rfl
  have h3 : remarks (labelPart names p) = [] := by
    unfold labelPart
    split <;> simp [remarks, DStmt.label]
  have h4 : remarks (overlapPart g p) =
      if g.overlaps p = [] then [] else ["Overlaps with: ".toList ++ positionsText (g.overlaps p)] := by
    unfold overlapPart
    by_cases hp : g.overlaps p = []
    · simp [hp, remarks]
    · simp [hp, remarks, DStmt.note, positionList_spec]
  rw [remarks_append, remarks_append, remarks_append, h1, h2, h3, h4, List.append_nil, List.append_nil]

theorem remarks_data {g : Graph} {w : Nat → Bool} {q : Nat} : remarks (beforeData g w q) = [] := by
  unfold beforeData
  rw [remarks_append]
  split <;> split <;> simp [remarks, DStmt.note, DStmt.org]

/-! ### Overlaps -/

theorem mem_overlaps {g : Graph} {p q : Nat} {i : Instr Int Nat} (hi : g.get p = some i) : q ∈ g.overlaps p ↔
    (q + 1 = p ∧ ∃ j, g.get q = some j ∧ 2 ≤ j.size) ∨ (p < q ∧ q < p + i.size ∧ g.contains q = true) := by
  unfold Graph.overlaps
  rw [hi]
  simp only [List.mem_append]
  apply or_congr
  · constructor
    · intro h
      split at h
      · split at h
        · rename_i h1 j hj
          split at h
          · simp only [List.mem_cons, List.not_mem_nil, or_false] at h
            subst h
            exact ⟨by omega, j, hj, by omega⟩
          · cases h
        · cases h
      · cases h
    · rintro ⟨rfl, j, hj, h2⟩
      rw [if_pos (by omega), Nat.add_sub_cancel, hj]
      simp only
      rw [if_pos (by omega)]
      simp
  · simp only [List.mem_filterMap, List.mem_filter, List.mem_range, decide_eq_true_eq]
    constructor
    · rintro ⟨k, ⟨h1, h2⟩, h3⟩
      split at h3
      · rename_i hc
        cases h3
        exact ⟨by omega, by omega, hc⟩
      · cases h3
    · rintro ⟨h1, h2, h3⟩
      refine ⟨q - p, ⟨by omega, by omega⟩, ?_⟩
      rw [Nat.sub_add_cancel (by omega), if_pos h3]

theorem overlaps_sorted {g : Graph} {p : Nat} : (g.overlaps p).Pairwise (· < ·) := by
  unfold Graph.overlaps
  split
  · rename_i i hi
    have hr : (((List.range i.size).filter (1 ≤ ·)).filterMap
        fun k => if g.contains (k + p) then some (k + p) else none).Pairwise (· < ·) := by
      refine List.Pairwise.filterMap _ ?_ (List.Pairwise.filter _ List.pairwise_lt_range)
      intro a b hab x hx y hy
      split at hx <;> split at hy <;> simp at hx hy
      omega
    rw [List.pairwise_append]
    refine ⟨?_, hr, ?_⟩
    · split
      · split
        · split
          · simp
          · exact .nil
        · exact .nil
      · exact .nil
    · intro a ha b hb
      have hb' : p < b := by
        simp only [List.mem_filterMap, List.mem_filter, List.mem_range, decide_eq_true_eq] at hb
        obtain ⟨k, ⟨h1, h2⟩, h3⟩ := hb
        split at h3
        · cases h3; omega
        · cases h3
      split at ha
      · split at ha
        · split at ha
          · simp only [List.mem_cons, List.not_mem_nil, or_false] at ha
            omega
          · cases ha
        · cases ha
      · cases ha
  · exact .nil

/-! ### Data -/

theorem printable_iff {b : UInt8} : (32 ≤ b ∧ b ≤ 126) ↔ PrintableByte b := by
  simp only [PrintableByte, UInt8.le_iff_toNat_le]
  constructor
  · rintro ⟨h1, h2⟩; exact ⟨h1, Nat.lt_succ_of_le h2⟩
  · rintro ⟨h1, h2⟩; exact ⟨h1, Nat.le_of_lt_succ h2⟩

theorem byteText_shown (b : UInt8) : ShownAs b (byteText b) := by
  unfold byteText
  split
  · rename_i h; exact .char (printable_iff.mp h)
  · rename_i h
    split
    · rename_i h9; subst h9; exact .tab
    · split
      · rename_i h10; subst h10; exact .newline
      · split
        · rename_i h13; subst h13; exact .return
        · exact .other (fun hp => h (printable_iff.mpr hp)) ‹_› ‹_› ‹_›

theorem bytes_shown : ∀ bs : List UInt8, ShownText bs (bs.flatMap byteText)
  | [] => .nil
  | b :: bs => by rw [List.flatMap_cons]; exact .cons (byteText_shown b) (bytes_shown bs)

theorem line_text {positions : Bool} {d : DStmt} {t : Text} (h : printLine positions d = .ok t) : ListingLine positions d t := by
  obtain ⟨u, h1, h⟩ := Res.bind_eq_ok.mp h
  simp only [Res.ok.injEq] at h
  subst h
  refine ⟨u, h1, ?_⟩
  have hx : ∀ p, zeroPad 4 (digitsOf 16 p) = Messages.hex4 p := fun p => by
    rw [Located.zeroPad_leftpad, Located.digits_hex]; rfl
  cases positions <;> cases d.pos <;> cases d.comment <;> simp [hx, Option.elim]

end Verif
