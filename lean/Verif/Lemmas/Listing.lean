import Verif.Lemmas.Lift
/-
The main loop of the disassembler.
-/
namespace Verif
open Verif.Spec

/-- How the listing goes on from a position. -/
inductive Emits (flag : Bool) (entries : List Nat) (bytes : List UInt8) (g : Graph) (names : DNames) :
    Nat → (Nat → Bool) → List DStmt → Prop where
  | done {pos w} : bytes.length ≤ pos → Emits flag entries bytes g names pos w []
  | instr {pos w i l rest} : pos < bytes.length → g.get pos = some i → liftInstr pos g names i = .ok l →
      Emits flag entries bytes g names (pos + 1) w rest →
      Emits flag entries bytes g names pos w
        (entryPart entries pos ++ afterData entries g w pos ++ labelPart names pos ++ overlapPart g pos ++
          ⟨some pos, .instr l, arrivedComment g flag bytes.length pos⟩ :: rest)
  | bytes {pos w rest} : pos < bytes.length → g.get pos = none → g.mask pos = false →
      allZeros (chunkAt bytes g pos) = false →
      Emits flag entries bytes g names (pos + (chunkAt bytes g pos).length)
        (fun p => w p || (decide (pos ≤ p) && decide (p < pos + (chunkAt bytes g pos).length))) rest →
      Emits flag entries bytes g names pos w
        (entryPart entries pos ++ beforeData g w pos ++ .bytes pos (chunkAt bytes g pos) :: rest)
  | zeros {pos w rest} : pos < bytes.length → g.get pos = none → g.mask pos = false →
      allZeros (chunkAt bytes g pos) = true →
      Emits flag entries bytes g names (pos + (chunkAt bytes g pos).length) w rest →
      Emits flag entries bytes g names pos w (entryPart entries pos ++ rest)
  | inside {pos w rest} : pos < bytes.length → g.get pos = none → g.mask pos = true →
      Emits flag entries bytes g names (pos + 1) w rest →
      Emits flag entries bytes g names pos w (entryPart entries pos ++ rest)

theorem emitLoop_emits {flag : Bool} {entries : List Nat} {bytes : List UInt8} {g : Graph} {names : DNames} :
    ∀ (fuel pos : Nat) (w : Nat → Bool) (out : List DStmt),
    emitLoop flag entries bytes g names fuel pos w = .ok out → Emits flag entries bytes g names pos w out := by
  intro fuel
  induction fuel with
  | zero =>
    intro pos w out h
    simp only [emitLoop] at h
    split at h
    · cases h
    · simp only [Res.ok.injEq] at h; subst h; exact .done (by omega)
  | succ fuel ih =>
    intro pos w out h
    simp only [emitLoop] at h
    split at h
    · rename_i hl
      split at h
      · rename_i i hi
        obtain ⟨l, h1, h⟩ := Res.bind_eq_ok.mp h
        obtain ⟨rest, h2, h⟩ := Res.bind_eq_ok.mp h
        simp only [Res.ok.injEq] at h
        subst h
        exact .instr hl hi h1 (ih _ _ _ h2)
      · rename_i hi
        split at h
        · rename_i hm
          split at h
          · rename_i hz
            obtain ⟨rest, h2, h⟩ := Res.bind_eq_ok.mp h
            simp only [Res.ok.injEq] at h
            subst h
            exact .bytes hl hi (by simpa using hm) (by simpa using hz) (ih _ _ _ h2)
          · rename_i hz
            obtain ⟨rest, h2, h⟩ := Res.bind_eq_ok.mp h
            simp only [Res.ok.injEq] at h
            subst h
            exact .zeros hl hi (by simpa using hm) (by simpa using hz) (ih _ _ _ h2)
        · rename_i hm
          obtain ⟨rest, h2, h⟩ := Res.bind_eq_ok.mp h
          simp only [Res.ok.injEq] at h
          subst h
          exact .inside hl hi (by simpa using hm) (ih _ _ _ h2)
    · simp only [Res.ok.injEq] at h; subst h; exact .done (by omega)

theorem takeWhile_prefix {α : Type} {p : α → Bool} : ∀ (l : List α) (k : Nat) (x : α),
    k < (l.takeWhile p).length → l[k]? = some x → p x = true := by
  intro l
  induction l with
  | nil => intro k x h; simp at h
  | cons y l ih =>
    intro k x h hx
    rw [List.takeWhile_cons] at h
    split at h
    · rename_i hy
      cases k with
      | zero => simp at hx; subst hx; exact hy
      | succ k => exact ih k x (by simpa using h) (by simpa using hx)
    · simp at h

/-- A chunk of data is a range of the binary, outside instructions. -/
theorem chunk_spec {bytes : List UInt8} {g : Graph} {pos : Nat} (hl : pos < bytes.length) (hm : g.mask pos = false) :
    1 ≤ (chunkAt bytes g pos).length ∧ (chunkAt bytes g pos).length ≤ 16 ∧
    pos + (chunkAt bytes g pos).length ≤ bytes.length ∧
    chunkAt bytes g pos = (bytes.drop pos).take (chunkAt bytes g pos).length ∧
    (∀ k < (chunkAt bytes g pos).length, g.mask (pos + k) = false) := by
  have hL : (((List.range (bytes.length - pos)).takeWhile fun k => !g.mask (pos + k)).length) ≤ bytes.length - pos := by
    have := (List.takeWhile_prefix (l := List.range (bytes.length - pos)) (p := fun k => !g.mask (pos + k))).length_le
    simpa using this
  have h1 : 1 ≤ (((List.range (bytes.length - pos)).takeWhile fun k => !g.mask (pos + k)).length) := by
    obtain ⟨n, hn⟩ : ∃ n, bytes.length - pos = n + 1 := ⟨bytes.length - pos - 1, by omega⟩
    rw [hn, List.range_succ_eq_map, List.takeWhile_cons]
    simp [hm]
  have hu : ∀ k < (((List.range (bytes.length - pos)).takeWhile fun k => !g.mask (pos + k)).length),
      g.mask (pos + k) = false := by
    intro k hk
    have := takeWhile_prefix (p := fun k => !g.mask (pos + k)) (List.range (bytes.length - pos)) k k hk
      (by rw [List.getElem?_range]; omega)
    simpa using this
  generalize hn : (((List.range (bytes.length - pos)).takeWhile fun k => !g.mask (pos + k)).length) = n at *
  have he : (chunkAt bytes g pos).length = min 16 n := by
    simp only [chunkAt, byteRange, hn, List.length_take, List.length_drop]
    omega
  refine ⟨by omega, by omega, by omega, ?_, fun k hk => hu k (by omega)⟩
  rw [he]
  simp only [chunkAt, byteRange, hn, List.take_take]

theorem emitLoop_fine {flag : Bool} {entries : List Nat} {bytes : List UInt8} {g : Graph} {names : DNames}
    (hs : Sound bytes g) : ∀ (fuel pos : Nat) (w : Nat → Bool), bytes.length ≤ pos + fuel →
    ∃ out, emitLoop flag entries bytes g names fuel pos w = .ok out := by
  intro fuel
  induction fuel with
  | zero => intro pos w h; exact ⟨[], by simp [emitLoop]; omega⟩
  | succ fuel ih =>
    intro pos w h
    simp only [emitLoop]
    split
    · rename_i hl
      split
      · rename_i i hi
        obtain ⟨l, h1, _⟩ := lift_spec pos g names i (decode_inRange (hs _ _ hi).2)
        obtain ⟨rest, h2⟩ := ih (pos + 1) w (by omega)
        simp only [h1, h2, Res.ok_bind]
        exact ⟨_, rfl⟩
      · split
        · rename_i hm
          obtain ⟨a1, -⟩ := chunk_spec (g := g) hl (by simpa using hm)
          split
          · obtain ⟨rest, h2⟩ := ih (pos + (chunkAt bytes g pos).length)
              (fun p => w p || (decide (pos ≤ p) && decide (p < pos + (chunkAt bytes g pos).length))) (by omega)
            simp only [h2, Res.ok_bind]
            exact ⟨_, rfl⟩
          · obtain ⟨rest, h2⟩ := ih (pos + (chunkAt bytes g pos).length) w (by omega)
            simp only [h2, Res.ok_bind]
            exact ⟨_, rfl⟩
        · obtain ⟨rest, h2⟩ := ih (pos + 1) w (by omega)
          simp only [h2, Res.ok_bind]
          exact ⟨_, rfl⟩
    · exact ⟨[], rfl⟩

/-- The other lines: comments, `.org` and labels. -/
def DStmt.minor (d : DStmt) : Prop := ∀ i bs, d.stmt ≠ .instr i ∧ d.stmt ≠ .dir (.byte bs)

theorem entryPart_minor {entries : List Nat} {pos : Nat} : ∀ d ∈ entryPart entries pos, d.minor := by
  intro d hd
  unfold entryPart at hd
  split at hd
  · simp only [List.mem_cons, List.not_mem_nil, or_false] at hd
    rcases hd with rfl | rfl | rfl <;> exact fun _ _ => ⟨nofun, nofun⟩
  · cases hd

theorem afterData_minor {entries : List Nat} {g : Graph} {w : Nat → Bool} {pos : Nat} :
    ∀ d ∈ afterData entries g w pos, d.minor := by
  intro d hd
  unfold afterData at hd
  split at hd
  · rcases List.mem_cons.mp hd with rfl | hd
    · exact fun _ _ => ⟨nofun, nofun⟩
    · split at hd
      · simp only [List.mem_cons, List.not_mem_nil, or_false] at hd
        subst hd
        exact fun _ _ => ⟨nofun, nofun⟩
      · cases hd
  · cases hd

theorem labelPart_minor {names : DNames} {pos : Nat} : ∀ d ∈ labelPart names pos, d.minor := by
  intro d hd
  unfold labelPart at hd
  split at hd
  · simp only [List.mem_cons, List.not_mem_nil, or_false] at hd
    subst hd
    exact fun _ _ => ⟨nofun, nofun⟩
  · cases hd

theorem overlapPart_minor {g : Graph} {pos : Nat} : ∀ d ∈ overlapPart g pos, d.minor := by
  intro d hd
  unfold overlapPart at hd
  split at hd
  · cases hd
  · simp only [List.mem_cons, List.not_mem_nil, or_false] at hd
    subst hd
    exact fun _ _ => ⟨nofun, nofun⟩

theorem beforeData_minor {g : Graph} {w : Nat → Bool} {pos : Nat} : ∀ d ∈ beforeData g w pos, d.minor := by
  intro d hd
  unfold beforeData at hd
  rcases List.mem_append.mp hd with hd | hd
  · split at hd
    · simp only [List.mem_cons, List.not_mem_nil, or_false] at hd
      subst hd
      exact fun _ _ => ⟨nofun, nofun⟩
    · cases hd
  · split at hd
    · simp only [List.mem_cons, List.not_mem_nil, or_false] at hd
      rcases hd with rfl | rfl <;> exact fun _ _ => ⟨nofun, nofun⟩
    · cases hd

theorem sortedNames_minor {l : List (Nat × Text)} : ∀ d ∈ sortedNames l, d.minor := by
  intro d hd
  simp only [sortedNames, List.mem_filterMap, Option.map_eq_some_iff] at hd
  obtain ⟨k, _, n, _, rfl⟩ := hd
  exact fun _ _ => ⟨nofun, nofun⟩

theorem epilogue_minor {size : Nat} {names : DNames} : ∀ d ∈ epilogue size names, d.minor := by
  intro d hd
  simp only [epilogue, List.mem_append, List.mem_cons, List.not_mem_nil, or_false] at hd
  rcases hd with ((((rfl | rfl | rfl) | hd) | rfl) | hd)
  · exact fun _ _ => ⟨nofun, nofun⟩
  · exact fun _ _ => ⟨nofun, nofun⟩
  · exact fun _ _ => ⟨nofun, nofun⟩
  · exact sortedNames_minor d hd
  · exact fun _ _ => ⟨nofun, nofun⟩
  · exact sortedNames_minor d hd

/-- The lines with content. -/
theorem emits_major {flag : Bool} {entries : List Nat} {bytes : List UInt8} {g : Graph} {names : DNames}
    {pos : Nat} {w : Nat → Bool} {out : List DStmt} (h : Emits flag entries bytes g names pos w out) :
    ∀ d ∈ out, d.minor ∨
      (∃ p i l, pos ≤ p ∧ g.get p = some i ∧ liftInstr p g names i = .ok l ∧ d.pos = some p ∧ d.stmt = .instr l) ∨
      (∃ q, pos ≤ q ∧ q < bytes.length ∧ g.mask q = false ∧ d = .bytes q (chunkAt bytes g q)) := by
  induction h with
  | done => intro d hd; cases hd
  | instr hl hi h1 _ ih =>
    intro d hd
    simp only [List.append_assoc, List.mem_append, List.mem_cons] at hd
    rcases hd with hd | hd | hd | hd | rfl | hd
    · exact .inl (entryPart_minor d hd)
    · exact .inl (afterData_minor d hd)
    · exact .inl (labelPart_minor d hd)
    · exact .inl (overlapPart_minor d hd)
    · exact .inr (.inl ⟨_, _, _, Nat.le_refl _, hi, h1, rfl, rfl⟩)
    · rcases ih d hd with h | ⟨p, i, l, h, h'⟩ | ⟨q, h, h'⟩
      · exact .inl h
      · exact .inr (.inl ⟨p, i, l, by omega, h'⟩)
      · exact .inr (.inr ⟨q, by omega, h'⟩)
  | bytes hl hi hm hz _ ih =>
    intro d hd
    simp only [List.append_assoc, List.mem_append, List.mem_cons] at hd
    rcases hd with hd | hd | rfl | hd
    · exact .inl (entryPart_minor d hd)
    · exact .inl (beforeData_minor d hd)
    · exact .inr (.inr ⟨_, Nat.le_refl _, hl, hm, rfl⟩)
    · rcases ih d hd with h | ⟨p, i, l, h, h'⟩ | ⟨q, h, h'⟩
      · exact .inl h
      · exact .inr (.inl ⟨p, i, l, by omega, h'⟩)
      · exact .inr (.inr ⟨q, by omega, h'⟩)
  | zeros hl hi hm hz _ ih =>
    intro d hd
    rcases List.mem_append.mp hd with hd | hd
    · exact .inl (entryPart_minor d hd)
    · rcases ih d hd with h | ⟨p, i, l, h, h'⟩ | ⟨q, h, h'⟩
      · exact .inl h
      · exact .inr (.inl ⟨p, i, l, by omega, h'⟩)
      · exact .inr (.inr ⟨q, by omega, h'⟩)
  | inside hl hi hm _ ih =>
    intro d hd
    rcases List.mem_append.mp hd with hd | hd
    · exact .inl (entryPart_minor d hd)
    · rcases ih d hd with h | ⟨p, i, l, h, h'⟩ | ⟨q, h, h'⟩
      · exact .inl h
      · exact .inr (.inl ⟨p, i, l, by omega, h'⟩)
      · exact .inr (.inr ⟨q, by omega, h'⟩)

theorem mask_of_get {bytes : List UInt8} {g : Graph} {p : Nat} {i : Instr Int Nat} (h : g.get p = some i) {k : Nat}
    (h1 : p ≤ k) (h2 : k < p + i.size) : g.mask k = true := by
  simp only [Graph.mask, List.any_eq_true, Bool.and_eq_true, decide_eq_true_eq]
  refine ⟨(p, i), ?_, h1, h2⟩
  unfold Graph.get at h
  generalize g.instrs = l at h
  induction l with
  | nil => cases h
  | cons x l ih =>
    rw [List.lookup_cons] at h
    split at h
    · rename_i hb
      simp only [Option.some.injEq] at h
      have := eq_of_beq hb
      subst h this
      simp
    · exact .tail _ (ih h)

theorem size_pos {Ex IM : Type} (i : Instr Ex IM) : 1 ≤ i.size := by
  rw [size_eq]; exact i.form.len_pos

/-- Every instruction of the graph is listed. -/
theorem emits_instr {flag : Bool} {entries : List Nat} {bytes : List UInt8} {g : Graph} {names : DNames}
    {pos : Nat} {w : Nat → Bool} {out : List DStmt} (h : Emits flag entries bytes g names pos w out) :
    ∀ p i, g.get p = some i → pos ≤ p → p < bytes.length →
      ∃ d ∈ out, d.pos = some p ∧ ∃ l, liftInstr p g names i = .ok l ∧ d.stmt = .instr l := by
  induction h with
  | done hl => intro p i _ h1 h2; omega
  | @instr pos w j l rest hl hi h1 _ ih =>
    intro p i hp hle hlt
    by_cases he : p = pos
    · subst he
      rw [hi] at hp
      cases hp
      exact ⟨_, List.mem_append_right _ (.head _), rfl, l, h1, rfl⟩
    · obtain ⟨d, hd, h'⟩ := ih p i hp (by omega) hlt
      exact ⟨d, List.mem_append_right _ (.tail _ hd), h'⟩
  | @bytes pos w rest hl hi hm hz _ ih =>
    intro p i hp hle hlt
    obtain ⟨-, -, -, -, hu⟩ := chunk_spec (bytes := bytes) hl hm
    have : pos + (chunkAt bytes g pos).length ≤ p := by
      apply Decidable.byContradiction
      intro hc
      have := hu (p - pos) (by omega)
      rw [Nat.add_sub_cancel' hle, mask_of_get (bytes := bytes) hp (Nat.le_refl _) (by have := size_pos i; omega)] at this
      cases this
    obtain ⟨d, hd, h'⟩ := ih p i hp this hlt
    exact ⟨d, List.mem_append_right _ (.tail _ hd), h'⟩
  | @zeros pos w rest hl hi hm hz _ ih =>
    intro p i hp hle hlt
    obtain ⟨-, -, -, -, hu⟩ := chunk_spec (bytes := bytes) hl hm
    have : pos + (chunkAt bytes g pos).length ≤ p := by
      apply Decidable.byContradiction
      intro hc
      have := hu (p - pos) (by omega)
      rw [Nat.add_sub_cancel' hle, mask_of_get (bytes := bytes) hp (Nat.le_refl _) (by have := size_pos i; omega)] at this
      cases this
    obtain ⟨d, hd, h'⟩ := ih p i hp this hlt
    exact ⟨d, List.mem_append_right _ hd, h'⟩
  | @inside pos w rest hl hi hm _ ih =>
    intro p i hp hle hlt
    have : p ≠ pos := by rintro rfl; rw [hi] at hp; cases hp
    obtain ⟨d, hd, h'⟩ := ih p i hp (by omega) hlt
    exact ⟨d, List.mem_append_right _ hd, h'⟩

/-- Every byte outside instructions is listed or zero. -/
theorem emits_byte {flag : Bool} {entries : List Nat} {bytes : List UInt8} {g : Graph} {names : DNames}
    {pos : Nat} {w : Nat → Bool} {out : List DStmt} (h : Emits flag entries bytes g names pos w out) :
    ∀ k, pos ≤ k → k < bytes.length → g.mask k = false →
      (∃ q < bytes.length, g.mask q = false ∧ .bytes q (chunkAt bytes g q) ∈ out ∧ q ≤ k ∧ k < q + (chunkAt bytes g q).length) ∨
      bytes[k]? = some 0 := by
  induction h with
  | done hl => intro k h1 h2; omega
  | @instr pos w j l rest hl hi h1 _ ih =>
    intro k hle hlt hk
    have : k ≠ pos := by
      rintro rfl
      rw [mask_of_get (bytes := bytes) hi (Nat.le_refl _) (by have := size_pos j; omega)] at hk
      cases hk
    rcases ih k (by omega) hlt hk with ⟨q, a1, a2, a3, a4⟩ | h
    · exact .inl ⟨q, a1, a2, List.mem_append_right _ (.tail _ a3), a4⟩
    · exact .inr h
  | @bytes pos w rest hl hi hm hz _ ih =>
    intro k hle hlt hk
    by_cases hc : k < pos + (chunkAt bytes g pos).length
    · exact .inl ⟨pos, hl, hm, List.mem_append_right _ (.head _), hle, hc⟩
    · rcases ih k (by omega) hlt hk with ⟨q, a1, a2, a3, a4⟩ | h
      · exact .inl ⟨q, a1, a2, List.mem_append_right _ (.tail _ a3), a4⟩
      · exact .inr h
  | @zeros pos w rest hl hi hm hz _ ih =>
    intro k hle hlt hk
    by_cases hc : k < pos + (chunkAt bytes g pos).length
    · refine .inr ?_
      obtain ⟨-, -, h3, h4, -⟩ := chunk_spec (bytes := bytes) hl hm
      have hb : (chunkAt bytes g pos)[k - pos]? = bytes[k]? := by
        rw [h4, List.getElem?_take, if_pos (by omega), List.getElem?_drop, Nat.add_sub_cancel' hle]
      have hx : bytes[k]? = some bytes[k] := List.getElem?_eq_getElem hlt
      rw [hx] at hb ⊢
      have := List.mem_of_getElem? hb
      simp only [allZeros, List.all_eq_true, decide_eq_true_eq] at hz
      rw [hz _ this]
    · rcases ih k (by omega) hlt hk with ⟨q, a1, a2, a3, a4⟩ | h
      · exact .inl ⟨q, a1, a2, List.mem_append_right _ a3, a4⟩
      · exact .inr h
  | @inside pos w rest hl hi hm _ ih =>
    intro k hle hlt hk
    have : k ≠ pos := by rintro rfl; rw [hm] at hk; cases hk
    rcases ih k (by omega) hlt hk with ⟨q, a1, a2, a3, a4⟩ | h
    · exact .inl ⟨q, a1, a2, List.mem_append_right _ a3, a4⟩
    · exact .inr h

theorem disassemble_ok {flag : Bool} {entries : List Nat} {bytes : List UInt8} {out : List DStmt}
    (h : disassemble flag entries bytes = .ok out) :
    ∃ g body, trace entries bytes = .ok g ∧ out = body ++ epilogue bytes.length (buildNames g) ∧
      Emits flag entries bytes g (buildNames g) 0 (fun _ => false) body := by
  obtain ⟨g, h1, h⟩ := Res.bind_eq_ok.mp h
  obtain ⟨body, h2, h⟩ := Res.bind_eq_ok.mp h
  simp only [Res.ok.injEq] at h
  exact ⟨g, body, h1, h.symm, emitLoop_emits _ _ _ _ h2⟩

theorem get_of_mem {bytes : List UInt8} {g : Graph} (hs : Sound bytes g) {p : Nat} {i : Instr Int Nat}
    (h : (p, i) ∈ g.instrs) : ∃ j, g.get p = some j := by
  unfold Graph.get
  generalize g.instrs = l at h
  induction l with
  | nil => cases h
  | cons x l ih =>
    rw [List.lookup_cons]
    split
    · exact ⟨_, rfl⟩
    · rename_i hb
      rcases List.mem_cons.mp h with rfl | h
      · simp at hb
      · exact ih h

/-- In the listing of a binary, the instructions listed are those of the graph. -/
theorem listed_iff {flag : Bool} {entries : List Nat} {bytes : List UInt8} {g : Graph} {body : List DStmt} {names : DNames}
    {size : Nat} (hs : Sound bytes g) (h : Emits flag entries bytes g names 0 (fun _ => false) body) (p : Nat) :
    ListedAt (body ++ epilogue size names) p ↔ g.contains p = true := by
  constructor
  · rintro ⟨d, hd, hp, i, hi⟩
    rcases List.mem_append.mp hd with hd | hd
    · rcases emits_major h d hd with hm | ⟨q, j, l, _, h2, _, h4, _⟩ | ⟨q, _, _, _, rfl⟩
      · exact absurd hi (hm i []).1
      · rw [hp] at h4
        cases h4
        simp [Graph.contains, h2]
      · cases hi
    · exact absurd hi (epilogue_minor d hd i []).1
  · intro hc
    obtain ⟨i, hi⟩ := Option.isSome_iff_exists.mp hc
    obtain ⟨d, hd, hp, l, _, hl⟩ := emits_instr h p i hi (Nat.zero_le _) (hs p i hi).1
    exact ⟨d, List.mem_append_left _ hd, hp, l, hl⟩

end Verif
