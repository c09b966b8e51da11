import Verif.Lemmas.Flow
import Verif.Lemmas.Reading
import Verif.Lemmas.Recase
import Verif.Props.Instructions
/-
The operands in a listing have the values that were decoded.
-/
namespace Verif
open Verif.Spec

theorem digits_unique {base acc w v} (h : Digits base acc w v) : ∀ {v'}, Digits base acc w v' → v = v' := by
  have hq : ∀ d, ¬ digit '\'' d := by
    intro d h
    rcases h with h | h <;>
    · have := List.mem_of_getElem? h
      revert this
      decide
  induction h with
  | nil => intro v' h'; cases h'; rfl
  | digit h1 h2 _ ih =>
    intro v' h'
    cases h' with
    | digit g1 g2 g3 => cases digit_unique h1 g1; exact ih g3
    | quote _ _ _ => exact absurd h1 (hq _)
  | quote h1 h2 _ ih =>
    intro v' h'
    cases h' with
    | digit g1 g2 g3 => exact absurd g1 (hq _)
    | quote g1 g2 g3 => cases digit_unique h1 g1; exact ih g3

/-- Labels of different addresses are different, even if case is ignored. -/
theorem labelName_inj {a b : Nat} (h : lower (labelName a) = lower (labelName b)) : a = b := by
  unfold labelName at h
  simp only [lower, List.map_append] at h
  have h := List.append_cancel_left h
  have ha := (padded_numeral (base := 16) (width := 4) (n := a) (by decide) (by decide)).1
  have hb := (padded_numeral (base := 16) (width := 4) (n := b) (by decide) (by decide)).1
  exact digits_unique (digits_case ha h) hb

theorem disLabels_lookup {g : Graph} {a : Nat} {n : Text} (h : (disLabels g).lookup a = some n) : n = labelName a := by
  unfold disLabels at h
  generalize g.instrs = l at h
  induction l with
  | nil => cases h
  | cons x l ih =>
    rw [List.filterMap_cons] at h
    cases hx : labelFor g x.1 x.2 with
    | none => rw [hx] at h; exact ih h
    | some b =>
      rw [hx] at h
      simp only [Option.map_some, List.lookup_cons] at h
      split at h
      · rename_i hb
        cases h
        rw [eq_of_beq hb]
      · exact ih h

theorem mem_of_get {g : Graph} {p : Nat} {i : Instr Int Nat} (h : g.get p = some i) : (p, i) ∈ g.instrs := by
  unfold Graph.get at h
  generalize g.instrs = l at h
  induction l with
  | nil => cases h
  | cons x l ih =>
    rw [List.lookup_cons] at h
    split at h
    · rename_i hb
      simp only [Option.some.injEq] at h
      have := eq_of_beq hb
      subst h this
      simp
    · exact .tail _ (ih h)

theorem disLabels_of {g : Graph} {p : Nat} {i : Instr Int Nat} (h : g.get p = some i) {a : Nat}
    (ha : labelFor g p i = some a) : (disLabels g).lookup a = some (labelName a) := by
  have hm := mem_of_get h
  unfold disLabels
  generalize g.instrs = l at hm
  induction l with
  | nil => cases hm
  | cons x l ih =>
    rw [List.filterMap_cons]
    rcases List.mem_cons.mp hm with rfl | hm
    · simp [ha]
    · cases hx : labelFor g x.1 x.2 with
      | none => exact ih hm
      | some b =>
        simp only [Option.map_some, List.lookup_cons]
        split
        · rename_i hb
          rw [eq_of_beq hb]
        · exact ih hm

theorem labelExpr_of {g : Graph} {p : Nat} {i : Instr Int Nat} (h : g.get p = some i) {a : Nat}
    (ha : labelFor g p i = some a) : labelExpr (buildNames g) a = .name (labelName a) := by
  simp only [labelExpr, buildNames, disLabels_of h ha]

/-- No alias looks like a label. -/
theorem alias_not_label {a : Nat} {k : Nat} {l : List (Nat × Text)} (hl : l = aliases ∨ l = pswBits) :
    l.lookup k ≠ some (labelName a) := by
  have h1 : ∀ p ∈ aliases, p.2.take 6 ≠ "label_".toList := by decide +kernel
  have h2 : ∀ p ∈ pswBits, p.2.take 6 ≠ "label_".toList := by decide +kernel
  have h3 : ∀ p ∈ l, p.2.take 6 ≠ "label_".toList := by
    rcases hl with h | h
    · rw [h]; exact h1
    · rw [h]; exact h2
  clear hl h1 h2
  intro h
  have hm : (k, labelName a) ∈ l := by
    clear h3
    induction l with
    | nil => cases h
    | cons x l ih =>
      rw [List.lookup_cons] at h
      split at h
      · rename_i hb
        simp only [Option.some.injEq] at h
        rw [← h, eq_of_beq hb]
        simp
      · exact .tail _ (ih h)
  refine h3 _ hm ?_
  dsimp only [labelName]
  exact List.take_left' (by decide)

theorem labelPart_label {g : Graph} {p : Nat} : ∀ d ∈ labelPart (buildNames g) p, d = .label (labelName p) := by
  intro d hd
  unfold labelPart at hd
  split at hd
  · rename_i n hn
    simp only [List.mem_cons, List.not_mem_nil, or_false] at hd
    rw [hd, disLabels_lookup hn]
  · cases hd

theorem split_append {α : Type} {pre post A B : List α} {x : α} (h : A ++ B = pre ++ x :: post) :
    (∃ a', A = pre ++ x :: a' ∧ post = a' ++ B) ∨ ∃ c', pre = A ++ c' ∧ B = c' ++ x :: post := by
  rcases List.append_eq_append_iff.mp h with ⟨c, h1, h2⟩ | ⟨c, h1, h2⟩
  · exact .inr ⟨c, h1, h2⟩
  · cases c with
    | nil => exact .inr ⟨[], by simpa using h1.symm, by simpa using h2.symm⟩
    | cons y c =>
      simp only [List.cons_append, List.cons.injEq] at h2
      obtain ⟨rfl, rfl⟩ := h2
      exact .inl ⟨c, h1, rfl⟩

/-- Lines other than labels. -/
def noLabel (d : DStmt) : Prop := ∀ n, d.stmt ≠ .label n

theorem entryPart_noLabel {entries : List Nat} {pos : Nat} : ∀ d ∈ entryPart entries pos, noLabel d := by
  intro d hd
  unfold entryPart at hd
  split at hd
  · simp only [List.mem_cons, List.not_mem_nil, or_false] at hd
    rcases hd with rfl | rfl | rfl <;> exact nofun
  · cases hd

theorem afterData_noLabel {entries : List Nat} {g : Graph} {w : Nat → Bool} {pos : Nat} :
    ∀ d ∈ afterData entries g w pos, noLabel d := by
  intro d hd
  unfold afterData at hd
  split at hd
  · rcases List.mem_cons.mp hd with rfl | hd
    · exact nofun
    · split at hd
      · simp only [List.mem_cons, List.not_mem_nil, or_false] at hd
        subst hd
        exact nofun
      · cases hd
  · cases hd

theorem beforeData_noLabel {g : Graph} {w : Nat → Bool} {pos : Nat} : ∀ d ∈ beforeData g w pos, noLabel d := by
  intro d hd
  unfold beforeData at hd
  rcases List.mem_append.mp hd with hd | hd
  · split at hd
    · simp only [List.mem_cons, List.not_mem_nil, or_false] at hd
      subst hd
      exact nofun
    · cases hd
  · split at hd
    · simp only [List.mem_cons, List.not_mem_nil, or_false] at hd
      rcases hd with rfl | rfl <;> exact nofun
    · cases hd

theorem epilogue_noLabel {size : Nat} {names : DNames} : ∀ d ∈ epilogue size names, noLabel d := by
  intro d hd
  simp only [epilogue, List.mem_append, List.mem_cons, List.not_mem_nil, or_false, sortedNames, List.mem_filterMap,
    Option.map_eq_some_iff] at hd
  rcases hd with ((((rfl | rfl | rfl) | ⟨k, _, n, _, rfl⟩) | rfl) | ⟨k, _, n, _, rfl⟩) <;> exact nofun

theorem nextListed_overlap {g : Graph} {p q : Nat} {i : Instr Expr IM} {c : Option Text} {rest : List DStmt} :
    nextListed (overlapPart g p ++ ⟨some q, .instr i, c⟩ :: rest) = some q := by
  unfold overlapPart
  split <;> rfl

/-- The labels in a listing. -/
theorem emits_label {flag : Bool} {entries : List Nat} {bytes : List UInt8} {g : Graph}
    {pos : Nat} {w : Nat → Bool} {out : List DStmt} (h : Emits flag entries bytes g (buildNames g) pos w out) :
    ∀ pre post d n, out = pre ++ d :: post → d.stmt = .label n →
      ∃ p, n = labelName p ∧ ∀ t, nextListed (post ++ t) = some p := by
  induction h with
  | done => intro pre post d n h; simp at h
  | @instr pos w i l rest hl hi h1 _ ih =>
    intro pre post d n h hd
    rw [List.append_assoc, List.append_assoc, List.append_assoc] at h
    rcases split_append h with ⟨a, ha, _⟩ | ⟨pre, _, h⟩
    · exact absurd hd (entryPart_noLabel d (by rw [ha]; simp) n)
    rcases split_append h with ⟨a, ha, _⟩ | ⟨pre, _, h⟩
    · exact absurd hd (afterData_noLabel d (by rw [ha]; simp) n)
    rcases split_append h with ⟨a, ha, hb⟩ | ⟨pre, _, h⟩
    · have hm := labelPart_label d (by rw [ha]; simp)
      have ha' : a = [] := by
        unfold labelPart at ha
        split at ha
        · have := congrArg List.length ha
          simp only [List.length_append, List.length_cons, List.length_nil] at this
          exact List.length_eq_zero_iff.mp (by omega)
        · simp at ha
      subst ha' hm
      cases hd
      refine ⟨pos, rfl, fun t => ?_⟩
      rw [hb]
      simp only [List.nil_append, List.append_assoc, List.cons_append]
      exact nextListed_overlap
    rcases split_append h with ⟨a, ha, _⟩ | ⟨pre, _, h⟩
    · unfold overlapPart at ha
      split at ha
      · simp at ha
      · have : d ∈ [DStmt.note ("Overlaps with: ".toList ++ positionList (g.overlaps pos))] := by rw [ha]; simp
        simp only [List.mem_cons, List.not_mem_nil, or_false] at this
        subst this
        cases hd
    cases pre with
    | nil =>
      simp only [List.nil_append, List.cons.injEq] at h
      obtain ⟨rfl, rfl⟩ := h
      cases hd
    | cons x pre =>
      simp only [List.cons_append, List.cons.injEq] at h
      exact ih pre post d n h.2 hd
  | bytes hl hi hm hz _ ih =>
    intro pre post d n h hd
    rw [List.append_assoc] at h
    rcases split_append h with ⟨a, ha, _⟩ | ⟨pre, _, h⟩
    · exact absurd hd (entryPart_noLabel d (by rw [ha]; simp) n)
    rcases split_append h with ⟨a, ha, _⟩ | ⟨pre, _, h⟩
    · exact absurd hd (beforeData_noLabel d (by rw [ha]; simp) n)
    cases pre with
    | nil =>
      simp only [List.nil_append, List.cons.injEq] at h
      obtain ⟨rfl, rfl⟩ := h
      cases hd
    | cons x pre =>
      simp only [List.cons_append, List.cons.injEq] at h
      exact ih pre post d n h.2 hd
  | zeros hl hi hm hz _ ih =>
    intro pre post d n h hd
    rcases split_append h with ⟨a, ha, _⟩ | ⟨pre, _, h⟩
    · exact absurd hd (entryPart_noLabel d (by rw [ha]; simp) n)
    exact ih pre post d n h hd
  | inside hl hi hm _ ih =>
    intro pre post d n h hd
    rcases split_append h with ⟨a, ha, _⟩ | ⟨pre, _, h⟩
    · exact absurd hd (entryPart_noLabel d (by rw [ha]; simp) n)
    exact ih pre post d n h hd

theorem later_append {α : Type} {A rest : List α} {x : α} {P : List α → Prop}
    (h : ∃ pre post, rest = pre ++ x :: post ∧ P post) : ∃ pre post, A ++ rest = pre ++ x :: post ∧ P post := by
  obtain ⟨pre, post, rfl, h⟩ := h
  exact ⟨A ++ pre, post, by simp, h⟩

theorem later_cons {α : Type} {A rest : List α} {x y : α} {P : List α → Prop}
    (h : ∃ pre post, rest = pre ++ x :: post ∧ P post) : ∃ pre post, A ++ y :: rest = pre ++ x :: post ∧ P post := by
  obtain ⟨pre, post, rfl, h⟩ := h
  exact ⟨A ++ y :: pre, post, by simp, h⟩

theorem emits_labelled {flag : Bool} {entries : List Nat} {bytes : List UInt8} {g : Graph} {names : DNames}
    {pos : Nat} {w : Nat → Bool} {out : List DStmt} (h : Emits flag entries bytes g names pos w out) :
    ∀ p i n, g.get p = some i → pos ≤ p → p < bytes.length → names.labels.lookup p = some n →
      ∃ pre post, out = pre ++ .label n :: post ∧ ∀ t, nextListed (post ++ t) = some p := by
  induction h with
  | done hl => intro p i n _ h1 h2; omega
  | @instr pos w j l rest hl hi h1 _ ih =>
    intro p i n hp hle hlt hn
    by_cases he : p = pos
    · subst he
      refine ⟨entryPart entries p ++ afterData entries g w p, overlapPart g p ++
        ⟨some p, .instr l, arrivedComment g flag bytes.length p⟩ :: rest, ?_, fun t => ?_⟩
      · simp only [labelPart, hn, List.append_assoc, List.cons_append, List.nil_append]
      · rw [List.append_assoc, List.cons_append]
        exact nextListed_overlap
    · exact later_cons (ih p i n hp (by omega) hlt hn)
  | @bytes pos w rest hl hi hm hz _ ih =>
    intro p i n hp hle hlt hn
    obtain ⟨-, -, -, -, hu⟩ := chunk_spec (bytes := bytes) hl hm
    have : pos + (chunkAt bytes g pos).length ≤ p := by
      apply Decidable.byContradiction
      intro hc
      have := hu (p - pos) (by omega)
      rw [Nat.add_sub_cancel' hle, mask_of_get (bytes := bytes) hp (Nat.le_refl _) (by have := size_pos i; omega)] at this
      cases this
    exact later_cons (ih p i n hp this hlt hn)
  | @zeros pos w rest hl hi hm hz _ ih =>
    intro p i n hp hle hlt hn
    obtain ⟨-, -, -, -, hu⟩ := chunk_spec (bytes := bytes) hl hm
    have : pos + (chunkAt bytes g pos).length ≤ p := by
      apply Decidable.byContradiction
      intro hc
      have := hu (p - pos) (by omega)
      rw [Nat.add_sub_cancel' hle, mask_of_get (bytes := bytes) hp (Nat.le_refl _) (by have := size_pos i; omega)] at this
      cases this
    exact later_append (ih p i n hp this hlt hn)
  | @inside pos w rest hl hi hm _ ih =>
    intro p i n hp hle hlt hn
    have : p ≠ pos := by rintro rfl; rw [hi] at hp; cases hp
    exact later_append (ih p i n hp (by omega) hlt hn)

/-- The forms of the lines before the epilogue. -/
theorem emits_noAlias {flag : Bool} {entries : List Nat} {bytes : List UInt8} {g : Graph} {names : DNames}
    {pos : Nat} {w : Nat → Bool} {out : List DStmt} (h : Emits flag entries bytes g names pos w out) :
    ∀ d ∈ out, ∀ n e, d.stmt ≠ .alias n e := by
  have h1 : ∀ pos, ∀ d ∈ entryPart entries pos, ∀ n e, d.stmt ≠ .alias n e := by
    intro pos d hd
    unfold entryPart at hd
    split at hd
    · simp only [List.mem_cons, List.not_mem_nil, or_false] at hd
      rcases hd with rfl | rfl | rfl <;> exact nofun
    · cases hd
  have h2 : ∀ w pos, ∀ d ∈ afterData entries g w pos, ∀ n e, d.stmt ≠ .alias n e := by
    intro w pos d hd
    unfold afterData at hd
    split at hd
    · rcases List.mem_cons.mp hd with rfl | hd
      · exact nofun
      · split at hd
        · simp only [List.mem_cons, List.not_mem_nil, or_false] at hd
          subst hd
          exact nofun
        · cases hd
    · cases hd
  have h3 : ∀ w pos, ∀ d ∈ beforeData g w pos, ∀ n e, d.stmt ≠ .alias n e := by
    intro w pos d hd
    unfold beforeData at hd
    rcases List.mem_append.mp hd with hd | hd
    · split at hd
      · simp only [List.mem_cons, List.not_mem_nil, or_false] at hd
        subst hd
        exact nofun
      · cases hd
    · split at hd
      · simp only [List.mem_cons, List.not_mem_nil, or_false] at hd
        rcases hd with rfl | rfl <;> exact nofun
      · cases hd
  have h4 : ∀ pos, ∀ d ∈ labelPart names pos, ∀ n e, d.stmt ≠ .alias n e := by
    intro pos d hd
    unfold labelPart at hd
    split at hd
    · simp only [List.mem_cons, List.not_mem_nil, or_false] at hd
      subst hd
      exact nofun
    · cases hd
  have h5 : ∀ pos, ∀ d ∈ overlapPart g pos, ∀ n e, d.stmt ≠ .alias n e := by
    intro pos d hd
    unfold overlapPart at hd
    split at hd
    · cases hd
    · simp only [List.mem_cons, List.not_mem_nil, or_false] at hd
      subst hd
      exact nofun
  induction h with
  | done => intro d hd; cases hd
  | instr hl hi _ _ ih =>
    intro d hd
    simp only [List.append_assoc, List.mem_append, List.mem_cons] at hd
    rcases hd with hd | hd | hd | hd | rfl | hd
    · exact h1 _ d hd
    · exact h2 _ _ d hd
    · exact h4 _ d hd
    · exact h5 _ d hd
    · exact nofun
    · exact ih d hd
  | bytes hl hi hm hz _ ih =>
    intro d hd
    simp only [List.append_assoc, List.mem_append, List.mem_cons] at hd
    rcases hd with hd | hd | rfl | hd
    · exact h1 _ d hd
    · exact h3 _ _ d hd
    · exact nofun
    · exact ih d hd
  | zeros hl hi hm hz _ ih =>
    intro d hd
    rcases List.mem_append.mp hd with hd | hd
    · exact h1 _ d hd
    · exact ih d hd
  | inside hl hi hm _ ih =>
    intro d hd
    rcases List.mem_append.mp hd with hd | hd
    · exact h1 _ d hd
    · exact ih d hd

theorem nextListed_listed {out : List DStmt} {p : Nat} (h : nextListed out = some p) : ListedAt out p := by
  induction out with
  | nil => cases h
  | cons d ds ih =>
    unfold nextListed at h
    split at h
    · obtain ⟨x, h1, h2⟩ := ih h
      exact ⟨x, .tail _ h1, h2⟩
    · rename_i i hi
      exact ⟨d, .head _, h, i, hi⟩
    · cases h

section
variable {flag : Bool} {entries : List Nat} {bytes : List UInt8} {g : Graph} {body : List DStmt} {size : Nat}

/-- The aliases the listing defines. -/
theorem defines_alias {names : DNames} {l : List (Nat × Text)} (hl : l = names.aliases ∨ l = names.pswBits) {k : Nat}
    (hk : k < 0x200) {n : Text} (h : l.lookup k = some n) : Defines (body ++ epilogue size names) n k := by
  refine .inl ⟨.alias n k, List.mem_append_right _ ?_, .hex, ?_⟩
  · have : DStmt.alias n k ∈ sortedNames l := by
      simp only [sortedNames, List.mem_filterMap, Option.map_eq_some_iff]
      exact ⟨k, List.mem_range.mpr hk, n, h, rfl⟩
    simp only [epilogue, List.mem_append]
    rcases hl with rfl | rfl
    · exact .inr this
    · exact .inl (.inl (.inr this))
  · have : asI32 k = k := by unfold asI32 wrap32; omega
    simp [DStmt.alias, Expr.num, this]

theorem defines_sfr {ls ps al : List (Nat × Text)} {k : Nat} (hk : k < 0x200) {n : Text} (h : al.lookup k = some n) :
    Defines (body ++ epilogue size ⟨ls, ps, al⟩) n k :=
  defines_alias (names := ⟨ls, ps, al⟩) (l := al) (.inl rfl) hk h

/-- What a label means. -/
theorem defines_label (hs : Sound bytes g) (h : Emits flag entries bytes g (buildNames g) 0 (fun _ => false) body)
    {a : Nat} {v : Int} (hd : Defines (body ++ epilogue size (buildNames g)) (labelName a) v) :
    v = a ∧ a < bytes.length := by
  rcases hd with ⟨d, hd, r, hx⟩ | ⟨p, ⟨pre, post, d, he, hd, hn⟩, rfl⟩
  · exfalso
    rcases List.mem_append.mp hd with hd | hd
    · exact emits_noAlias h d hd _ _ hx
    · simp only [epilogue, List.mem_append, List.mem_cons, List.not_mem_nil, or_false, sortedNames, List.mem_filterMap,
        Option.map_eq_some_iff] at hd
      rcases hd with ((((rfl | rfl | rfl) | ⟨k, _, n, hk, rfl⟩) | rfl) | ⟨k, _, n, hk, rfl⟩)
      · cases hx
      · cases hx
      · cases hx
      · simp only [DStmt.alias, Stmt.alias.injEq] at hx
        rw [hx.1] at hk
        exact alias_not_label (l := pswBits) (Or.inr rfl) (show pswBits.lookup k = _ from hk)
      · cases hx
      · simp only [DStmt.alias, Stmt.alias.injEq] at hx
        rw [hx.1] at hk
        have hb : (buildNames g).aliases = aliases := by simp only [buildNames]
        rw [hb] at hk
        exact alias_not_label (l := aliases) (Or.inl rfl) hk
  · have hlist : ListedAt (body ++ epilogue size (buildNames g)) p := by
      obtain ⟨x, h1, h2⟩ := nextListed_listed hn
      exact ⟨x, by rw [he]; exact List.mem_append_right _ (.tail _ h1), h2⟩
    obtain ⟨i, hi⟩ := Option.isSome_iff_exists.mp ((listed_iff hs h p).mp hlist)
    have hlt := (hs p i hi).1
    rcases split_append he with ⟨b, hb, hp⟩ | ⟨c, _, hc⟩
    · obtain ⟨q, h1, h2⟩ := emits_label h _ _ _ _ hb hd
      have := h2 (epilogue size (buildNames g))
      rw [← hp, hn] at this
      cases this
      have := labelName_inj (congrArg lower h1)
      subst this
      exact ⟨rfl, hlt⟩
    · exact absurd hd (epilogue_noLabel d (by rw [hc]; simp) _)

theorem aliases_small : ∀ k v, aliases.lookup k = some v → k < 0x200 := by
  have : ∀ p ∈ aliases, p.1 < 0x200 := by decide +kernel
  intro k v h
  generalize aliases = l at *
  induction l with
  | nil => cases h
  | cons x l ih =>
    rw [List.lookup_cons] at h
    split at h
    · rename_i hb
      rw [eq_of_beq hb]
      exact this x (.head _)
    · exact ih (fun p hp => this p (.tail _ hp)) h

variable {m : Mode} {env : Env}

theorem op_value (hs : Sound bytes g) (h : Emits flag entries bytes g (buildNames g) 0 (fun _ => false) body)
    (hlen : bytes.length ≤ 65536)
    (henv : ∀ n v, Defines (body ++ epilogue size (buildNames g)) n v → env (lower n) = some v)
    {p : Nat} {i : Instr Int Nat} (hi : g.get p = some i) (hp : p + i.size < 2147483648)
    {prev v : Int} {k : Kind} {o : Sum Expr IM}
    (hn : ∀ n, o = .inl (.name n) → ∃ v, Defines (body ++ epilogue size (buildNames g)) n v)
    (ho : liftedOp (buildNames g) (p + i.size) (labelFor g p i) prev k v o) (hk : k.holds v) :
    ∃ x, operandValue m env o = .ok x ∧ k.field (p + i.size) x = some v := by
  have hlab : ∀ a, o = .inl (labelExpr (buildNames g) a) → labelFor g p i = some a →
      operandValue m env o = .ok (a : Int) ∧ a < bytes.length := by
    intro a he ha
    rw [labelExpr_of hi ha] at he
    obtain ⟨v, hv⟩ := hn _ he
    obtain ⟨rfl, hl⟩ := defines_label hs h hv
    refine ⟨?_, hl⟩
    rw [he]
    simp only [operandValue, Expr.eval, henv _ _ hv]
  have hali : ∀ (l : List (Nat × Text)), l = (buildNames g).aliases ∨ l = (buildNames g).pswBits → ∀ n, 0 ≤ v → v < 512 →
      l.lookup (toUsize v) = some n → env (lower n) = some v := by
    intro l hl n h0 h1 hx
    have ht : toUsize v = v.toNat := by unfold toUsize; omega
    rw [ht] at hx
    have := henv n _ (defines_alias (body := body) (size := size) hl (by omega) hx)
    rw [this]
    congr 1
    omega
  cases k with
  | i8 =>
    simp only [Kind.holds] at hk
    simp only [liftedOp] at ho
    subst ho
    exact ⟨v, rfl, by simp [Kind.field, hk]⟩
  | d9 =>
    simp only [Kind.holds] at hk
    simp only [liftedOp] at ho
    subst ho
    refine ⟨v, ?_, by simp [Kind.field, hk]⟩
    simp only [operandValue, memExpr]
    split
    · rename_i n hx
      simp only [Expr.eval, hali _ (.inl rfl) n hk.1 hk.2 hx]
    · rfl
  | ri =>
    simp only [Kind.holds] at hk
    obtain ⟨r, rfl, hr⟩ := ho
    exact ⟨r.index, rfl, by rw [hr]; simp [Kind.field, hk]⟩
  | b3 =>
    simp only [Kind.holds] at hk
    simp only [liftedOp] at ho
    subst ho
    refine ⟨v, ?_, by simp [Kind.field, hk]⟩
    simp only [operandValue, bitsExpr]
    split
    · split
      · rename_i n hx
        simp only [Expr.eval, hali _ (.inr rfl) n hk.1 (by omega) hx]
      · rfl
    · rfl
  | r8 =>
    simp only [Kind.holds] at hk
    obtain ⟨h1, h2⟩ := ho
    obtain ⟨e, hl⟩ := hlab _ h1 h2
    refine ⟨_, e, ?_⟩
    have := (rel8_eq (t := rel8 v (p + i.size)) hk hp (by omega)).mp rfl
    simp only [Kind.field]
    rw [if_pos (by omega)]
    congr 1
    omega
  | r16 =>
    simp only [Kind.holds] at hk
    obtain ⟨h1, h2⟩ := ho
    obtain ⟨e, hl⟩ := hlab _ h1 h2
    refine ⟨_, e, ?_⟩
    have := (rel16_eq (t := rel16 v (p + i.size)) hk hp (by omega)).mp rfl
    simp only [Kind.field]
    rw [if_pos (by omega)]
    congr 1
    omega
  | a12 =>
    simp only [Kind.holds] at hk
    obtain ⟨h1, h2⟩ := ho
    obtain ⟨e, hl⟩ := hlab _ h1 h2
    refine ⟨_, e, ?_⟩
    have := abs12_value (n := p + i.size) hk
    simp only [Kind.field]
    rw [if_pos (by omega)]
    congr 1
    omega
  | a16 =>
    simp only [Kind.holds] at hk
    have ht : (toUsize v : Int) = v := by unfold toUsize; omega
    rcases ho with ⟨h1, h2⟩ | h1
    · obtain ⟨e, hl⟩ := hlab _ h1 h2
      refine ⟨_, e, ?_⟩
      simp only [Kind.field]
      rw [ht, if_pos (by omega)]
    · subst h1
      refine ⟨v, ?_, by simp [Kind.field, hk]⟩
      have : asI32 (toUsize v) = v := by unfold asI32 wrap32; omega
      simp [operandValue, Expr.num, Expr.eval, this]

theorem ops_values (hs : Sound bytes g) (h : Emits flag entries bytes g (buildNames g) 0 (fun _ => false) body)
    (hlen : bytes.length ≤ 65536)
    (henv : ∀ n v, Defines (body ++ epilogue size (buildNames g)) n v → env (lower n) = some v)
    {p : Nat} {i : Instr Int Nat} (hi : g.get p = some i) (hp : p + i.size < 2147483648) :
    ∀ (ks : List Kind) (prev : Int) (vs : List Int) (os : List (Sum Expr IM)),
    (∀ n, .inl (.name n) ∈ os → ∃ v, Defines (body ++ epilogue size (buildNames g)) n v) →
    liftedOps (buildNames g) (p + i.size) (labelFor g p i) prev ks vs os → holdsAll ks vs →
    ∃ xs, OperandValues m env os xs ∧ fields (p + i.size) ks xs = some vs := by
  intro ks
  induction ks with
  | nil =>
    intro prev vs os _ ho hk
    cases vs <;> cases os <;> first | exact ⟨[], trivial, rfl⟩ | exact ho.elim
  | cons k ks ih =>
    intro prev vs os hn ho hk
    cases vs with
    | nil => exact hk.elim
    | cons v vs =>
      cases os with
      | nil => exact ho.elim
      | cons o os =>
        obtain ⟨x, h1, h2⟩ := op_value (m := m) hs h hlen henv hi hp (fun n hx => hn n (by simp [hx])) ho.1 hk.1
        obtain ⟨xs, h3, h4⟩ := ih v vs os (fun n hx => hn n (by simp [hx])) ho.2 hk.2
        exact ⟨x :: xs, ⟨h1, h3⟩, by simp only [fields, h2, h4]⟩

theorem lookup_mem_either {A B : List (Nat × Text)} {k : Nat} {n : Text} (h : A.lookup k = some n ∨ B.lookup k = some n) :
    (k, n) ∈ A ++ B := by
  rw [List.mem_append]
  exact h.imp lookup_mem_pair lookup_mem_pair

/-- What the listing defines. -/
theorem defines_cases (h : Emits flag entries bytes g (buildNames g) 0 (fun _ => false) body)
    {n : Text} {v : Int} (hd : Defines (body ++ epilogue size (buildNames g)) n v) :
    (∃ k : Nat, (k, n) ∈ pswBits ++ aliases ∧ v = k) ∨ ∃ p : Nat, n = labelName p ∧ v = p := by
  rcases hd with ⟨d, hd, r, hx⟩ | ⟨p, ⟨pre, post, d, he, hd, hn⟩, rfl⟩
  · left
    rcases List.mem_append.mp hd with hd | hd
    · exact absurd hx (emits_noAlias h d hd _ _)
    · simp only [epilogue, List.mem_append, List.mem_cons, List.not_mem_nil, or_false, sortedNames, List.mem_filterMap,
        Option.map_eq_some_iff] at hd
      rcases hd with ((((rfl | rfl | rfl) | ⟨k, hk, n', hl, rfl⟩) | rfl) | ⟨k, hk, n', hl, rfl⟩)
      · cases hx
      · cases hx
      · cases hx
      · simp only [DStmt.alias, Stmt.alias.injEq, Expr.num, Expr.number.injEq] at hx
        obtain ⟨rfl, rfl, _⟩ := hx
        simp only [buildNames] at hl
        have hl := lookup_mem_either (A := pswBits) (B := aliases) (.inl hl)
        have hk := List.mem_range.mp hk
        exact ⟨k, hl, by unfold asI32 wrap32; omega⟩
      · cases hx
      · simp only [DStmt.alias, Stmt.alias.injEq, Expr.num, Expr.number.injEq] at hx
        obtain ⟨rfl, rfl, _⟩ := hx
        simp only [buildNames] at hl
        have hl := lookup_mem_either (A := pswBits) (B := aliases) (.inr hl)
        have hk := List.mem_range.mp hk
        exact ⟨k, hl, by unfold asI32 wrap32; omega⟩
  · right
    rcases split_append he with ⟨post', h1, h2⟩ | ⟨c, h1, h2⟩
    · obtain ⟨q, h3, h4⟩ := emits_label h pre post' d n h1 hd
      rw [h2, h4] at hn
      cases hn
      exact ⟨_, h3, rfl⟩
    · exact absurd hd (epilogue_noLabel d (by rw [h2]; simp) n)

theorem aliases_distinct : ((pswBits ++ aliases).map fun p => lower p.2).Nodup := by decide +kernel

theorem aliases_lower : ∀ p ∈ pswBits ++ aliases, (lower p.2).take 6 ≠ "label_".toList := by decide +kernel

theorem map_nodup_inj {α β : Type} {f : α → β} {l : List α} (h : (l.map f).Nodup) :
    ∀ a ∈ l, ∀ b ∈ l, f a = f b → a = b := by
  induction l with
  | nil => intro a ha; cases ha
  | cons x l ih =>
    rw [List.map_cons, List.nodup_cons] at h
    intro a ha b hb e
    rcases List.mem_cons.mp ha with ha | ha <;> rcases List.mem_cons.mp hb with hb | hb
    · rw [ha, hb]
    · exact absurd (List.mem_map.mpr ⟨b, hb, by rw [← e, ha]⟩) h.1
    · exact absurd (List.mem_map.mpr ⟨a, ha, by rw [e, hb]⟩) h.1
    · exact ih h.2 a ha b hb e

theorem label_lower (p : Nat) : (lower (labelName p)).take 6 = "label_".toList := by
  simp only [labelName, lower, List.map_append]
  exact List.take_left' rfl

/-- No name is defined twice. -/
theorem defines_once (h : Emits flag entries bytes g (buildNames g) 0 (fun _ => false) body)
    {n n' : Text} {v v' : Int} (hd : Defines (body ++ epilogue size (buildNames g)) n v)
    (hd' : Defines (body ++ epilogue size (buildNames g)) n' v') (he : lower n = lower n') : v = v' := by
  rcases defines_cases h hd with ⟨k, h1, h2⟩ | ⟨p, h1, h2⟩ <;>
    rcases defines_cases h hd' with ⟨k', h1', h2'⟩ | ⟨p', h1', h2'⟩
  · have := map_nodup_inj aliases_distinct _ h1 _ h1' he
    rw [h2, h2']
    simp only [Prod.mk.injEq] at this
    rw [this.1]
  · exfalso
    refine aliases_lower _ h1 ?_
    show (lower n).take 6 = _
    rw [he, h1', label_lower]
  · exfalso
    refine aliases_lower _ h1' ?_
    show (lower n').take 6 = _
    rw [← he, h1, label_lower]
  · rw [h1, h1'] at he
    rw [h2, h2', labelName_inj he]

/-- The names in the operands. -/
theorem op_names {names : DNames} (hb : names = buildNames g) {next : Nat} {label : Option Nat} :
    ∀ (ks : List Kind) (prev : Int) (vs : List Int) (os : List (Sum Expr IM)),
    liftedOps names next label prev ks vs os → holdsAll ks vs → ∀ n, .inl (.name n) ∈ os →
    (∃ v, Defines (body ++ epilogue size names) n v) ∨ ∃ a, label = some a ∧ n = labelName a := by
  intro ks
  induction ks with
  | nil =>
    intro prev vs os ho _ n hn
    cases vs <;> cases os <;> first | exact ho.elim | cases hn
  | cons k ks ih =>
    intro prev vs os ho hk n hn
    cases vs with
    | nil => exact hk.elim
    | cons v vs =>
      cases os with
      | nil => exact ho.elim
      | cons o os =>
        rcases List.mem_cons.mp hn with hn | hn
        · have hlab : ∀ a, o = .inl (labelExpr names a) → label = some a → ∃ a, label = some a ∧ n = labelName a := by
            intro a he ha
            rw [he] at hn
            unfold labelExpr at hn
            split at hn
            · rename_i n' hx
              simp only [Sum.inl.injEq, Expr.name.injEq] at hn
              subst hn hb
              exact ⟨a, ha, disLabels_lookup hx⟩
            · cases hn
          have ho := ho.1
          have hk := hk.1
          cases k with
          | i8 => simp only [liftedOp] at ho; rw [ho] at hn; cases hn
          | d9 =>
            simp only [liftedOp] at ho
            simp only [Kind.holds] at hk
            rw [ho] at hn
            unfold memExpr at hn
            split at hn
            · rename_i n' hx
              simp only [Sum.inl.injEq, Expr.name.injEq] at hn
              subst hn
              exact .inl ⟨_, defines_alias (.inl rfl) (by unfold toUsize; omega) hx⟩
            · cases hn
          | ri => obtain ⟨m, rfl, _⟩ := ho; cases hn
          | b3 =>
            simp only [liftedOp] at ho
            simp only [Kind.holds] at hk
            rw [ho] at hn
            unfold bitsExpr at hn
            split at hn
            · split at hn
              · rename_i n' hx
                simp only [Sum.inl.injEq, Expr.name.injEq] at hn
                subst hn
                exact .inl ⟨_, defines_alias (.inr rfl) (by unfold toUsize; omega) hx⟩
              · cases hn
            · cases hn
          | r8 => exact .inr (hlab _ ho.1 ho.2)
          | r16 => exact .inr (hlab _ ho.1 ho.2)
          | a12 => exact .inr (hlab _ ho.1 ho.2)
          | a16 =>
            rcases ho with ho | ho
            · exact .inr (hlab _ ho.1 ho.2)
            · rw [ho] at hn; cases hn
        · exact ih v vs os ho.2 hk.2 n hn

theorem instr_ext {i j : Instr Int Nat} (hi : InRange i) (hf : i.form = j.form) (hv : values i = values j) : i = j := by
  have hj : InRange j := by unfold InRange at *; rw [← hf, ← hv]; exact hi
  have he : i.encode = j.encode := by rw [encode_eq, encode_eq, ← values_eq, ← values_eq, hf, hv]
  have h1 := decode_encode i [] hi
  rw [he, decode_encode j [] hj] at h1
  simp only [Res.ok.injEq, Option.some.injEq] at h1
  exact h1.symm

/-- An instruction of the listing evaluates to the one that was decoded. -/
theorem lift_eval (hs : Sound bytes g) (h : Emits flag entries bytes g (buildNames g) 0 (fun _ => false) body)
    (hlen : bytes.length ≤ 65536)
    (henv : ∀ n v, Defines (body ++ epilogue size (buildNames g)) n v → env (lower n) = some v)
    {p : Nat} {i : Instr Int Nat} (hi : g.get p = some i) {l : Instr Expr IM}
    (hl : liftInstr p g (buildNames g) i = .ok l)
    (hn : ∀ n, .inl (.name n) ∈ operands l → ∃ v, Defines (body ++ epilogue size (buildNames g)) n v) :
    l.evalIn m env (p + i.size) = .ok i := by
  have hr := decode_inRange (hs p i hi).2
  have hsz := (Props.C03_size i).2.2.1
  have hp : p + i.size < 2147483648 := by have := (hs p i hi).1; omega
  obtain ⟨l', h1, h2, h3⟩ := lift_spec p g (buildNames g) i hr
  rw [hl] at h1
  cases h1
  obtain ⟨xs, h4, h5⟩ := ops_values (m := m) hs h hlen henv hi hp _ _ _ _ hn h3 hr
  obtain ⟨j, h6, h7, h8⟩ := Props.C06_in_range m env (p + i.size) hp l xs (values i) h4 (by rw [h2]; exact h5)
  rw [h6, instr_ext hr (by rw [h8, h2]) h7.symm]

end

end Verif
