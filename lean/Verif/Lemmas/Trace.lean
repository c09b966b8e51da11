import Verif.Spec.Disasm
import Verif.Lemmas.Branch
/-
Tracing: build_instruction_graph.
-/
namespace Verif
open Verif.Spec

theorem Graph.get_instr (g : Graph) (pos : Nat) (i : Instr Int Nat) (p : Nat) :
    (g.instr pos i).get p = if p = pos then some i else g.get p := by
  simp only [Graph.instr, Graph.get, List.lookup_cons]
  by_cases h : p = pos
  · simp [h]
  · have : (p == pos) = false := by simp [h]
    simp [h, this]

theorem foldl_jumpTo (pos : Nat) (ts : List Nat) : ∀ g : Graph,
    (ts.foldl (fun g t => g.jumpTo pos t) g).instrs = g.instrs ∧
    (∀ x, x ∈ (ts.foldl (fun g t => g.jumpTo pos t) g).jumps ↔ x ∈ g.jumps ∨ ∃ t ∈ ts, x = (pos, t)) := by
  induction ts with
  | nil => intro g; simp
  | cons t ts ih =>
    intro g
    obtain ⟨h1, h2⟩ := ih (g.jumpTo pos t)
    refine ⟨by rw [List.foldl_cons, h1]; rfl, fun x => ?_⟩
    rw [List.foldl_cons, h2]
    simp only [Graph.jumpTo, List.mem_cons, exists_eq_or_imp]
    constructor
    · rintro ((h | h) | h)
      · exact .inr (.inl h)
      · exact .inl h
      · exact .inr (.inr h)
    · rintro (h | h | h)
      · exact .inl (.inr h)
      · exact .inl (.inl h)
      · exact .inr h

/-- One graph extends another. -/
structure Graph.le (g g' : Graph) : Prop where
  instrs : ∀ p i, g.get p = some i → g'.get p = some i
  jumps : ∀ x ∈ g.jumps, x ∈ g'.jumps

theorem Graph.le.refl (g : Graph) : g.le g := ⟨fun _ _ h => h, fun _ h => h⟩

theorem Graph.le.trans {a b c : Graph} (h : a.le b) (h' : b.le c) : a.le c :=
  ⟨fun p i x => h'.1 p i (h.1 p i x), fun x y => h'.2 x (h.2 x y)⟩

theorem Graph.le.contains {a b : Graph} (h : a.le b) {p : Nat} (hc : a.contains p = true) : b.contains p = true := by
  unfold Graph.contains at *
  cases hp : a.get p with
  | none => rw [hp] at hc; cases hc
  | some i => rw [h.1 p i hp]; rfl

theorem toFlash_iff {g : Graph} {p : Nat} : g.toFlash p = true ↔
    2 ≤ p ∧ g.get (p - 2) = some (.Not1 0x10D 0) ∧ (p - 2, p) ∈ g.jumps := by
  unfold Graph.toFlash
  rw [Bool.and_eq_true, decide_eq_true_eq]
  constructor
  · rintro ⟨h1, h2⟩
    refine ⟨h1, ?_⟩
    split at h2
    · rename_i he
      exact ⟨he, by simpa [Graph.arrivedFrom] using h2⟩
    · cases h2
  · rintro ⟨h1, h2, h3⟩
    refine ⟨h1, ?_⟩
    rw [h2]
    simpa [Graph.arrivedFrom] using h3

theorem toFlash_mono {g g' : Graph} (h : g.le g') {p : Nat} (hf : g.toFlash p = true) : g'.toFlash p = true := by
  rw [toFlash_iff] at *
  exact ⟨hf.1, h.1 _ _ hf.2.1, h.2 _ hf.2.2⟩

/-- Later a position has no more targets than before. -/
theorem targets_antitone {g g' : Graph} (h : g.le g') (p : Nat) (i : Instr Int Nat) :
    ∀ t ∈ targets p i g', t ∈ targets p i g := by
  intro t ht
  cases i
  case Jmpf a =>
    simp only [targets] at *
    split at ht
    · cases ht
    · rename_i hf
      rw [if_neg (fun hx => hf (toFlash_mono h hx))]
      exact ht
  all_goals exact ht

/-- All instructions of the graph are in the binary. -/
def Sound (bytes : List UInt8) (g : Graph) : Prop := ∀ p i, g.get p = some i → InstrAt bytes p i

/-- What the loop of the tracer keeps: targets are in the graph or waiting. -/
structure Tracing (bytes : List UInt8) (entries : List Nat) (g : Graph) (waiting : List Nat) : Prop where
  sound : Sound bytes g
  closed : ∀ p i, g.get p = some i → ∀ t ∈ targets p i g, t < bytes.length → g.contains t = true ∨ t ∈ waiting
  entries : ∀ e ∈ entries, e < bytes.length → g.contains e = true ∨ e ∈ waiting
  jumps : ∀ p i, g.get p = some i → i = .Not1 0x10D 0 → (p, p + 2) ∈ g.jumps

/-- What happens at one position. -/
theorem visit_ok {bytes : List UInt8} {pos : Nat} {st st' : Graph × List Nat} (h : visit bytes pos st = .ok st') :
    (bytes.length ≤ pos ∧ st' = st) ∨
    ∃ i, InstrAt bytes pos i ∧
      st'.1.instrs = (pos, i) :: st.1.instrs ∧
      (∀ x, x ∈ st'.1.jumps ↔ x ∈ st.1.jumps ∨ ∃ t ∈ targets pos i st.1, x = (pos, t)) ∧
      st'.2 = st.2 ++ (targets pos i st.1).filter fun t => !st'.1.contains t := by
  unfold visit at h
  split at h
  · rename_i hl
    simp only [Res.ok.injEq] at h
    exact .inl ⟨hl, h.symm⟩
  · rename_i hl
    obtain ⟨d, hd, h⟩ := Res.bind_eq_ok.mp h
    cases d with
    | none => cases h
    | some i =>
      simp only [Res.ok.injEq] at h
      subst h
      obtain ⟨h1, h2⟩ := foldl_jumpTo pos (targets pos i st.1) st.1
      exact .inr ⟨i, ⟨by omega, hd⟩, by simp only [Graph.instr, h1], h2, rfl⟩

theorem get_cons {g g' : Graph} {pos : Nat} {i : Instr Int Nat} (h : g'.instrs = (pos, i) :: g.instrs) (p : Nat) :
    g'.get p = if p = pos then some i else g.get p := by
  have := g.get_instr pos i p
  rw [← this]
  simp only [Graph.get, h, Graph.instr]

theorem visit_le {bytes : List UInt8} {pos : Nat} {st st' : Graph × List Nat} (h : visit bytes pos st = .ok st')
    (hs : Sound bytes st.1) : st.1.le st'.1 ∧ Sound bytes st'.1 := by
  rcases visit_ok h with ⟨_, rfl⟩ | ⟨i, h1, h2, h3, _⟩
  · exact ⟨.refl _, hs⟩
  · refine ⟨⟨fun p j hp => ?_, fun x hx => (h3 x).mpr (.inl hx)⟩, fun p j hp => ?_⟩
    · rw [get_cons h2]
      split
      · rename_i he
        subst he
        have := (hs _ _ hp).2
        rw [h1.2] at this
        simp only [Res.ok.injEq, Option.some.injEq] at this
        rw [this]
      · exact hp
    · rw [get_cons h2] at hp
      split at hp
      · rename_i he
        subst he
        cases hp
        exact h1
      · exact hs p j hp

theorem visit_tracing {bytes : List UInt8} {entries : List Nat} {pos : Nat} {locs : List Nat} {st st' : Graph × List Nat}
    (h : visit bytes pos st = .ok st') (hi : Tracing bytes entries st.1 (pos :: locs ++ st.2)) :
    Tracing bytes entries st'.1 (locs ++ st'.2) := by
  obtain ⟨hle, hs⟩ := visit_le h hi.sound
  rcases visit_ok h with ⟨hl, rfl⟩ | ⟨i, h1, h2, h3, h4⟩
  · refine ⟨hi.sound, fun p i hp t ht hlt => ?_, fun e he hlt => ?_, hi.jumps⟩
    · refine (hi.closed p i hp t ht hlt).imp id fun hm => ?_
      rcases List.mem_cons.mp (List.cons_append ▸ hm) with rfl | hm
      · omega
      · simpa using hm
    · refine (hi.entries e he hlt).imp id fun hm => ?_
      rcases List.mem_cons.mp (List.cons_append ▸ hm) with rfl | hm
      · omega
      · simpa using hm
  · have hpos : st'.1.contains pos = true := by simp [Graph.contains, get_cons h2]
    have hw : ∀ t, st.1.contains t = true ∨ t ∈ pos :: locs ++ st.2 → st'.1.contains t = true ∨ t ∈ locs ++ st'.2 := by
      rintro t (ht | ht)
      · exact .inl (hle.contains ht)
      · rcases List.mem_cons.mp (List.cons_append ▸ ht) with rfl | hm
        · exact .inl hpos
        · refine .inr ?_
          rw [h4]
          rcases List.mem_append.mp hm with hm | hm
          · simp [hm]
          · simp [hm]
    refine ⟨hs, fun p j hp t ht hlt => ?_, fun e he hlt => hw e (hi.entries e he hlt), fun p j hp hj => ?_⟩
    · have ht' := targets_antitone hle p j t ht
      rw [get_cons h2] at hp
      split at hp
      · rename_i he
        subst he
        cases hp
        by_cases hc : st'.1.contains t = true
        · exact .inl hc
        · refine .inr ?_
          rw [h4]
          simp [ht', hc]
      · exact hw t (hi.closed p j hp t ht' hlt)
    · rw [get_cons h2] at hp
      split at hp
      · rename_i he
        subst he
        cases hp
        subst hj
        exact (h3 _).mpr (.inr ⟨p + 2, by simp [targets, Instr.size]; decide, rfl⟩)
      · exact (h3 _).mpr (.inl (hi.jumps p j hp hj))

theorem visitAll_ok {bytes : List UInt8} {entries : List Nat} : ∀ (locs : List Nat) {st st' : Graph × List Nat},
    visitAll bytes locs st = .ok st' → Tracing bytes entries st.1 (locs ++ st.2) →
    Tracing bytes entries st'.1 st'.2 ∧ st.1.le st'.1 ∧ (∀ p ∈ locs, p < bytes.length → st'.1.contains p = true) ∧
    (∀ t ∈ st'.2, t ∈ st.2 ∨ (st.1.contains t = false ∧ ∃ p ∈ locs, ∃ i, InstrAt bytes p i ∧ t ∈ targets p i st.1)) ∧
    (∀ p, st'.1.contains p = true → st.1.contains p = true ∨ p ∈ locs) := by
  intro locs
  induction locs with
  | nil =>
    intro st st' h hi
    simp only [visitAll, Res.ok.injEq] at h
    subst h
    exact ⟨hi, .refl _, by simp, fun t ht => .inl ht, fun p hp => .inl hp⟩
  | cons pos locs ih =>
    intro st st' h hi
    obtain ⟨s1, h1, h2⟩ := Res.bind_eq_ok.mp h
    have hi1 := visit_tracing h1 hi
    obtain ⟨hle, hs⟩ := visit_le h1 hi.sound
    obtain ⟨a1, a2, a3, a4, a5⟩ := ih h2 hi1
    refine ⟨a1, hle.trans a2, ?_, ?_, ?_⟩
    · intro p hp hlt
      rcases List.mem_cons.mp hp with rfl | hp
      · apply a2.contains
        rcases visit_ok h1 with ⟨hl, _⟩ | ⟨i, _, hx, _⟩
        · omega
        · simp [Graph.contains, get_cons hx]
      · exact a3 p hp hlt
    · intro t ht
      rcases a4 t ht with hx | ⟨hc, p, hp, i, hpi, hti⟩
      · rcases visit_ok h1 with ⟨_, rfl⟩ | ⟨i, b1, b2, b3, b4⟩
        · exact .inl hx
        · rw [b4] at hx
          rcases List.mem_append.mp hx with hx | hx
          · exact .inl hx
          · obtain ⟨c1, c2⟩ := List.mem_filter.mp hx
            refine .inr ⟨?_, pos, by simp, i, b1, c1⟩
            cases hcc : st.1.contains t with
            | false => rfl
            | true => rw [hle.contains hcc] at c2; cases c2
      · refine .inr ⟨?_, p, by simp [hp], i, hpi, targets_antitone hle p i t hti⟩
        cases hcc : st.1.contains t with
        | false => rfl
        | true => rw [hle.contains hcc] at hc; cases hc
    · intro p hp
      rcases a5 p hp with hx | hx
      · rcases visit_ok h1 with ⟨_, rfl⟩ | ⟨i, _, b2, _⟩
        · exact .inl hx
        · by_cases he : p = pos
          · exact .inr (by simp [he])
          · simp only [Graph.contains, get_cons b2, he, ↓reduceIte] at hx
            exact .inl hx
      · exact .inr (by simp [hx])

/-- The result of tracing. -/
theorem traceLoop_ok {bytes : List UInt8} {entries : List Nat} : ∀ (fuel : Nat) {g g' : Graph} {locs : List Nat},
    traceLoop bytes fuel g locs = .ok g' → Tracing bytes entries g locs → Tracing bytes entries g' [] := by
  intro fuel
  induction fuel with
  | zero =>
    intro g g' locs h hi
    cases locs with
    | nil => simp only [traceLoop, Res.ok.injEq] at h; subst h; exact hi
    | cons => cases h
  | succ fuel ih =>
    intro g g' locs h hi
    cases locs with
    | nil => simp only [traceLoop, Res.ok.injEq] at h; subst h; exact hi
    | cons p locs =>
      simp only [traceLoop] at h
      obtain ⟨st, h1, h2⟩ := Res.bind_eq_ok.mp h
      exact ih h2 (visitAll_ok (entries := entries) _ h1 (by simpa using hi)).1

theorem tracing_start (bytes : List UInt8) (entries : List Nat) : Tracing bytes entries Graph.new entries := by
  refine ⟨?_, ?_, fun e he _ => .inr he, ?_⟩ <;> · intro p i h; simp [Graph.new, Graph.get] at h

theorem trace_ok {bytes : List UInt8} {entries : List Nat} {g : Graph} (h : trace entries bytes = .ok g) :
    Tracing bytes entries g [] := traceLoop_ok _ h (tracing_start bytes entries)

/-! Termination -/

/-- The number of positions not in the graph. -/
def missing (bytes : List UInt8) (g : Graph) : Nat := (List.range bytes.length).countP fun p => !g.contains p

theorem countP_lt {α : Type} {P Q : α → Bool} {l : List α} (h : ∀ x ∈ l, Q x = true → P x = true) {x : α} (hx : x ∈ l)
    (h1 : P x = true) (h2 : Q x = false) : l.countP Q < l.countP P := by
  induction l with
  | nil => cases hx
  | cons y l ih =>
    have hm : l.countP Q ≤ l.countP P := List.countP_mono_left fun z hz => h z (by simp [hz])
    rw [List.countP_cons, List.countP_cons]
    rcases List.mem_cons.mp hx with rfl | hx
    · simp [h1, h2]; omega
    · have := ih (fun z hz => h z (by simp [hz])) hx
      have hy := h y (by simp)
      by_cases hq : Q y = true
      · simp [hq, hy hq]; omega
      · simp [hq]; split <;> omega

theorem visitAll_outside {bytes : List UInt8} : ∀ (locs : List Nat) (st : Graph × List Nat),
    (∀ p ∈ locs, bytes.length ≤ p) → visitAll bytes locs st = .ok st := by
  intro locs
  induction locs with
  | nil => intro st _; rfl
  | cons p locs ih =>
    intro st h
    simp only [visitAll, visit, h p (by simp), ↓reduceIte, Res.ok_bind]
    exact ih st fun q hq => h q (by simp [hq])

theorem visit_fine {bytes : List UInt8} {pos : Nat} {st : Graph × List Nat} : visit bytes pos st ≠ .loop ∧ visit bytes pos st ≠ .panic := by
  unfold visit
  split
  · simp
  · rename_i hl
    have hne : bytes.drop pos ≠ [] := by simp; omega
    obtain ⟨b, bs, hb⟩ := List.exists_cons_of_ne_nil hne
    obtain ⟨f, hf, _⟩ := form_unique b
    have := decode_of_opcode b bs f hf
    rw [← hb] at this
    split at this
    · obtain ⟨i, hi, _⟩ := this
      rw [hi]; simp
    · rw [this]; simp

theorem visitAll_fine {bytes : List UInt8} : ∀ (locs : List Nat) (st : Graph × List Nat),
    visitAll bytes locs st ≠ .loop ∧ visitAll bytes locs st ≠ .panic := by
  intro locs
  induction locs with
  | nil => intro st; simp [visitAll]
  | cons p locs ih =>
    intro st
    simp only [visitAll]
    cases h : visit bytes p st with
    | ok s => simpa using ih s
    | err e => simp
    | panic => exact absurd h visit_fine.2
    | loop => exact absurd h visit_fine.1

theorem traceLoop_fine {bytes : List UInt8} {entries : List Nat} : ∀ (fuel : Nat) {g : Graph} {locs : List Nat},
    Tracing bytes entries g locs →
    ((∀ p ∈ locs, bytes.length ≤ p) ∧ 1 ≤ fuel) ∨ missing bytes g + 2 ≤ fuel →
    traceLoop bytes fuel g locs ≠ .loop ∧ traceLoop bytes fuel g locs ≠ .panic := by
  intro fuel
  induction fuel with
  | zero => intro g locs _ h; omega
  | succ fuel ih =>
    intro g locs hi h
    cases locs with
    | nil => simp [traceLoop]
    | cons p locs =>
      simp only [traceLoop]
      cases hv : visitAll bytes (p :: locs) (g, []) with
      | panic => exact absurd hv (visitAll_fine _ _).2
      | loop => exact absurd hv (visitAll_fine _ _).1
      | err e => simp
      | ok st =>
        obtain ⟨g', w⟩ := st
        simp only [Res.ok_bind]
        rcases h with ⟨h1, h2⟩ | h
        · rw [visitAll_outside _ _ h1] at hv
          simp only [Res.ok.injEq, Prod.mk.injEq] at hv
          obtain ⟨rfl, rfl⟩ := hv
          cases fuel <;> simp [traceLoop]
        · obtain ⟨a1, a2, a3, a4, a5⟩ := visitAll_ok (entries := entries) _ hv (by simpa using hi)
          apply ih a1
          by_cases hnew : ∃ q < bytes.length, g.contains q = false ∧ g'.contains q = true
          · obtain ⟨q, q1, q2, q3⟩ := hnew
            refine .inr ?_
            have : missing bytes g' < missing bytes g := by
              refine countP_lt (fun x _ hx => ?_) (List.mem_range.mpr q1) (by simp [q2]) (by simp [q3])
              cases hc : g.contains x with
              | false => rfl
              | true => rw [a2.contains hc] at hx; cases hx
            dsimp only
            omega
          · refine .inl ⟨?_, by omega⟩
            intro t ht
            rcases a4 t ht with hx | ⟨hc, q, hq, i, hqi, hti⟩
            · cases hx
            · apply Decidable.byContradiction
              intro hlt
              have hgq : g.contains q = true := by
                cases hc : g.contains q with
                | true => rfl
                | false => exact absurd ⟨q, hqi.1, hc, a3 q hq hqi.1⟩ hnew
              obtain ⟨j, hj⟩ := Option.isSome_iff_exists.mp hgq
              have hji : j = i := by
                have := (hi.sound q j hj).2
                rw [hqi.2] at this
                simp only [Res.ok.injEq, Option.some.injEq] at this
                exact this.symm
              subst hji
              have hgt : g.contains t = true := by
                rcases hi.closed q j hj t hti (by omega) with hx | hx
                · exact hx
                · cases hcc : g.contains t with
                  | true => rfl
                  | false => exact absurd ⟨t, by omega, hcc, a3 t hx (by omega)⟩ hnew
              rw [hgt] at hc
              cases hc

theorem trace_fine (entries : List Nat) (bytes : List UInt8) :
    trace entries bytes ≠ .loop ∧ trace entries bytes ≠ .panic := by
  apply traceLoop_fine _ (tracing_start bytes entries)
  refine .inr ?_
  have : missing bytes Graph.new ≤ bytes.length := by
    have := List.countP_le_length (p := fun p => !Graph.new.contains p) (l := List.range bytes.length)
    simpa [missing] using this
  omega

end Verif
