import Verif.Spec.Stderr
import Verif.Lemmas.TraceMore
import Verif.Lemmas.Command
import Verif.Lemmas.DataIncludes
import Verif.Lemmas.Located.Messages
/-
What `disassemble`, `icon` and `vmi` say on the standard error.
-/
namespace Verif
open Verif.Spec

theorem asPosition_nat {n : Nat} (h : n < 18446744073709551616) : asPosition n = n := by unfold asPosition; omega

theorem rel8_position (a : Int) (p s : Nat) : rel8 a (p + s) = asPosition ((p : Int) + s + a) := by
  have : a + ((p + s : Nat) : Int) = (p : Int) + s + a := by omega
  unfold rel8 toUsize asPosition
  rw [this]

theorem rel16_position (a : Int) (p s : Nat) : rel16 a (p + s) = asPosition ((p : Int) + s - 1 + a) := by
  have : a + ((p + s : Nat) : Int) - 1 = (p : Int) + s - 1 + a := by omega
  unfold rel16 toUsize asPosition
  rw [this]

/-- What the tracer follows, also outside of the binary. -/
theorem mem_targets_all {p : Nat} {i : Instr Int Nat} {g : Graph} {q : Nat} (hr : InRange i) (hp : p + i.size < 2147483648) :
    q ∈ targets p i g ↔ (∃ t, Flows p i t ∧ q = asPosition t) ∧ ¬ (i.form = .Jmpf ∧ g.toFlash p = true) := by
  have hn : asPosition ((p : Int) + i.size) = p + i.size := by unfold asPosition; omega
  simp only [flows_iff]
  cases i
  case Jmpf a =>
    simp only [InRange, kinds, row, Instr.form, values, operands, holdsAll, Kind.holds, List.map_cons, List.map_nil] at hr
    by_cases hf : g.toFlash p = true
    · simp [targets, hf, Instr.form]
    · simp [targets, hf, kinds, row, Instr.form, values, operands, endsFlow, asPosition, toUsize]
  case Callf a =>
    simp only [targets, kinds, row, Instr.form, values, operands, endsFlow, List.mem_cons,
      List.not_mem_nil, or_false, List.map_cons, List.map_nil, List.getLast?_singleton]
    constructor
    · rintro (h | h)
      · exact ⟨⟨a, .inr (.inr (.inr (.inr ⟨a, by trivial, by trivial, rfl⟩))), h⟩, nofun⟩
      · exact ⟨⟨_, .inl ⟨nofun, rfl⟩, by rw [h, hn]⟩, nofun⟩
    · rintro ⟨⟨t, ⟨_, rfl⟩ | ⟨d, h, _⟩ | ⟨d, h, _⟩ | ⟨d, h, _⟩ | ⟨d, h, h', rfl⟩, hq⟩, _⟩
      · exact .inr (by rw [hq, hn])
      · cases h
      · cases h
      · cases h
      · cases h'; exact .inl hq
  case Call a =>
    simp only [InRange, kinds, row, Instr.form, values, operands, holdsAll, Kind.holds, List.map_cons, List.map_nil] at hr
    have hc := abs12_usize (n := p + (Instr.Call a : Instr Int Nat).size) hr.1
    simp only [targets, kinds, row, Instr.form, values, operands, endsFlow, List.mem_cons,
      List.not_mem_nil, or_false, List.map_cons, List.map_nil, List.getLast?_singleton]
    constructor
    · rintro (h | h)
      · exact ⟨⟨_, .inr (.inr (.inr (.inl ⟨a, by trivial, by trivial, rfl⟩))), by rw [h, hc]; rfl⟩, nofun⟩
      · exact ⟨⟨_, .inl ⟨nofun, rfl⟩, by rw [h, hn]⟩, nofun⟩
    · rintro ⟨⟨t, ⟨_, rfl⟩ | ⟨d, h, _⟩ | ⟨d, h, _⟩ | ⟨d, _, h', rfl⟩ | ⟨d, h, _⟩, hq⟩, _⟩
      · exact .inr (by rw [hq, hn])
      · cases h
      · cases h
      · cases h'; exact .inl (by rw [hq, hc]; rfl)
      · cases h
  case Jmp a =>
    simp only [InRange, kinds, row, Instr.form, values, operands, holdsAll, Kind.holds, List.map_cons, List.map_nil] at hr
    have hc := abs12_usize (n := p + (Instr.Jmp a : Instr Int Nat).size) hr.1
    simp only [targets, kinds, row, Instr.form, values, operands, endsFlow, List.mem_cons,
      List.not_mem_nil, or_false, List.map_cons, List.map_nil, List.getLast?_singleton]
    constructor
    · rintro h
      exact ⟨⟨_, .inr (.inr (.inr (.inl ⟨a, by trivial, by trivial, rfl⟩))), by rw [h, hc]; rfl⟩, nofun⟩
    · rintro ⟨⟨t, ⟨h, _⟩ | ⟨d, h, _⟩ | ⟨d, h, _⟩ | ⟨d, _, h', rfl⟩ | ⟨d, h, _⟩, hq⟩, _⟩
      · exact absurd trivial h
      · cases h
      · cases h
      · cases h'; rw [hq, hc]; rfl
      · cases h
  case Callr a =>
    simp only [targets, kinds, row, Instr.form, values, operands, endsFlow, List.mem_cons,
      List.not_mem_nil, or_false, List.map_cons, List.map_nil, List.getLast?_singleton]
    have hc := rel16_position a p (Instr.Callr a : Instr Int Nat).size
    constructor
    · rintro (h | h)
      · exact ⟨⟨_, .inr (.inr (.inl ⟨a, by trivial, by trivial, rfl⟩)), by rw [h, hc]⟩, nofun⟩
      · exact ⟨⟨_, .inl ⟨nofun, rfl⟩, by rw [h, hn]⟩, nofun⟩
    · rintro ⟨⟨t, ⟨_, rfl⟩ | ⟨d, h, _⟩ | ⟨d, _, h', rfl⟩ | ⟨d, h, _⟩ | ⟨d, h, _⟩, hq⟩, _⟩
      · exact .inr (by rw [hq, hn])
      · cases h
      · cases h'; exact .inl (by rw [hq, hc])
      · cases h
      · cases h
  case Brf a =>
    simp only [targets, kinds, row, Instr.form, values, operands, endsFlow, List.mem_cons,
      List.not_mem_nil, or_false, List.map_cons, List.map_nil, List.getLast?_singleton]
    have hc := rel16_position a p (Instr.Brf a : Instr Int Nat).size
    constructor
    · rintro h
      exact ⟨⟨_, .inr (.inr (.inl ⟨a, by trivial, by trivial, rfl⟩)), by rw [h, hc]⟩, nofun⟩
    · rintro ⟨⟨t, ⟨h, _⟩ | ⟨d, h, _⟩ | ⟨d, _, h', rfl⟩ | ⟨d, h, _⟩ | ⟨d, h, _⟩, hq⟩, _⟩
      · exact absurd trivial h
      · cases h
      · cases h'; rw [hq, hc]
      · cases h
      · cases h
  case Br a =>
    simp only [targets, kinds, row, Instr.form, values, operands, endsFlow, List.mem_cons,
      List.not_mem_nil, or_false, List.map_cons, List.map_nil, List.getLast?_singleton]
    have hc := rel8_position a p (Instr.Br a : Instr Int Nat).size
    constructor
    · rintro h
      exact ⟨⟨_, .inr (.inl ⟨a, by trivial, by trivial, rfl⟩), by rw [h, hc]⟩, nofun⟩
    · rintro ⟨⟨t, ⟨h, _⟩ | ⟨d, _, h', rfl⟩ | ⟨d, h, _⟩ | ⟨d, h, _⟩ | ⟨d, h, _⟩, hq⟩, _⟩
      · exact absurd trivial h
      · cases h'; rw [hq, hc]
      · cases h
      · cases h
      · cases h
  case Ret =>
    simp [targets, kinds, row, Instr.form, values, operands, endsFlow]
  case Reti =>
    simp [targets, kinds, row, Instr.form, values, operands, endsFlow]
  case Bz a | Bnz a | Bp _ _ a | Bpc _ _ a | Bn _ _ a | Dbnz_d9 _ a | Dbnz_Ri _ a | Be_i8 _ a | Be_d9 _ a | Be_Rj _ _ a
      | Bne_i8 _ a | Bne_d9 _ a | Bne_Rj _ _ a =>
    simp only [targets, kinds, row, Instr.form, values, operands, endsFlow, List.mem_cons,
      List.not_mem_nil, or_false, List.map_cons, List.map_nil]
    rw [rel8_position]
    constructor
    · rintro (h | h)
      · exact ⟨⟨_, .inr (.inl ⟨a, by trivial, by trivial, rfl⟩), h⟩, nofun⟩
      · exact ⟨⟨_, .inl ⟨nofun, rfl⟩, by rw [h, hn]⟩, nofun⟩
    · rintro ⟨⟨t, ⟨_, rfl⟩ | ⟨d, _, h', rfl⟩ | ⟨d, h, _⟩ | ⟨d, h, _⟩ | ⟨d, h, _⟩, hq⟩, _⟩
      · exact .inr (by rw [hq, hn])
      · have : a = d := by simpa using h'
        subst this
        exact .inl hq
      · cases h
      · cases h
      · cases h
  all_goals
    simp only [targets, kinds, row, Instr.form, endsFlow, List.mem_cons, List.not_mem_nil, or_false, List.map_cons,
      List.map_nil]
    constructor
    · intro h
      exact ⟨⟨_, .inl ⟨nofun, rfl⟩, by rw [h, hn]⟩, nofun⟩
    · rintro ⟨⟨t, ⟨_, rfl⟩ | ⟨d, h, _⟩ | ⟨d, h, _⟩ | ⟨d, h, _⟩ | ⟨d, h, _⟩, hq⟩, _⟩
      · rw [hq, hn]
      · cases h
      · cases h
      · cases h
      · cases h

/-! The positions that are reported -/

theorem visitNotes_eq (bytes : List UInt8) : ∀ (locs : List Nat) (st : Graph × List Nat),
    (visitNotes bytes locs st).2 = visitAll bytes locs st := by
  intro locs
  induction locs with
  | nil => intro st; rfl
  | cons pos locs ih =>
    intro st
    simp only [visitNotes, visitAll]
    cases visit bytes pos st with
    | ok st' => exact ih st'
    | err e => rfl
    | panic => rfl
    | loop => rfl

theorem traceLoopNotes_eq (bytes : List UInt8) : ∀ (fuel : Nat) (g : Graph) (locs : List Nat),
    (traceLoopNotes bytes fuel g locs).2 = traceLoop bytes fuel g locs := by
  intro fuel
  induction fuel with
  | zero => intro g locs; cases locs <;> rfl
  | succ fuel ih =>
    intro g locs
    cases locs with
    | nil => rfl
    | cons p locs =>
      have hv := visitNotes_eq bytes (p :: locs) (g, [])
      simp only [traceLoopNotes, traceLoop]
      rw [← hv]
      generalize visitNotes bytes (p :: locs) (g, []) = r
      obtain ⟨ns, r⟩ := r
      cases r with
      | ok st => exact ih st.1 st.2
      | err e => rfl
      | panic => rfl
      | loop => rfl

theorem traceNotes_eq (entries : List Nat) (bytes : List UInt8) : (traceNotes entries bytes).2 = trace entries bytes :=
  traceLoopNotes_eq _ _ _ _

theorem visitNotes_mem {bytes : List UInt8} : ∀ {locs : List Nat} {st : Graph × List Nat} {q : Nat},
    q ∈ (visitNotes bytes locs st).1 → q ∈ locs ∧ bytes.length < q := by
  intro locs
  induction locs with
  | nil => intro st q h; cases h
  | cons pos locs ih =>
    intro st q h
    have hnote : ∀ {q}, q ∈ (if pos > bytes.length then [pos] else []) → q ∈ pos :: locs ∧ bytes.length < q := by
      intro q hq
      split at hq
      · next hl =>
        rw [List.mem_singleton] at hq
        subst hq
        exact ⟨by simp, hl⟩
      · cases hq
    simp only [visitNotes] at h
    generalize visit bytes pos st = r at h
    cases r with
    | ok st' =>
      rcases List.mem_append.mp h with h1 | h1
      · exact hnote h1
      · obtain ⟨a, b⟩ := ih h1
        exact ⟨by simp [a], b⟩
    | err e => exact hnote h
    | panic => exact hnote h
    | loop => exact hnote h

/-- A position that is an entry point, or where control can go from a reachable one. -/
def Pointed (entries : List Nat) (bytes : List UInt8) (q : Nat) : Prop :=
  q ∈ entries ∨ ∃ p i t, Reached entries bytes p ∧ InstrAt bytes p i ∧ Flows p i t ∧ q = asPosition t

theorem traceLoopNotes_pointed {entries : List Nat} {bytes : List UInt8} (hlen : bytes.length < 2147483644) :
    ∀ (fuel : Nat) {g : Graph} {locs : List Nat}, Tracing bytes entries g locs → OnlyReached entries bytes g locs →
    (∀ q ∈ locs, Pointed entries bytes q) →
    ∀ q ∈ (traceLoopNotes bytes fuel g locs).1, bytes.length < q ∧ Pointed entries bytes q := by
  intro fuel
  induction fuel with
  | zero => intro g locs _ _ _ q h; cases locs <;> cases h
  | succ fuel ih =>
    intro g locs hi hr hj q h
    cases locs with
    | nil => cases h
    | cons p locs =>
      have hv := visitNotes_eq bytes (p :: locs) (g, [])
      have hm := fun q => @visitNotes_mem bytes (p :: locs) (g, []) q
      simp only [traceLoopNotes] at h
      generalize visitNotes bytes (p :: locs) (g, []) = r at h hv hm
      obtain ⟨ns, r⟩ := r
      have hns : ∀ {q}, q ∈ ns → bytes.length < q ∧ Pointed entries bytes q := fun hq => ⟨(hm _ hq).2, hj _ (hm _ hq).1⟩
      cases r with
      | ok st =>
        obtain ⟨g', w⟩ := st
        rcases List.mem_append.mp h with h1 | h1
        · exact hns h1
        · have hv' := hv.symm
          obtain ⟨a1, a2, a3, a4, a5⟩ := visitAll_ok (entries := entries) _ hv' (by simpa using hi)
          refine ih a1 (visitAll_reached hlen hv' hi hr) (fun t ht => ?_) q h1
          rcases a4 t ht with hx | ⟨_, p', hp', i, hpi, hti⟩
          · cases hx
          · obtain ⟨⟨z, hz, hq⟩, -⟩ := (mem_targets_all (decode_inRange hpi.2) (flows_instr hpi hlen)).mp hti
            exact .inr ⟨p', i, z, hr.2 p' hp' hpi.1, hpi, hz, hq⟩
      | err e => exact hns h
      | panic => exact hns h
      | loop => exact hns h

theorem traceLoop_le {bytes : List UInt8} {entries : List Nat} : ∀ (fuel : Nat) {g g' : Graph} {locs : List Nat},
    traceLoop bytes fuel g locs = .ok g' → Tracing bytes entries g locs → g.le g' := by
  intro fuel
  induction fuel with
  | zero =>
    intro g g' locs h hi
    cases locs with
    | nil => simp only [traceLoop, Res.ok.injEq] at h; subst h; exact .refl _
    | cons => cases h
  | succ fuel ih =>
    intro g g' locs h hi
    cases locs with
    | nil => simp only [traceLoop, Res.ok.injEq] at h; subst h; exact .refl _
    | cons p locs =>
      simp only [traceLoop] at h
      obtain ⟨st, h1, h2⟩ := Res.bind_eq_ok.mp h
      obtain ⟨a1, a2, -⟩ := visitAll_ok (entries := entries) _ h1 (by simpa using hi)
      exact a2.trans (ih h2 a1)

/-- A position that is an entry point, or where control can go from an instruction of the graph. -/
def PointedFrom (entries : List Nat) (bytes : List UInt8) (g : Graph) (q : Nat) : Prop :=
  q ∈ entries ∨ ∃ p i t, g.contains p = true ∧ InstrAt bytes p i ∧ Flows p i t ∧ q = asPosition t

theorem PointedFrom.mono {entries : List Nat} {bytes : List UInt8} {g g' : Graph} (hle : g.le g') {q : Nat}
    (h : PointedFrom entries bytes g q) : PointedFrom entries bytes g' q :=
  h.imp id fun ⟨p, i, t, h1, h2⟩ => ⟨p, i, t, hle.contains h1, h2⟩

theorem traceLoopNotes_from {entries : List Nat} {bytes : List UInt8} (hlen : bytes.length < 2147483644) :
    ∀ (fuel : Nat) {g g' : Graph} {locs : List Nat}, traceLoop bytes fuel g locs = .ok g' → Tracing bytes entries g locs →
    (∀ q ∈ locs, PointedFrom entries bytes g q) →
    ∀ q ∈ (traceLoopNotes bytes fuel g locs).1, PointedFrom entries bytes g' q := by
  intro fuel
  induction fuel with
  | zero => intro g g' locs _ _ _ q h; cases locs <;> cases h
  | succ fuel ih =>
    intro g gf locs hok hi hj q h
    have hle := traceLoop_le _ hok hi
    cases locs with
    | nil => cases h
    | cons p locs =>
      have hv := visitNotes_eq bytes (p :: locs) (g, [])
      have hm := fun q => @visitNotes_mem bytes (p :: locs) (g, []) q
      simp only [traceLoop] at hok
      obtain ⟨st, h1, h2⟩ := Res.bind_eq_ok.mp hok
      obtain ⟨g', w⟩ := st
      rw [h1] at hv
      simp only [traceLoopNotes] at h
      generalize visitNotes bytes (p :: locs) (g, []) = r at h hv hm
      obtain ⟨ns, r⟩ := r
      cases hv
      rcases List.mem_append.mp h with h3 | h3
      · exact (hj _ (hm _ h3).1).mono hle
      · obtain ⟨a1, a2, a3, a4, a5⟩ := visitAll_ok (entries := entries) _ h1 (by simpa using hi)
        refine ih h2 a1 (fun t ht => ?_) q h3
        rcases a4 t ht with hx | ⟨_, p', hp', i, hpi, hti⟩
        · cases hx
        · obtain ⟨⟨z, hz, hq⟩, -⟩ := (mem_targets_all (decode_inRange hpi.2) (flows_instr hpi hlen)).mp hti
          exact .inr ⟨p', i, z, a3 p' hp' hpi.1, hpi, hz, hq⟩

/-- Positions beyond the end are reported or waiting. -/
structure Told (bytes : List UInt8) (entries : List Nat) (g : Graph) (waiting told : List Nat) : Prop where
  closed : ∀ p i, g.get p = some i → ∀ t ∈ targets p i g, bytes.length < t → t ∈ told ∨ t ∈ waiting
  entries : ∀ e ∈ entries, bytes.length < e → e ∈ told ∨ e ∈ waiting

theorem visit_told {bytes : List UInt8} {entries : List Nat} {pos : Nat} {locs told : List Nat} {st st' : Graph × List Nat}
    (h : visit bytes pos st = .ok st') (hs : Sound bytes st.1) (hi : Told bytes entries st.1 (pos :: locs ++ st.2) told) :
    Told bytes entries st'.1 (locs ++ st'.2) (told ++ if pos > bytes.length then [pos] else []) := by
  obtain ⟨hle, hs'⟩ := visit_le h hs
  rcases visit_ok h with ⟨hl, rfl⟩ | ⟨i, h1, h2, h3, h4⟩
  · have hw : ∀ t, bytes.length < t → t ∈ told ∨ t ∈ pos :: locs ++ st'.2 →
        t ∈ told ++ (if pos > bytes.length then [pos] else []) ∨ t ∈ locs ++ st'.2 := by
      rintro t ht (hm | hm)
      · exact .inl (by simp [hm])
      · rcases List.mem_cons.mp (List.cons_append ▸ hm) with rfl | hm
        · exact .inl (by simp [ht])
        · exact .inr (by simpa using hm)
    exact ⟨fun p i hp t ht hlt => hw t hlt (hi.closed p i hp t ht hlt), fun e he hlt => hw e hlt (hi.entries e he hlt)⟩
  · have hw : ∀ t, bytes.length < t → t ∈ told ∨ t ∈ pos :: locs ++ st.2 →
        t ∈ told ++ (if pos > bytes.length then [pos] else []) ∨ t ∈ locs ++ st'.2 := by
      rintro t ht (hm | hm)
      · exact .inl (by simp [hm])
      · rcases List.mem_cons.mp (List.cons_append ▸ hm) with rfl | hm
        · exact .inl (by simp [ht])
        · refine .inr ?_
          rw [h4]
          rcases List.mem_append.mp hm with hm | hm
          · simp [hm]
          · simp [hm]
    refine ⟨fun p j hp t ht hlt => ?_, fun e he hlt => hw e hlt (hi.entries e he hlt)⟩
    have ht' := targets_antitone hle p j t ht
    rw [get_cons h2] at hp
    split at hp
    · next he =>
      subst he
      cases hp
      have hc : st'.1.contains t = false := by
        cases hc : st'.1.contains t with
        | false => rfl
        | true =>
          obtain ⟨k, hk⟩ := Option.isSome_iff_exists.mp hc
          have := (hs' t k hk).1
          omega
      refine .inr ?_
      rw [h4]
      simp [ht', hc]
    · exact hw t hlt (hi.closed p j hp t ht' hlt)

theorem visitNotes_told {bytes : List UInt8} {entries : List Nat} : ∀ (locs : List Nat) {st st' : Graph × List Nat} {told : List Nat},
    visitAll bytes locs st = .ok st' → Sound bytes st.1 → Told bytes entries st.1 (locs ++ st.2) told →
    Told bytes entries st'.1 st'.2 (told ++ (visitNotes bytes locs st).1) ∧ Sound bytes st'.1 := by
  intro locs
  induction locs with
  | nil =>
    intro st st' told h hs hi
    simp only [visitAll, Res.ok.injEq] at h
    subst h
    exact ⟨by simpa [visitNotes] using hi, hs⟩
  | cons pos locs ih =>
    intro st st' told h hs hi
    obtain ⟨s1, h1, h2⟩ := Res.bind_eq_ok.mp h
    have hi1 := visit_told h1 hs hi
    obtain ⟨a1, a2⟩ := ih h2 (visit_le h1 hs).2 hi1
    refine ⟨?_, a2⟩
    simp only [visitNotes, h1]
    rw [← List.append_assoc]
    exact a1

theorem traceLoopNotes_told {bytes : List UInt8} {entries : List Nat} : ∀ (fuel : Nat) {g g' : Graph} {locs told : List Nat},
    traceLoop bytes fuel g locs = .ok g' → Sound bytes g → Told bytes entries g locs told →
    Told bytes entries g' [] (told ++ (traceLoopNotes bytes fuel g locs).1) := by
  intro fuel
  induction fuel with
  | zero =>
    intro g g' locs told h hs hi
    cases locs with
    | nil => simp only [traceLoop, Res.ok.injEq] at h; subst h; simpa [traceLoopNotes] using hi
    | cons => cases h
  | succ fuel ih =>
    intro g g' locs told h hs hi
    cases locs with
    | nil => simp only [traceLoop, Res.ok.injEq] at h; subst h; simpa [traceLoopNotes] using hi
    | cons p locs =>
      simp only [traceLoop] at h
      obtain ⟨st, h1, h2⟩ := Res.bind_eq_ok.mp h
      obtain ⟨a1, a2⟩ := visitNotes_told (entries := entries) _ h1 hs (by simpa using hi)
      have hv := (visitNotes_eq bytes (p :: locs) (g, [])).trans h1
      simp only [traceLoopNotes]
      generalize visitNotes bytes (p :: locs) (g, []) = r at hv a1
      obtain ⟨ns, r⟩ := r
      cases hv
      have := ih h2 a2 a1
      rw [List.append_assoc] at this
      exact this

theorem told_start (bytes : List UInt8) (entries : List Nat) : Told bytes entries Graph.new entries [] := by
  refine ⟨?_, fun e he _ => .inr he⟩
  intro p i h
  simp [Graph.new, Graph.get] at h

/-- Everything that is reported is beyond the end, and control can go there. -/
theorem traceNotes_pointed {entries : List Nat} {bytes : List UInt8} (hlen : bytes.length < 2147483644) {q : Nat}
    (h : q ∈ (traceNotes entries bytes).1) : bytes.length < q ∧ Pointed entries bytes q :=
  traceLoopNotes_pointed hlen _ (tracing_start bytes entries) (onlyReached_start entries bytes) (fun _ h => .inl h) q h

theorem traceNotes_from {entries : List Nat} {bytes : List UInt8} (hlen : bytes.length < 2147483644) {g : Graph}
    (h : trace entries bytes = .ok g) {q : Nat} (hq : q ∈ (traceNotes entries bytes).1) : PointedFrom entries bytes g q :=
  traceLoopNotes_from hlen _ h (tracing_start bytes entries) (fun _ h => .inl h) q hq

/-- All positions beyond the end are reported. -/
theorem traceNotes_told {entries : List Nat} {bytes : List UInt8} {g : Graph} (h : trace entries bytes = .ok g) :
    Told bytes entries g [] (traceNotes entries bytes).1 := by
  have := traceLoopNotes_told (entries := entries) (told := []) _ h (tracing_start bytes entries).sound (told_start bytes entries)
  simpa [traceNotes] using this

/-! The messages for icons -/

theorem comment_prints (t : Text) : ∃ u, Stmt.print (.comment t) = .ok u := by
  rw [Stmt.print.eq_def]
  dsimp only
  split
  · exact ⟨_, rfl⟩
  · split <;> exact ⟨_, rfl⟩

theorem iconText_no_err (args : List Text) (ss : List Stmt) (e : Err) : iconText args ss ≠ .err e := by
  intro ht
  unfold iconText at ht
  obtain ⟨u, h1⟩ := comment_prints "NOTE: This file was generated by the waterbear assembler:".toList
  obtain ⟨u', h2⟩ := comment_prints (joinWith " ".toList args)
  rw [h1, Res.ok_bind, h2, Res.ok_bind] at ht
  rcases Res.bind_eq_err.mp ht with h3 | ⟨c, -, h3⟩
  · exact Located.print_no_err _ _ h3
  · cases h3

theorem colours_text (why path : Text) (n : Nat) : iconErrorText why (.invalidPaletteSize path n 16) =
    "[ERROR] Too many colors in ".toList ++ path ++ ": ".toList ++ digitsOf 10 n ++ ". Must be 16 or less.\n".toList := by
  have h1 : "[ERROR] Too many colors in ".toList = "[ERROR]".toList ++ " ".toList ++ "Too many colors in ".toList := by decide +kernel
  have h2 : ". Must be 16 or less.\n".toList = ". Must be ".toList ++ digitsOf 10 16 ++ " or less.\n".toList := by decide +kernel
  unfold iconErrorText
  dsimp only
  rw [h1, h2]
  simp only [List.append_assoc]

theorem size_text (why path : Text) : iconErrorText why (.invalidIconSize path 32 32) =
    "[ERROR] Image ".toList ++ path ++ " is the wrong size. It should be 32x32.\n".toList := by
  have h1 : "[ERROR] Image ".toList = "[ERROR]".toList ++ " ".toList ++ "Image ".toList := by decide +kernel
  have h2 : " is the wrong size. It should be 32x32.\n".toList =
    " is the wrong size. It should be ".toList ++ digitsOf 10 32 ++ "x".toList ++ digitsOf 10 32 ++ ".\n".toList := by decide +kernel
  unfold iconErrorText
  dsimp only
  rw [h1, h2]
  simp only [List.append_assoc]

theorem eyecatch_text (why path : Text) : iconErrorText why (.invalidIconSize path 72 56) =
    "[ERROR] Image ".toList ++ path ++ " is the wrong size. It should be 72x56.\n".toList := by
  have h1 : "[ERROR] Image ".toList = "[ERROR]".toList ++ " ".toList ++ "Image ".toList := by decide +kernel
  have h2 : " is the wrong size. It should be 72x56.\n".toList =
    " is the wrong size. It should be ".toList ++ digitsOf 10 72 ++ "x".toList ++ digitsOf 10 56 ++ ".\n".toList := by decide +kernel
  unfold iconErrorText
  dsimp only
  rw [h1, h2]
  simp only [List.append_assoc]

theorem load_text {why : Text} {x : Err} {t : Text} (h : LoadSays why x t) : iconErrorText why x = t := by
  have h1 : "\n\n".toList = "\n".toList ++ "\n".toList := by decide +kernel
  cases h <;> unfold iconErrorText <;> dsimp only <;> rw [h1] <;> simp only [List.append_assoc]

/-! `vmi` -/

theorem putDescription_no_err (vms : List UInt8) (offset : Nat) : ∀ (l : List Nat) (r : Res (List UInt8)), (∀ e, r ≠ .err e) → ∀ e,
    l.foldl (fun r idx => do
      let bs ← r
      match vms[offset + 0x10 + idx]? with
      | some b => .ok (bs.set (0x4 + idx) b)
      | none => .panic) r ≠ .err e := by
  intro l
  induction l with
  | nil => intro r h; exact h
  | cons idx l ih =>
    intro r h
    refine ih _ fun e he => ?_
    rcases Res.bind_eq_err.mp he with h1 | ⟨bs, -, h1⟩
    · exact h e h1
    · split at h1 <;> cases h1

theorem vmiCommand_no_err (vms : List UInt8) (path copyright : Text) (game : Bool) (now : ClockTime) (e : Err) :
    vmiCommand vms path copyright game now ≠ .err e := by
  intro h
  unfold vmiCommand generateVmi at h
  rcases Res.bind_eq_err.mp h with h1 | ⟨_, -, h1⟩
  · refine putDescription_no_err _ _ _ _ (fun e he => ?_) e h1
    cases he
  · cases h1

end Verif
