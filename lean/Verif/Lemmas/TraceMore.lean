import Verif.Lemmas.LiftEval
/-
More about tracing: only reachable positions are traced, errors, and the number of positions visited.
-/
namespace Verif
open Verif.Spec

theorem flows_instr {bytes : List UInt8} {p : Nat} {i : Instr Int Nat} (h : InstrAt bytes p i)
    (hlen : bytes.length < 2147483644) : p + i.size < 2147483648 := by
  have := h.1
  have := (Props.C03_size i).2.2.1
  omega

theorem visitAll_err {bytes : List UInt8} : ∀ {locs : List Nat} {st : Graph × List Nat} {e : Err},
    visitAll bytes locs st = .err e →
    ∃ p ∈ locs, p < bytes.length ∧ decode (bytes.drop p) = .ok none ∧ e = .noInstruction p (bytes.getD p 0).toNat := by
  intro locs
  induction locs with
  | nil => intro st e h; cases h
  | cons p locs ih =>
    intro st e h
    rcases Res.bind_eq_err.mp h with h | ⟨s, _, h⟩
    · refine ⟨p, by simp, ?_⟩
      unfold visit at h
      split at h
      · cases h
      · rename_i hl
        rcases Res.bind_eq_err.mp h with h | ⟨d, hd, h⟩
        · exfalso
          have hne : bytes.drop p ≠ [] := by simp; omega
          obtain ⟨b, bs, hb⟩ := List.exists_cons_of_ne_nil hne
          obtain ⟨f, hf, _⟩ := form_unique b
          have := decode_of_opcode b bs f hf
          rw [← hb] at this
          split at this
          · obtain ⟨i, hi, _⟩ := this
            rw [hi] at h; cases h
          · rw [this] at h; cases h
        · cases d with
          | some i => cases h
          | none =>
            simp only [Res.err.injEq] at h
            exact ⟨by omega, hd, h.symm⟩
    · obtain ⟨q, hq, h'⟩ := ih h
      exact ⟨q, by simp [hq], h'⟩

/-- All that is in the graph or waiting can be reached. -/
def OnlyReached (entries : List Nat) (bytes : List UInt8) (g : Graph) (locs : List Nat) : Prop :=
  (∀ p, g.contains p = true → Reached entries bytes p) ∧ ∀ p ∈ locs, p < bytes.length → Reached entries bytes p

theorem visitAll_reached {entries : List Nat} {bytes : List UInt8} (hlen : bytes.length < 2147483644) {g g' : Graph}
    {locs w : List Nat} (h : visitAll bytes locs (g, []) = .ok (g', w)) (hi : Tracing bytes entries g locs)
    (hr : OnlyReached entries bytes g locs) : OnlyReached entries bytes g' w := by
  obtain ⟨a1, a2, a3, a4, a5⟩ := visitAll_ok (entries := entries) _ h (by simpa using hi)
  refine ⟨fun p hp => ?_, fun t ht hlt => ?_⟩
  · rcases a5 p hp with hx | hx
    · exact hr.1 p hx
    · obtain ⟨i, hi⟩ := Option.isSome_iff_exists.mp hp
      exact hr.2 p hx (a1.sound p i hi).1
  · rcases a4 t ht with hx | ⟨_, p, hp, i, hpi, hti⟩
    · cases hx
    · have := (mem_targets (decode_inRange hpi.2) (flows_instr hpi hlen) (by omega)).mp hti
      exact .flow (hr.2 p hp hpi.1) hpi this.1 hlt

theorem traceLoop_reached {entries : List Nat} {bytes : List UInt8} (hlen : bytes.length < 2147483644) :
    ∀ (fuel : Nat) {g : Graph} {locs : List Nat}, Tracing bytes entries g locs → OnlyReached entries bytes g locs →
    (∀ g', traceLoop bytes fuel g locs = .ok g' → ∀ p, g'.contains p = true → Reached entries bytes p) ∧
    (∀ e, traceLoop bytes fuel g locs = .err e → ∃ p, Reached entries bytes p ∧ p < bytes.length ∧
      decode (bytes.drop p) = .ok none ∧ e = .noInstruction p (bytes.getD p 0).toNat) := by
  intro fuel
  induction fuel with
  | zero =>
    intro g locs hi hr
    cases locs with
    | nil =>
      simp only [traceLoop, Res.ok.injEq]
      exact ⟨fun g' h => h ▸ hr.1, nofun⟩
    | cons => exact ⟨nofun, nofun⟩
  | succ fuel ih =>
    intro g locs hi hr
    cases locs with
    | nil =>
      simp only [traceLoop, Res.ok.injEq]
      exact ⟨fun g' h => h ▸ hr.1, nofun⟩
    | cons p locs =>
      simp only [traceLoop]
      cases hv : visitAll bytes (p :: locs) (g, []) with
      | panic => exact ⟨nofun, nofun⟩
      | loop => exact ⟨nofun, nofun⟩
      | err e =>
        simp only [Res.err_bind]
        refine ⟨nofun, fun e' h => ?_⟩
        cases h
        obtain ⟨q, hq, h1, h2⟩ := visitAll_err hv
        exact ⟨q, hr.2 q hq h1, h1, h2⟩
      | ok st =>
        obtain ⟨g', w⟩ := st
        simp only [Res.ok_bind]
        exact ih (visitAll_ok (entries := entries) _ hv (by simpa using hi)).1 (visitAll_reached hlen hv hi hr)

theorem onlyReached_start (entries : List Nat) (bytes : List UInt8) : OnlyReached entries bytes Graph.new entries :=
  ⟨fun p h => by simp [Graph.new, Graph.contains, Graph.get] at h, fun _ hp h => .entry hp h⟩

theorem emits_ordered {flag : Bool} {entries : List Nat} {bytes : List UInt8} {g : Graph} {names : DNames}
    {pos : Nat} {w : Nat → Bool} {out : List DStmt} (h : Emits flag entries bytes g names pos w out) :
    out.Pairwise fun a b => ∀ p q, Content a p → Content b q → p < q := by
  have hminor : ∀ d : DStmt, d.minor → ∀ p, ¬ Content d p := by
    rintro d hd p ⟨_, ⟨i, hi⟩ | ⟨bs, hb⟩⟩
    · exact (hd i []).1 hi
    · exact (hd .Nop bs).2 hb
  have hpre : ∀ (A l : List DStmt), (∀ d ∈ A, d.minor) →
      l.Pairwise (fun a b => ∀ p q, Content a p → Content b q → p < q) →
      (A ++ l).Pairwise fun a b => ∀ p q, Content a p → Content b q → p < q := by
    intro A l hA hl
    rw [List.pairwise_append]
    refine ⟨?_, hl, fun a ha b _ p q hp => absurd hp (hminor a (hA a ha) p)⟩
    rw [List.pairwise_iff_forall_sublist]
    intro a b hab p q hp
    exact absurd hp (hminor a (hA a (hab.subset (by simp))) p)
  have hge : ∀ {pos w out}, Emits flag entries bytes g names pos w out → ∀ d ∈ out, ∀ q, Content d q → pos ≤ q := by
    intro pos w out h d hd q hq
    rcases emits_major h d hd with hm | ⟨p, i, l, h1, _, _, h2, _⟩ | ⟨p, h1, _, _, rfl⟩
    · exact absurd hq (hminor d hm q)
    · have := hq.1
      rw [h2] at this
      cases this
      exact h1
    · have := hq.1
      cases this
      exact h1
  induction h with
  | done => exact .nil
  | @instr pos w i l rest hl hi h1 h2 ih =>
    refine hpre _ _ ?_ (.cons ?_ ih)
    · intro d hd
      simp only [List.append_assoc, List.mem_append] at hd
      rcases hd with hd | hd | hd | hd
      · exact entryPart_minor d hd
      · exact afterData_minor d hd
      · exact labelPart_minor d hd
      · exact overlapPart_minor d hd
    · intro d hd p q hp hq
      have := hge h2 d hd q hq
      have := hp.1
      cases this
      omega
  | @bytes pos w rest hl hi hm hz h2 ih =>
    refine hpre _ _ ?_ (.cons ?_ ih)
    · intro d hd
      simp only [List.mem_append] at hd
      rcases hd with hd | hd
      · exact entryPart_minor d hd
      · exact beforeData_minor d hd
    · intro d hd p q hp hq
      have h3 := hge h2 d hd q hq
      have := hp.1
      cases this
      have := (chunk_spec (bytes := bytes) hl hm).1
      omega
  | zeros hl hi hm hz _ ih => exact hpre _ _ entryPart_minor ih
  | inside hl hi hm _ ih => exact hpre _ _ entryPart_minor ih

theorem holdsAll_getLast : ∀ {ks : List Kind} {vs : List Int} {k : Kind} {v : Int}, holdsAll ks vs →
    ks.getLast? = some k → vs.getLast? = some v → k.holds v := by
  intro ks
  induction ks with
  | nil => intro vs k v _ h; cases h
  | cons k' ks ih =>
    intro vs k v h hk hv
    cases vs with
    | nil => cases hv
    | cons v' vs =>
      cases ks with
      | nil =>
        cases vs with
        | nil => simp at hk hv; subst hk hv; exact h.1
        | cons => exact h.2.elim
      | cons k2 ks =>
        cases vs with
        | nil => exact h.2.elim
        | cons v2 vs =>
          rw [List.getLast?_cons_cons] at hk hv
          exact ih h.2 hk hv

/-- All entries of the list in the graph are in the binary. -/
def SoundList (bytes : List UInt8) (g : Graph) : Prop := ∀ p i, (p, i) ∈ g.instrs → InstrAt bytes p i

theorem visitAll_soundList {bytes : List UInt8} : ∀ {locs : List Nat} {st st' : Graph × List Nat},
    visitAll bytes locs st = .ok st' → SoundList bytes st.1 → SoundList bytes st'.1 := by
  intro locs
  induction locs with
  | nil => intro st st' h hs; simp only [visitAll, Res.ok.injEq] at h; exact h ▸ hs
  | cons p locs ih =>
    intro st st' h hs
    obtain ⟨s, h1, h2⟩ := Res.bind_eq_ok.mp h
    refine ih h2 ?_
    rcases visit_ok h1 with ⟨_, rfl⟩ | ⟨i, a1, a2, _⟩
    · exact hs
    · intro q j hq
      rw [a2] at hq
      rcases List.mem_cons.mp hq with hq | hq
      · cases hq; exact a1
      · exact hs q j hq

theorem traceLoop_soundList {bytes : List UInt8} : ∀ (fuel : Nat) {g g' : Graph} {locs : List Nat},
    traceLoop bytes fuel g locs = .ok g' → SoundList bytes g → SoundList bytes g' := by
  intro fuel
  induction fuel with
  | zero =>
    intro g g' locs h hs
    cases locs with
    | nil => simp only [traceLoop, Res.ok.injEq] at h; exact h ▸ hs
    | cons => cases h
  | succ fuel ih =>
    intro g g' locs h hs
    cases locs with
    | nil => simp only [traceLoop, Res.ok.injEq] at h; exact h ▸ hs
    | cons p locs =>
      simp only [traceLoop] at h
      obtain ⟨st, h1, h2⟩ := Res.bind_eq_ok.mp h
      exact ih h2 (visitAll_soundList h1 hs)

theorem mem_sound {bytes : List UInt8} {entries : List Nat} {g : Graph} (h : trace entries bytes = .ok g) {p : Nat}
    {i : Instr Int Nat} (hm : (p, i) ∈ g.instrs) : InstrAt bytes p i :=
  traceLoop_soundList _ h (fun p i h => by simp [Graph.new] at h) p i hm

/-! The number of positions waiting can double in each round. -/

/-- `k` rounds of the tracer. -/
def rounds (bytes : List UInt8) : Nat → Graph × List Nat → Res (Graph × List Nat)
  | 0, st => .ok st
  | k + 1, st => do
    let (g, locs) ← rounds bytes k st
    visitAll bytes locs (g, [])

/-- A binary of branches to the next instruction. -/
def branches (n : Nat) : List UInt8 := (List.replicate n [0x80, 0x00]).flatten

theorem branches_length (n : Nat) : (branches n).length = 2 * n := by
  simp [branches, List.length_flatten, Nat.mul_comm]

theorem branches_drop (n k : Nat) (h : k < n) : ∃ rest, (branches n).drop (2 * k) = 0x80 :: 0x00 :: rest := by
  have : branches n = branches k ++ branches (n - k) := by
    unfold branches
    rw [← List.flatten_append, List.replicate_append_replicate]
    congr 2
    omega
  rw [this, ← branches_length k, List.drop_left]
  obtain ⟨m, hm⟩ : ∃ m, n - k = m + 1 := ⟨n - k - 1, by omega⟩
  rw [hm]
  exact ⟨branches m, by simp [branches, List.replicate_succ]⟩

theorem visitAll_branches {n k : Nat} (h : k < n) (hn : 2 * n < 2147483640) : ∀ (c : Nat) (g : Graph) (w : List Nat),
    (∀ p, g.contains p = true → p ≤ 2 * k) →
    ∃ g', visitAll (branches n) (List.replicate c (2 * k)) (g, w) = .ok (g', w ++ List.replicate (2 * c) (2 * (k + 1))) ∧
      ∀ p, g'.contains p = true → p ≤ 2 * k := by
  intro c
  induction c with
  | zero => intro g w hg; exact ⟨g, by simp [visitAll], hg⟩
  | succ c ih =>
    intro g w hg
    have hd : decode ((branches n).drop (2 * k)) = .ok (some (.Bz 0)) := by
      obtain ⟨rest, hr⟩ := branches_drop n k h
      rw [hr]
      have := decode_encode (.Bz 0) rest (by simp [InRange, kinds, row, Instr.form, values, operands, holdsAll, Kind.holds])
      exact this
    have hs : (Instr.Bz 0 : Instr Int Nat).size = 2 := by decide
    have ht : targets (2 * k) (.Bz 0) g = [2 * (k + 1), 2 * (k + 1)] := by
      have : rel8 0 (2 * k + 2) = 2 * (k + 1) := by unfold rel8 toUsize; omega
      simp only [targets, hs, this]
      congr 2
    have hl : ¬ (branches n).length ≤ 2 * k := by rw [branches_length]; omega
    have hv : visit (branches n) (2 * k) (g, w) =
        .ok (((targets (2 * k) (.Bz 0) g).foldl (fun g t => g.jumpTo (2 * k) t) g).instr (2 * k) (.Bz 0),
          w ++ [2 * (k + 1), 2 * (k + 1)]) := by
      simp only [visit, hl, ↓reduceIte, hd, Res.ok_bind, ht]
      have hc : (((List.foldl (fun g t => g.jumpTo (2 * k) t) g [2 * (k + 1), 2 * (k + 1)]).instr (2 * k)
          (Instr.Bz 0)).contains (2 * (k + 1))) = false := by
        simp only [Graph.contains, Graph.get_instr]
        rw [if_neg (by omega)]
        simp only [Graph.get, (foldl_jumpTo _ _ _).1]
        cases hx : g.contains (2 * (k + 1)) with
        | true => have := hg _ hx; omega
        | false => exact hx
      simp only [List.filter_cons, hc, List.filter_nil, Bool.not_false, ↓reduceIte]
    simp only [List.replicate_succ, visitAll, hv, Res.ok_bind]
    obtain ⟨g', h1, h2⟩ := ih (((targets (2 * k) (.Bz 0) g).foldl (fun g t => g.jumpTo (2 * k) t) g).instr (2 * k) (.Bz 0))
      (w ++ [2 * (k + 1), 2 * (k + 1)]) (by
        intro p hp
        simp only [Graph.contains, Graph.get_instr] at hp
        split at hp
        · omega
        · simp only [Graph.get, (foldl_jumpTo _ _ _).1] at hp
          exact hg p hp)
    refine ⟨g', ?_, h2⟩
    rw [h1, List.append_assoc]
    have : 2 * (c + 1) = 2 * c + 1 + 1 := by omega
    rw [this, List.replicate_succ, List.replicate_succ]
    rfl

theorem rounds_branches {n : Nat} (hn : 2 * n < 2147483640) : ∀ k ≤ n,
    ∃ g, rounds (branches n) k (Graph.new, [0]) = .ok (g, List.replicate (2 ^ k) (2 * k)) ∧
      ∀ p, g.contains p = true → p + 2 ≤ 2 * k := by
  intro k
  induction k with
  | zero => intro _; exact ⟨Graph.new, rfl, fun p h => by simp [Graph.new, Graph.contains, Graph.get] at h⟩
  | succ k ih =>
    intro hk
    obtain ⟨g, h1, h2⟩ := ih (by omega)
    obtain ⟨g', h3, h4⟩ := visitAll_branches (k := k) (by omega) hn (2 ^ k) g [] (fun p hp => by have := h2 p hp; omega)
    refine ⟨g', ?_, fun p hp => by have := h4 p hp; omega⟩
    simp only [rounds, h1, Res.ok_bind, h3]
    rw [List.nil_append, Nat.pow_succ, Nat.mul_comm]

end Verif
