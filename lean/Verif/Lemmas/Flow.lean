import Verif.Lemmas.Listing
/-
The targets the tracer follows are where control flows.
-/
namespace Verif
open Verif.Spec

theorem flows_iff {p : Nat} {i : Instr Int Nat} {t : Int} : Flows p i t ↔
    (¬ endsFlow i.form ∧ t = p + i.size) ∨
    (∃ d, (kinds i.form).getLast? = some .r8 ∧ (values i).getLast? = some d ∧ t = p + i.size + d) ∨
    (∃ d, (kinds i.form).getLast? = some .r16 ∧ (values i).getLast? = some d ∧ t = p + i.size - 1 + d) ∨
    (∃ a, kinds i.form = [.a12] ∧ values i = [a] ∧ t = (((p + i.size) % 65536) / 4096 * 4096 : Nat) + a) ∨
    (∃ a, kinds i.form = [.a16] ∧ values i = [a] ∧ t = a) := by
  constructor
  · rintro (h | h)
    · exact .inl h
    · cases h with
      | short h h' => exact .inr (.inl ⟨_, h, h', rfl⟩)
      | long h h' => exact .inr (.inr (.inl ⟨_, h, h', rfl⟩))
      | page h h' => exact .inr (.inr (.inr (.inl ⟨_, h, h', rfl⟩)))
      | far h h' => exact .inr (.inr (.inr (.inr ⟨_, h, h', rfl⟩)))
  · rintro (h | ⟨d, h, h', rfl⟩ | ⟨d, h, h', rfl⟩ | ⟨d, h, h', rfl⟩ | ⟨d, h, h', rfl⟩)
    · exact .inl h
    · exact .inr (.short h h')
    · exact .inr (.long h h')
    · exact .inr (.page h h')
    · exact .inr (.far h h')

theorem rel8_eq {d : Int} {n t : Nat} (h : -128 ≤ d ∧ d < 128) (hn : n < 2147483648) (ht : t < 2147483648) :
    t = rel8 d n ↔ (t : Int) = n + d := by
  unfold rel8 toUsize; omega

theorem rel16_eq {d : Int} {n t : Nat} (h : -32768 ≤ d ∧ d < 32768) (hn : n < 2147483648) (ht : t < 2147483648) :
    t = rel16 d n ↔ (t : Int) = n - 1 + d := by
  unfold rel16 toUsize; omega

theorem abs12_value {a : Int} {n : Nat} (h : 0 ≤ a ∧ a < 4096) :
    (abs12 n a : Int) = ((n % 65536) / 4096 * 4096 : Nat) + a := by
  have h1 : toUsize a % 4096 = a.toNat := by unfold toUsize; omega
  unfold abs12
  rw [and_top, and_low, h1]
  have := Nat.shiftLeft_add_eq_or_of_lt (a := (n % 65536) / 4096) (i := 12) (b := a.toNat) (by omega)
  rw [Nat.shiftLeft_eq] at this
  have e : (2:Nat)^12 = 4096 := rfl
  rw [e] at this
  rw [← this]
  omega

theorem toUsize_far {a : Int} {t : Nat} (h : 0 ≤ a ∧ a < 65536) : t = toUsize a ↔ (t : Int) = a := by
  unfold toUsize; omega

/-- What the tracer follows. -/
theorem mem_targets {p : Nat} {i : Instr Int Nat} {g : Graph} {t : Nat} (hr : InRange i) (hp : p + i.size < 2147483648)
    (ht : t < 2147483648) :
    t ∈ targets p i g ↔ Flows p i t ∧ ¬ (i.form = .Jmpf ∧ g.toFlash p = true) := by
  rw [flows_iff]
  have hpz : ∀ a : Nat, ((p : Int) + a) = ((p + a : Nat) : Int) := fun a => by omega
  cases i
  case Jmpf a =>
    simp only [InRange, kinds, row, Instr.form, values, operands, holdsAll, Kind.holds, List.map_cons, List.map_nil] at hr
    by_cases hf : g.toFlash p = true
    · simp [targets, hf, Instr.form]
    · simp [targets, hf, kinds, row, Instr.form, values, operands, endsFlow, toUsize_far hr.1]
  case Callf a =>
    simp only [InRange, kinds, row, Instr.form, values, operands, holdsAll, Kind.holds, List.map_cons, List.map_nil] at hr
    simp only [targets, kinds, row, Instr.form, values, operands, endsFlow, toUsize_far hr.1, List.mem_cons,
      List.not_mem_nil, or_false, List.map_cons, List.map_nil, List.getLast?_singleton]
    constructor
    · rintro (h | h)
      · exact ⟨.inr (.inr (.inr (.inr ⟨a, by trivial, by trivial, h⟩))), nofun⟩
      · exact ⟨.inl ⟨nofun, by omega⟩, nofun⟩
    · rintro ⟨⟨_, h⟩ | ⟨d, h, _⟩ | ⟨d, h, _⟩ | ⟨d, h, _⟩ | ⟨d, h, h', h''⟩, _⟩
      · exact .inr (by omega)
      · cases h
      · cases h
      · cases h
      · cases h'; exact .inl h''
  case Call a =>
    simp only [InRange, kinds, row, Instr.form, values, operands, holdsAll, Kind.holds, List.map_cons, List.map_nil] at hr
    have := abs12_value (n := p + (Instr.Call a : Instr Int Nat).size) hr.1
    simp only [targets, kinds, row, Instr.form, values, operands, endsFlow, List.mem_cons,
      List.not_mem_nil, or_false, List.map_cons, List.map_nil, List.getLast?_singleton]
    constructor
    · rintro (h | h)
      · exact ⟨.inr (.inr (.inr (.inl ⟨a, by trivial, by trivial, by rw [h, this]⟩))), nofun⟩
      · exact ⟨.inl ⟨nofun, by omega⟩, nofun⟩
    · rintro ⟨⟨_, h⟩ | ⟨d, h, _⟩ | ⟨d, h, _⟩ | ⟨d, _, h', h''⟩ | ⟨d, h, _⟩, _⟩
      · exact .inr (by omega)
      · cases h
      · cases h
      · cases h'; exact .inl (by omega)
      · cases h
  case Jmp a =>
    simp only [InRange, kinds, row, Instr.form, values, operands, holdsAll, Kind.holds, List.map_cons, List.map_nil] at hr
    have := abs12_value (n := p + (Instr.Jmp a : Instr Int Nat).size) hr.1
    simp only [targets, kinds, row, Instr.form, values, operands, endsFlow, List.mem_cons,
      List.not_mem_nil, or_false, List.map_cons, List.map_nil, List.getLast?_singleton]
    constructor
    · rintro h
      exact ⟨.inr (.inr (.inr (.inl ⟨a, by trivial, by trivial, by rw [h, this]⟩))), nofun⟩
    · rintro ⟨⟨h, _⟩ | ⟨d, h, _⟩ | ⟨d, h, _⟩ | ⟨d, _, h', h''⟩ | ⟨d, h, _⟩, _⟩
      · exact absurd trivial h
      · cases h
      · cases h
      · cases h'; omega
      · cases h
  case Callr a =>
    simp only [InRange, kinds, row, Instr.form, values, operands, holdsAll, Kind.holds, List.map_cons, List.map_nil] at hr
    have := rel16_eq hr.1 hp ht
    simp only [targets, kinds, row, Instr.form, values, operands, endsFlow, List.mem_cons,
      List.not_mem_nil, or_false, List.map_cons, List.map_nil, List.getLast?_singleton]
    rw [this]
    constructor
    · rintro (h | h)
      · exact ⟨.inr (.inr (.inl ⟨a, by trivial, by trivial, by omega⟩)), nofun⟩
      · exact ⟨.inl ⟨nofun, by omega⟩, nofun⟩
    · rintro ⟨⟨_, h⟩ | ⟨d, h, _⟩ | ⟨d, _, h', h''⟩ | ⟨d, h, _⟩ | ⟨d, h, _⟩, _⟩
      · exact .inr (by omega)
      · cases h
      · cases h'; exact .inl (by omega)
      · cases h
      · cases h
  case Brf a =>
    simp only [InRange, kinds, row, Instr.form, values, operands, holdsAll, Kind.holds, List.map_cons, List.map_nil] at hr
    have := rel16_eq hr.1 hp ht
    simp only [targets, kinds, row, Instr.form, values, operands, endsFlow, List.mem_cons,
      List.not_mem_nil, or_false, List.map_cons, List.map_nil, List.getLast?_singleton]
    rw [this]
    constructor
    · rintro h
      exact ⟨.inr (.inr (.inl ⟨a, by trivial, by trivial, by omega⟩)), nofun⟩
    · rintro ⟨⟨h, _⟩ | ⟨d, h, _⟩ | ⟨d, _, h', h''⟩ | ⟨d, h, _⟩ | ⟨d, h, _⟩, _⟩
      · exact absurd trivial h
      · cases h
      · cases h'; omega
      · cases h
      · cases h
  case Br a =>
    simp only [InRange, kinds, row, Instr.form, values, operands, holdsAll, Kind.holds, List.map_cons, List.map_nil] at hr
    have := rel8_eq hr.1 hp ht
    simp only [targets, kinds, row, Instr.form, values, operands, endsFlow, List.mem_cons,
      List.not_mem_nil, or_false, List.map_cons, List.map_nil, List.getLast?_singleton]
    rw [this]
    constructor
    · rintro h
      exact ⟨.inr (.inl ⟨a, by trivial, by trivial, by omega⟩), nofun⟩
    · rintro ⟨⟨h, _⟩ | ⟨d, _, h', h''⟩ | ⟨d, h, _⟩ | ⟨d, h, _⟩ | ⟨d, h, _⟩, _⟩
      · exact absurd trivial h
      · cases h'; omega
      · cases h
      · cases h
      · cases h
  case Ret =>
    simp [targets, kinds, row, Instr.form, values, operands, endsFlow]
  case Reti =>
    simp [targets, kinds, row, Instr.form, values, operands, endsFlow]
  case Bz a | Bnz a | Bp _ _ a | Bpc _ _ a | Bn _ _ a | Dbnz_d9 _ a | Dbnz_Ri _ a | Be_i8 _ a | Be_d9 _ a | Be_Rj _ _ a
      | Bne_i8 _ a | Bne_d9 _ a | Bne_Rj _ _ a =>
    simp only [InRange, kinds, row, Instr.form, values, operands, holdsAll, Kind.holds, List.map_cons, List.map_nil] at hr
    have := rel8_eq (d := a) (by omega) hp ht
    simp only [targets, kinds, row, Instr.form, values, operands, endsFlow, List.mem_cons,
      List.not_mem_nil, or_false, List.map_cons, List.map_nil]
    rw [this]
    constructor
    · rintro (h | h)
      · exact ⟨.inr (.inl ⟨a, by trivial, by trivial, by omega⟩), nofun⟩
      · exact ⟨.inl ⟨nofun, by omega⟩, nofun⟩
    · rintro ⟨⟨_, h⟩ | ⟨d, _, h', h''⟩ | ⟨d, h, _⟩ | ⟨d, h, _⟩ | ⟨d, h, _⟩, _⟩
      · exact .inr (by omega)
      · have : a = d := by simpa using h'
        exact .inl (by omega)
      · cases h
      · cases h
      · cases h
  all_goals
    simp only [targets, kinds, row, Instr.form, endsFlow, List.mem_cons, List.not_mem_nil, or_false, List.map_cons,
      List.map_nil]
    constructor
    · intro h
      exact ⟨.inl ⟨nofun, by omega⟩, nofun⟩
    · rintro ⟨⟨_, h⟩ | ⟨d, h, _⟩ | ⟨d, h, _⟩ | ⟨d, h, _⟩ | ⟨d, h, _⟩, _⟩
      · omega
      · cases h
      · cases h
      · cases h
      · cases h

theorem abs12_usize {n : Nat} {b : Int} (hb : 0 ≤ b ∧ b < 4096) :
    abs12 n b = toUsize ((n % 65536 / 4096 * 4096 : Nat) + b) := by
  have h1 := abs12_value (n := n) hb
  have h2 : n % 65536 / 4096 * 4096 < 65536 := by omega
  generalize n % 65536 / 4096 * 4096 = x at h1 h2 ⊢
  generalize abs12 n b = y at h1 ⊢
  unfold toUsize
  omega

/-- A label is for a target. -/
theorem labelFor_target {g : Graph} {p : Nat} {i : Instr Int Nat} {a : Nat} (h : labelFor g p i = some a)
    (hr : InRange i) :
    (∃ t, Target p i t ∧ a = toUsize t) ∧ ¬ (i.form = .Jmpf ∧ g.toFlash p = true) := by
  cases i
  case Jmpf b =>
    simp only [labelFor] at h
    split at h
    · cases h
    · rename_i hf
      cases h
      exact ⟨⟨b, .far rfl rfl, rfl⟩, fun h => hf h.2⟩
  case Callf b => cases h; exact ⟨⟨b, .far rfl rfl, rfl⟩, nofun⟩
  case Jmp b | Call b =>
    simp only [InRange, kinds, row, Instr.form, values, operands, holdsAll, Kind.holds, List.map_cons, List.map_nil] at hr
    simp only [labelFor, Option.some.injEq] at h
    refine ⟨⟨_, .page rfl rfl, ?_⟩, nofun⟩
    rw [← h]
    exact abs12_usize hr.1
  case Callr b | Brf b =>
    cases h
    refine ⟨⟨_, .long rfl (d := b) rfl, ?_⟩, nofun⟩
    unfold rel16
    congr 1
    omega
  case Br b | Bz b | Bnz b | Bp _ _ b | Bpc _ _ b | Bn _ _ b | Dbnz_d9 _ b | Dbnz_Ri _ b | Be_i8 _ b | Be_d9 _ b
      | Be_Rj _ _ b | Bne_i8 _ b | Bne_d9 _ b | Bne_Rj _ _ b =>
    cases h
    refine ⟨⟨_, .short rfl (d := b) rfl, ?_⟩, nofun⟩
    unfold rel8
    congr 1
    omega
  all_goals cases h

end Verif
