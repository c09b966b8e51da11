import Verif.Lemmas.Located.Highlight
import Verif.Lemmas.WrongArgs
import Verif.Model.Located.Messages
import Verif.Spec.Messages
/-
Helper lemmas about messages.
-/
namespace Verif.Located
open Verif.Spec Verif.Spec.Places Verif.Spec.Messages

theorem decimal_signed (v : Int) : decimalText v = signed v := by
  unfold decimalText signed
  cases v with
  | ofNat n =>
    rw [if_neg (by simp), digits_number]
    rfl
  | negSucc n =>
    rw [if_pos (by simp), digits_number]
    show '-' :: number _ = ("-" ++ (n + 1).repr).toList
    rw [String.toList_append]
    rfl

theorem digits_hex (n : Nat) : digitsOf 16 n = hex n := by
  have key : ∀ fuel n, n ≤ fuel → digitsLoop 16 fuel n = (Nat.toDigits 16 n).map Char.toUpper := by
    have hd : ∀ d, d < 16 → digitChar d = d.digitChar.toUpper := by decide
    intro fuel
    induction fuel with
    | zero => intro n h; rw [show n = 0 by omega]; decide
    | succ fuel ih =>
      intro n h
      unfold digitsLoop
      split
      next h1 => rw [Nat.toDigits_of_lt_base h1, hd n h1]; rfl
      next h1 =>
        rw [Nat.toDigits_of_base_le (by decide) (by omega), ih _ (by omega), hd _ (Nat.mod_lt _ (by decide)), List.map_append]
        rfl
  exact key n n (Nat.le_refl n)

theorem digits_bits (n : Nat) : digitsOf 2 n = Nat.toDigits 2 n := by
  have key : ∀ fuel n, n ≤ fuel → digitsLoop 2 fuel n = Nat.toDigits 2 n := by
    have hd : ∀ d, d < 2 → digitChar d = d.digitChar := by decide
    intro fuel
    induction fuel with
    | zero => intro n h; rw [show n = 0 by omega]; decide
    | succ fuel ih =>
      intro n h
      unfold digitsLoop
      split
      next h1 => rw [Nat.toDigits_of_lt_base h1, hd n h1]
      next h1 =>
        rw [Nat.toDigits_of_base_le (by decide) (by omega), ih _ (by omega), hd _ (Nat.mod_lt _ (by decide))]
  exact key n n (Nat.le_refl n)

theorem zeroPad_leftpad (k : Nat) (t : Text) : zeroPad k t = t.leftpad k '0' := rfl

set_option maxRecDepth 10000 in
set_option maxHeartbeats 4000000 in
/-- What is in front of the first place -/
theorem opening_says {word why : Text} {e : Err} {s gaps} (h : explanation word why e = some (s, gaps)) :
    opening word why e = fill s.toList gaps ++ "\n\n".toList ++ ((headings e).headD "").toList := by
  delta explanation at h
  delta opening headings
  cases e <;> dsimp only at h ⊢ <;> cases h <;>
    (try simp only [hexText, hexText4, digits_number, decimal_signed, digits_hex, digits_bits, zeroPad_leftpad,
        toU32, hex4, nibble]) <;>
    simp [fill]

theorem closing_says (e : Err) (h : ∀ n, e = .wrongInstructionArgs n → ∃ forms, wrongForms.lookup n = some forms) :
    closing e = ending e := by
  cases e with
  | wrongInstructionArgs n =>
    obtain ⟨forms, hf⟩ := h n rfl
    simp only [closing, ending, hf, Option.getD_some, wrongArgs_message hf]
  | _ => rfl

/-- The number of places -/
def Place.count : Place → Nat
  | .nowhere => 0
  | .spans _ _ => 2
  | _ => 1

theorem highlighted_count {m : Mode} {seg : Seg} {sf : SourceFiles} {e : Error} {ts : List Text}
    (h : highlighted m seg sf e = .ok ts) : ts.length = e.place.count := by
  unfold highlighted at h
  cases hp : e.place with
  | nowhere => rw [hp] at h; cases h; rfl
  | spans =>
    rw [hp] at h
    obtain ⟨_, _, h⟩ := Verif.Res.bind_eq_ok.mp h
    obtain ⟨_, _, h⟩ := Verif.Res.bind_eq_ok.mp h
    cases h; rfl
  | _ =>
    rw [hp] at h
    obtain ⟨_, _, h⟩ := Verif.Res.bind_eq_ok.mp h
    cases h; rfl

/-- The error can be explained, and there is a heading for each place. -/
def Explained (e : Err) (p : Place) : Prop :=
  (∀ word why, ∃ x, explanation word why e = some x) ∧ (p.count ≠ 2 → headings e = [""]) ∧
  (p.count = 2 → (headings e).length = 2) ∧ ∀ n, e = .wrongInstructionArgs n → Mnemonic n

theorem placeless_explained {e : Err} (h : Placeless e) : Explained e .nowhere := by
  cases h <;> exact ⟨fun _ _ => ⟨_, rfl⟩, fun _ => rfl, nofun, nofun⟩

theorem misfit_explained {e : Err} {s : Span} (h : Misfit e) : Explained e (.span s) := by
  cases h <;> exact ⟨fun _ _ => ⟨_, rfl⟩, fun _ => rfl, nofun, nofun⟩

theorem badCharacter_explained {seg : Seg} {f : SourceFile} {e : Err} {p : Place} (h : BadCharacter seg f e p) : Explained e p := by
  obtain ⟨_, _, _, h1, h2, _⟩ := h
  rw [h1, h2]
  exact ⟨fun _ _ => ⟨_, rfl⟩, fun _ => rfl, nofun, nofun⟩

theorem blames_explained {all : List Token} {load : Text → Verif.Res Image} (hl : LoadErrors load) {e : Err} {p : Place}
    (h : Blames all load e p) : Explained e p := by
  cases h with
  | misfit h => exact misfit_explained h
  | nowhere h => exact placeless_explained h
  | image h =>
    obtain ⟨file, rfl | rfl⟩ := hl _ _ h <;> exact ⟨fun _ _ => ⟨_, rfl⟩, fun _ => rfl, nofun, nofun⟩
  | nameAlreadyExists => exact ⟨fun _ _ => ⟨_, rfl⟩, fun h => absurd rfl h, fun _ => rfl, nofun⟩
  | macroAlreadyExists => exact ⟨fun _ _ => ⟨_, rfl⟩, fun h => absurd rfl h, fun _ => rfl, nofun⟩
  | wrongInstructionArgs _ _ hm =>
    exact ⟨fun _ _ => ⟨_, rfl⟩, fun _ => rfl, nofun, fun n hn => by cases hn; exact hm⟩
  | _ => exact ⟨fun _ _ => ⟨_, rfl⟩, fun _ => rfl, nofun, nofun⟩

theorem headings_two {e : Err} (h : (headings e).length = 2) :
    (∃ n, e = .nameAlreadyExists n) ∨ ∃ n k, e = .macroAlreadyExists n k := by
  cases e with
  | nameAlreadyExists => exact .inl ⟨_, rfl⟩
  | macroAlreadyExists => exact .inr ⟨_, _, rfl⟩
  | _ => change 1 = 2 at h; exact absurd h (by decide)

/-- What is printed is the message with the highlighted places. -/
theorem printError_message {m : Mode} {seg : Seg} {sf : SourceFiles} {e : Err} {p : Place} {ts : List Text} (word why : Text)
    (hx : Explained e p) (h : highlighted m seg sf ⟨e, p⟩ = .ok ts) :
    ∃ t, printError m seg sf word why ⟨e, p⟩ = .ok t ∧ Message word why e ts t := by
  have hc := highlighted_count h
  obtain ⟨h1, h2, h3, h4⟩ := hx
  obtain ⟨⟨s, gaps⟩, he⟩ := h1 word why
  have hop := opening_says he
  have hcl := closing_says e fun n hn => by
    obtain ⟨f, rfl⟩ := h4 n hn
    exact lookup_forms
  unfold printError
  rw [h, Verif.Res.ok_bind]
  match ts, hc with
  | [], hc =>
    have hh := h2 (by rw [← hc]; decide)
    refine ⟨_, rfl, s, gaps, he, .inl rfl, ?_⟩
    rw [hop, hcl, hh]
    simp
  | [t], hc =>
    have hh := h2 (by rw [← hc]; simp)
    refine ⟨_, rfl, s, gaps, he, .inr (by rw [hh]; rfl), ?_⟩
    rw [hop, hcl, hh]
    simp
  | [t, t'], hc =>
    have hh := h3 hc.symm
    refine ⟨_, rfl, s, gaps, he, .inr hh.symm, ?_⟩
    dsimp only
    rw [hop, hcl]
    rcases headings_two hh with ⟨n, rfl⟩ | ⟨n, k, rfl⟩ <;> simp [between, headings]
  | _ :: _ :: _ :: _, hc =>
    simp only [List.length_cons] at hc
    cases p <;> simp [Place.count] at hc

/-! ### Expanding -/

theorem print_no_err (ss : List Verif.Stmt) (e : Err) : printStatements ss ≠ .err e := by
  have h0 : ∀ bs e, escapeString bs ≠ .err e := by
    intro bs e; unfold escapeString; split <;> nofun
  have h1 : ∀ (v : Verif.ByteValue) e, v.print ≠ .err e := by
    intro v e h
    cases v with
    | expr => cases h
    | str bs =>
      rcases Verif.Res.bind_eq_err.mp h with h | ⟨_, _, h⟩
      · exact h0 _ _ h
      · cases h
  have h2 : ∀ (vs : List Verif.ByteValue) e, printBytes vs ≠ .err e := by
    intro vs
    induction vs with
    | nil => intro e h; cases h
    | cons v vs ih =>
      intro e h
      rcases Verif.Res.bind_eq_err.mp h with h | ⟨_, _, h⟩
      · exact h1 _ _ h
      rcases Verif.Res.bind_eq_err.mp h with h | ⟨_, _, h⟩
      · exact ih _ h
      · cases h
  have h3 : ∀ (d : Verif.Directive) e, d.print ≠ .err e := by
    intro d e h
    cases d with
    | byte vs =>
      rcases Verif.Res.bind_eq_err.mp h with h | ⟨_, _, h⟩
      · exact h2 _ _ h
      · cases h
    | text n bs =>
      rcases Verif.Res.bind_eq_err.mp h with h | ⟨_, _, h⟩
      · exact h0 _ _ h
      · cases h
    | string n bs =>
      rcases Verif.Res.bind_eq_err.mp h with h | ⟨_, _, h⟩
      · exact h0 _ _ h
      · cases h
    | incl t path =>
      cases t with
      | icon speed eyecatch =>
        rcases Verif.Res.bind_eq_err.mp h with h | ⟨_, _, h⟩
        · match speed, eyecatch, h with
          | none, some b, h =>
            rcases Verif.Res.bind_eq_err.mp h with h | ⟨_, _, h⟩
            · exact h1 _ _ h
            · cases h
          | some _, some b, h =>
            rcases Verif.Res.bind_eq_err.mp h with h | ⟨_, _, h⟩
            · exact h1 _ _ h
            · cases h
        · cases h
      | _ => cases h
    | _ => cases h
  have h4 : ∀ (s : Verif.Stmt) e, s.print ≠ .err e := by
    intro s e h
    cases s with
    | dir d => exact h3 _ _ h
    | comment t =>
      simp only [Verif.Stmt.print] at h
      split at h
      · cases h
      · split at h <;> cases h
    | _ => cases h
  have h5 : ∀ (ss : List Verif.Stmt) e, printEach ss ≠ .err e := by
    intro ss
    induction ss with
    | nil => intro e h; cases h
    | cons v vs ih =>
      intro e h
      rcases Verif.Res.bind_eq_err.mp h with h | ⟨_, _, h⟩
      · exact h4 _ _ h
      rcases Verif.Res.bind_eq_err.mp h with h | ⟨_, _, h⟩
      · exact ih _ h
      · cases h
  intro h
  rcases Verif.Res.bind_eq_err.mp h with h | ⟨_, _, h⟩
  · exact h5 _ _ h
  · cases h

end Verif.Located
