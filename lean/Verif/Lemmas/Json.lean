import Verif.Spec.Json
import Verif.Lemmas.Command
/-
Lemmas about JSON texts.
-/
namespace Verif
open Verif.Spec Verif.Spec.Json

/-! What is written is JSON. -/

theorem digits_json (n : Nat) : Decimal (digitsOf 10 n) n ∧ ((digitsOf 10 n).head? = some '0' → digitsOf 10 n = "0".toList) := by
  have key : ∀ fuel n, n ≤ fuel → Decimal (digitsLoop 10 fuel n) n ∧
      ((digitsLoop 10 fuel n).head? = some '0' → digitsLoop 10 fuel n = "0".toList) ∧ digitsLoop 10 fuel n ≠ [] ∧
      (0 < n → (digitsLoop 10 fuel n).head? ≠ some '0') := by
    have hd : ∀ d, d < 10 → digitChar d = d.digitChar := by decide
    have h0 : ∀ d, d < 10 → d.digitChar = '0' → d = 0 := by decide
    intro fuel
    induction fuel with
    | zero => intro n h; rw [show n = 0 by omega]; exact ⟨Decimal.one (d := 0) (by decide), fun _ => rfl, nofun, nofun⟩
    | succ fuel ih =>
      intro n h
      unfold digitsLoop
      split
      next h1 =>
        rw [hd n h1]
        refine ⟨.one h1, ?_, nofun, ?_⟩
        · intro h2
          have := h0 n h1 (by simpa using h2)
          subst this; rfl
        · intro h2 h3
          have := h0 n h1 (by simpa using h3)
          omega
      next h1 =>
        obtain ⟨g1, g2, g3, g4⟩ := ih (n / 10) (by omega)
        rw [hd _ (Nat.mod_lt _ (by decide))]
        have hdec := Decimal.more g1 (Nat.mod_lt n (by decide : 0 < 10))
        rw [Nat.div_add_mod] at hdec
        have hhead : (digitsLoop 10 fuel (n / 10) ++ [(n % 10).digitChar]).head? = (digitsLoop 10 fuel (n / 10)).head? := by
          cases e : digitsLoop 10 fuel (n / 10) with
          | nil => exact absurd e g3
          | cons => rfl
        rw [hhead]
        have h2 := g4 (by omega)
        exact ⟨hdec, fun h3 => absurd h3 h2, by simp, fun _ => h2⟩
  exact ⟨(key n n (Nat.le_refl n)).1, (key n n (Nat.le_refl n)).2.1⟩

/-- A part of a text writes a value, at any depth. -/
def WritesJson (p : JsonPart) (v : Value) : Prop := ∀ depth, Json (p depth) v

theorem number_json (n : Nat) : WritesJson (jsonNumber n) (.number n) := fun _ => .number (digits_json n).1 (digits_json n).2

theorem white_nil : White [] := nofun

theorem white_break (pretty : Bool) (depth : Nat) : White (jsonBreak pretty depth) := by
  unfold jsonBreak
  split
  · intro c hc
    rcases List.mem_cons.mp hc with rfl | hc
    · exact .inr (.inr (.inl rfl))
    · exact .inl (List.eq_of_mem_replicate hc)
  · exact white_nil

theorem items_json (pretty : Bool) {ps : List JsonPart} {vs : List Value} (h : EachLine WritesJson ps vs) (hne : ps ≠ []) (depth : Nat) :
    ∀ w, White w → Items (joinWith ",".toList (ps.map fun item => jsonBreak pretty (depth + 1) ++ item (depth + 1)) ++ w) vs := by
  intro w hw
  induction h with
  | nil => exact absurd rfl hne
  | @cons p v ps vs hp h ih =>
    cases h with
    | nil => exact .last (white_break _ _) (hp _) hw
    | @cons p' v' ps vs hp' h =>
      have := Items.more (white_break pretty (depth + 1)) (hp (depth + 1)) white_nil (ih nofun)
      simpa [joinWith] using this

theorem array_json (pretty : Bool) {ps : List JsonPart} {vs : List Value} (h : EachLine WritesJson ps vs) :
    WritesJson (jsonArray pretty ps) (.array vs) := by
  intro depth
  by_cases hne : ps = []
  · subst hne; cases h; exact .nothing white_nil
  · have := Json.array (items_json pretty h hne depth _ (white_break pretty depth))
    unfold jsonArray jsonItems
    rw [if_neg hne]
    exact this

theorem fields_json (pretty : Bool) {ps : List (Text × JsonPart)} {vs : List (Text × Value)}
    (h : EachLine (fun p v => p.1 = v.1 ∧ PlainName p.1 ∧ WritesJson p.2 v.2) ps vs) (hne : ps ≠ []) (depth : Nat) :
    ∀ w, White w → Fields (joinWith ",".toList ((ps.map fun f => jsonField pretty f.1 f.2).map fun item =>
      jsonBreak pretty (depth + 1) ++ item (depth + 1)) ++ w) vs := by
  intro w hw
  have hkey : ∀ k, PlainName k → Key ('"' :: k ++ (if pretty then "\": ".toList else "\":".toList)) k := by
    intro k hk
    refine ⟨hk, [], if pretty then [' '] else [], white_nil, ?_, ?_⟩
    · split
      · intro c hc; exact .inl (by simpa using hc)
      · exact white_nil
    · cases pretty <;> simp
  induction h with
  | nil => exact absurd rfl hne
  | @cons p v ps vs hp h ih =>
    obtain ⟨k, v⟩ := v
    obtain ⟨hk, hpl, hv⟩ := hp
    dsimp only at hk; subst hk
    cases h with
    | nil =>
      have := Fields.last (white_break pretty (depth + 1)) (hkey _ hpl) (hv (depth + 1)) hw
      simpa [joinWith, jsonField] using this
    | @cons p' v' ps vs hp' h =>
      have := Fields.more (white_break pretty (depth + 1)) (hkey _ hpl) (hv (depth + 1)) white_nil (ih nofun)
      simpa [joinWith, jsonField] using this

theorem object_json (pretty : Bool) {ps : List (Text × JsonPart)} {vs : List (Text × Value)}
    (h : EachLine (fun p v => p.1 = v.1 ∧ PlainName p.1 ∧ WritesJson p.2 v.2) ps vs) :
    WritesJson (jsonObject pretty ps) (.object vs) := by
  intro depth
  by_cases hne : ps = []
  · subst hne; cases h; exact .noFields white_nil
  · have := Json.object (fields_json pretty h hne depth _ (white_break pretty depth))
    unfold jsonObject jsonItems
    rw [if_neg (by simpa using hne)]
    exact this

theorem each_map {α β γ : Type} {R : β → γ → Prop} {f : α → β} {g : α → γ} :
    ∀ {l : List α}, (∀ a ∈ l, R (f a) (g a)) → EachLine R (l.map f) (l.map g)
  | [], _ => .nil
  | a :: _, h => .cons (h a (List.mem_cons_self ..)) (each_map fun b hb => h b (List.mem_cons_of_mem _ hb))

theorem plain {k : Text} (h : k.all (fun c => c != '"' && c != '\\' && decide (32 ≤ c.toNat)) = true) : PlainName k := by
  intro c hc
  have := List.all_eq_true.mp h c hc
  simp only [Bool.and_eq_true, bne_iff_ne, decide_eq_true_eq] at this
  exact ⟨this.1.1, this.1.2, this.2⟩

theorem color_json (pretty : Bool) (c : Color) : WritesJson (c.json pretty) (colorValue c) :=
  object_json pretty (.cons ⟨rfl, plain rfl, number_json _⟩ (.cons ⟨rfl, plain rfl, number_json _⟩
    (.cons ⟨rfl, plain rfl, number_json _⟩ (.cons ⟨rfl, plain rfl, number_json _⟩ .nil))))

theorem frame_json (pretty : Bool) (f : Frame) : WritesJson (f.json pretty) (frameValue f) :=
  object_json pretty (.cons ⟨rfl, plain rfl, array_json pretty (.cons (number_json _) (.cons (number_json _) .nil))⟩
    (.cons ⟨rfl, plain rfl, array_json pretty (each_map fun row _ => array_json pretty (each_map fun c _ => color_json pretty c))⟩ .nil))

theorem image_json (pretty : Bool) (i : Image) : WritesJson (i.json pretty) (imageValue i) :=
  object_json pretty (.cons ⟨rfl, plain rfl, array_json pretty (each_map fun f _ => frame_json pretty f)⟩ .nil)

/-! JSON is unambiguous. -/

/-- How a value starts -/
def ValueStart (c : Char) : Prop := c.isDigit = true ∨ c = '[' ∨ c = '{'

theorem json_start {t : Text} {v : Value} (h : Json t v) : ∃ c s, t = c :: s ∧ ValueStart c := by
  cases h with
  | number h _ =>
    obtain ⟨h1, h2, _⟩ := decimal_iff.mp h
    cases t with
    | nil => exact absurd rfl h1
    | cons c s => exact ⟨c, s, rfl, .inl (by simp at h2; exact h2.1)⟩
  | nothing | array => exact ⟨_, _, rfl, .inr (.inl rfl)⟩
  | noFields | object => exact ⟨_, _, rfl, .inr (.inr rfl)⟩

/-- The text does not start with white space. -/
def NoWhite (t : Text) : Prop := ∀ c s, t = c :: s → ¬ (c = ' ' ∨ c = '\t' ∨ c = '\n' ∨ c = '\r')

theorem white_unique : ∀ {w w' s s' : Text}, White w → White w' → NoWhite s → NoWhite s' → w ++ s = w' ++ s' → w = w' ∧ s = s'
  | [], [], _, _, _, _, _, _, h => ⟨rfl, h⟩
  | [], c :: w', s, s', _, hw', hs, _, h => absurd (hw' c (List.mem_cons_self ..)) (hs c (w' ++ s') h)
  | c :: w, [], s, s', hw, _, _, hs', h => absurd (hw c (List.mem_cons_self ..)) (hs' c (w ++ s) h.symm)
  | c :: w, c' :: w', s, s', hw, hw', hs, hs', h => by
    injection h with h1 h2
    obtain ⟨h3, h4⟩ := white_unique (fun c hc => hw c (List.mem_cons_of_mem _ hc)) (fun c hc => hw' c (List.mem_cons_of_mem _ hc)) hs hs' h2
    exact ⟨by rw [h1, h3], h4⟩

theorem noWhite_value {c : Char} {s : Text} (h : ValueStart c) : NoWhite (c :: s) := by
  intro c' s' he
  injection he with he _
  subst he
  rintro (rfl | rfl | rfl | rfl) <;> rcases h with h | h | h <;> revert h <;> decide

theorem noWhite_json {t : Text} {v : Value} (h : Json t v) (r : Text) : NoWhite (t ++ r) := by
  obtain ⟨c, s, rfl, hc⟩ := json_start h
  exact noWhite_value hc

theorem noWhite_char {c : Char} (h : ¬ (c = ' ' ∨ c = '\t' ∨ c = '\n' ∨ c = '\r')) (s : Text) : NoWhite (c :: s) := by
  intro c' s' he
  injection he with he _
  subst he; exact h

/-- The text does not start with a digit. -/
def NoDigit (t : Text) : Prop := ∀ c s, t = c :: s → c.isDigit = false

theorem noDigit_char {c : Char} (h : c.isDigit = false) (s : Text) : NoDigit (c :: s) := by
  intro c' s' he
  injection he with he _
  subst he; exact h

theorem noDigit_white {w s : Text} (hw : White w) (hs : NoDigit s) : NoDigit (w ++ s) := by
  cases w with
  | nil => exact hs
  | cons c w =>
    refine noDigit_char ?_ _
    rcases hw c (List.mem_cons_self ..) with rfl | rfl | rfl | rfl <;> rfl

theorem digits_prefix : ∀ {ds ds' r r' : Text}, ds.all (fun c => c.isDigit) = true → ds'.all (fun c => c.isDigit) = true →
    NoDigit r → NoDigit r' → ds ++ r = ds' ++ r' → ds = ds'
  | [], [], _, _, _, _, _, _, _ => rfl
  | [], c :: ds', r, r', _, h2, h3, _, h => by
    have := h3 c (ds' ++ r') h
    simp [this] at h2
  | c :: ds, [], r, r', h1, _, _, h4, h => by
    have := h4 c (ds ++ r) h.symm
    simp [this] at h1
  | c :: ds, c' :: ds', r, r', h1, h2, h3, h4, h => by
    injection h with e1 e2
    simp only [List.all_cons, Bool.and_eq_true] at h1 h2
    rw [e1, digits_prefix h1.2 h2.2 h3 h4 e2]

theorem key_start {t k : Text} (h : Key t k) : ∃ s, t = '"' :: s := by
  obtain ⟨_, w, w', _, _, rfl⟩ := h
  exact ⟨_, rfl⟩

theorem name_unique : ∀ {k k' s s' : Text}, PlainName k → PlainName k' → k ++ '"' :: s = k' ++ '"' :: s' → k = k' ∧ s = s'
  | [], [], _, _, _, _, h => ⟨rfl, by injection h⟩
  | [], c :: k', _, _, _, h2, h => by
    injection h with h _
    exact absurd h.symm (h2 c (List.mem_cons_self ..)).1
  | c :: k, [], _, _, h1, _, h => by
    injection h with h _
    exact absurd h (h1 c (List.mem_cons_self ..)).1
  | c :: k, c' :: k', s, s', h1, h2, h => by
    injection h with e1 e2
    obtain ⟨h3, h4⟩ := name_unique (fun c hc => h1 c (List.mem_cons_of_mem _ hc)) (fun c hc => h2 c (List.mem_cons_of_mem _ hc)) e2
    exact ⟨by rw [e1, h3], h4⟩

theorem key_unique {t t' k k' s s' : Text} (h : Key t k) (h' : Key t' k') (hs : NoWhite s) (hs' : NoWhite s')
    (he : t ++ s = t' ++ s') : t = t' ∧ k = k' ∧ s = s' := by
  obtain ⟨hk, w, x, hw, hx, rfl⟩ := h
  obtain ⟨hk', w', x', hw', hx', rfl⟩ := h'
  replace he : k ++ '"' :: (w ++ ':' :: (x ++ s)) = k' ++ '"' :: (w' ++ ':' :: (x' ++ s')) := by simpa using he
  have hh := name_unique hk hk' he
  clear he
  obtain ⟨rfl, he⟩ := hh
  have hh := white_unique hw hw' (noWhite_char (by decide) _) (noWhite_char (by decide) _) he
  clear he
  obtain ⟨rfl, he⟩ := hh
  injection he with _ he
  obtain ⟨rfl, rfl⟩ := white_unique hx hx' hs hs' he
  exact ⟨rfl, rfl, rfl⟩

theorem items_start {t : Text} {vs : List Value} (h : Items t vs) : ∃ w x v s, White w ∧ Json x v ∧ t = w ++ (x ++ s) := by
  cases h with
  | @last w t w' v a b c => exact ⟨w, t, v, w', a, b, by simp⟩
  | @more w t w' v ts vs a b c d => exact ⟨w, t, v, w' ++ ',' :: ts, a, b, by simp⟩

theorem fields_start {t : Text} {vs : List (Text × Value)} (h : Fields t vs) : ∃ w x k s, White w ∧ Key x k ∧ t = w ++ (x ++ s) := by
  cases h with
  | @last w key k t w' v a b c d => exact ⟨w, key, k, t ++ w', a, b, by simp⟩
  | @more w key k t w' v ts fs a b c d e => exact ⟨w, key, k, t ++ (w' ++ ',' :: ts), a, b, by simp⟩

mutual
theorem json_unique {t t' : Text} {v v' : Value} (h : Json t v) (h' : Json t' v') {r r' : Text} (hr : NoDigit r) (hr' : NoDigit r')
    (he : t ++ r = t' ++ r') : t = t' ∧ v = v' := by
  have hstart : ∀ {c d : Char} {x y : Text}, c ≠ d → c :: x ≠ d :: y := fun h1 h2 => h1 (by injection h2)
  have hnum : ∀ {ds n x c}, Decimal ds n → c.isDigit = false → ds ++ r ≠ c :: x ∧ ds ++ r' ≠ c :: x := by
    intro ds n x c hd hc
    obtain ⟨h1, h2, _⟩ := decimal_iff.mp hd
    cases ds with
    | nil => exact absurd rfl h1
    | cons d ds =>
      simp only [List.all_cons, Bool.and_eq_true] at h2
      have hne : d ≠ c := by rintro rfl; rw [hc] at h2; exact absurd h2.1 (by decide)
      exact ⟨hstart hne, hstart hne⟩
  cases h with
  | number hd hz =>
    cases h' with
    | number hd' hz' =>
      have := digits_prefix (decimal_iff.mp hd).2.1 (decimal_iff.mp hd').2.1 hr hr' he
      subst this
      have h1 := (decimal_iff.mp hd).2.2
      have h2 := (decimal_iff.mp hd').2.2
      exact ⟨rfl, by rw [← h1, ← h2]⟩
    | nothing | array | noFields | object => exact absurd he (hnum hd (by decide)).1
  | @nothing w hw =>
    cases h' with
    | number hd' _ => exact absurd he.symm (hnum hd' (by decide)).2
    | @nothing w' hw' =>
      replace he : w ++ ']' :: r = w' ++ ']' :: r' := by simpa using he
      obtain ⟨rfl, _⟩ := white_unique hw hw' (noWhite_char (by decide) _) (noWhite_char (by decide) _) he
      exact ⟨rfl, rfl⟩
    | @array t' vs' hi =>
      replace he : w ++ ']' :: r = t' ++ ']' :: r' := by simpa using he
      obtain ⟨w', x, v', s, hw', hx, rfl⟩ := items_start hi
      obtain ⟨c, s', rfl, hc⟩ := json_start hx
      replace he : w ++ ']' :: r = w' ++ c :: (s' ++ (s ++ ']' :: r')) := by simpa using he
      have hh := white_unique hw hw' (noWhite_char (by decide) _) (noWhite_value hc) he
      clear he
      obtain ⟨rfl, he⟩ := hh
      injection he with he _
      subst he
      exact absurd hc (by rintro (h | h | h) <;> revert h <;> decide)
    | noFields | object => exact absurd he (hstart (by decide))
  | @array t vs hi =>
    cases h' with
    | number hd' _ => exact absurd he.symm (hnum hd' (by decide)).2
    | @nothing w' hw' =>
      replace he : w' ++ ']' :: r' = t ++ ']' :: r := by simpa using he.symm
      obtain ⟨w, x, v', s, hw, hx, rfl⟩ := items_start hi
      obtain ⟨c, s', rfl, hc⟩ := json_start hx
      replace he : w' ++ ']' :: r' = w ++ c :: (s' ++ (s ++ ']' :: r)) := by simpa using he
      have hh := white_unique hw' hw (noWhite_char (by decide) _) (noWhite_value hc) he
      clear he
      obtain ⟨rfl, he⟩ := hh
      injection he with he _
      subst he
      exact absurd hc (by rintro (h | h | h) <;> revert h <;> decide)
    | @array t' vs' hi' =>
      replace he : t ++ ']' :: r = t' ++ ']' :: r' := by simpa using he
      obtain ⟨rfl, rfl⟩ := items_unique hi hi' he
      exact ⟨rfl, rfl⟩
    | noFields | object => exact absurd he (hstart (by decide))
  | @noFields w hw =>
    cases h' with
    | number hd' _ => exact absurd he.symm (hnum hd' (by decide)).2
    | @noFields w' hw' =>
      replace he : w ++ '}' :: r = w' ++ '}' :: r' := by simpa using he
      obtain ⟨rfl, _⟩ := white_unique hw hw' (noWhite_char (by decide) _) (noWhite_char (by decide) _) he
      exact ⟨rfl, rfl⟩
    | @object t' vs' hi =>
      replace he : w ++ '}' :: r = t' ++ '}' :: r' := by simpa using he
      obtain ⟨w', x, k, s, hw', hx, rfl⟩ := fields_start hi
      obtain ⟨s', rfl⟩ := key_start hx
      replace he : w ++ '}' :: r = w' ++ '"' :: (s' ++ (s ++ '}' :: r')) := by simpa using he
      have hh := white_unique hw hw' (noWhite_char (by decide) _) (noWhite_char (by decide) _) he
      clear he
      obtain ⟨rfl, he⟩ := hh
      injection he with he _
      exact absurd he (by decide)
    | nothing | array => exact absurd he (hstart (by decide))
  | @object t vs hi =>
    cases h' with
    | number hd' _ => exact absurd he.symm (hnum hd' (by decide)).2
    | @noFields w' hw' =>
      replace he : w' ++ '}' :: r' = t ++ '}' :: r := by simpa using he.symm
      obtain ⟨w, x, k, s, hw, hx, rfl⟩ := fields_start hi
      obtain ⟨s', rfl⟩ := key_start hx
      replace he : w' ++ '}' :: r' = w ++ '"' :: (s' ++ (s ++ '}' :: r)) := by simpa using he
      have hh := white_unique hw' hw (noWhite_char (by decide) _) (noWhite_char (by decide) _) he
      clear he
      obtain ⟨rfl, he⟩ := hh
      injection he with he _
      exact absurd he (by decide)
    | @object t' vs' hi' =>
      replace he : t ++ '}' :: r = t' ++ '}' :: r' := by simpa using he
      obtain ⟨rfl, rfl⟩ := fields_unique hi hi' he
      exact ⟨rfl, rfl⟩
    | nothing | array => exact absurd he (hstart (by decide))
termination_by 2 * t.length
decreasing_by all_goals (subst_vars; first | (simp; done) | (simp; omega) | (simp only [List.length_append]; omega))

theorem items_unique {t t' : Text} {vs vs' : List Value} (h : Items t vs) (h' : Items t' vs') {r r' : Text}
    (he : t ++ ']' :: r = t' ++ ']' :: r') : t = t' ∧ vs = vs' := by
  cases h with
  | @last w x w1 v hw hx hw1 =>
    cases h' with
    | @last w' x' w1' v' hw' hx' hw1' =>
      replace he : w ++ (x ++ (w1 ++ ']' :: r)) = w' ++ (x' ++ (w1' ++ ']' :: r')) := by simpa using he
      have hh := white_unique hw hw' (noWhite_json hx _) (noWhite_json hx' _) he
      clear he
      obtain ⟨rfl, he⟩ := hh
      obtain ⟨rfl, rfl⟩ := json_unique hx hx' (noDigit_white hw1 (noDigit_char (by decide) _)) (noDigit_white hw1' (noDigit_char (by decide) _)) he
      obtain ⟨rfl, _⟩ := white_unique hw1 hw1' (noWhite_char (by decide) _) (noWhite_char (by decide) _) (List.append_cancel_left he)
      exact ⟨rfl, rfl⟩
    | @more w' x' w1' v' ts' vs' hw' hx' hw1' hts' =>
      replace he : w ++ (x ++ (w1 ++ ']' :: r)) = w' ++ (x' ++ (w1' ++ ',' :: (ts' ++ ']' :: r'))) := by simpa using he
      have hh := white_unique hw hw' (noWhite_json hx _) (noWhite_json hx' _) he
      clear he
      obtain ⟨rfl, he⟩ := hh
      obtain ⟨rfl, rfl⟩ := json_unique hx hx' (noDigit_white hw1 (noDigit_char (by decide) _)) (noDigit_white hw1' (noDigit_char (by decide) _)) he
      have hh := white_unique hw1 hw1' (noWhite_char (by decide) _) (noWhite_char (by decide) _) (List.append_cancel_left he)
      clear he
      obtain ⟨rfl, he⟩ := hh
      injection he with he _
      exact absurd he (by decide)
  | @more w x w1 v ts vs hw hx hw1 hts =>
    cases h' with
    | @last w' x' w1' v' hw' hx' hw1' =>
      replace he : w ++ (x ++ (w1 ++ ',' :: (ts ++ ']' :: r))) = w' ++ (x' ++ (w1' ++ ']' :: r')) := by simpa using he
      have hh := white_unique hw hw' (noWhite_json hx _) (noWhite_json hx' _) he
      clear he
      obtain ⟨rfl, he⟩ := hh
      obtain ⟨rfl, rfl⟩ := json_unique hx hx' (noDigit_white hw1 (noDigit_char (by decide) _)) (noDigit_white hw1' (noDigit_char (by decide) _)) he
      have hh := white_unique hw1 hw1' (noWhite_char (by decide) _) (noWhite_char (by decide) _) (List.append_cancel_left he)
      clear he
      obtain ⟨rfl, he⟩ := hh
      injection he with he _
      exact absurd he (by decide)
    | @more w' x' w1' v' ts' vs' hw' hx' hw1' hts' =>
      replace he : w ++ (x ++ (w1 ++ ',' :: (ts ++ ']' :: r))) = w' ++ (x' ++ (w1' ++ ',' :: (ts' ++ ']' :: r'))) := by simpa using he
      have hh := white_unique hw hw' (noWhite_json hx _) (noWhite_json hx' _) he
      clear he
      obtain ⟨rfl, he⟩ := hh
      obtain ⟨rfl, rfl⟩ := json_unique hx hx' (noDigit_white hw1 (noDigit_char (by decide) _)) (noDigit_white hw1' (noDigit_char (by decide) _)) he
      have hh := white_unique hw1 hw1' (noWhite_char (by decide) _) (noWhite_char (by decide) _) (List.append_cancel_left he)
      clear he
      obtain ⟨rfl, he⟩ := hh
      injection he with _ he
      obtain ⟨rfl, rfl⟩ := items_unique hts hts' he
      exact ⟨rfl, rfl⟩
termination_by 2 * t.length + 1
decreasing_by all_goals (subst_vars; first | (simp; done) | (simp; omega) | (simp only [List.length_append]; omega))

theorem fields_unique {t t' : Text} {vs vs' : List (Text × Value)} (h : Fields t vs) (h' : Fields t' vs') {r r' : Text}
    (he : t ++ '}' :: r = t' ++ '}' :: r') : t = t' ∧ vs = vs' := by
  have quote : ∀ {x k : Text} (_ : Key x k) (s : Text), NoWhite (x ++ s) := by
    intro x k hx s
    obtain ⟨s', rfl⟩ := key_start hx
    exact noWhite_char (by decide) _
  cases h with
  | @last w key k x w1 v hw hk hx hw1 =>
    cases h' with
    | @last w' key' k' x' w1' v' hw' hk' hx' hw1' =>
      replace he : w ++ (key ++ (x ++ (w1 ++ '}' :: r))) = w' ++ (key' ++ (x' ++ (w1' ++ '}' :: r'))) := by simpa using he
      have hh := white_unique hw hw' (quote hk _) (quote hk' _) he
      clear he
      obtain ⟨rfl, he⟩ := hh
      have hh := key_unique hk hk' (noWhite_json hx _) (noWhite_json hx' _) he
      clear he
      obtain ⟨rfl, rfl, he⟩ := hh
      obtain ⟨rfl, rfl⟩ := json_unique hx hx' (noDigit_white hw1 (noDigit_char (by decide) _)) (noDigit_white hw1' (noDigit_char (by decide) _)) he
      obtain ⟨rfl, _⟩ := white_unique hw1 hw1' (noWhite_char (by decide) _) (noWhite_char (by decide) _) (List.append_cancel_left he)
      exact ⟨rfl, rfl⟩
    | @more w' key' k' x' w1' v' ts' vs' hw' hk' hx' hw1' hts' =>
      replace he : w ++ (key ++ (x ++ (w1 ++ '}' :: r))) = w' ++ (key' ++ (x' ++ (w1' ++ ',' :: (ts' ++ '}' :: r')))) := by simpa using he
      have hh := white_unique hw hw' (quote hk _) (quote hk' _) he
      clear he
      obtain ⟨rfl, he⟩ := hh
      have hh := key_unique hk hk' (noWhite_json hx _) (noWhite_json hx' _) he
      clear he
      obtain ⟨rfl, rfl, he⟩ := hh
      obtain ⟨rfl, rfl⟩ := json_unique hx hx' (noDigit_white hw1 (noDigit_char (by decide) _)) (noDigit_white hw1' (noDigit_char (by decide) _)) he
      have hh := white_unique hw1 hw1' (noWhite_char (by decide) _) (noWhite_char (by decide) _) (List.append_cancel_left he)
      clear he
      obtain ⟨rfl, he⟩ := hh
      injection he with he _
      exact absurd he (by decide)
  | @more w key k x w1 v ts vs hw hk hx hw1 hts =>
    cases h' with
    | @last w' key' k' x' w1' v' hw' hk' hx' hw1' =>
      replace he : w ++ (key ++ (x ++ (w1 ++ ',' :: (ts ++ '}' :: r)))) = w' ++ (key' ++ (x' ++ (w1' ++ '}' :: r'))) := by simpa using he
      have hh := white_unique hw hw' (quote hk _) (quote hk' _) he
      clear he
      obtain ⟨rfl, he⟩ := hh
      have hh := key_unique hk hk' (noWhite_json hx _) (noWhite_json hx' _) he
      clear he
      obtain ⟨rfl, rfl, he⟩ := hh
      obtain ⟨rfl, rfl⟩ := json_unique hx hx' (noDigit_white hw1 (noDigit_char (by decide) _)) (noDigit_white hw1' (noDigit_char (by decide) _)) he
      have hh := white_unique hw1 hw1' (noWhite_char (by decide) _) (noWhite_char (by decide) _) (List.append_cancel_left he)
      clear he
      obtain ⟨rfl, he⟩ := hh
      injection he with he _
      exact absurd he (by decide)
    | @more w' key' k' x' w1' v' ts' vs' hw' hk' hx' hw1' hts' =>
      replace he : w ++ (key ++ (x ++ (w1 ++ ',' :: (ts ++ '}' :: r)))) = w' ++ (key' ++ (x' ++ (w1' ++ ',' :: (ts' ++ '}' :: r')))) := by simpa using he
      have hh := white_unique hw hw' (quote hk _) (quote hk' _) he
      clear he
      obtain ⟨rfl, he⟩ := hh
      have hh := key_unique hk hk' (noWhite_json hx _) (noWhite_json hx' _) he
      clear he
      obtain ⟨rfl, rfl, he⟩ := hh
      obtain ⟨rfl, rfl⟩ := json_unique hx hx' (noDigit_white hw1 (noDigit_char (by decide) _)) (noDigit_white hw1' (noDigit_char (by decide) _)) he
      have hh := white_unique hw1 hw1' (noWhite_char (by decide) _) (noWhite_char (by decide) _) (List.append_cancel_left he)
      clear he
      obtain ⟨rfl, he⟩ := hh
      injection he with _ he
      obtain ⟨rfl, rfl⟩ := fields_unique hts hts' he
      exact ⟨rfl, rfl⟩
termination_by 2 * t.length + 1
decreasing_by all_goals (subst_vars; first | (simp; done) | (simp; omega) | (simp only [List.length_append]; omega))
end

theorem document_unique {t : Text} {v v' : Value} (h : Document t v) (h' : Document t v') : v = v' := by
  obtain ⟨w, x, y, hw, hx, hy, rfl⟩ := h
  obtain ⟨w', x', y', hw', hx', hy', he⟩ := h'
  rw [List.append_assoc, List.append_assoc] at he
  have h1 := white_unique hw hw' (noWhite_json hx _) (noWhite_json hx' _) he
  have nodigit : ∀ {w : Text}, White w → NoDigit w := fun {w} hw => by
    have := noDigit_white hw (s := []) nofun
    simpa using this
  exact (json_unique hx hx' (nodigit hy) (nodigit hy') h1.2).2

/-! The value has all of the image. -/

theorem map_inj {α β : Type} {f : α → β} (hf : ∀ a b, f a = f b → a = b) : ∀ {l l' : List α}, l.map f = l'.map f → l = l'
  | [], [], _ => rfl
  | [], _ :: _, h => by cases h
  | _ :: _, [], h => by cases h
  | a :: l, b :: l', h => by
    rw [List.map_cons, List.map_cons] at h
    injection h with h1 h2
    rw [hf a b h1, map_inj hf h2]

theorem colorValue_inj (c d : Color) (h : colorValue c = colorValue d) : c = d := by
  unfold colorValue at h
  cases c; cases d
  simp only [Value.object.injEq, List.cons.injEq, Prod.mk.injEq, Value.number.injEq, true_and, and_true, UInt8.toNat_inj] at h
  simp only [h]

theorem frameValue_inj (f g : Frame) (h : frameValue f = frameValue g) : f = g := by
  unfold frameValue at h
  obtain ⟨⟨a, b⟩, rows⟩ := f
  obtain ⟨⟨a', b'⟩, rows'⟩ := g
  simp only [Value.object.injEq, List.cons.injEq, Prod.mk.injEq, Value.number.injEq, Value.array.injEq, true_and, and_true,
    UInt32.toNat_inj] at h
  obtain ⟨⟨h1, h2⟩, h3⟩ := h
  rw [h1, h2, map_inj (fun r r' h => by injection h with h; exact map_inj colorValue_inj h) h3]

theorem imageValue_inj (i j : Image) (h : imageValue i = imageValue j) : i = j := by
  unfold imageValue at h
  cases i; cases j
  simp only [Value.object.injEq, List.cons.injEq, Prod.mk.injEq, Value.array.injEq, true_and, and_true] at h
  rw [map_inj frameValue_inj h]

/-! The two layouts -/

/-- Without spaces and line breaks -/
def squeezed (t : Text) : Text := t.filter fun c => c != ' ' && c != '\n'

theorem squeezed_append (s t : Text) : squeezed (s ++ t) = squeezed s ++ squeezed t := List.filter_append ..

/-- The one part is the other without spaces and line breaks. -/
def Squeezes (p q : JsonPart) : Prop := ∀ d d', squeezed (p d) = q d'

theorem squeezed_same {t : Text} (h : ∀ c ∈ t, c ≠ ' ' ∧ c ≠ '\n') : squeezed t = t := by
  unfold squeezed
  rw [List.filter_eq_self]
  intro c hc
  simp [h c hc]

theorem number_squeezes (n : Nat) : Squeezes (jsonNumber n) (jsonNumber n) := by
  intro d d'
  refine squeezed_same fun c hc => ?_
  have := List.all_eq_true.mp (decimal_iff.mp (digits_json n).1).2.1 c hc
  constructor <;> rintro rfl <;> revert this <;> decide

theorem break_squeezes (d : Nat) : squeezed (jsonBreak true d) = [] := by
  unfold jsonBreak squeezed
  rw [if_pos rfl, List.filter_eq_nil_iff]
  intro c hc
  rcases List.mem_cons.mp hc with rfl | hc
  · simp
  · rw [List.eq_of_mem_replicate hc]; simp

theorem joinWith_squeezes : ∀ (ts : List Text), squeezed (joinWith ",".toList ts) = joinWith ",".toList (ts.map squeezed)
  | [] => rfl
  | [t] => rfl
  | t :: u :: ts => by
    have := joinWith_squeezes (u :: ts)
    simp only [joinWith, List.map_cons, squeezed_append] at this ⊢
    rw [this, show squeezed ",".toList = ",".toList from rfl]

theorem items_squeeze {ps qs : List JsonPart} (h : EachLine Squeezes ps qs) (d d' : Nat) :
    squeezed (jsonItems true ps d) = jsonItems false qs d' := by
  unfold jsonItems
  rw [squeezed_append, joinWith_squeezes]
  have h1 : squeezed (if ps = [] then [] else jsonBreak true d) = [] := by
    split
    · rfl
    · exact break_squeezes d
  have h2 : (if qs = [] then [] else jsonBreak false d') = ([] : Text) := by split <;> rfl
  rw [h1, h2, List.append_nil, List.append_nil]
  congr 1
  clear h1 h2
  induction h with
  | nil => rfl
  | cons h1 _ ih =>
    simp only [List.map_cons, squeezed_append, break_squeezes, List.nil_append] at ih ⊢
    rw [h1 (d + 1) (d' + 1), ih]
    rfl

theorem array_squeezes {ps qs : List JsonPart} (h : EachLine Squeezes ps qs) : Squeezes (jsonArray true ps) (jsonArray false qs) := by
  intro d d'
  have := items_squeeze h d d'
  unfold jsonArray
  rw [List.cons_append, show ∀ t, squeezed ('[' :: t) = '[' :: squeezed t from fun _ => rfl, squeezed_append, this]
  rfl

theorem object_squeezes {ps qs : List (Text × JsonPart)}
    (h : EachLine (fun p q => p.1 = q.1 ∧ squeezed p.1 = p.1 ∧ Squeezes p.2 q.2) ps qs) : Squeezes (jsonObject true ps) (jsonObject false qs) := by
  intro d d'
  have hf : EachLine Squeezes (ps.map fun f => jsonField true f.1 f.2) (qs.map fun f => jsonField false f.1 f.2) := by
    induction h with
    | nil => exact .nil
    | @cons p q ps qs hp _ ih =>
      refine .cons (fun d d' => ?_) ih
      unfold jsonField
      rw [squeezed_append, squeezed_append, hp.2.2 d d', show squeezed ('"' :: p.1) = '"' :: squeezed p.1 from rfl, hp.2.1, hp.1]
      rfl
  have := items_squeeze hf d d'
  unfold jsonObject
  rw [List.cons_append, show ∀ t, squeezed ('{' :: t) = '{' :: squeezed t from fun _ => rfl, squeezed_append, this]
  rfl

theorem color_squeezes (c : Color) : Squeezes (c.json true) (c.json false) :=
  object_squeezes (.cons ⟨rfl, rfl, number_squeezes _⟩ (.cons ⟨rfl, rfl, number_squeezes _⟩
    (.cons ⟨rfl, rfl, number_squeezes _⟩ (.cons ⟨rfl, rfl, number_squeezes _⟩ .nil))))

theorem frame_squeezes (f : Frame) : Squeezes (f.json true) (f.json false) :=
  object_squeezes (.cons ⟨rfl, rfl, array_squeezes (.cons (number_squeezes _) (.cons (number_squeezes _) .nil))⟩
    (.cons ⟨rfl, rfl, array_squeezes (each_map fun row _ => array_squeezes (each_map fun c _ => color_squeezes c))⟩ .nil))

theorem image_squeezes (i : Image) : Squeezes (i.json true) (i.json false) :=
  object_squeezes (.cons ⟨rfl, rfl, array_squeezes (each_map fun f _ => frame_squeezes f)⟩ .nil)

end Verif
