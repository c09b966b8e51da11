import Verif.Lemmas.Located.MessageTells
/-
Helper lemmas: the messages of different errors are different.
-/
namespace Verif.Located
open Verif.Spec Verif.Spec.Places Verif.Spec.Messages

/-- The sentences with gaps -/
def templates : List String := [
  "_ '_' not found",
  "Divide by zero: _/0",
  "Number of bytes given (_) is longer than the specified length (_)",
  "Name already exists: _",
  "Invalid code location: 0x_",
  "Value out of range: _. Expected unsigned _ bit number.",
  "Value out of range: _. Expected signed _ bit number.",
  "Byte out of range: _",
  "Word out of range: _",
  "Invalid address: 0x_",
  "Target is a 12 bit absolution position, and the top 4 bits of the\n  target (0x_) don't match the top 4 bits of the current instruction\n  position (0x_)\n\n  Top 4 bits of target:   _\n  Top 4 bits of position: _",
  "Expected to find _",
  "Wrong arguments for instruction _.",
  "Cannot name macro _: it conflicts with the instruction of the same name.",
  "Macro _ already exists for arity=_.",
  "No macro definition found for name _.",
  "Error loading file _: _",
  "UTF-8 Error loading file _: _",
  "Error parsing image _: _",
  "Invalid icon size in _. Expected _x_.",
  "Invalid palette size in _. Expected _, found _.",
  "Invalid path _.",
  "Invalid sprite type: _.",
  "Invalid value for sprite header: _.",
  "Sprite is too wide to fit in header: _.\n\nThe sprite header encodes width and height as bytes.\nIf you want to include the sprite, but leave out the header, use header=\"no\".",
  "Sprite is too tall to fit in header: _.\n\nThe sprite header encodes width and height as bytes.\nIf you want to include the sprite, but leave out the header, use header=\"no\".",
  " Must be a literal number",
  "Unexpected Character",
  "Unexpected Token",
  "Unexpected EOF",
  "Invalid Instruction",
  "Invalid Expression",
  "The \n.byte directive requires at least one byte specified.",
  "The \n.word directive requires at least one word specified.",
  "Unknown Directive",
  "Unknown Instruction/Macro",
  "Duplicate macro arg.",
  "No such macro argument name.",
  "Found duplicate label",
  "Macro label found outside of macro definition.",
  "Macro arg found outside of macro definition.",
  "Immediate value not allowed within an expression or another immediate value.",
  "Indirection mode not allowed within an expression or immediate value."]

/-- No line break -/
def OneLineText (t : Text) : Prop := '\n' ∉ t

/-- What the gaps of the sentences are -/
inductive Shape (why : Text) : Nat → List Text → Prop where
  | word {w n} : w ∈ words → OneLineText n → Shape why 0 [w, n]
  | divide {x} : Numeric x → Shape why 1 [x]
  | longer {x y} : Numeric x → Numeric y → Shape why 2 [x, y]
  | twice {n} : OneLineText n → Shape why 3 [n]
  | code {x} : Numeric x → Shape why 4 [x]
  | unsigned {x y} : Numeric x → Numeric y → Shape why 5 [x, y]
  | signed {x y} : Numeric x → Numeric y → Shape why 6 [x, y]
  | byte {x} : Numeric x → Shape why 7 [x]
  | words {x} : Numeric x → Shape why 8 [x]
  | address {x} : Numeric x → Shape why 9 [x]
  | target {x y z w} : Numeric x → Numeric y → Numeric z → Numeric w → Shape why 10 [x, y, z, w]
  | expected {n} : OneLineText n → Shape why 11 [n]
  | wrong {n} : OneLineText n → Shape why 12 [n]
  | conflict {n} : OneLineText n → Shape why 13 [n]
  | macros {n x} : OneLineText n → Numeric x → Shape why 14 [n, x]
  | noMacro {n} : OneLineText n → Shape why 15 [n]
  | file {n} : OneLineText n → Shape why 16 [n, why]
  | utf8 {n} : OneLineText n → Shape why 17 [n, why]
  | image {n} : OneLineText n → Shape why 18 [n, why]
  | icon {n x y} : OneLineText n → Numeric x → Numeric y → Shape why 19 [n, x, y]
  | palette {n x y} : OneLineText n → Numeric x → Numeric y → Shape why 20 [n, x, y]
  | path {n} : OneLineText n → Shape why 21 [n]
  | spriteType {n} : OneLineText n → Shape why 22 [n]
  | header {n} : OneLineText n → Shape why 23 [n]
  | wide {x} : Numeric x → Shape why 24 [x]
  | tall {x} : Numeric x → Shape why 25 [x]
  | plain {k} : 26 ≤ k → k < 43 → Shape why k []

theorem hex4_numeric (n : Nat) : Numeric (hex4 n) := pad_numeric (hex_numeric n) 4

theorem explanation_shape {word why : Text} {e : Err} {s gaps} (hw : word ∈ words) (hn : ∀ x ∈ gaps, '\n' ∉ x)
    (h : explanation word why e = some (s, gaps)) : ∃ k, templates[k]? = some s ∧ Shape why k gaps := by
  delta explanation at h
  cases e <;> dsimp only at h <;> cases h
  · exact ⟨0, rfl, .word hw (hn _ (by simp))⟩
  · exact ⟨1, rfl, .divide (by simp only [number_numeric, signed_numeric, hex_numeric, hex4_numeric, nibble_numeric])⟩
  · exact ⟨41, rfl, .plain (by decide) (by decide)⟩
  · exact ⟨42, rfl, .plain (by decide) (by decide)⟩
  · exact ⟨39, rfl, .plain (by decide) (by decide)⟩
  · exact ⟨40, rfl, .plain (by decide) (by decide)⟩
  · exact ⟨37, rfl, .plain (by decide) (by decide)⟩
  · exact ⟨26, rfl, .plain (by decide) (by decide)⟩
  · exact ⟨5, rfl, .unsigned (by simp only [number_numeric, signed_numeric, hex_numeric, hex4_numeric, nibble_numeric]) (by simp only [number_numeric, signed_numeric, hex_numeric, hex4_numeric, nibble_numeric])⟩
  · exact ⟨6, rfl, .signed (by simp only [number_numeric, signed_numeric, hex_numeric, hex4_numeric, nibble_numeric]) (by simp only [number_numeric, signed_numeric, hex_numeric, hex4_numeric, nibble_numeric])⟩
  · exact ⟨10, rfl, .target (by simp only [number_numeric, signed_numeric, hex_numeric, hex4_numeric, nibble_numeric]) (by simp only [number_numeric, signed_numeric, hex_numeric, hex4_numeric, nibble_numeric]) (by simp only [number_numeric, signed_numeric, hex_numeric, hex4_numeric, nibble_numeric]) (by simp only [number_numeric, signed_numeric, hex_numeric, hex4_numeric, nibble_numeric])⟩
  · exact ⟨9, rfl, .address (by simp only [number_numeric, signed_numeric, hex_numeric, hex4_numeric, nibble_numeric])⟩
  · exact ⟨3, rfl, .twice (hn _ (by simp))⟩
  · exact ⟨7, rfl, .byte (by simp only [number_numeric, signed_numeric, hex_numeric, hex4_numeric, nibble_numeric])⟩
  · exact ⟨8, rfl, .words (by simp only [number_numeric, signed_numeric, hex_numeric, hex4_numeric, nibble_numeric])⟩
  · exact ⟨2, rfl, .longer (by simp only [number_numeric, signed_numeric, hex_numeric, hex4_numeric, nibble_numeric]) (by simp only [number_numeric, signed_numeric, hex_numeric, hex4_numeric, nibble_numeric])⟩
  · exact ⟨4, rfl, .code (by simp only [number_numeric, signed_numeric, hex_numeric, hex4_numeric, nibble_numeric])⟩
  · exact ⟨15, rfl, .noMacro (hn _ (by simp))⟩
  · exact ⟨38, rfl, .plain (by decide) (by decide)⟩
  · exact ⟨28, rfl, .plain (by decide) (by decide)⟩
  · exact ⟨29, rfl, .plain (by decide) (by decide)⟩
  · exact ⟨27, rfl, .plain (by decide) (by decide)⟩
  · exact ⟨35, rfl, .plain (by decide) (by decide)⟩
  · exact ⟨34, rfl, .plain (by decide) (by decide)⟩
  · exact ⟨12, rfl, .wrong (hn _ (by simp))⟩
  · exact ⟨30, rfl, .plain (by decide) (by decide)⟩
  · exact ⟨31, rfl, .plain (by decide) (by decide)⟩
  · exact ⟨32, rfl, .plain (by decide) (by decide)⟩
  · exact ⟨33, rfl, .plain (by decide) (by decide)⟩
  · exact ⟨14, rfl, .macros (hn _ (by simp)) (by simp only [number_numeric, signed_numeric, hex_numeric, hex4_numeric, nibble_numeric])⟩
  · exact ⟨13, rfl, .conflict (hn _ (by simp))⟩
  · exact ⟨36, rfl, .plain (by decide) (by decide)⟩
  · exact ⟨37, rfl, .plain (by decide) (by decide)⟩
  · exact ⟨11, rfl, .expected (hn _ (by simp))⟩
  · exact ⟨22, rfl, .spriteType (hn _ (by simp))⟩
  · exact ⟨23, rfl, .header (hn _ (by simp))⟩
  · exact ⟨24, rfl, .wide (by simp only [number_numeric, signed_numeric, hex_numeric, hex4_numeric, nibble_numeric])⟩
  · exact ⟨25, rfl, .tall (by simp only [number_numeric, signed_numeric, hex_numeric, hex4_numeric, nibble_numeric])⟩
  · exact ⟨19, rfl, .icon (hn _ (by simp)) (by simp only [number_numeric, signed_numeric, hex_numeric, hex4_numeric, nibble_numeric]) (by simp only [number_numeric, signed_numeric, hex_numeric, hex4_numeric, nibble_numeric])⟩
  · exact ⟨20, rfl, .palette (hn _ (by simp)) (by simp only [number_numeric, signed_numeric, hex_numeric, hex4_numeric, nibble_numeric]) (by simp only [number_numeric, signed_numeric, hex_numeric, hex4_numeric, nibble_numeric])⟩
  · exact ⟨18, rfl, .image (hn _ (by simp))⟩
  · exact ⟨16, rfl, .file (hn _ (by simp))⟩
  · exact ⟨17, rfl, .utf8 (hn _ (by simp))⟩
  · exact ⟨21, rfl, .path (hn _ (by simp))⟩

/-- What a sentence starts with -/
def lead (k : Nat) : Text := ((templates[k]?).getD "").toList.takeWhile (· ≠ '_')

/-- What all messages start with -/
def leads : List (Nat × Text) :=
  (words.map fun w => (0, w ++ " '".toList)) ++ ((List.range 43).drop 1).map fun k => (k, lead k)

/-- These start alike. -/
def alike : List (Nat × Nat) := [(5, 6), (6, 5), (14, 39), (14, 40)]

theorem leads_apart : ∀ a ∈ leads, ∀ b ∈ leads, a.2.isPrefixOf b.2 = true → a.1 = b.1 ∨ (a.1, b.1) ∈ alike := by
  decide +kernel

theorem fill_lead (t : Text) (g : List Text) : ∃ rest, fill t g = t.takeWhile (· ≠ '_') ++ rest := by
  induction t with
  | nil => exact ⟨[], rfl⟩
  | cons c t ih =>
    obtain ⟨rest, h⟩ := ih
    by_cases hc : c = '_'
    · exact ⟨fill (c :: t) g, by simp [hc]⟩
    · exact ⟨rest, by simp [fill, hc, h]⟩

theorem shape_lt {why : Text} {k : Nat} {g : List Text} (h : Shape why k g) : k < 43 := by
  cases h <;> first | decide | assumption

theorem shape_lead {why : Text} {k : Nat} {g : List Text} {s : String} (h : Shape why k g) (hs : templates[k]? = some s) :
    ∃ l rest, (k, l) ∈ leads ∧ fill s.toList g = l ++ rest := by
  have hk := shape_lt h
  by_cases h0 : k = 0
  · subst h0
    generalize hk0 : 0 = k0 at h
    cases h <;> cases hk0
    · rename_i w n hw _
      cases hs
      exact ⟨w ++ " '".toList, n ++ "' not found".toList, List.mem_append_left _ (List.mem_map.mpr ⟨w, hw, rfl⟩),
        by simp [fill]⟩
    · rename_i h _; exact absurd h (by decide)
  · obtain ⟨rest, hr⟩ := fill_lead s.toList g
    refine ⟨lead k, rest, List.mem_append_right _ (List.mem_map.mpr ⟨k, ?_, rfl⟩), ?_⟩
    · rw [List.mem_drop_iff_getElem]
      exact ⟨k - 1, by simp; omega, by simp; omega⟩
    · unfold lead
      rw [hs, hr]
      rfl

theorem leads_of_eq {k k' : Nat} {l l' r r' : Text} (h : (k, l) ∈ leads) (h' : (k', l') ∈ leads) (he : l ++ r = l' ++ r') :
    k = k' ∨ (k, k') ∈ alike ∨ (k', k) ∈ alike := by
  rcases Nat.le_total l.length l'.length with hl | hl
  · have : l <+: l' := List.prefix_of_prefix_length_le ⟨r, rfl⟩ (he ▸ ⟨r', rfl⟩) hl
    rcases leads_apart _ h _ h' (List.isPrefixOf_iff_prefix.mpr this) with h | h
    · exact .inl h
    · exact .inr (.inl h)
  · have : l' <+: l := List.prefix_of_prefix_length_le ⟨r', rfl⟩ (he ▸ ⟨r, rfl⟩) hl
    rcases leads_apart _ h' _ h (List.isPrefixOf_iff_prefix.mpr this) with h | h
    · exact .inl h.symm
    · exact .inr (.inr h)

theorem number_end {x x' : Text} {c c' : Char} {r r' : Text} (hx : Numeric x) (hx' : Numeric x') (hc : numeric c = false)
    (hc' : numeric c' = false) (h : x ++ c :: r = x' ++ c' :: r') : x = x' ∧ c :: r = c' :: r' := by
  obtain ⟨h1, h2, h3⟩ := cut_at hx hx' hc hc' h
  exact ⟨h1, by rw [h2, h3]⟩

theorem line_end {x x' r r' : Text} (hx : '\n' ∉ x) (hx' : '\n' ∉ x') (h : x ++ '\n' :: r = x' ++ '\n' :: r') : x = x' ∧ r = r' := by
  have key : ∀ {x : Text}, '\n' ∉ x → ∀ c ∈ x, (c != '\n') = true := by
    intro x hx c hc
    simp only [bne_iff_ne, ne_eq]
    rintro rfl
    exact hx hc
  obtain ⟨h1, _, h3⟩ := cut_at (key hx) (key hx') (by decide) (by decide) h
  exact ⟨h1, h3⟩

theorem text_end {x x' r r' : Text} (lit : Text) (hl : '\n' ∉ lit) (hx : OneLineText x) (hx' : OneLineText x')
    (h : x ++ (lit ++ '\n' :: r) = x' ++ (lit ++ '\n' :: r')) : x = x' := by
  have h0 : ∀ {x : Text}, OneLineText x → '\n' ∉ x ++ lit := fun hx hm => (List.mem_append.mp hm).elim hx hl
  rw [← List.append_assoc, ← List.append_assoc] at h
  exact List.append_cancel_right (line_end (h0 hx) (h0 hx') h).1

theorem numeric_line {x : Text} (h : Numeric x) : '\n' ∉ x := fun hm => absurd (h _ hm) (by decide)

/-- A line: a text, then a number -/
theorem number_back {a a' x x' r r' lit : Text} {c : Char} (hl : '\n' ∉ lit) (hc : numeric c = false) (hx : Numeric x) (hx' : Numeric x')
    (ha : '\n' ∉ a ++ [c]) (ha' : '\n' ∉ a' ++ [c]) (h : a ++ c :: (x ++ (lit ++ '\n' :: r)) = a' ++ c :: (x' ++ (lit ++ '\n' :: r'))) :
    a = a' ∧ x = x' := by
  have h0 : ∀ {a x : Text}, '\n' ∉ a ++ [c] → Numeric x → '\n' ∉ a ++ c :: x ++ lit := by
    intro a x ha hx hm
    rcases List.mem_append.mp hm with hm | hm
    · rw [show a ++ c :: x = (a ++ [c]) ++ x by simp] at hm
      rcases List.mem_append.mp hm with hm | hm
      · exact ha hm
      · exact numeric_line hx hm
    · exact hl hm
  have h1 : (a ++ c :: x ++ lit) ++ '\n' :: r = (a' ++ c :: x' ++ lit) ++ '\n' :: r' := by simpa using h
  have h2 := List.append_cancel_right (line_end (h0 ha hx) (h0 ha' hx') h1).1
  obtain ⟨h3, _, h4⟩ := cut_back hx hx' hc hc h2
  exact ⟨h3, h4⟩

theorem shape_plain {why : Text} {k : Nat} {g : List Text} (h : Shape why k g) (hk : 26 ≤ k) : g = [] := by
  cases h <;> first | rfl | (exact absurd hk (by decide))

theorem words_letters : ∀ w ∈ words, ∀ c ∈ w, (c != ' ') = true := by decide

set_option maxRecDepth 10000 in
set_option maxHeartbeats 4000000 in
theorem shape_same {why : Text} (hy : '\n' ∉ why) {k : Nat} {g g' : List Text} {s : String} {r r' : Text} (h : Shape why k g)
    (h' : Shape why k g') (hs : templates[k]? = some s)
    (he : fill s.toList g ++ "\n\n".toList ++ r = fill s.toList g' ++ "\n\n".toList ++ r') : g = g' := by
  by_cases hk : 26 ≤ k
  · rw [shape_plain h hk, shape_plain h' hk]
  have text : ∀ {n n' : Text} (lit : Text), '\n' ∉ lit → OneLineText n → OneLineText n' →
      n ++ (lit ++ '\n' :: '\n' :: r) = n' ++ (lit ++ '\n' :: '\n' :: r') → [n] = [n'] :=
    fun lit hl h1 h2 h3 => by rw [text_end lit hl h1 h2 h3]
  cases h with
  | plain h => exact absurd h hk
  | word hw hn =>
    cases h' with
    | plain h => exact absurd h (by decide)
    | word hw' hn' =>
      cases hs
      simp [fill] at he
      obtain ⟨rfl, _, h3⟩ := cut_at (words_letters _ hw) (words_letters _ hw') (by decide) (by decide) he
      rw [text_end "' not found".toList (by decide) hn hn' (by simpa using h3)]
  | divide hx =>
    cases h' with
    | plain h => exact absurd h (by decide)
    | divide hx' =>
      cases hs
      simp [fill] at he
      rw [(number_end hx hx' (by decide) (by decide) he).1]
  | longer hx hy =>
    cases h' with
    | plain h => exact absurd h (by decide)
    | longer hx' hy' =>
      cases hs
      simp [fill] at he
      obtain ⟨rfl, he⟩ := number_end hx hx' (by decide) (by decide) he
      simp at he
      rw [(number_end hy hy' (by decide) (by decide) he).1]
  | twice hn =>
    cases h' with
    | plain h => exact absurd h (by decide)
    | twice hn' => cases hs; exact text [] (by decide) hn hn' (by simpa [fill] using he)
  | code hx =>
    cases h' with
    | plain h => exact absurd h (by decide)
    | code hx' =>
      cases hs
      simp [fill] at he
      rw [(number_end hx hx' (by decide) (by decide) he).1]
  | unsigned hx hy =>
    cases h' with
    | plain h => exact absurd h (by decide)
    | unsigned hx' hy' =>
      cases hs
      simp [fill] at he
      obtain ⟨rfl, he⟩ := number_end hx hx' (by decide) (by decide) he
      simp at he
      rw [(number_end hy hy' (by decide) (by decide) he).1]
  | signed hx hy =>
    cases h' with
    | plain h => exact absurd h (by decide)
    | signed hx' hy' =>
      cases hs
      simp [fill] at he
      obtain ⟨rfl, he⟩ := number_end hx hx' (by decide) (by decide) he
      simp at he
      rw [(number_end hy hy' (by decide) (by decide) he).1]
  | byte hx =>
    cases h' with
    | plain h => exact absurd h (by decide)
    | byte hx' =>
      cases hs
      simp [fill] at he
      rw [(number_end hx hx' (by decide) (by decide) he).1]
  | words hx =>
    cases h' with
    | plain h => exact absurd h (by decide)
    | words hx' =>
      cases hs
      simp [fill] at he
      rw [(number_end hx hx' (by decide) (by decide) he).1]
  | address hx =>
    cases h' with
    | plain h => exact absurd h (by decide)
    | address hx' =>
      cases hs
      simp [fill] at he
      rw [(number_end hx hx' (by decide) (by decide) he).1]
  | target hx hy hz hw =>
    cases h' with
    | plain h => exact absurd h (by decide)
    | target hx' hy' hz' hw' =>
      cases hs
      simp [fill] at he
      obtain ⟨rfl, he⟩ := number_end hx hx' (by decide) (by decide) he
      simp at he
      obtain ⟨rfl, he⟩ := number_end hy hy' (by decide) (by decide) he
      simp at he
      obtain ⟨rfl, he⟩ := number_end hz hz' (by decide) (by decide) he
      simp at he
      rw [(number_end hw hw' (by decide) (by decide) he).1]
  | expected hn =>
    cases h' with
    | plain h => exact absurd h (by decide)
    | expected hn' => cases hs; exact text [] (by decide) hn hn' (by simpa [fill] using he)
  | wrong hn =>
    cases h' with
    | plain h => exact absurd h (by decide)
    | wrong hn' => cases hs; exact text ".".toList (by decide) hn hn' (by simpa [fill] using he)
  | conflict hn =>
    cases h' with
    | plain h => exact absurd h (by decide)
    | conflict hn' =>
      cases hs
      exact text ": it conflicts with the instruction of the same name.".toList (by decide) hn hn' (by simpa [fill] using he)
  | macros hn hx =>
    cases h' with
    | plain h => exact absurd h (by decide)
    | macros hn' hx' =>
      cases hs
      simp [fill] at he
      rename_i n x n' x'
      obtain ⟨h1, rfl⟩ := number_back (a := n ++ " already exists for arity".toList) (a' := n' ++ " already exists for arity".toList)
        (x := x) (x' := x') (lit := ".".toList) (c := '=') (r := '\n' :: r) (r' := '\n' :: r') (by decide) (by decide) hx hx'
        (by simp; exact hn) (by simp; exact hn') (by simpa using he)
      rw [List.append_cancel_right h1]
  | noMacro hn =>
    cases h' with
    | plain h => exact absurd h (by decide)
    | noMacro hn' => cases hs; exact text ".".toList (by decide) hn hn' (by simpa [fill] using he)
  | file hn =>
    cases h' with
    | plain h => exact absurd h (by decide)
    | file hn' =>
      cases hs
      rw [text_end (r := '\n' :: r) (r' := '\n' :: r') (": ".toList ++ why) (by simpa using hy) hn hn' (by simpa [fill] using he)]
  | utf8 hn =>
    cases h' with
    | plain h => exact absurd h (by decide)
    | utf8 hn' =>
      cases hs
      rw [text_end (r := '\n' :: r) (r' := '\n' :: r') (": ".toList ++ why) (by simpa using hy) hn hn' (by simpa [fill] using he)]
  | image hn =>
    cases h' with
    | plain h => exact absurd h (by decide)
    | image hn' =>
      cases hs
      rw [text_end (r := '\n' :: r) (r' := '\n' :: r') (": ".toList ++ why) (by simpa using hy) hn hn' (by simpa [fill] using he)]
  | icon hn hx hz =>
    cases h' with
    | plain h => exact absurd h (by decide)
    | icon hn' hx' hz' =>
      cases hs
      simp [fill] at he
      rename_i n x z n' x' z'
      obtain ⟨h1, rfl⟩ := number_back (a := n ++ ". Expected ".toList ++ x) (a' := n' ++ ". Expected ".toList ++ x')
        (x := z) (x' := z') (lit := ".".toList) (c := 'x') (r := '\n' :: r) (r' := '\n' :: r') (by decide) (by decide) hz hz'
        (by simp; exact ⟨hn, numeric_line hx⟩) (by simp; exact ⟨hn', numeric_line hx'⟩) (by simpa using he)
      obtain ⟨h2, _, rfl⟩ := cut_back (a := n ++ ". Expected".toList) (a' := n' ++ ". Expected".toList) (c := ' ') (c' := ' ') hx hx'
        (by decide) (by decide) (by simpa using h1)
      rw [List.append_cancel_right h2]
  | palette hn hx hz =>
    cases h' with
    | plain h => exact absurd h (by decide)
    | palette hn' hx' hz' =>
      cases hs
      simp [fill] at he
      rename_i n x z n' x' z'
      obtain ⟨h1, rfl⟩ := number_back (a := n ++ ". Expected ".toList ++ x ++ ", found".toList)
        (a' := n' ++ ". Expected ".toList ++ x' ++ ", found".toList)
        (x := z) (x' := z') (lit := ".".toList) (c := ' ') (r := '\n' :: r) (r' := '\n' :: r') (by decide) (by decide) hz hz'
        (by simp; exact ⟨hn, numeric_line hx⟩) (by simp; exact ⟨hn', numeric_line hx'⟩) (by simpa using he)
      obtain ⟨h2, _, rfl⟩ := cut_back (a := n ++ ". Expected".toList) (a' := n' ++ ". Expected".toList) (c := ' ') (c' := ' ') hx hx'
        (by decide) (by decide) (by simpa using List.append_cancel_right h1)
      rw [List.append_cancel_right h2]
  | path hn =>
    cases h' with
    | plain h => exact absurd h (by decide)
    | path hn' => cases hs; exact text ".".toList (by decide) hn hn' (by simpa [fill] using he)
  | spriteType hn =>
    cases h' with
    | plain h => exact absurd h (by decide)
    | spriteType hn' => cases hs; exact text ".".toList (by decide) hn hn' (by simpa [fill] using he)
  | header hn =>
    cases h' with
    | plain h => exact absurd h (by decide)
    | header hn' => cases hs; exact text ".".toList (by decide) hn hn' (by simpa [fill] using he)
  | wide hx =>
    cases h' with
    | plain h => exact absurd h (by decide)
    | wide hx' =>
      cases hs
      simp [fill] at he
      rw [(number_end hx hx' (by decide) (by decide) he).1]
  | tall hx =>
    cases h' with
    | plain h => exact absurd h (by decide)
    | tall hx' =>
      cases hs
      simp [fill] at he
      rw [(number_end hx hx' (by decide) (by decide) he).1]

theorem fives {why : Text} {g g' : List Text} {r r' : Text} {s s' : String} (h : Shape why 5 g) (h' : Shape why 6 g') (hs : templates[5]? = some s)
    (hs' : templates[6]? = some s')
    (he : fill s.toList g ++ "\n\n".toList ++ r = fill s'.toList g' ++ "\n\n".toList ++ r') : False := by
  cases h with
  | plain h => exact absurd h (by decide)
  | unsigned hx hy =>
    cases h' with
    | plain h => exact absurd h (by decide)
    | signed hx' hy' =>
      cases hs
      cases hs'
      simp [fill] at he
      have := number_end hx hx' (by decide) (by decide) he
      simp at this

theorem macro_line {why : Text} {g : List Text} {s : String} {r r' lit : Text} (h : Shape why 14 g) (hs : templates[14]? = some s)
    (hl : '\n' ∉ lit) (he : fill s.toList g ++ "\n\n".toList ++ r = (lit ++ "definition.".toList) ++ "\n\n".toList ++ r') : False := by
  cases h with
  | plain h => exact absurd h (by decide)
  | macros hn hx =>
    cases hs
    rename_i n x
    have h1 : ("Macro ".toList ++ n ++ " already exists for arity=".toList ++ x ++ ['.']) ++ '\n' :: '\n' :: r =
        (lit ++ "definition.".toList) ++ '\n' :: '\n' :: r' := by simpa [fill] using he
    have h2 := (line_end (by simp; exact ⟨hn, numeric_line hx⟩) (by simp; exact hl) h1).1
    have h3 : "Macro ".toList ++ n ++ " already exists for arity=".toList ++ x = lit ++ "definition".toList := by
      refine List.append_cancel_right (bs := ['.']) ?_
      simpa using h2
    have h4 : ("Macro ".toList ++ n ++ " already exists for arity".toList) ++ '=' :: x = (lit ++ "definitio".toList) ++ 'n' :: [] := by
      simpa using h3
    exact absurd (cut_back hx (fun _ h => absurd h List.not_mem_nil) (by decide) (by decide) h4).2.1 (by decide)

theorem unlike {why : Text} {k k' : Nat} {g g' : List Text} {s s' : String} {r r' : Text} (h : Shape why k g) (h' : Shape why k' g')
    (hs : templates[k]? = some s) (hs' : templates[k']? = some s')
    (he : fill s.toList g ++ "\n\n".toList ++ r = fill s'.toList g' ++ "\n\n".toList ++ r') (ha : (k, k') ∈ alike) : False := by
  have hc : (k = 5 ∧ k' = 6) ∨ (k = 6 ∧ k' = 5) ∨ (k = 14 ∧ k' = 39) ∨ (k = 14 ∧ k' = 40) := by
    simpa [alike] using ha
  rcases hc with ⟨rfl, rfl⟩ | ⟨rfl, rfl⟩ | ⟨rfl, rfl⟩ | ⟨rfl, rfl⟩
  · exact fives h h' hs hs' he
  · exact fives h' h hs' hs he.symm
  · have := shape_plain h' (by decide)
    subst this
    cases hs'
    exact macro_line (lit := "Macro label found outside of macro ".toList) h hs (by decide) (by simpa [fill] using he)
  · have := shape_plain h' (by decide)
    subst this
    cases hs'
    exact macro_line (lit := "Macro arg found outside of macro ".toList) h hs (by decide) (by simpa [fill] using he)

/-- Messages that are the same say the same. -/
theorem tells {word word' why : Text} {e e' : Err} {ts ts' : List Text} {t : Text} (hw : word ∈ words) (hw' : word' ∈ words)
    (hy : '\n' ∉ why) (hg : FitsLine word why e) (hg' : FitsLine word' why e')
    (h : Message word why e ts t) (h' : Message word' why e' ts' t) : explanation word why e = explanation word' why e' := by
  obtain ⟨s, g, h1, _, h2⟩ := h
  obtain ⟨s', g', h1', _, h2'⟩ := h'
  obtain ⟨k, hk, hs⟩ := explanation_shape hw (hg _ _ h1) h1
  obtain ⟨k', hk', hs'⟩ := explanation_shape hw' (hg' _ _ h1') h1'
  have he := h2.symm.trans h2'
  simp only [List.append_assoc] at he
  generalize (List.zipWith (fun (h : String) place => h.toList ++ place) (headings e) ts).flatten ++ ending e = r at he
  generalize (List.zipWith (fun (h : String) place => h.toList ++ place) (headings e') ts').flatten ++ ending e' = r' at he
  simp only [← List.append_assoc] at he
  rw [h1, h1']
  have same : k = k' := by
    obtain ⟨l, rest, hl, hf⟩ := shape_lead hs hk
    obtain ⟨l', rest', hl', hf'⟩ := shape_lead hs' hk'
    have he' : l ++ (rest ++ ("\n\n".toList ++ r)) = l' ++ (rest' ++ ("\n\n".toList ++ r')) := by
      rw [hf, hf'] at he
      simpa only [List.append_assoc] using he
    rcases leads_of_eq hl hl' he' with h | h | h
    · exact h
    · exact (unlike hs hs' hk hk' he h).elim
    · exact (unlike hs' hs hk' hk he.symm h).elim
  subst same
  rw [hk] at hk'
  cases hk'
  rw [shape_same hy hs hs' hk he]

end Verif.Located
