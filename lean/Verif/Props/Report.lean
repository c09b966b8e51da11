import Verif.Lemmas.Report
import Verif.Lemmas.LexSwap
/-
Properties of excerpts in error messages: C63.
-/
namespace Verif.Props
open Verif.Spec

/-- **C63**: the excerpt for a place in a line is that line and nothing else.  Missing: the last line of a text that
ends in a line break (`C63_last_line`), and texts of one byte (`C63_one_byte`). -/
theorem C63_line_partial {m : Mode} {a l e b : Text} (h : SourceLine a l e b) (hb : b ≠ [] ∨ e = []) {pos : Nat}
    (h1 : byteLen a ≤ pos) (h2 : pos ≤ byteLen (a ++ l)) (hlen : 2 ≤ byteLen (a ++ l ++ e ++ b)) :
    lineForPos m pos (a ++ l ++ e ++ b) = .ok (utf8 l) := by
  rw [excerpt_line h h1 h2 hlen]
  rcases hb with hb | rfl
  · rw [if_neg hb]
  · rw [List.append_nil]; split <;> rfl

/-- **C63**: in the last line of a text that ends in a line break, the excerpt contains the line break too. -/
theorem C63_last_line {m : Mode} {a l e : Text} (h : SourceLine a l e []) {pos : Nat}
    (h1 : byteLen a ≤ pos) (h2 : pos ≤ byteLen (a ++ l)) (hlen : 2 ≤ byteLen (a ++ l ++ e)) :
    lineForPos m pos (a ++ l ++ e) = .ok (utf8 (l ++ e)) := by
  have := excerpt_line (m := m) h h1 h2 (by rwa [List.append_nil])
  rwa [List.append_nil, if_pos rfl] at this

/-- So the excerpt is not always the line: the excerpt of `x\n` is `x\n`. -/
theorem C63_final_newline : ∃ m a l e b pos, SourceLine a l e b ∧ byteLen a ≤ pos ∧ pos ≤ byteLen (a ++ l) ∧
    lineForPos m pos (a ++ l ++ e ++ b) ≠ .ok (utf8 l) := by
  refine ⟨.checked, [], ['x'], ['\n'], [], 0, ⟨.inl rfl, by decide, .inr (.inl ⟨rfl, by decide⟩)⟩, by decide, by decide, ?_⟩
  have h : lineForPos .checked 0 ([] ++ ['x'] ++ ['\n'] ++ []) = .ok [120, 10] := by decide +kernel
  rw [h]
  intro h
  cases h

/-- **C63**: in a text of one byte, an error at its start makes the checked build panic. -/
theorem C63_one_byte {c : Char} (hc : c.toNat < 128) : lineForPos .checked 0 [c] = .panic := by
  have h : (utf8 [c]).length = 1 := by
    rw [utf8_length]
    have := size_ascii hc
    simp [byteLen, this]
  rw [lineForPos, excerptStart, Res.ok_bind, h, Nat.sub_zero, excerptEnd, if_neg (by rw [h]; omega), atCrLf.eq_def, if_pos (by omega)]
  rfl

/-- **C63**: every place in a text is in one of its lines (or inside a line break). -/
theorem C63_every_place (a b : Text) : ∃ a' l e b', a ++ b = a' ++ l ++ e ++ b' ∧ byteLen a' ≤ byteLen a ∧
    (SourceLine a' l e b' ∧ byteLen a ≤ byteLen (a' ++ l) ∨ ∃ b'', a = a' ++ l ++ ['\r'] ∧ b = '\n' :: b'') := by
  obtain ⟨a0, x, rfl, h1, h2, -⟩ := last_line a
  obtain ⟨y, e, b', rfl, h3, h4⟩ := first_line b
  by_cases h5 : e = ['\n'] ∧ (x ++ y).getLast? = some '\r'
  · obtain ⟨rfl, h5⟩ := h5
    rcases h4 with ⟨h4, -⟩ | ⟨-, h4⟩ | h4
    · cases h4
    · have hy : y = [] := by
        rcases List.eq_nil_or_concat y with rfl | ⟨y', c, rfl⟩
        · rfl
        · rw [List.concat_eq_append] at *; rw [← List.append_assoc] at h5; simp at h4 h5; exact absurd h5 h4
      subst hy
      rw [List.append_nil] at h5
      obtain ⟨x', rfl⟩ := List.getLast?_eq_some_iff.mp h5
      exact ⟨a0, x', ['\r'], '\n' :: b', by simp, by rw [byteLen_app]; omega, .inr ⟨b', by simp, by simp⟩⟩
    · cases h4
  · refine ⟨a0, x ++ y, e, b', by simp, by rw [byteLen_app]; omega, .inl ⟨⟨h1, by simp [h2, h3], ?_⟩, ?_⟩⟩
    · rcases h4 with h4 | ⟨h4, -⟩ | h4
      · exact .inl h4
      · exact .inr (.inl ⟨h4, fun h => h5 ⟨h4, h⟩⟩)
      · exact .inr (.inr h4)
    · rw [← List.append_assoc, byteLen_app (a0 ++ x)]; omega

/-- **C63**: the line under the excerpt is blank up to the column where the span starts, and then has a caret for
each column of the span that is in the line, at least one; then follows the message. -/
theorem C63_caret {start stop : Nat} (h : start ≤ stop) (line : List Text) (msg : Text) :
    caret start stop line msg = (List.range start).map (blankAt line) ++
      List.replicate (max 1 ((if start < line.length then min stop line.length else stop) - start)) '^' ++
      (if msg = [] then [] else ' ' :: msg) := by
  rw [caret_eq h]
  split <;> rfl

/-- **C63**: for every token of a text without combining characters that does not go over a line break, the excerpt is the line the token is
in, and the carets are under the characters of the token. -/
theorem C63_under_token {seg : Seg} {file : Nat} {text : Text} (hp : Plain seg text)
    {toks : List Token} (hl : lexInput seg (Input.new file text) = .ok toks) {t : Token} (ht : t ∈ toks)
    (hne : t.tok ≠ .eof) (hline : t.start.line = t.stop.line) (hlen : 2 ≤ text.length) (m : Mode) (msg : Text) :
    ∃ a x w y e b, text = a ++ (x ++ w ++ y) ++ e ++ b ∧ SourceLine a (x ++ w ++ y) e b ∧ Spells w (y ++ e ++ b) t.tok ∧
      lineForPos m t.start.pos text = .ok (utf8 (if b = [] then x ++ w ++ y ++ e else x ++ w ++ y)) ∧
      ∀ more, caret t.start.column t.stop.column ((x ++ w ++ y).map (fun c => [c]) ++ more) msg =
        x.map (fun c => if isSpace c then c else ' ') ++ w.map (fun _ => '^') ++ (if msg = [] then [] else ' ' :: msg) := by
  rcases lexesTo_tokens ((lexInput_ok_iff hp).mp hl) t ht with h | ⟨a, w, rest, h1, h2, h3, h4⟩
  · exact absurd h hne
  rw [List.nil_append] at h1
  have hw : '\n' ∉ w := by
    intro hw
    rw [h3, h4] at hline
    simp only [placeIn, List.count_append] at hline
    have := List.count_pos_iff.mpr hw
    omega
  obtain ⟨w', c, hwc, hcr⟩ := spells_last h2
  obtain ⟨a0, x, rfl, g1, g2, g3⟩ := last_line a
  obtain ⟨y, e, b, rfl, g4, g5⟩ := first_line rest
  have hsl : SourceLine a0 (x ++ w ++ y) e b := by
    refine ⟨g1, by simp [g2, hw, g4], ?_⟩
    rcases g5 with g5 | ⟨g5, g6⟩ | g5
    · exact .inl g5
    · refine .inr (.inl ⟨g5, ?_⟩)
      rcases List.eq_nil_or_concat y with rfl | ⟨y', d, rfl⟩
      · rw [List.append_nil, hwc, ← List.append_assoc]
        simpa using hcr
      · rw [List.concat_eq_append, ← List.append_assoc]
        simpa using g6
    · exact .inr (.inr g5)
  have htext : text = a0 ++ (x ++ w ++ y) ++ e ++ b := by rw [h1]; simp
  have hbl : text.length ≤ byteLen text := by
    clear htext h1 hlen hl hp
    induction text with
    | nil => exact Nat.le_refl _
    | cons c t ih =>
      have h1 := c.utf8Size_pos
      simp only [byteLen, List.map_cons, List.sum_cons, List.length_cons] at ih ⊢
      omega
  refine ⟨a0, x, w, y, e, b, htext, hsl, by simpa using h2, ?_, fun more => ?_⟩
  · have hp : t.start.pos = byteLen (a0 ++ x) := by rw [h3]; rfl
    have := excerpt_line (m := m) hsl (pos := t.start.pos) (by rw [hp, byteLen_app]; omega)
      (by rw [hp, byteLen_app, byteLen_app, byteLen_app, byteLen_app]; omega) (by rw [← htext]; omega)
    rw [← htext] at this
    exact this
  · have c1 : t.start.column = x.length := by rw [h3]; exact g3
    have c2 : t.stop.column = x.length + w.length := by
      rw [h4]
      change column (a0 ++ x ++ w) = _
      rw [← g3]
      unfold column
      rw [List.reverse_append, List.takeWhile_append_of_pos, List.length_append, List.length_reverse, Nat.add_comm]
      intro c hc
      rw [List.mem_reverse] at hc
      simp only [ne_eq, decide_not, Bool.not_eq_eq_eq_not, Bool.not_true, decide_eq_false_iff_not]
      rintro rfl
      exact hw hc
    have hwl : 0 < w.length := by rw [hwc]; simp
    rw [c1, c2, caret_eq (by omega)]
    congr 1
    congr 1
    · apply List.ext_getElem
      · simp
      · intro i i1 i2
        have hi : i < x.length := by simpa using i2
        simp only [List.getElem_map, List.getElem_range, blankAt]
        have : (List.map (fun c => [c]) (x ++ w ++ y) ++ more)[i]? = some [x[i]] := by
          rw [List.getElem?_append_left (by simp; omega), List.getElem?_map, List.append_assoc,
            List.getElem?_append_left hi, List.getElem?_eq_getElem hi]
          rfl
        rw [this]
    · rw [if_pos (by simp; omega), List.map_const']
      congr 1
      simp only [List.length_append, List.length_map]
      omega

/-- Line 2 of three lines meets the conditions of `C63_line_partial`, and this is what is printed for the token `b4`. -/
example : SourceLine "nop\n".toList "ld  b4".toList "\r\n".toList "ret\n".toList ∧
    byteLen "nop\n".toList ≤ 8 ∧ 8 ≤ byteLen ("nop\n".toList ++ "ld  b4".toList) ∧
    caret 4 6 ("ld  b4".toList.map fun c => [c]) "here".toList = "    ^^ here".toList := by
  refine ⟨⟨.inr (by decide), by decide, .inr (.inr rfl)⟩, by decide, by decide, by decide⟩

end Verif.Props
