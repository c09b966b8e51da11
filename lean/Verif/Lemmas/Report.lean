import Verif.Spec.Report
/-
Lemmas about excerpts.
-/
namespace Verif
open Spec

theorem utf8_append (a b : Text) : utf8 (a ++ b) = utf8 a ++ utf8 b := by simp [utf8]

theorem utf8_length (t : Text) : (utf8 t).length = byteLen t := by
  induction t with
  | nil => rfl
  | cons c t ih => simp [utf8, byteLen, String.length_utf8EncodeChar] at ih ⊢

/-- A byte below 128 in UTF-8 is a character. -/
theorem utf8Char_ascii {c : Char} {x : UInt8} (hx : x.toNat < 128) (h : x ∈ String.utf8EncodeChar c) :
    c.toNat = x.toNat := by
  unfold String.utf8EncodeChar at h
  dsimp only at h
  have big : ∀ n : Nat, 128 ≤ n → n < 256 → x ≠ UInt8.ofNat n := by
    rintro n h1 h2 rfl
    rw [UInt8.toNat_ofNat', Nat.mod_eq_of_lt (by omega)] at hx
    omega
  have hv : c.val.toNat < 0x110000 := by
    rcases c.valid with h | h
    · have : c.val.toNat < 55296 := h; omega
    · exact h.2
  split at h
  · rw [List.mem_singleton] at h
    subst h
    rw [UInt8.toNat_ofNat', Nat.mod_eq_of_lt (by omega)]
    rfl
  · exfalso
    split at h
    · simp only [List.mem_cons, List.not_mem_nil, or_false] at h
      rcases h with h | h
      · exact big _ (by omega) (by omega) h
      · exact big _ (by omega) (by omega) h
    · split at h
      · simp only [List.mem_cons, List.not_mem_nil, or_false] at h
        rcases h with h | h | h
        · exact big _ (by omega) (by omega) h
        · exact big _ (by omega) (by omega) h
        · exact big _ (by omega) (by omega) h
      · simp only [List.mem_cons, List.not_mem_nil, or_false] at h
        rcases h with h | h | h | h
        · exact big _ (by omega) (by omega) h
        · exact big _ (by omega) (by omega) h
        · exact big _ (by omega) (by omega) h
        · exact big _ (by omega) (by omega) h

theorem utf8_mem_newline {t : Text} (h : (10 : UInt8) ∈ utf8 t) : '\n' ∈ t := by
  obtain ⟨c, hc, h⟩ := List.mem_flatMap.mp h
  have := utf8Char_ascii (by decide) h
  have : c = '\n' := Char.toNat_inj.mp this
  rwa [← this]

theorem excerptStart_eq {a l b : List UInt8} (ha : a = [] ∨ a.getLast? = some 10) (hl : 10 ∉ l) :
    ∀ k ≤ l.length, excerptStart (a ++ l ++ b) (a.length + k) = .ok a.length := by
  intro k
  induction k with
  | zero =>
    intro _
    rcases ha with rfl | ha
    · rfl
    · obtain ⟨a', rfl⟩ : ∃ a', a = a' ++ [10] := by
        rw [List.getLast?_eq_some_iff] at ha; exact ha
      have : (a' ++ [10]).length + 0 = a'.length + 1 := by simp
      rw [this, excerptStart]
      simp
  | succ k ih =>
    intro hk
    rw [← Nat.add_assoc, excerptStart]
    have : (a ++ l ++ b)[a.length + k]? = some (l[k]'(by omega)) := by
      rw [List.append_assoc, List.getElem?_append_right (by omega), Nat.add_sub_cancel_left,
        List.getElem?_append_left (by omega), List.getElem?_eq_getElem]
    rw [this]
    dsimp only
    rw [if_pos (by intro e; exact hl (e ▸ List.getElem_mem _))]
    exact ih (by omega)

/-- Where `end_of_line` stops. -/
def StopsAt (bytes : List UInt8) (loc : Nat) : Prop :=
  (loc < bytes.length - 1 ∧ bytes[loc]? = some 10) ∨
  (loc < bytes.length - 2 ∧ bytes[loc]? = some 13 ∧ bytes[loc + 1]? = some 10)

theorem excerptEnd_eq {m : Mode} {bytes : List UInt8} (h2 : 2 ≤ bytes.length) {e : Nat}
    (he : e = bytes.length ∨ StopsAt bytes e) : ∀ fuel loc, loc + fuel = bytes.length → loc ≤ e →
    (∀ k, loc ≤ k → k < e → ¬ StopsAt bytes k) → excerptEnd m bytes fuel loc = .ok e := by
  intro fuel
  induction fuel with
  | zero =>
    intro loc h1 h3 _
    rw [excerptEnd]
    congr 1
    rcases he with he | he | he <;> omega
  | succ fuel ih =>
    intro loc h1 h3 hno
    rw [excerptEnd]
    by_cases hle : loc = e
    · subst hle
      rcases he with he | he | he
      · omega
      · rw [if_pos he]
      · rw [if_neg (by rintro ⟨-, h⟩; rw [he.2.1] at h; exact absurd h (by decide)), atCrLf.eq_def, if_neg (by omega)]
        rw [decide_eq_true he.1, decide_eq_true he.2.1, decide_eq_true he.2.2]
        rfl
    · have hs := hno loc (Nat.le_refl _) (by omega)
      rw [if_neg (fun h => hs (.inl h)), atCrLf.eq_def, if_neg (by omega)]
      have : (decide (loc < bytes.length - 2) && decide (bytes[loc]? = some 13) && decide (bytes[loc + 1]? = some 10)) = false := by
        rw [Bool.eq_false_iff]
        intro h
        simp only [Bool.and_eq_true, decide_eq_true_eq] at h
        exact hs (.inr ⟨h.1.1, h.1.2, h.2⟩)
      rw [this]
      exact ih (loc + 1) (by omega) (by omega) (fun k h4 h5 => hno k (by omega) h5)

/-- The excerpt of a line. -/
theorem lineForPos_eq {m : Mode} {a l b : Text} {pos : Nat} (h2 : 2 ≤ byteLen (a ++ l ++ b))
    (ha : a = [] ∨ a.getLast? = some '\n') {l' r : Text} (hl' : l = l' ++ r) (hl : '\n' ∉ l')
    (h1 : byteLen a ≤ pos) (h3 : pos ≤ byteLen (a ++ l'))
    (hstop : b = [] ∨ StopsAt (utf8 (a ++ l ++ b)) (byteLen (a ++ l)))
    (hno : ∀ k, pos ≤ k → k < byteLen (a ++ l) → ¬ StopsAt (utf8 (a ++ l ++ b)) k) :
    lineForPos m pos (a ++ l ++ b) = .ok (utf8 l) := by
  unfold lineForPos
  have e1 : utf8 (a ++ l ++ b) = utf8 a ++ utf8 l' ++ (utf8 r ++ utf8 b) := by
    rw [hl', utf8_append, utf8_append, utf8_append, List.append_assoc, List.append_assoc, List.append_assoc]
  have ha' : utf8 a = [] ∨ (utf8 a).getLast? = some 10 := by
    rcases ha with rfl | ha
    · exact .inl rfl
    · obtain ⟨a', rfl⟩ := List.getLast?_eq_some_iff.mp ha
      right
      rw [utf8_append]
      have : utf8 ['\n'] = [10] := by decide
      rw [this]; simp
  have hs := excerptStart_eq (b := utf8 r ++ utf8 b) ha' (fun h => hl (utf8_mem_newline h)) (pos - byteLen a) (by
    rw [utf8_length]
    have : byteLen (a ++ l') = byteLen a + byteLen l' := by simp [byteLen]
    omega)
  rw [← e1, utf8_length, show byteLen a + (pos - byteLen a) = pos by omega] at hs
  have hle : byteLen (a ++ l) ≤ byteLen (a ++ l ++ b) := by simp [byteLen]
  have hle' : byteLen (a ++ l') ≤ byteLen (a ++ l) := by rw [hl']; simp [byteLen]
  have he := excerptEnd_eq (m := m) (bytes := utf8 (a ++ l ++ b)) (by rw [utf8_length]; exact h2) (e := byteLen (a ++ l)) (by
      rcases hstop with rfl | h
      · left; rw [List.append_nil, utf8_length]
      · exact .inr h) ((utf8 (a ++ l ++ b)).length - pos) pos (by rw [utf8_length]; omega) (by omega) hno
  dsimp only
  rw [hs, Res.ok_bind, he, Res.ok_bind, if_neg (by simp [byteLen])]
  congr 1
  rw [utf8_append, List.take_left' (by rw [utf8_length]), utf8_append, List.drop_left' (by rw [utf8_length])]

theorem byteLen_app (a b : Text) : byteLen (a ++ b) = byteLen a + byteLen b := by simp [byteLen]

theorem no_newline_byte {a l b : Text} (hl : '\n' ∉ l) {k : Nat} (h1 : byteLen a ≤ k) (h2 : k < byteLen (a ++ l)) :
    (utf8 (a ++ l ++ b))[k]? ≠ some 10 := by
  intro h
  rw [byteLen_app] at h2
  rw [List.append_assoc, utf8_append, List.getElem?_append_right (by rw [utf8_length]; exact h1), utf8_append,
    List.getElem?_append_left (by rw [utf8_length, utf8_length]; omega)] at h
  exact hl (utf8_mem_newline (List.mem_of_getElem? h))

theorem byte_at {a : Text} {c : Char} {b : Text} (hc : c.toNat < 128) :
    (utf8 (a ++ c :: b))[byteLen a]? = some (UInt8.ofNat c.toNat) := by
  rw [utf8_append, List.getElem?_append_right (by rw [utf8_length]; exact Nat.le_refl _), utf8_length, Nat.sub_self]
  have : utf8 (c :: b) = UInt8.ofNat c.toNat :: utf8 b := by
    simp only [utf8, List.flatMap_cons]
    rw [String.utf8EncodeChar]
    rw [if_pos (by have : c.val.toNat = c.toNat := rfl; omega)]
    rfl
  rw [this]
  rfl

theorem last_cr {a l b : Text} {k : Nat} (h1 : byteLen a ≤ k) (h2 : k + 1 = byteLen (a ++ l))
    (h : (utf8 (a ++ l ++ b))[k]? = some 13) : l.getLast? = some '\r' := by
  rw [byteLen_app] at h2
  rcases List.eq_nil_or_concat l with rfl | ⟨l', c, rfl⟩
  · have : byteLen ([] : Text) = 0 := rfl
    omega
  · rw [List.concat_eq_append] at *
    rw [List.getLast?_append]
    have e : utf8 (a ++ (l' ++ [c]) ++ b) = utf8 a ++ (utf8 l' ++ (utf8 [c] ++ utf8 b)) := by
      simp only [utf8_append, List.append_assoc]
    have hb : byteLen (l' ++ [c]) = byteLen l' + byteLen [c] := byteLen_app ..
    have hpos : 0 < byteLen [c] := by simp [byteLen, Char.utf8Size_pos]
    rw [e, List.getElem?_append_right (by rw [utf8_length]; exact h1), utf8_length,
      List.getElem?_append_right (by rw [utf8_length]; omega), utf8_length,
      List.getElem?_append_left (by rw [utf8_length]; omega)] at h
    have hm := List.mem_of_getElem? h
    have : utf8 [c] = String.utf8EncodeChar c := by simp [utf8]
    rw [this] at hm
    have := utf8Char_ascii (by decide) hm
    have : c = '\r' := Char.toNat_inj.mp this
    rw [this]
    rfl

theorem excerpt_pos {b : Text} (h : b ≠ []) : 0 < byteLen b := by
  cases b with
  | nil => exact absurd rfl h
  | cons c b => simp [byteLen]; have := Char.utf8Size_pos c; omega

/-- The excerpt is the line, except in front of a line break at the end of the file. -/
theorem excerpt_line {m : Mode} {a l e b : Text} (h : SourceLine a l e b) {pos : Nat} (h1 : byteLen a ≤ pos)
    (h2 : pos ≤ byteLen (a ++ l)) (hlen : 2 ≤ byteLen (a ++ l ++ e ++ b)) :
    lineForPos m pos (a ++ l ++ e ++ b) = .ok (utf8 (if b = [] then l ++ e else l)) := by
  by_cases hb : b = []
  · subst hb
    rw [if_pos rfl]
    have ht : a ++ l ++ e ++ [] = a ++ (l ++ e) ++ [] := by simp
    rw [ht] at hlen ⊢
    refine lineForPos_eq hlen h.start rfl h.inside h1 h2 (.inl rfl) ?_
    intro k hk1 hk2 hs
    rw [← ht] at hs
    have hel : ∀ k, byteLen a ≤ k → k + 1 < byteLen (a ++ l ++ e ++ []) → (utf8 (a ++ l ++ e ++ []))[k]? ≠ some 10 := by
      intro k hk1 hk2
      rcases h.stop with ⟨rfl, -⟩ | ⟨rfl, -⟩ | rfl
      · rw [List.append_nil, List.append_nil] at *
        have := no_newline_byte (a := a) (b := []) h.inside hk1 (by omega)
        rwa [List.append_nil] at this
      · rw [List.append_assoc (a ++ l)]
        refine no_newline_byte h.inside hk1 ?_
        rw [List.append_nil, byteLen_app _ ['\n'], show byteLen ['\n'] = 1 by decide] at hk2
        omega
      · have e1 : a ++ l ++ ['\r', '\n'] ++ [] = a ++ (l ++ ['\r']) ++ ['\n'] := by simp
        rw [e1] at hk2 ⊢
        refine no_newline_byte (by simp [h.inside]) hk1 ?_
        rw [byteLen_app _ ['\n'], show byteLen ['\n'] = 1 by decide] at hk2
        omega
    rcases hs with ⟨hs1, hs2⟩ | ⟨hs1, -, hs2⟩
    · rw [utf8_length] at hs1
      exact hel k (by omega) (by omega) hs2
    · rw [utf8_length] at hs1
      exact hel (k + 1) (by omega) (by omega) hs2
  · rw [if_neg hb]
    have hbl := excerpt_pos hb
    rcases h.stop with ⟨-, rfl⟩ | ⟨rfl, hcr⟩ | rfl
    · exact absurd rfl hb
    · have ht : a ++ l ++ ['\n'] ++ b = a ++ l ++ ('\n' :: b) := by simp
      rw [ht] at hlen ⊢
      have hlen' : byteLen (a ++ l ++ ('\n' :: b)) = byteLen (a ++ l) + 1 + byteLen b := by
        rw [byteLen_app, show ('\n' :: b) = ['\n'] ++ b from rfl, byteLen_app ['\n'] b, show byteLen ['\n'] = 1 by decide]; omega
      refine lineForPos_eq hlen h.start (r := []) (by simp) h.inside h1 h2 (.inr (.inl ⟨?_, ?_⟩)) ?_
      · rw [utf8_length]; omega
      · exact byte_at (by decide)
      · rintro k hk1 hk2 (⟨-, hs⟩ | ⟨-, hs1, hs2⟩)
        · exact no_newline_byte h.inside (by omega) hk2 hs
        · by_cases hk : k + 1 < byteLen (a ++ l)
          · exact no_newline_byte h.inside (by omega) hk hs2
          · exact hcr (last_cr (by omega) (by omega) hs1)
    · have ht : a ++ l ++ ['\r', '\n'] ++ b = a ++ l ++ ('\r' :: '\n' :: b) := by simp
      rw [ht] at hlen ⊢
      have hlen' : byteLen (a ++ l ++ ('\r' :: '\n' :: b)) = byteLen (a ++ l) + 2 + byteLen b := by
        rw [byteLen_app, show ('\r' :: '\n' :: b) = ['\r', '\n'] ++ b from rfl, byteLen_app ['\r', '\n'] b,
          show byteLen ['\r', '\n'] = 2 by decide]; omega
      have hcr : (utf8 (a ++ l ++ ('\r' :: '\n' :: b)))[byteLen (a ++ l)]? = some 13 := byte_at (by decide)
      have hlf : (utf8 (a ++ l ++ ('\r' :: '\n' :: b)))[byteLen (a ++ l) + 1]? = some 10 := by
        have := byte_at (a := a ++ l ++ ['\r']) (c := '\n') (b := b) (by decide)
        rw [byteLen_app _ ['\r'], show byteLen ['\r'] = 1 by decide] at this
        simpa using this
      refine lineForPos_eq hlen h.start (r := []) (by simp) h.inside h1 h2 (.inr (.inr ⟨?_, hcr, hlf⟩)) ?_
      · rw [utf8_length]; omega
      · rintro k hk1 hk2 (⟨-, hs⟩ | ⟨-, hs1, hs2⟩)
        · exact no_newline_byte h.inside (by omega) hk2 hs
        · by_cases hk : k + 1 < byteLen (a ++ l)
          · exact no_newline_byte h.inside (by omega) hk hs2
          · rw [show k + 1 = byteLen (a ++ l) by omega, hcr] at hs2
            exact absurd hs2 (by decide)

theorem last_line (a : Text) : ∃ a0 x, a = a0 ++ x ∧ (a0 = [] ∨ a0.getLast? = some '\n') ∧ '\n' ∉ x ∧ column a = x.length := by
  have h : a.reverse = a.reverse.takeWhile (· ≠ '\n') ++ a.reverse.dropWhile (· ≠ '\n') := List.takeWhile_append_dropWhile.symm
  refine ⟨(a.reverse.dropWhile (· ≠ '\n')).reverse, (a.reverse.takeWhile (· ≠ '\n')).reverse, ?_, ?_, ?_, ?_⟩
  · rw [← List.reverse_append, ← h, List.reverse_reverse]
  · cases hd : a.reverse.dropWhile (· ≠ '\n') with
    | nil => left; rfl
    | cons c r =>
      right
      have := List.head?_dropWhile_not (p := fun c : Char => decide (c ≠ '\n')) (l := a.reverse)
      rw [hd] at this
      simp at this
      simp [this]
  · intro h
    rw [List.mem_reverse] at h
    have := List.all_takeWhile (p := fun c : Char => decide (c ≠ '\n')) (l := a.reverse)
    rw [List.all_eq_true] at this
    simpa using this _ h
  · simp [column]

theorem first_line (t : Text) : ∃ y e b, t = y ++ e ++ b ∧ '\n' ∉ y ∧
    ((e = [] ∧ b = []) ∨ (e = ['\n'] ∧ y.getLast? ≠ some '\r') ∨ e = ['\r', '\n']) := by
  by_cases h : '\n' ∈ t
  · obtain ⟨y, b, rfl, hy⟩ := List.append_of_mem h |>.elim fun s ⟨t', e⟩ => (List.eq_append_cons_of_mem h)
    rcases List.eq_nil_or_concat y with rfl | ⟨y', c, rfl⟩
    · exact ⟨[], ['\n'], b, rfl, by simp, .inr (.inl ⟨rfl, by simp⟩)⟩
    · rw [List.concat_eq_append] at *
      by_cases hc : c = '\r'
      · subst hc
        exact ⟨y', ['\r', '\n'], b, by simp, fun h => hy (by simp [h]), .inr (.inr rfl)⟩
      · exact ⟨y' ++ [c], ['\n'], b, by simp, hy, .inr (.inl ⟨rfl, by simpa using hc⟩)⟩
  · exact ⟨t, [], [], by simp, h, .inl ⟨rfl, rfl⟩⟩

theorem size_ascii {c : Char} (h : c.toNat < 128) : c.utf8Size = 1 := by
  rw [Char.utf8Size, if_pos]
  rw [UInt32.le_iff_toNat_le]
  have e : c.val.toNat = c.toNat := rfl
  rw [e]
  exact Nat.le_of_lt_succ h

/-! Carets -/

theorem caretLoop_after {start stop : Nat} : ∀ (gs : List Text) (col : Nat), start < col →
    ∃ k, caretLoop start stop gs col = (List.replicate k '^', col + k) ∧ k = min gs.length (stop - col) := by
  intro gs
  induction gs with
  | nil => intro col _; exact ⟨0, rfl, by simp⟩
  | cons g gs ih =>
    intro col h
    rw [caretLoop, if_neg (by omega), if_neg (by omega)]
    by_cases hc : col > start ∧ col < stop
    · rw [if_pos hc]
      obtain ⟨k, h1, h2⟩ := ih (col + 1) (by omega)
      rw [h1]
      refine ⟨k + 1, ?_, ?_⟩
      · rw [List.replicate_succ]; dsimp only; congr 1; omega
      · rw [List.length_cons]; omega
    · rw [if_neg hc]; exact ⟨0, rfl, by omega⟩

theorem caretLoop_before {start stop : Nat} : ∀ (pre gs all : List Text), all = pre ++ gs → pre.length ≤ start →
    ∃ r col, caretLoop start stop gs pre.length = (r, col) ∧
      ((gs.length ≤ start - pre.length ∧ col = pre.length + gs.length ∧
        r = ((List.range gs.length).map fun i => pre.length + i).map (blankAt all)) ∨
      (start - pre.length < gs.length ∧ start < col ∧
        r = ((List.range (start - pre.length)).map fun i => pre.length + i).map (blankAt all) ++ List.replicate (max 1 (min stop all.length - start)) '^')) := by
  intro pre gs
  induction gs generalizing pre with
  | nil => intro all _ _; exact ⟨_, _, rfl, .inl ⟨by simp, by simp, rfl⟩⟩
  | cons g gs ih =>
    intro all hall hp
    subst hall
    by_cases hlt : pre.length < start
    · obtain ⟨r, col, h1, h2⟩ := ih (pre ++ [g]) (pre ++ g :: gs) (by simp) (by simp; omega)
      rw [caretLoop, if_pos hlt]
      rw [List.length_append, List.length_singleton] at h1
      rw [h1]
      refine ⟨_, _, rfl, ?_⟩
      have hpiece : caretBlank g = [blankAt (pre ++ g :: gs) pre.length] := by
        have hg : (pre ++ g :: gs)[pre.length]? = some g := by simp
        rw [blankAt, hg]
        cases g with
        | nil => rfl
        | cons c t =>
          cases t with
          | nil => rw [caretBlank]; dsimp only; split <;> rfl
          | cons d t => rfl
      rw [hpiece]
      have shift : ∀ n, (List.range (n + 1)).map (fun i => pre.length + i) =
          pre.length :: (List.range n).map (fun i => (pre ++ [g]).length + i) := by
        intro n
        rw [List.range_succ_eq_map, List.map_cons, List.map_map, Nat.add_zero]
        congr 1
        apply List.map_congr_left
        intro i _
        simp only [Function.comp, List.length_append, List.length_singleton]
        omega
      rcases h2 with ⟨h2, h3, h4⟩ | ⟨h2, h3, h4⟩
      · refine .inl ⟨by simp at h2 ⊢; omega, by rw [h3]; simp; omega, ?_⟩
        rw [h4, List.length_cons, shift, List.map_cons]
        rfl
      · refine .inr ⟨by simp at h2 ⊢; omega, h3, ?_⟩
        obtain ⟨n, hn⟩ : ∃ n, start - pre.length = n + 1 := ⟨start - pre.length - 1, by omega⟩
        have hn' : start - (pre ++ [g]).length = n := by simp; omega
        rw [h4, hn, hn', shift, List.map_cons]
        rfl
    · have heq : pre.length = start := by omega
      rw [caretLoop, if_neg hlt, if_pos heq]
      obtain ⟨k, h1, h2⟩ := caretLoop_after (start := start) (stop := stop) gs (pre.length + 1) (by omega)
      rw [heq] at h1 h2 ⊢
      rw [h1]
      refine ⟨_, _, rfl, .inr ⟨by simp, by omega, ?_⟩⟩
      rw [Nat.sub_self, List.range_zero, List.map_nil, List.map_nil, List.nil_append, ← List.replicate_succ]
      congr 1
      rw [List.length_append, List.length_cons, heq]
      omega

theorem caret_all {start stop : Nat} (gs : List Text) (msg : Text) :
    caret start stop gs msg = (List.range start).map (blankAt gs) ++
      List.replicate (if start < gs.length then max 1 (min stop gs.length - start) else if start = stop then 1 else stop - start) '^' ++
      (if msg = [] then [] else ' ' :: msg) := by
  obtain ⟨r, col, h1, h2⟩ := caretLoop_before (start := start) (stop := stop) [] gs gs rfl (by simp)
  unfold caret
  rw [List.length_nil] at h1
  rw [h1]
  dsimp only
  have hm : (if msg.isEmpty then ([] : Text) else ' ' :: msg) = if msg = [] then [] else ' ' :: msg := by
    cases msg <;> rfl
  rw [hm]
  congr 1
  have hid : ∀ n, (List.range n).map (fun i => 0 + i) = List.range n := by intro n; simp only [Nat.zero_add, List.map_id']
  simp only [List.length_nil, Nat.sub_zero, Nat.zero_add, List.map_id'] at h2
  rcases h2 with ⟨h2, h3, h4⟩ | ⟨h2, h3, h4⟩
  · rw [if_pos (show col ≤ start by omega), if_neg (show ¬ start < gs.length by omega), h4, h3, ← List.append_assoc]
    congr 1
    · obtain ⟨d, rfl⟩ : ∃ d, start = gs.length + d := ⟨start - gs.length, by omega⟩
      rw [List.range_add, List.map_append, Nat.add_sub_cancel_left]
      congr 1
      rw [List.map_map]
      apply List.ext_getElem
      · simp
      · intro i hi1 hi2
        simp [blankAt]
    · split <;> simp
  · rw [if_neg (show ¬ col ≤ start by omega), if_pos h2, h4, List.append_nil]

theorem caret_eq {start stop : Nat} (h : start ≤ stop) (gs : List Text) (msg : Text) :
    caret start stop gs msg = (List.range start).map (blankAt gs) ++
      List.replicate (if start < gs.length then max 1 (min stop gs.length - start) else max 1 (stop - start)) '^' ++
      (if msg = [] then [] else ' ' :: msg) := by
  rw [caret_all]
  have : (if start = stop then 1 else stop - start) = max 1 (stop - start) := by split <;> omega
  rw [this]

end Verif
