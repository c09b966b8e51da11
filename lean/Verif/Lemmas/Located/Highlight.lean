import Verif.Spec.Highlight
import Verif.Lemmas.Report
import Verif.Lemmas.Vmi
import Verif.Lemmas.Files
import Verif.Lemmas.Located.PlacesRead
/-
Lemmas about what is printed for an error.
-/
namespace Verif.Located
open Verif.Spec Verif.Spec.Places

variable {seg : Seg}

theorem digits_number (n : Nat) : digitsOf 10 n = number n := by
  have key : ∀ fuel n, n ≤ fuel → digitsLoop 10 fuel n = Nat.toDigits 10 n := by
    have hd : ∀ d, d < 10 → digitChar d = d.digitChar := by decide
    intro fuel
    induction fuel with
    | zero => intro n h; rw [show n = 0 by omega]; decide
    | succ fuel ih =>
      intro n h
      unfold digitsLoop
      split
      next h1 => rw [Nat.toDigits_of_lt_base h1, hd n h1]
      next h1 =>
        rw [Nat.toDigits_of_base_le (by decide) (by omega), ih _ (by omega), hd _ (Nat.mod_lt _ (by decide))]
  rw [number, Nat.toList_repr]
  exact key n n (Nat.le_refl n)

/-! ### Clusters -/

theorem graphemesLoop_fuel : ∀ n fuel (t : Text), t.length ≤ n → t.length ≤ fuel →
    graphemesLoop seg fuel t = graphemesLoop seg n t := by
  intro n
  induction n with
  | zero =>
    intro fuel t h _
    have : t = [] := List.length_eq_zero_iff.mp (by omega)
    subst this
    cases fuel <;> simp [graphemesLoop]
  | succ n ih =>
    intro fuel t h h'
    cases fuel with
    | zero =>
      have : t = [] := List.length_eq_zero_iff.mp (by omega)
      subst this
      simp [graphemesLoop]
    | succ fuel =>
      unfold graphemesLoop
      split
      · rfl
      next hne =>
        have : 0 < t.length := List.length_pos_iff.mpr hne
        congr 1
        apply ih <;> simp only [List.length_drop] <;> omega

theorem graphemes_cons (hs : BreaksLines seg) {t : Text} (h : t ≠ []) :
    graphemes seg t = t.take (seg t) :: graphemes seg (t.drop (seg t)) := by
  have h1 := (hs.some t h).1
  have h2 : 0 < t.length := List.length_pos_iff.mpr h
  unfold graphemes
  cases hl : t.length with
  | zero => omega
  | succ n =>
    rw [graphemesLoop, if_neg h, show max 1 (seg t) = seg t by omega]
    congr 1
    apply graphemesLoop_fuel <;> simp only [List.length_drop] <;> omega

theorem graphemes_clusters (hs : BreaksLines seg) {t : Text} : Clusters seg t (graphemes seg t) [] := by
  generalize hn : t.length = n
  induction n using Nat.strongRecOn generalizing t with
  | _ n ih =>
    by_cases h : t = []
    · subst h; exact .nil
    · rw [graphemes_cons hs h]
      have h1 := (hs.some t h).1
      have h2 : 0 < t.length := List.length_pos_iff.mpr h
      exact .cons h (ih (t.drop (seg t)).length (by rw [List.length_drop]; omega) rfl)

theorem clusters_split (hs : BreaksLines seg) {t rest : Text} {gs : List Text} (h : Clusters seg t gs rest) :
    graphemes seg t = gs ++ graphemes seg rest := by
  induction h with
  | nil => rfl
  | cons h _ ih => rw [graphemes_cons hs h, ih]; rfl

theorem clusters_flatten {t rest : Text} {gs : List Text} (h : Clusters seg t gs rest) : t = gs.flatten ++ rest := by
  induction h with
  | nil => rfl
  | cons h _ ih => rw [List.flatten_cons, List.append_assoc, ← ih, List.take_append_drop]

theorem clusters_append {t rest : Text} {g1 g2 : List Text} (h : Clusters seg t (g1 ++ g2) rest) :
    ∃ mid, Clusters seg t g1 mid ∧ Clusters seg mid g2 rest := by
  induction g1 generalizing t with
  | nil => exact ⟨t, .nil, h⟩
  | cons g g1 ih =>
    rw [List.cons_append] at h
    generalize hg : g :: (g1 ++ g2) = gs at h
    cases h with
    | nil => cases hg
    | cons hne h =>
      cases hg
      obtain ⟨mid, h1, h2⟩ := ih h
      exact ⟨mid, .cons hne h1, h2⟩

/-- A cluster with a newline is a line break. -/
theorem cluster_newline (hs : BreaksLines seg) {t : Text} (h : '\n' ∈ t.take (seg t)) :
    t.take (seg t) = ['\n'] ∨ t.take (seg t) = ['\r', '\n'] := by
  have hm : '\n' ∈ t := List.mem_of_mem_take h
  obtain ⟨l, b, rfl, hl⟩ := List.eq_append_cons_of_mem hm
  have big : ∀ l', l' <+: l → seg (l ++ '\n' :: b) ≤ l'.length → False := by
    intro l' ⟨w, hw⟩ hle
    have h0 := congrArg List.length hw
    rw [List.length_append] at h0
    have : seg (l ++ '\n' :: b) ≤ l.length := by omega
    rw [List.take_append_of_le_length this] at h
    exact hl (List.mem_of_mem_take h)
  rcases List.eq_nil_or_concat l with rfl | ⟨l', c, rfl⟩
  · rw [List.nil_append, hs.lf]; exact .inl rfl
  · rw [List.concat_eq_append] at *
    by_cases hc : c = '\r'
    · subst hc
      by_cases hl' : l' = []
      · subst hl'
        have e : [] ++ ['\r'] ++ '\n' :: b = '\r' :: '\n' :: b := rfl
        rw [e, hs.crlf]
        exact .inr rfl
      · exfalso
        have e : l' ++ ['\r'] ++ '\n' :: b = l' ++ '\r' :: '\n' :: b := by simp
        have hb := hs.before_crlf l' b hl' fun h => hl (by simp [h])
        refine big l' (by simp) ?_
        rw [e, hb]
        exact (hs.some l' hl').2
    · exfalso
      have hb := hs.before_lf (l' ++ [c]) b (by simp) hl (by simpa using hc)
      refine big _ (List.prefix_refl _) ?_
      rw [hb]
      exact (hs.some _ (by simp)).2

/-- A cluster that ends in CR is not followed by LF. -/
theorem cluster_cr (hs : BreaksLines seg) {t b : Text} (hn : '\n' ∉ t.take (seg t)) (h : (t.take (seg t)).getLast? = some '\r') :
    t.drop (seg t) ≠ '\n' :: b := by
  intro hd
  obtain ⟨l, hl⟩ := List.getLast?_eq_some_iff.mp h
  have ht : t = l ++ '\r' :: '\n' :: b := by
    rw [← List.take_append_drop (seg t) t, hd, hl]; simp
  have hlen : seg t = l.length + 1 := by
    have h1 : (t.take (seg t)).length = l.length + 1 := by rw [hl]; simp
    have h2 := (hs.some t (by rw [ht]; simp)).2
    rw [List.length_take] at h1
    omega
  rw [ht] at hlen
  by_cases hne : l = []
  · subst hne
    rw [List.nil_append, hs.crlf] at hlen
    simp at hlen
  · rw [hs.before_crlf l b hne (fun h => hn (by rw [hl]; simp [h]))] at hlen
    have := (hs.some l hne).2
    omega

theorem newline_count (hs : BreaksLines seg) {t rest : Text} {gs : List Text} (h : Clusters seg t gs rest) :
    gs.countP isNewline = gs.flatten.count '\n' := by
  induction h with
  | nil => rfl
  | @cons t gs rest hne _ ih =>
    rw [List.countP_cons, ih, List.flatten_cons, List.count_append, Nat.add_comm]
    congr 1
    split
    next hn =>
      simp only [isNewline, Bool.or_eq_true, decide_eq_true_eq] at hn
      rcases hn with hn | hn <;> rw [hn] <;> rfl
    next hn =>
      symm
      rw [List.count_eq_zero]
      intro hm
      refine hn ?_
      simp only [isNewline, Bool.or_eq_true, decide_eq_true_eq]
      exact cluster_newline hs hm

theorem clusters_no_newline (hs : BreaksLines seg) {t rest : Text} {gs : List Text} (h : Clusters seg t gs rest)
    (hn : ∀ g ∈ gs, isNewline g = false) : '\n' ∉ gs.flatten := by
  have h1 : gs.countP isNewline = 0 := by
    rw [List.countP_eq_zero]
    intro g hg
    rw [hn g hg]; decide
  rw [newline_count hs h] at h1
  exact List.count_eq_zero.mp h1

/-- The last cluster does not end in CR before LF. -/
theorem clusters_cr (hs : BreaksLines seg) {t rest b : Text} {gs : List Text} (h : Clusters seg t gs rest)
    (hn : '\n' ∉ gs.flatten) (hc : gs.flatten.getLast? = some '\r') : rest ≠ '\n' :: b := by
  induction h with
  | nil => cases hc
  | @cons t gs rest hne hg ih =>
    rw [List.flatten_cons] at hn hc
    by_cases h0 : gs.flatten = []
    · rw [h0, List.append_nil] at hc
      have e := clusters_flatten hg
      rw [h0, List.nil_append] at e
      rw [← e]
      exact cluster_cr hs (fun h => hn (by simp [h])) hc
    · refine ih (fun h => hn (by simp [h])) ?_
      rw [List.getLast?_append] at hc
      cases hx : gs.flatten.getLast? with
      | none => exact absurd (List.getLast?_eq_none_iff.mp hx) h0
      | some c => rw [hx] at hc; exact hc

/-- The clusters of a line do not depend on what follows it. -/
theorem clusters_line (hs : BreaksLines seg) {gs : List Text} : ∀ {l e b y : Text}, '\n' ∉ l →
    (e = [] ∧ b = []) ∨ (e = ['\n'] ∧ l.getLast? ≠ some '\r') ∨ e = ['\r', '\n'] → l = gs.flatten ++ y →
    Clusters seg (l ++ e ++ b) gs (y ++ e ++ b) → Clusters seg l gs y := by
  induction gs with
  | nil =>
    intro l e b y _ _ hl _
    rw [hl]
    exact .nil
  | cons g gs ih =>
    intro l e b y hn hstop hl h
    generalize hgs : g :: gs = w at h
    generalize ht : l ++ e ++ b = t at h
    generalize hr : y ++ e ++ b = r at h
    cases h with
    | nil => cases hgs
    | cons hne h =>
      cases hgs
      subst hr
      rw [List.flatten_cons, List.append_assoc] at hl
      have hgne : l ≠ [] := by
        rintro rfl
        have : t.take (seg t) = [] := (List.append_eq_nil_iff.mp hl.symm).1
        have h1 := hs.some t hne
        have h2 := congrArg List.length this
        rw [List.length_take, List.length_nil] at h2
        omega
      have hseg : seg t = seg l := by
        rw [← ht]
        rcases hstop with ⟨rfl, rfl⟩ | ⟨rfl, h1⟩ | rfl
        · simp
        · have := hs.before_lf l b hgne hn h1
          rw [← this]; simp
        · have := hs.before_crlf l b hgne hn
          rw [← this]; simp
      have htake : t.take (seg t) = l.take (seg l) := by
        rw [hseg, ← ht, List.append_assoc, List.take_append_of_le_length (hs.some l hgne).2]
      have hdrop : t.drop (seg t) = l.drop (seg l) ++ e ++ b := by
        rw [hseg, ← ht, List.append_assoc, List.drop_append_of_le_length (hs.some l hgne).2, List.append_assoc]
      rw [hdrop] at h
      rw [htake] at hl ⊢
      have hld : l.drop (seg l) = gs.flatten ++ y := by
        have := List.take_append_drop (seg l) l
        exact List.append_cancel_left (this.trans hl)
      refine .cons hgne (ih (fun hm => hn (List.mem_of_mem_drop hm)) ?_ hld h)
      rcases hstop with h1 | ⟨h1, h2⟩ | h1
      · exact .inl h1
      · refine .inr (.inl ⟨h1, ?_⟩)
        intro h3
        refine h2 ?_
        rw [← List.take_append_drop (seg l) l, List.getLast?_append, h3]
        rfl
      · exact .inr (.inr h1)

/-- The line in which a place is -/
theorem line_of_place (hs : BreaksLines seg) {t rest : Text} {all : List Text} (h : Clusters seg t all rest) :
    ∃ a x y e b gs gs', t = a ++ (x ++ y) ++ e ++ b ∧ SourceLine a (x ++ y) e b ∧ all.flatten = a ++ x ∧
      all.countP isNewline = a.count '\n' ∧ Clusters seg (shownLine (x ++ y) e b) (gs ++ gs') [] ∧ gs.flatten = x ∧
      (all.reverse.takeWhile fun g => !isNewline g).length = gs.length := by
  have hsplit : all = (all.reverse.dropWhile fun g => !isNewline g).reverse ++ (all.reverse.takeWhile fun g => !isNewline g).reverse := by
    rw [← List.reverse_append, List.takeWhile_append_dropWhile, List.reverse_reverse]
  generalize hA : (all.reverse.dropWhile fun g => !isNewline g).reverse = A at hsplit
  generalize hG : (all.reverse.takeWhile fun g => !isNewline g).reverse = G at hsplit
  have hlen : (all.reverse.takeWhile fun g => !isNewline g).length = G.length := by rw [← hG, List.length_reverse]
  have hGn : ∀ g ∈ G, isNewline g = false := by
    intro g hg
    rw [← hG, List.mem_reverse] at hg
    have := List.all_takeWhile (p := fun g : Text => !isNewline g) (l := all.reverse)
    rw [List.all_eq_true] at this
    simpa using this g hg
  have hAl : A.flatten = [] ∨ A.flatten.getLast? = some '\n' := by
    cases hd : all.reverse.dropWhile fun g => !isNewline g with
    | nil => rw [hd] at hA; subst hA; exact .inl rfl
    | cons g r =>
      have h1 := List.head?_dropWhile_not (p := fun g : Text => !isNewline g) (l := all.reverse)
      rw [hd] at h1 hA
      simp only [List.head?_cons, Bool.not_eq_eq_eq_not, Bool.not_false, isNewline, Bool.or_eq_true, decide_eq_true_eq] at h1
      subst hA
      right
      rw [List.reverse_cons, List.flatten_append]
      rcases h1 with h1 | h1 <;> subst h1 <;> simp
  subst hsplit
  obtain ⟨mid, h1, h2⟩ := clusters_append h
  have hxn := clusters_no_newline hs h2 hGn
  obtain ⟨y, e, b, rfl, g4, g5⟩ := first_line rest
  have e1 := clusters_flatten h1
  have e2 := clusters_flatten h2
  have hsl : SourceLine A.flatten (G.flatten ++ y) e b := by
    refine ⟨hAl, by simp [hxn, g4], ?_⟩
    rcases g5 with g5 | ⟨g5, g6⟩ | g5
    · exact .inl g5
    · refine .inr (.inl ⟨g5, ?_⟩)
      intro hc
      rw [List.getLast?_append] at hc
      cases hy : y.getLast? with
      | some c => rw [hy] at hc g6; exact g6 hc
      | none =>
        rw [hy] at hc
        rw [List.getLast?_eq_none_iff] at hy
        subst hy
        subst g5
        exact clusters_cr hs h2 hxn (by simpa using hc) (b := b) (by simp)
    · exact .inr (.inr g5)
  have hcl : ∃ r, Clusters seg (shownLine (G.flatten ++ y) e b) G r := by
    have h3 : Clusters seg (G.flatten ++ y ++ e ++ b) G (y ++ e ++ b) := by
      have : mid = G.flatten ++ y ++ e ++ b := by rw [e2]; simp
      rw [← this]; exact h2
    unfold shownLine
    split
    next hb => subst hb; rw [List.append_nil] at h3; exact ⟨_, h3⟩
    next => exact ⟨y, clusters_line hs hsl.inside hsl.stop rfl h3⟩
  obtain ⟨r, hcl⟩ := hcl
  refine ⟨A.flatten, G.flatten, y, e, b, G, graphemes seg r, ?_, hsl, by simp, ?_, ?_, rfl, hlen⟩
  · rw [e1, e2]; simp
  · rw [List.countP_append, newline_count hs h1, newline_count hs h2, List.count_eq_zero.mpr hxn, Nat.add_zero]
  · rw [← clusters_split hs hcl]
    exact graphemes_clusters hs

/-- A text of one byte -/
theorem one_byte {t : Text} (h : byteLen t = 1) : ∃ c x, t = [c] ∧ utf8 [c] = [x] ∧ (x = 10 ↔ c = '\n') ∧ (x = 13 ↔ c = '\r') := by
  cases t with
  | nil => cases h
  | cons c t =>
    have ht : t = [] := by
      cases t with
      | nil => rfl
      | cons d t =>
        have h1 := Char.utf8Size_pos c
        have h2 := Char.utf8Size_pos d
        simp [byteLen] at h
        omega
    subst ht
    have hl := utf8_length [c]
    rw [h] at hl
    obtain ⟨x, hx⟩ := List.length_eq_one_iff.mp hl
    refine ⟨c, x, rfl, hx, ?_, ?_⟩
    · constructor
      · rintro rfl
        have := utf8_mem_newline (t := [c]) (by rw [hx]; simp)
        exact (List.mem_singleton.mp this).symm
      · rintro rfl
        have : utf8 ['\n'] = [10] := by decide
        rw [this] at hx
        injection hx with hx
        exact hx.symm
    · constructor
      · rintro rfl
        have hm : (13 : UInt8) ∈ String.utf8EncodeChar c := by
          have : (13 : UInt8) ∈ utf8 [c] := by rw [hx]; simp
          simpa [utf8] using this
        exact Char.toNat_inj.mp (utf8Char_ascii (by decide) hm)
      · rintro rfl
        have : utf8 ['\r'] = [13] := by decide
        rw [this] at hx
        injection hx with hx
        exact hx.symm

/-- The line of a text of one byte -/
theorem excerpt_byte {m : Mode} {a l e b : Text} (h : SourceLine a l e b) {pos : Nat} (h1 : byteLen a ≤ pos)
    (h2 : pos ≤ byteLen (a ++ l)) (hlen : byteLen (a ++ l ++ e ++ b) = 1)
    (hm : ¬ (pos = 0 ∧ (m = .checked ∨ a ++ l ++ e ++ b = ['\r']))) :
    lineForPos m pos (a ++ l ++ e ++ b) = .ok (utf8 (shownLine l e b)) := by
  obtain ⟨c, x, hc, hx, h10, h13⟩ := one_byte hlen
  obtain ⟨hs1, hs2, hs3⟩ := h
  rw [hc] at hm ⊢
  have hle : pos ≤ 1 := by
    rw [byteLen_app, byteLen_app] at hlen
    omega
  have line0 : m = .wrapping → c ≠ '\r' → lineForPos m 0 [c] = .ok [x] := by
    rintro rfl hne
    have h13' : x ≠ 13 := fun hh => hne (h13.mp hh)
    unfold lineForPos
    rw [hx]
    simp [excerptStart, excerptEnd, atCrLf, h13']
  have line1 : lineForPos m 1 [c] = if x = 10 then .ok [] else .ok [x] := by
    unfold lineForPos
    rw [hx]
    simp only [excerptStart, excerptEnd]
    by_cases h : x = 10 <;> simp [h, excerptEnd]
  have hcase : (a = [c] ∧ l = [] ∧ e = [] ∧ b = []) ∨ (a = [] ∧ l = [c] ∧ e = [] ∧ b = []) ∨ (a = [] ∧ l = [] ∧ e = [c] ∧ b = []) ∨
      (a = [] ∧ l = [] ∧ e = [] ∧ b = [c]) := by
    cases a with
    | cons x a => simp_all
    | nil =>
      cases l with
      | cons x l => simp_all
      | nil =>
        cases e with
        | cons x e => simp_all
        | nil => simp_all
  rcases hcase with ⟨rfl, rfl, rfl, rfl⟩ | ⟨rfl, rfl, rfl, rfl⟩ | ⟨rfl, rfl, rfl, rfl⟩ | ⟨rfl, rfl, rfl, rfl⟩
  · have hp : pos = 1 := by
      simp only [List.append_nil] at hlen
      omega
    have hn : c = '\n' := by simpa using hs1
    subst hp
    rw [line1, if_pos (h10.mpr hn)]
    rfl
  · have hn : c ≠ '\n' := fun hh => hs2 (by simp [hh])
    have h10' : x ≠ 10 := fun hh => hn (h10.mp hh)
    have hshown : utf8 (shownLine [c] [] []) = [x] := by rw [show shownLine [c] [] [] = [c] from rfl, hx]
    rw [hshown]
    by_cases hp : pos = 0
    · subst hp
      cases m with
      | checked => exact absurd ⟨rfl, .inl rfl⟩ hm
      | wrapping => exact line0 rfl fun hh => hm ⟨rfl, .inr (by rw [hh])⟩
    · have hp : pos = 1 := by omega
      subst hp
      rw [line1, if_neg h10']
  · have hp : pos = 0 := by
      have : byteLen ([] ++ [] : Text) = 0 := rfl
      omega
    subst hp
    have hshown : utf8 (shownLine [] [c] []) = [x] := by rw [show shownLine [] [c] [] = [c] from rfl, hx]
    rw [hshown]
    cases m with
    | checked => exact absurd ⟨rfl, .inl rfl⟩ hm
    | wrapping => exact line0 rfl fun hh => hm ⟨rfl, .inr (by rw [hh])⟩
  · rcases hs3 with ⟨_, h⟩ | ⟨h, _⟩ | h <;> cases h

/-- Otherwise there is a panic. -/
theorem excerpt_panic {m : Mode} {t : Text} (hlen : byteLen t = 1) (hm : m = .checked ∨ t = ['\r']) :
    excerpt m 0 t = .panic := by
  obtain ⟨c, x, rfl, hx, h10, h13⟩ := one_byte hlen
  have : lineForPos m 0 [c] = .panic := by
    unfold lineForPos
    rw [hx]
    simp only [excerptStart, excerptEnd, atCrLf, Verif.Res.ok_bind]
    cases m with
    | checked => rfl
    | wrapping =>
      have hc : c = '\r' := by
        rcases hm with h | h
        · cases h
        · injection h
      have := h13.mpr hc
      subst this
      rfl
  unfold excerpt
  rw [this]
  rfl

theorem excerpt_ok {m : Mode} {a l e b : Text} (h : SourceLine a l e b) {pos : Nat} (h1 : byteLen a ≤ pos)
    (h2 : pos ≤ byteLen (a ++ l))
    (hlen : ¬ (pos = 0 ∧ byteLen (a ++ l ++ e ++ b) = 1 ∧ (m = .checked ∨ a ++ l ++ e ++ b = ['\r']))) :
    excerpt m pos (a ++ l ++ e ++ b) = .ok (shownLine l e b) := by
  have key : lineForPos m pos (a ++ l ++ e ++ b) = .ok (utf8 (shownLine l e b)) := by
    by_cases hone : byteLen (a ++ l ++ e ++ b) = 1
    · exact excerpt_byte h h1 h2 hone fun ⟨k1, k2⟩ => hlen ⟨k1, hone, k2⟩
    by_cases h0 : a ++ l ++ e ++ b = []
    · simp only [List.append_eq_nil_iff] at h0
      obtain ⟨⟨⟨rfl, rfl⟩, rfl⟩, rfl⟩ := h0
      have : pos = 0 := by
        have : byteLen ([] ++ [] : Text) = 0 := rfl
        omega
      subst this
      rfl
    · have := excerpt_pos h0
      exact excerpt_line h h1 h2 (by omega)
  unfold excerpt
  rw [key, Verif.Res.ok_bind, decodeUtf8_iff.mpr rfl]

theorem pathText (workingDir file : Path) : PathText workingDir file (shownPath workingDir file) := by
  unfold shownPath
  dsimp only
  split
  next h =>
    rw [List.isPrefixOf_iff_prefix] at h
    obtain ⟨t, ht⟩ := h
    left
    rw [← ht, List.drop_left, List.append_assoc]
    rfl
  next h =>
    right
    refine ⟨fun t' ht => h ?_, rfl⟩
    rw [List.isPrefixOf_iff_prefix]
    exact ⟨t', by rw [ht]; simp⟩

/-! ### Paths -/

theorem splitSlash_name {n : Text} (h : '/' ∉ n) : splitSlash n = [n] := by
  induction n with
  | nil => rfl
  | cons c n ih =>
    simp only [List.mem_cons, not_or] at h
    rw [splitSlash, ih h.2]
    simp [Ne.symm h.1]

theorem splitSlash_app {n : Text} (h : '/' ∉ n) (t : Text) : splitSlash (n ++ '/' :: t) = n :: splitSlash t := by
  induction n with
  | nil =>
    rw [List.nil_append, splitSlash]
    have := splitSlash_ne t
    split
    · contradiction
    next hs => simp [hs]
  | cons c n ih =>
    simp only [List.mem_cons, not_or] at h
    rw [List.cons_append, splitSlash, ih h.2]
    simp [Ne.symm h.1]

theorem slashed_app {a b : List Text} (ha : a ≠ []) (hb : b ≠ []) : slashed (a ++ b) = slashed a ++ '/' :: slashed b := by
  induction a with
  | nil => contradiction
  | cons c a ih =>
    cases a with
    | nil =>
      cases b with
      | nil => contradiction
      | cons d b => rfl
    | cons d a =>
      have := ih (by simp)
      simp only [List.cons_append, slashed] at this ⊢
      rw [this]; simp

theorem splitSlash_slashed {cs : List Text} (hc : cs ≠ []) (h : ∀ c ∈ cs, '/' ∉ c) (t : Text) :
    splitSlash (slashed cs ++ '/' :: t) = cs ++ splitSlash t ∧ splitSlash (slashed cs) = cs := by
  induction cs with
  | nil => contradiction
  | cons c cs ih =>
    cases cs with
    | nil => exact ⟨splitSlash_app (h c (by simp)) t, splitSlash_name (h c (by simp))⟩
    | cons d cs =>
      obtain ⟨h1, h2⟩ := ih (by simp) fun c hc => h c (by simp [hc])
      rw [slashed, List.append_assoc, List.cons_append, splitSlash_app (h c (by simp)), splitSlash_app (h c (by simp)), h1, h2]
      exact ⟨rfl, rfl⟩
      intro h; cases h

theorem shown_inside {w : Path} {rest : List Text} (hw : w.comps ≠ []) (hr : rest ≠ []) :
    shownPath w ⟨w.abs, w.comps ++ rest⟩ = slashed rest := by
  have h : (⟨w.abs, w.comps ++ rest⟩ : Path).render = (w.render ++ ['/']) ++ slashed rest := by
    unfold Path.render
    rw [slashed_app hw hr]; simp
  unfold shownPath
  dsimp only
  rw [h, if_pos (by rw [List.isPrefixOf_iff_prefix]; exact List.prefix_append ..), List.drop_left]

theorem shown_outside {w p : Path} (hw : ∀ c ∈ w.comps, '/' ∉ c) (hp : ∀ c ∈ p.comps, c ≠ [] ∧ '/' ∉ c)
    (ha : w.abs = true) (h : ∀ rest, rest ≠ [] → w.comps ≠ [] → p ≠ ⟨true, w.comps ++ rest⟩) : shownPath w p = p.render := by
  unfold shownPath
  dsimp only
  rw [if_neg]
  intro hpre
  rw [List.isPrefixOf_iff_prefix] at hpre
  obtain ⟨t, ht⟩ := hpre
  obtain ⟨wa, wc⟩ := w
  obtain ⟨pa, pc⟩ := p
  dsimp only at *
  subst ha
  unfold Path.render at ht
  simp only [if_true, List.append_assoc, List.singleton_append, List.cons_append, List.nil_append] at ht
  cases pa with
  | false =>
    simp only [Bool.false_eq_true, if_false, List.nil_append] at ht
    cases pc with
    | nil => cases ht
    | cons c pc =>
      obtain ⟨h1, h2⟩ := hp c (by simp)
      cases c with
      | nil => exact h1 rfl
      | cons d c =>
        cases pc with
        | nil => rw [slashed] at ht; injection ht with ht; subst ht; simp at h2
        | cons d' pc =>
          rw [slashed] at ht
          · injection ht with ht; subst ht; simp at h2
          · intro h; cases h
  | true =>
    simp only [if_true, List.cons_append, List.nil_append, List.cons.injEq, true_and] at ht
    by_cases hpc : pc = []
    · subst hpc
      have := congrArg List.length ht
      simp [slashed] at this
    · have h2 := (splitSlash_slashed hpc (fun c hc => (hp c hc).2) t).2
      by_cases hwc : wc = []
      · subst hwc
        rw [← ht] at h2
        rw [slashed, List.nil_append] at h2
        have := splitSlash_app (n := []) (by simp) t
        rw [List.nil_append] at this
        rw [this] at h2
        exact (hp [] (by rw [← h2]; simp)).1 rfl
      · have h3 := (splitSlash_slashed hwc hw t).1
        rw [ht, h2] at h3
        exact h _ (splitSlash_ne t) hwc (by rw [h3])

theorem showRange_panic {m : Mode} {sf : SourceFiles} {r : Range} (h : Unshowable m sf r) (indent caption : Text) :
    showRange m seg sf indent r caption = .panic := by
  obtain ⟨h1, f, h2, h3, h4⟩ := h
  unfold showRange
  rw [show sf.forId r.start.file = some f from h2]
  dsimp only
  rw [h1, excerpt_panic h3 h4]
  rfl

theorem showRange_entry {m : Mode} {sf : SourceFiles} (hs : BreaksLines seg)
    {r : Range} (hf : ¬ Unshowable m sf r) (h : InFile seg sf.files r.start) (indent caption : Text) :
    ∃ t, showRange m seg sf indent r caption = .ok t ∧ Entry seg sf indent r caption t := by
  obtain ⟨f, all, rest, h1, h2, h3, h4, h5⟩ := h
  obtain ⟨a, x, y, e, b, gs, gs', g1, g2, g3, g4, g5, g6, g7⟩ := line_of_place hs h2
  have hx := excerpt_ok (m := m) g2 (pos := r.start.pos) (by rw [h3, g3, byteLen_app]; omega)
    (by rw [h3, g3, byteLen_app, byteLen_app, byteLen_app]; omega) (by rw [← g1]; exact fun ⟨k1, k2, k3⟩ => hf ⟨k1, f, h1, k2, k3⟩)
  rw [← g1] at hx
  have hg : graphemes seg (shownLine (x ++ y) e b) = gs ++ gs' := by
    have := clusters_split hs g5
    rwa [show graphemes seg [] = [] from rfl, List.append_nil] at this
  unfold showRange
  rw [show sf.forId r.start.file = some f from h1]
  dsimp only
  rw [hx, Verif.Res.ok_bind, hg]
  refine ⟨_, rfl, f, _, a, x, y, e, b, gs, gs', h1, pathText _ _, g1, g2,
    by rw [h3, g3], by rw [h4, g4], g5, g6, by rw [h5, g7], ?_⟩
  have hc : caret r.start.column r.stop.column (gs ++ gs') caption = caretLine r.start.column r.stop.column (gs ++ gs') caption := caret_all ..
  rw [hc]
  simp only [digits_number, ne_eq, ite_not]
  split <;> simp

/-- If one of the ranges cannot be shown, showing the span panics. -/
theorem highlight_panic {m : Mode} {sf : SourceFiles} (hs : BreaksLines seg) {s : Span} (h : Places.SpanIn seg sf.files s)
    (hp : ∃ r ∈ s.range :: s.parents, Unshowable m sf r) (caption : Text) : highlightLine m seg sf s caption = .panic := by
  have tail : ∀ parents : List Range, (∀ r ∈ parents, RangeIn seg sf.files r) → ∀ r, RangeIn seg sf.files r →
      (∃ x ∈ r :: parents, Unshowable m sf x) → ∀ indent caption, highlightChain m seg sf indent r caption parents = .panic := by
    intro parents
    induction parents with
    | nil =>
      intro _ r _ hx indent caption
      obtain ⟨x, hx, hu⟩ := hx
      cases List.mem_singleton.mp hx
      exact showRange_panic hu _ _
    | cons p ps ih =>
      intro hps r hr hx indent caption
      unfold highlightChain
      by_cases hu : Unshowable m sf r
      · rw [showRange_panic hu]; rfl
      · obtain ⟨t, h1, _⟩ := showRange_entry (m := m) hs hu hr.1 indent caption
        have hx' : ∃ x ∈ p :: ps, Unshowable m sf x := by
          obtain ⟨x, hx, hux⟩ := hx
          rcases List.mem_cons.mp hx with rfl | hx
          · exact absurd hux hu
          · exact ⟨x, hx, hux⟩
        rw [h1, Verif.Res.ok_bind, ih (fun r hr => hps r (by simp [hr])) p (hps p (by simp)) hx']
        rfl
  exact tail s.parents h.2 s.range h.1 hp [] caption

theorem highlight_report {m : Mode} {sf : SourceFiles} (hs : BreaksLines seg)
    {s : Span} (hf : ∀ r ∈ s.range :: s.parents, ¬ Unshowable m sf r) (h : Places.SpanIn seg sf.files s) (caption : Text) :
    ∃ t, highlightLine m seg sf s caption = .ok t ∧ Report seg sf s caption t := by
  have tail : ∀ parents : List Range, (∀ r ∈ parents, RangeIn seg sf.files r ∧ ¬ Unshowable m sf r) → ∀ r,
      RangeIn seg sf.files r ∧ ¬ Unshowable m sf r → ∀ indent caption, newIndent indent = bar → ∃ t first more, highlightChain m seg sf indent r caption parents = .ok t ∧
        Entry seg sf indent r caption first ∧ EachLine (fun r t => Entry seg sf bar r [] t) parents more ∧
        t = first ++ more.flatMap fun t => bar ++ "\n".toList ++ bar ++ "...expanded from\n".toList ++ bar ++ "\n".toList ++ t := by
    intro parents
    induction parents with
    | nil =>
      intro _ r hr indent caption _
      obtain ⟨t, h1, h2⟩ := showRange_entry (m := m) hs hr.2 hr.1.1 indent caption
      exact ⟨t, t, [], h1, h2, .nil, by simp⟩
    | cons p ps ih =>
      intro hps r hr indent caption hi
      obtain ⟨t, h1, h2⟩ := showRange_entry (m := m) hs hr.2 hr.1.1 indent caption
      obtain ⟨t', first, more, g1, g2, g3, g4⟩ := ih (fun r hr => hps r (by simp [hr])) p (hps p (by simp)) bar [] (by decide)
      refine ⟨_, t, first :: more, ?_, h2, .cons g2 g3, rfl⟩
      unfold highlightChain
      rw [h1, Verif.Res.ok_bind, hi, g1, Verif.Res.ok_bind, g4]
      simp
  obtain ⟨t, first, more, h1, h2, h3, h4⟩ := tail s.parents (fun r hr => ⟨h.2 r hr, hf r (by simp [hr])⟩) s.range
    ⟨h.1, hf _ (by simp)⟩ [] caption (by decide)
  exact ⟨t, h1, first, more, h2, h3, h4⟩

theorem captions_span (e : Err) (s : Span) : Captions e (.span s) [(s, captionOf e)] := by
  cases e with
  | nameNotFound n => exact .name
  | spriteTooWide w k => dsimp only [captionOf]; rw [digits_number, digits_number]; exact .wide
  | spriteTooTall w k => dsimp only [captionOf]; rw [digits_number, digits_number]; exact .tall
  | invalidSpriteHeader x => exact .header
  | _ => exact .other (by simp) (by simp) (by simp) (by simp)

theorem captions_blames {all : List Token} {load : Text → Verif.Res Image} {e : Err} {p : Place} (h : Blames all load e p) :
    (∃ s s', p = .spans s s' ∧ Captions e p [(s, (captionsOf e).1), (s', (captionsOf e).2)]) ∨ (∃ s, p = .span s) ∨
    (∃ l, p = .location l) ∨ p = .nowhere := by
  cases h with
  | nameAlreadyExists => exact .inl ⟨_, _, rfl, .names⟩
  | macroAlreadyExists => exact .inl ⟨_, _, rfl, .macros⟩
  | invalidExpression => exact .inr (.inr (.inl ⟨_, rfl⟩))
  | nowhere => exact .inr (.inr (.inr rfl))
  | image => exact .inr (.inr (.inr rfl))
  | _ => exact .inr (.inl ⟨_, rfl⟩)

end Verif.Located
