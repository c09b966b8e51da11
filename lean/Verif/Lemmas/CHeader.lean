import Verif.Model.CHeader
import Verif.Spec.CHeader
import Verif.Lemmas.LexSwap
import Verif.Lemmas.ParseProgram
/-
C headers: skipping, tokens, and the rewritten lines.
-/
namespace Verif
open Spec

/-! ### Blank text -/

theorem noClose_nil : NoClose [] := by
  intro a b h
  cases a <;> cases h

theorem noClose_cons {c : Char} {t : Text} (h : NoClose t) (hc : ∀ u, c :: t ≠ '*' :: '/' :: u) : NoClose (c :: t) := by
  intro a b e
  cases a with
  | nil => exact hc b e
  | cons d a =>
    injection e with _ e
    exact h a b e

theorem ascii_size {c : Char} (h : c.toNat < 128) : c.utf8Size = 1 := by
  unfold Char.utf8Size
  have : c.val ≤ 127 := by
    rw [UInt32.le_iff_toNat_le]
    show c.toNat ≤ 127
    omega
  simp [this]

/-- What is skipped after `/*`. -/
theorem blockRest_ascii : ∀ t : Text, (∀ c ∈ t, c.toNat < 128) →
    ∃ r rest, blockRest t = .ok r ∧ t = r ++ rest ∧
      ((∃ b, r = b ++ ['*', '/'] ∧ NoClose b) ∨ (rest = [] ∧ NoClose r))
  | [], _ => ⟨[], [], rfl, rfl, .inr ⟨rfl, noClose_nil⟩⟩
  | c :: cs, h => by
    obtain ⟨r, rest, h1, h2, h3⟩ := blockRest_ascii cs fun d hd => h d (List.mem_cons_of_mem _ hd)
    unfold blockRest
    split
    · rename_i e; cases e
    · rename_i u e
      exact ⟨['*', '/'], u, rfl, e, .inl ⟨[], rfl, noClose_nil⟩⟩
    · rename_i c' cs' hno e
      injection e with e1 e2
      subst e1 e2
      have hs := ascii_size (h c List.mem_cons_self)
      rw [if_neg (by omega), h1]
      refine ⟨c :: r, rest, rfl, by rw [h2]; rfl, ?_⟩
      rcases h3 with ⟨b, rfl, hb⟩ | ⟨hr, hn⟩
      · refine .inl ⟨c :: b, rfl, noClose_cons hb ?_⟩
        intro u e
        apply hno (u ++ ['*', '/'] ++ rest)
        · injection e
        · injection e with _ e
          rw [h2, e]
          simp
      · refine .inr ⟨hr, noClose_cons hn ?_⟩
        intro u e
        injection e with e1 e2
        exact hno (u ++ rest) e1 (by rw [h2, e2]; rfl)

theorem cblank_trans {g1 g2 rest : Text} (h1 : CBlank g1 (g2 ++ rest)) (h2 : CBlank g2 rest) : CBlank (g1 ++ g2) rest := by
  generalize hr : g2 ++ rest = r at h1
  induction h1 with
  | nil => exact h2
  | space hc _ ih => exact .space hc (ih hr)
  | @line t g r ht he _ ih =>
    rw [show '/' :: '/' :: t ++ g ++ g2 = '/' :: '/' :: t ++ (g ++ g2) by simp]
    refine .line ht ?_ (ih hr)
    rw [List.append_assoc, hr]
    exact he
  | @block t g r ht _ ih =>
    rw [show '/' :: '*' :: t ++ '*' :: '/' :: g ++ g2 = '/' :: '*' :: t ++ '*' :: '/' :: (g ++ g2) by simp]
    exact .block ht (ih hr)
  | unclosed ht =>
    obtain ⟨rfl, rfl⟩ := List.append_eq_nil_iff.mp hr
    rw [List.append_nil]
    exact .unclosed ht

theorem cblank_spaces {rest : Text} : ∀ t : Text, (∀ c ∈ t, isSpace c = true) → CBlank t rest
  | [], _ => .nil
  | c :: t, h => .space (h c List.mem_cons_self) (cblank_spaces t fun d hd => h d (List.mem_cons_of_mem _ hd))

theorem ascii_suffix {a b : Text} (h : ∀ c ∈ a ++ b, c.toNat < 128) : ∀ c ∈ b, c.toNat < 128 :=
  fun c hc => h c (List.mem_append_right _ hc)

theorem skipLineComment_plain {seg : Seg} (file : Nat) (before text : Text) (hp : Plain seg text) :
    ∃ g rest, text = g ++ rest ∧ CBlank g rest ∧ skipLineComment seg (inputAt file before text) = inputAt file (before ++ g) rest ∧
      (g = [] → ∀ u, text ≠ '/' :: '/' :: u) := by
  by_cases h : ∃ u, text = '/' :: '/' :: u
  · obtain ⟨u, rfl⟩ := h
    obtain ⟨rest, h1, h2, h3, h4⟩ := skipToEol_plain file before _ hp
    have ht : toEol ('/' :: '/' :: u) = '/' :: '/' :: toEol u := by
      rw [toEol, if_neg (by simp), toEol, if_neg (by simp)]
    rw [ht] at h1 h2 h4
    refine ⟨'/' :: '/' :: toEol u, rest, h1, ?_, h4, by simp⟩
    have := CBlank.line (t := toEol u) (g := []) (rest := rest) (by simp at h2; exact h2) h3 .nil
    rwa [List.append_nil] at this
  · refine ⟨[], text, rfl, .nil, ?_, fun _ u hu => h ⟨u, hu⟩⟩
    unfold skipLineComment
    rw [show (inputAt file before text).rest = text from rfl, List.append_nil]
    split
    · rename_i u; exact absurd ⟨u, rfl⟩ h
    · rfl

theorem skipBlock_ascii {seg : Seg} (file : Nat) (before text : Text) (hp : Plain seg text) (ha : ∀ c ∈ text, c.toNat < 128) :
    ∃ g rest, text = g ++ rest ∧ CBlank g rest ∧ skipBlock seg (inputAt file before text) = .ok (inputAt file (before ++ g) rest) ∧
      (g = [] → ∀ u, text ≠ '/' :: '*' :: u) := by
  by_cases h : ∃ u, text = '/' :: '*' :: u
  · obtain ⟨u, rfl⟩ := h
    obtain ⟨r, rest, h1, rfl, h3⟩ := blockRest_ascii u fun c hc => ha c (by simp [hc])
    refine ⟨'/' :: '*' :: r, rest, rfl, ?_, ?_, by simp⟩
    · rcases h3 with ⟨b, rfl, hb⟩ | ⟨rfl, hn⟩
      · exact .block hb .nil
      · exact .unclosed hn
    · unfold skipBlock
      rw [show (inputAt file before ('/' :: '*' :: (r ++ rest))).rest = '/' :: '*' :: (r ++ rest) from rfl]
      show (blockRest (r ++ rest) >>= _) = _
      rw [h1, Res.ok_bind]
      have hu := update_plain (seg := seg) file ('/' :: '*' :: r) before rest hp (by
        rintro ⟨e1, e2⟩
        rcases h3 with ⟨b, rfl, hb⟩ | ⟨rfl, hn⟩
        · rw [show '/' :: '*' :: (b ++ ['*', '/']) = ('/' :: '*' :: b ++ ['*']) ++ ['/'] by simp, List.getLast?_append] at e1
          cases e1
        · cases e2)
      have hb : byteLen ('/' :: '*' :: r) = 2 + byteLen r := by
        rw [byteLen_cons, byteLen_cons, show '/'.utf8Size = 1 from by decide, show '*'.utf8Size = 1 from by decide]
        omega
      rw [hb] at hu
      exact congrArg Res.ok hu
  · refine ⟨[], text, rfl, .nil, ?_, fun _ u hu => h ⟨u, hu⟩⟩
    unfold skipBlock
    rw [show (inputAt file before text).rest = text from rfl, List.append_nil]
    split
    · rename_i u; exact absurd ⟨u, rfl⟩ h
    · rfl

/-- One repetition of the skipping loop. -/
theorem cskip_once {seg : Seg} (file : Nat) (before text : Text) (hp : Plain seg text) (ha : ∀ c ∈ text, c.toNat < 128) :
    ∃ g rest, text = g ++ rest ∧ CBlank g rest ∧
      skipBlock seg (skipLineComment seg ((inputAt file before text).skipWhitespace seg)) = .ok (inputAt file (before ++ g) rest) ∧
      (g = [] → CStuck rest) := by
  rw [skipWhitespace_plain file before text hp]
  generalize hw : text.takeWhile isSpace = w
  generalize hr : text.dropWhile isSpace = r
  have e : text = w ++ r := by rw [← hw, ← hr]; exact List.takeWhile_append_dropWhile.symm
  have hb : CBlank w r := cblank_spaces w fun c hc => by
    rw [← hw] at hc
    exact List.all_eq_true.mp (List.all_takeWhile (p := isSpace) (l := text)) c hc
  have hsp : ∀ c ∈ r.head?, isSpace c = false := by rw [← hr]; exact takeWhile_head text
  subst e
  obtain ⟨g1, r1, rfl, b1, s1, n1⟩ := skipLineComment_plain file (before ++ w) r hp.suffix
  obtain ⟨g2, r2, rfl, b2, s2, n2⟩ := skipBlock_ascii file (before ++ w ++ g1) r1 hp.suffix.suffix (ascii_suffix (ascii_suffix ha))
  refine ⟨w ++ g1 ++ g2, r2, by simp, ?_, by rw [s1, s2]; simp, ?_⟩
  · refine cblank_trans (cblank_trans ?_ b1) b2
    exact hb
  · intro hg
    rw [List.append_eq_nil_iff, List.append_eq_nil_iff] at hg
    obtain ⟨⟨rfl, rfl⟩, rfl⟩ := hg
    exact ⟨hsp, n1 rfl, n2 rfl⟩

theorem skipCBlankLoop_ascii {seg : Seg} (file : Nat) : ∀ (fuel : Nat) (before text : Text), Plain seg text →
    (∀ c ∈ text, c.toNat < 128) → text.length < fuel →
    ∃ g rest, text = g ++ rest ∧ CGap g rest ∧
      skipCBlankLoop seg fuel (inputAt file before text) = .ok (inputAt file (before ++ g) rest) := by
  intro fuel
  induction fuel with
  | zero => intro _ _ _ _ h; omega
  | succ f ih =>
    intro before text hp ha hf
    obtain ⟨g, rest, rfl, h2, h3, h4⟩ := cskip_once file before text hp ha
    simp only [skipCBlankLoop, h3, Res.ok_bind]
    have hpos : (inputAt file (before ++ g) rest).pos > (inputAt file before (g ++ rest)).pos ↔ g ≠ [] := by
      show byteLen (before ++ g) > byteLen before ↔ _
      rw [byteLen_append]
      constructor
      · rintro h rfl
        simp [byteLen] at h
      · intro h
        have := byteLen_pos h
        omega
    by_cases hg : g = []
    · rw [if_neg (fun h => hpos.mp h hg)]
      subst hg
      exact ⟨[], rest, rfl, ⟨h2, h4 rfl⟩, rfl⟩
    · rw [if_pos (hpos.mpr hg)]
      obtain ⟨g', rest', rfl, h6, h7⟩ := ih (before ++ g) rest hp.suffix (ascii_suffix ha) (by
        have hl : 0 < g.length := List.length_pos_iff.mpr hg
        rw [List.length_append] at hf
        omega)
      exact ⟨g ++ g', rest', by rw [List.append_assoc], ⟨cblank_trans h2 h6.1, h6.2⟩, by rw [h7, List.append_assoc]⟩

theorem skipCBlank_ascii {seg : Seg} (file : Nat) (before text : Text) (hp : Plain seg text) (ha : ∀ c ∈ text, c.toNat < 128) :
    ∃ g rest, text = g ++ rest ∧ CGap g rest ∧
      skipCBlank seg (inputAt file before text) = .ok (inputAt file (before ++ g) rest) :=
  skipCBlankLoop_ascii file _ before text hp ha (Nat.lt_succ_self _)

/-! Gaps are determined by the text -/

/-- The text after the first `*/`. -/
def afterBlock : Text → Text
  | [] => []
  | c :: cs => if c = '*' ∧ cs.head? = some '/' then cs.drop 1 else afterBlock cs

theorem afterBlock_length : ∀ t : Text, (afterBlock t).length ≤ t.length
  | [] => Nat.le_refl _
  | c :: cs => by
    have := afterBlock_length cs
    unfold afterBlock
    split
    · simp only [List.length_drop, List.length_cons]; omega
    · simp only [List.length_cons]; omega

theorem afterBlock_close : ∀ {t : Text}, NoClose t → ∀ r, afterBlock (t ++ '*' :: '/' :: r) = r
  | [], _, r => by simp [afterBlock]
  | c :: t, h, r => by
    have ht : NoClose t := fun a b e => h (c :: a) b (by rw [e]; rfl)
    rw [List.cons_append, afterBlock, if_neg, afterBlock_close ht r]
    rintro ⟨rfl, hh⟩
    cases t with
    | nil => cases hh
    | cons d t =>
      cases hh
      exact h [] t rfl

theorem afterBlock_open : ∀ {t : Text}, NoClose t → afterBlock t = []
  | [], _ => rfl
  | c :: t, h => by
    have ht : NoClose t := fun a b e => h (c :: a) b (by rw [e]; rfl)
    rw [afterBlock, if_neg, afterBlock_open ht]
    rintro ⟨rfl, hh⟩
    cases t with
    | nil => cases hh
    | cons d t =>
      cases hh
      exact h [] t rfl

/-- The text after the blank text at its start. -/
def cblankRest : Nat → Text → Text
  | 0, t => t
  | _ + 1, [] => []
  | n + 1, c :: cs =>
    if isSpace c then cblankRest n cs
    else if c = '/' ∧ cs.head? = some '/' then cblankRest n (cs.dropWhile (· ≠ '\n'))
    else if c = '/' ∧ cs.head? = some '*' then cblankRest n (afterBlock (cs.drop 1))
    else c :: cs

theorem cblankRest_fuel : ∀ (n m : Nat) (t : Text), t.length ≤ n → t.length ≤ m →
    cblankRest n t = cblankRest m t := by
  intro n
  induction n with
  | zero =>
    intro m t h1 _
    have : t = [] := List.length_eq_zero_iff.mp (by omega)
    subst this
    cases m <;> rfl
  | succ n ih =>
    intro m t h1 h2
    cases t with
    | nil => cases m <;> rfl
    | cons c cs =>
      cases m with
      | zero => simp at h2
      | succ m =>
        simp only [List.length_cons, Nat.add_le_add_iff_right] at h1 h2
        simp only [cblankRest]
        have hd : (cs.dropWhile (· ≠ '\n')).length ≤ cs.length := (List.dropWhile_suffix _).length_le
        have hb := afterBlock_length (cs.drop 1)
        rw [List.length_drop] at hb
        rw [ih m cs h1 h2, ih m (cs.dropWhile (· ≠ '\n')) (by omega) (by omega),
          ih m (afterBlock (cs.drop 1)) (by omega) (by omega)]

theorem cblank_rest {g rest : Text} (h : CBlank g rest) (hs : CStuck rest) :
    ∀ n, (g ++ rest).length ≤ n → cblankRest n (g ++ rest) = rest := by
  induction h with
  | @nil rest =>
    intro n hn
    cases rest with
    | nil => cases n <;> rfl
    | cons c r =>
      cases n with
      | zero => rfl
      | succ n =>
        simp only [List.nil_append, cblankRest, hs.1 c rfl]
        rw [if_neg (by simp), if_neg, if_neg]
        · rintro ⟨rfl, hh⟩
          cases r with
          | nil => cases hh
          | cons d r => cases hh; exact hs.2.2 r rfl
        · rintro ⟨rfl, hh⟩
          cases r with
          | nil => cases hh
          | cons d r => cases hh; exact hs.2.1 r rfl
  | space hc _ ih =>
    intro n hn
    cases n with
    | zero => simp at hn
    | succ n =>
      simp only [List.cons_append, cblankRest, hc, ↓reduceIte]
      exact ih hs n (by simpa using hn)
  | @line t g rest ht he hb ih =>
    intro n hn
    cases n with
    | zero => simp at hn
    | succ n =>
      simp only [List.cons_append, List.append_assoc, cblankRest, show isSpace '/' = false from by decide,
        Bool.false_eq_true, ↓reduceIte, List.head?_cons, and_self]
      rw [List.dropWhile_cons, if_pos (by decide), dropWhile_no_newline ht]
      simp only [List.cons_append, List.append_assoc, List.length_cons, List.length_append] at hn
      have hlen : (g ++ rest).length ≤ n := by simp; omega
      rcases he with he | he | ⟨u, he⟩
      · rw [he]
        have := ih hs n hlen
        rw [he] at this
        exact this
      · cases hgr : g ++ rest with
        | nil => rw [hgr] at he; cases he
        | cons d u =>
          rw [hgr] at he
          simp only [List.head?_cons, Option.some.injEq] at he
          subst he
          rw [List.dropWhile_cons, if_neg (by simp), ← hgr]
          exact ih hs n hlen
      · have h1 := ih hs n hlen
        rw [he] at h1 hlen ⊢
        rw [List.dropWhile_cons, if_pos (by decide), List.dropWhile_cons, if_neg (by decide)]
        cases n with
        | zero => simp at hlen
        | succ n =>
          rw [← h1]
          simp only [cblankRest, isSpace_cr, ↓reduceIte, isSpace_newline]
          simp only [List.length_cons] at hlen
          cases n with
          | zero => simp at hlen
          | succ n =>
            simp only [cblankRest, isSpace_newline, ↓reduceIte]
            exact cblankRest_fuel _ _ _ (by simp at hlen; omega) (by simp at hlen; omega)
  | @block t g rest ht _ ih =>
    intro n hn
    cases n with
    | zero => simp at hn
    | succ n =>
      simp only [List.cons_append, List.append_assoc, cblankRest, show isSpace '/' = false from by decide,
        Bool.false_eq_true, ↓reduceIte, List.head?_cons, and_self]
      rw [if_neg (by decide), List.drop_one, List.tail_cons, afterBlock_close ht]
      refine ih hs n ?_
      simp only [List.cons_append, List.append_assoc, List.length_cons, List.length_append] at hn ⊢
      omega
  | @unclosed t ht =>
    intro n hn
    cases n with
    | zero => simp at hn
    | succ n =>
      simp only [List.append_nil, cblankRest, show isSpace '/' = false from by decide,
        Bool.false_eq_true, ↓reduceIte, List.head?_cons, and_self]
      rw [if_neg (by decide), List.drop_one, List.tail_cons, afterBlock_open ht]
      cases n <;> rfl

theorem cgap_unique {g g' rest rest' : Text} (h : CGap g rest) (h' : CGap g' rest')
    (e : g ++ rest = g' ++ rest') : g = g' ∧ rest = rest' := by
  have h1 := cblank_rest h.1 h.2 _ (Nat.le_refl _)
  have h2 := cblank_rest h'.1 h'.2 _ (Nat.le_refl _)
  rw [e] at h1
  have hr : rest = rest' := by rw [← h1, h2]
  subst hr
  exact ⟨List.append_cancel_right e, rfl⟩

theorem skipCBlank_gap {seg : Seg} (file : Nat) {before g rest : Text} (hp : Plain seg (g ++ rest))
    (ha : ∀ c ∈ g ++ rest, c.toNat < 128) (h : CGap g rest) :
    skipCBlank seg (inputAt file before (g ++ rest)) = .ok (inputAt file (before ++ g) rest) := by
  obtain ⟨g', rest', h1, h2, h3⟩ := skipCBlank_ascii file before (g ++ rest) hp ha
  obtain ⟨rfl, rfl⟩ := cgap_unique h h2 h1
  exact h3

/-! ### Tokens -/

theorem clexLoop_sound {seg : Seg} {file : Nat} : ∀ (fuel : Nat) (before text : Text) (toks : List Token), Plain seg text →
    (∀ c ∈ text, c.toNat < 128) → lexLoop seg (skipCBlank seg) fuel (inputAt file before text) = .ok toks →
    CLexesTo file before text toks := by
  intro fuel
  induction fuel with
  | zero => intro _ _ _ _ _ h; cases h
  | succ fuel ih =>
    intro before text toks hp ha h
    obtain ⟨g, rest, rfl, hg, hskip⟩ := skipCBlank_ascii file before text hp ha
    rw [lexLoop_step_of hp hskip] at h
    split at h
    · rename_i hr
      subst hr
      cases h
      rw [List.append_nil]
      exact .done hg
    · cases hm : matchToken rest with
      | none => rw [hm] at h; cases h
      | some x =>
        obtain ⟨w, conv⟩ := x
        rw [hm] at h
        obtain ⟨rest', rfl, hr'⟩ := matchToken_sound hm
        rcases hr' with ⟨k, rfl, hk⟩ | ⟨v, radix, rfl, hn, hv⟩
        · simp only [Res.ok_bind, List.drop_left] at h
          obtain ⟨toks', h1, h2⟩ := Res.bind_eq_ok.mp h
          cases h2
          rw [← List.append_assoc]
          exact .token hg hk (ih _ _ _ hp.suffix.suffix (ascii_suffix (ascii_suffix ha)) h1)
        · cases h

theorem clexesTo_complete {seg : Seg} {file : Nat} {before text : Text} {toks : List Token}
    (h : CLexesTo file before text toks) (hp : Plain seg text) (ha : ∀ c ∈ text, c.toNat < 128) :
    ∀ fuel, text.length < fuel → lexLoop seg (skipCBlank seg) fuel (inputAt file before text) = .ok toks := by
  induction h with
  | @done before g hg =>
    intro fuel hf
    obtain ⟨fuel, rfl⟩ : ∃ n, fuel = n + 1 := ⟨fuel - 1, by omega⟩
    have := lexLoop_step_of (seg := seg) (file := file) (fuel := fuel) (before := before) (g := g) (rest := [])
      (by rwa [List.append_nil]) (skipCBlank_gap file (by rwa [List.append_nil]) (by rwa [List.append_nil]) hg)
    rw [List.append_nil] at this
    rw [this, if_pos rfl]
  | @token before g w rest k toks hg hk _ ih =>
    intro fuel hf
    obtain ⟨fuel, rfl⟩ : ∃ n, fuel = n + 1 := ⟨fuel - 1, by omega⟩
    have hw : w ≠ [] := spells_ne_nil hk
    have hl := List.length_pos_iff.mpr hw
    rw [List.append_assoc] at hp ha ⊢
    rw [lexLoop_step_of hp (skipCBlank_gap file hp ha hg), if_neg (by simp [hw]), matchToken_complete hk]
    simp only [Res.ok_bind, List.drop_left]
    rw [ih hp.suffix.suffix (ascii_suffix (ascii_suffix ha)) fuel (by simp only [List.length_append] at hf; omega)]
    rfl

theorem clex_ok_iff {seg : Seg} (hs : AsciiSeg seg) {file : Nat} {text : Text} (ha : ∀ c ∈ text, c.toNat < 128)
    {toks : List Token} : lexForWs seg (skipCBlank seg) (Input.new file text) = .ok toks ↔ CLexesTo file [] text toks := by
  unfold lexForWs
  rw [input_new]
  constructor
  · exact clexLoop_sound _ _ _ _ (plain_of_ascii hs ha) ha
  · intro h
    exact clexesTo_complete h (plain_of_ascii hs ha) ha _ (by show text.length < text.length + 2; omega)

/-! ### Lines -/

theorem clexesTo_tokens {file : Nat} {before text : Text} {toks : List Token} (h : CLexesTo file before text toks) :
    ∀ t ∈ toks, t.tok = .eof ∨ ∃ a w rest, before ++ text = a ++ w ++ rest ∧ Spells w rest t.tok ∧
      t.start = placeIn file a ∧ t.stop = placeIn file (a ++ w) := by
  induction h with
  | @done before g hg =>
    intro t ht
    rw [List.mem_singleton] at ht
    subst ht
    exact .inl rfl
  | @token before g w rest k toks hg hk _ ih =>
    intro t ht
    rcases List.mem_cons.mp ht with rfl | ht
    · exact .inr ⟨before ++ g, w, rest, by simp, hk, rfl, rfl⟩
    · rcases ih t ht with h | ⟨a, w', r, h1, h2⟩
      · exact .inl h
      · exact .inr ⟨a, w', r, by rw [← h1]; simp, h2⟩

/-- Names and hashes are on one line. -/
def Short (l : List Token) : Prop :=
  ∀ t ∈ l, (t.tok = .hash ∨ ∃ n, t.tok = .name n) → t.start.line = t.stop.line ∧ t.start.file = t.stop.file

theorem spells_short {w rest : Text} {k : Tok} (h : Spells w rest k) (hk : k = .hash ∨ ∃ n, k = .name n) : '\n' ∉ w := by
  cases h with
  | @symbol w rest k hm _ =>
    have hall : ∀ p ∈ symbols, '\n' ∉ p.1 := by decide
    exact hall _ hm
  | name hi _ =>
    intro hn
    have : ∃ cs, w = cs ∧ ∀ c ∈ cs, identChar c := by
      obtain ⟨c, cs, rfl, h1, h2⟩ := hi
      refine ⟨_, rfl, ?_⟩
      intro d hd
      rcases List.mem_cons.mp hd with rfl | hd
      · exact .inl h1
      · exact h2 d hd
    obtain ⟨_, rfl, hc⟩ := this
    have := isIdentChar_iff.mpr (hc _ hn)
    revert this
    decide
  | _ => rcases hk with hk | ⟨n, hk⟩ <;> cases hk

theorem clexesTo_short {file : Nat} {before text : Text} {toks : List Token} (h : CLexesTo file before text toks) : Short toks := by
  intro t ht hk
  rcases clexesTo_tokens h t ht with e | ⟨a, w, rest, _, h2, h3, h4⟩
  · rw [e] at hk
    rcases hk with hk | ⟨n, hk⟩ <;> cases hk
  · have := spells_short h2 hk
    rw [h3, h4]
    refine ⟨?_, rfl⟩
    show 1 + a.count '\n' = 1 + (a ++ w).count '\n'
    rw [List.count_append, List.count_eq_zero.mpr this]; rfl

/-- The two lines are at the same place: their first tokens are on the same lines, and the others of `l'` on that line. -/
def Kept (l l' : List Token) : Prop :=
  ∃ t r t' r', l = t :: r ∧ l' = t' :: r' ∧ t'.start.line = t.start.line ∧ t'.start.file = t.start.file ∧
    t'.stop.line = t.stop.line ∧ t'.stop.file = t.stop.file ∧
    ∀ x ∈ r', x.start.line = t.stop.line ∧ x.start.file = t.stop.file

theorem splits_kept {toks : List Token} {L : List (List Token)} (h : SplitsInto toks L) : ∀ {L'}, EachLine Kept L L' →
    SplitsInto L'.flatten L' ∧ ∀ x' xs', L'.flatten = x' :: xs' → ∃ x xs, toks = x :: xs ∧
      x'.start.line = x.start.line ∧ x'.start.file = x.start.file := by
  induction h with
  | nil =>
    intro L' h
    cases h
    exact ⟨.nil, nofun⟩
  | @cons t l rest ls h1 h2 _ ih =>
    intro L' h
    cases h with
    | @cons _ l' _ ls' hk hr =>
      obtain ⟨t0, r0, t', r', e1, rfl, k1, k2, k3, k4, k5⟩ := hk
      injection e1 with e1 e2
      subst e1 e2
      obtain ⟨i1, i2⟩ := ih hr
      rw [List.flatten_cons]
      refine ⟨.cons (by rw [k3, k4]; exact k5) ?_ i1, ?_⟩
      · intro x' xs' e
        obtain ⟨x, xs, e', a, b⟩ := i2 x' xs' e
        rw [k3, k4, a, b]
        exact h2 x xs e'
      · intro x' xs' e
        injection e with e _
        subst e
        exact ⟨t, _, rfl, k1, k2⟩

theorem headerLine_ok {l l' : List Token} (h : headerLine l = .ok l') (hn : l ≠ [])
    (hs : Short l) (hl : ∀ t r, l = t :: r → ∀ x ∈ r, x.start.line = t.stop.line ∧ x.start.file = t.stop.file) :
    HeaderLine (l.map Token.tok) (l'.map Token.tok) ∧ Kept l l' := by
  have keep : (∀ r, l.map Token.tok ≠ .hash :: .name "define".toList :: r) → l' = l →
      HeaderLine (l.map Token.tok) (l'.map Token.tok) ∧ Kept l l' := by
    rintro hne rfl
    refine ⟨.other hne, ?_⟩
    obtain ⟨t, r, rfl⟩ := List.exists_cons_of_ne_nil hn
    exact ⟨t, r, t, r, rfl, rfl, rfl, rfl, rfl, rfl, hl t r rfl⟩
  unfold headerLine at h
  split at h
  · rename_i hash define rest
    split at h
    · rename_i hc
      obtain ⟨⟨n, ts⟩, h1, h⟩ := Res.bind_eq_ok.mp h
      obtain ⟨⟨e, r⟩, h2, h⟩ := Res.bind_eq_ok.mp h
      cases rest with
      | nil => cases h1
      | cons name more =>
        cases h
        have hname : name.tok = .name n ∧ ts = more.map Token.tok := by
          simp only [List.map_cons] at h1
          unfold Toks.readName at h1
          split at h1 <;> simp_all
        obtain ⟨hname, rfl⟩ := hname
        obtain ⟨w, e1, e2, e3⟩ := parseExpr_iff.mp h2
        have hh := hl hash _ rfl
        have s1 := hs hash (by simp) (.inl hc.1)
        have s3 := hs name (by simp) (.inr ⟨n, hname⟩)
        have hnm := hh name (by simp)
        refine ⟨?_, hash, _, name, _, rfl, rfl, by rw [hnm.1, s1.1], by rw [hnm.2, s1.2], by rw [← s3.1, hnm.1],
          by rw [← s3.2, hnm.2], ?_⟩
        · simp only [List.map_cons, hc.1, hc.2, hname, e1]
          exact .define e2 e3
        · intro x hx
          rcases List.mem_cons.mp hx with rfl | hx
          · exact s1
          · exact hh x (by simp [hx])
    · rename_i hc
      cases h
      refine keep ?_ rfl
      intro r e
      simp only [List.map_cons, List.cons.injEq] at e
      exact hc ⟨e.1, e.2.1⟩
  · rename_i hne
    cases h
    refine keep ?_ rfl
    intro r e
    match l, e with
    | [_], e => simp at e
    | a :: b :: c, e => exact hne a b c rfl

theorem headerLine_complete {l : List Token} {k' : List Tok} (h : HeaderLine (l.map Token.tok) k') :
    ∃ l', headerLine l = .ok l' ∧ l'.map Token.tok = k' := by
  generalize hk : l.map Token.tok = k at h
  cases h with
  | @define n w e rest he hr =>
    match l, hk with
    | [_], hk => simp at hk
    | [_, _], hk => simp at hk
    | hash :: define :: name :: more, hk =>
      simp only [List.map_cons, List.cons.injEq] at hk
      obtain ⟨e1, e2, e3, e4⟩ := hk
      refine ⟨name :: ⟨.name "equ".toList, hash.start, define.stop⟩ :: more, ?_, by simp [e3, e4]⟩
      rw [headerLine, if_pos ⟨e1, e2⟩]
      simp only [List.map_cons, e3]
      rw [show Toks.readName (.name n :: more.map Token.tok) = .ok (n, more.map Token.tok) from rfl]
      simp only [Res.ok_bind]
      rw [parseExpr_iff.mpr ⟨w, e4, he, hr⟩]
      rfl
  | other hne =>
    subst hk
    refine ⟨l, ?_, rfl⟩
    unfold headerLine
    split
    · rename_i hash define rest
      rw [if_neg]
      rintro ⟨e1, e2⟩
      exact hne (rest.map Token.tok) (by simp [e1, e2])
    · rfl

theorem headerLines_ok : ∀ {L : List (List Token)} {out : List Token}, headerLines L = .ok out →
    ∃ L', EachLine (fun l l' => headerLine l = .ok l') L L' ∧ out = L'.flatten
  | [], out, h => by cases h; exact ⟨[], .nil, rfl⟩
  | l :: L, out, h => by
    obtain ⟨a, h1, h⟩ := Res.bind_eq_ok.mp h
    obtain ⟨b, h2, h⟩ := Res.bind_eq_ok.mp h
    cases h
    obtain ⟨L', i1, rfl⟩ := headerLines_ok h2
    exact ⟨a :: L', .cons h1 i1, rfl⟩

theorem headerLines_of {L L' : List (List Token)} (h : EachLine (fun l l' => headerLine l = .ok l') L L') :
    headerLines L = .ok L'.flatten := by
  induction h with
  | nil => rfl
  | cons h1 _ ih => rw [headerLines, h1, Res.ok_bind, ih]; rfl

theorem splits_lines {toks : List Token} {L : List (List Token)} (h : SplitsInto toks L) :
    toks = L.flatten ∧ ∀ l ∈ L, l ≠ [] ∧ ∀ t r, l = t :: r → ∀ x ∈ r, x.start.line = t.stop.line ∧ x.start.file = t.stop.file := by
  induction h with
  | nil => exact ⟨rfl, nofun⟩
  | cons h1 h2 _ ih =>
    refine ⟨by rw [ih.1]; rfl, ?_⟩
    intro l hl
    rcases List.mem_cons.mp hl with rfl | hl
    · refine ⟨by simp, ?_⟩
      rintro t r e
      injection e with e1 e2
      subst e1 e2
      exact h1
    · exact ih.2 l hl

theorem Spec.EachLine.imp {α β : Type} {R S : α → β → Prop} {as : List α} {bs : List β} (h : EachLine R as bs)
    (hi : ∀ a b, a ∈ as → R a b → S a b) : EachLine S as bs := by
  induction h with
  | nil => exact .nil
  | cons h1 _ ih => exact .cons (hi _ _ (by simp) h1) (ih fun a b ha => hi a b (by simp [ha]))

theorem Spec.EachLine.map {α β γ δ : Type} {R : γ → δ → Prop} {f : α → γ} {g : β → δ} {as : List α} {bs : List β}
    (h : EachLine (fun a b => R (f a) (g b)) as bs) : EachLine R (as.map f) (bs.map g) := by
  induction h with
  | nil => exact .nil
  | cons h1 _ ih => exact .cons h1 ih

/-- The rewritten lines are the lines of the result. -/
theorem header_lines {raw out : List Token} (hs : Short raw) (h : headerLines (lines raw) = .ok out) :
    EachLine HeaderLine ((lines raw).map (·.map Token.tok)) ((lines out).map (·.map Token.tok)) := by
  obtain ⟨L', h1, rfl⟩ := headerLines_ok h
  obtain ⟨e, hl⟩ := splits_lines (lines_splits raw)
  have hboth := h1.imp (S := fun l l' => HeaderLine (l.map Token.tok) (l'.map Token.tok) ∧ Kept l l')
    fun l l' hm hr => headerLine_ok hr (hl l hm).1
      (fun t ht => hs t (by rw [e]; exact List.mem_flatten.mpr ⟨l, hm, ht⟩)) (hl l hm).2
  have hsp := (splits_kept (lines_splits raw) (hboth.imp fun _ _ _ h => h.2)).1
  rw [lines_iff.mpr hsp]
  exact (hboth.imp fun _ _ _ h => h.1).map

theorem headerLines_complete : ∀ {L : List (List Token)} {K : List (List Tok)},
    EachLine HeaderLine (L.map (·.map Token.tok)) K →
    ∃ L', EachLine (fun l l' => headerLine l = .ok l') L L' ∧ L'.map (·.map Token.tok) = K
  | [], _, h => by cases h; exact ⟨[], .nil, rfl⟩
  | l :: L, _, h => by
    cases h with
    | cons h1 h2 =>
      obtain ⟨l', e1, e2⟩ := headerLine_complete h1
      obtain ⟨L', e3, e4⟩ := headerLines_complete h2
      exact ⟨l' :: L', .cons e1 e3, by rw [List.map_cons, e2, e4]⟩

theorem eachLine_unique {α β : Type} {R : α → β → Prop} (hu : ∀ a b b', R a b → R a b' → b = b') {as : List α}
    {bs : List β} (h : EachLine R as bs) : ∀ {bs'}, EachLine R as bs' → bs = bs' := by
  induction h with
  | nil => intro bs' h'; cases h'; rfl
  | cons h1 _ ih =>
    intro bs' h'
    cases h' with
    | cons h1' h2' => rw [hu _ _ _ h1 h1', ih h2']

theorem headerLine_unique {a b b' : List Tok} (h : HeaderLine a b) (h' : HeaderLine a b') : b = b' := by
  generalize ha : a = a' at h'
  cases h with
  | define =>
    cases h' with
    | define => simp only [List.cons.injEq, Tok.name.injEq, true_and] at ha; rw [ha.1, ha.2]
    | other hne => exact absurd ha.symm (hne _)
  | other hne =>
    cases h' with
    | define => exact absurd ha (hne _)
    | other => exact ha

/-- What the lexer of C headers returns, line by line. -/
theorem lexHeader_iff {seg : Seg} (hs : AsciiSeg seg) {file : Nat} {text : Text} (ha : ∀ c ∈ text, c.toNat < 128)
    {K : List (List Tok)} :
    (∃ toks, lexHeader seg (Input.new file text) = .ok toks ∧ (lines toks).map (·.map Token.tok) = K) ↔
      ∃ raw, CLexesTo file [] text raw ∧ EachLine HeaderLine ((lines raw).map (·.map Token.tok)) K := by
  constructor
  · rintro ⟨toks, h, rfl⟩
    obtain ⟨raw, h1, h2⟩ := Res.bind_eq_ok.mp h
    have := (clex_ok_iff hs ha).mp h1
    exact ⟨raw, this, header_lines (clexesTo_short this) h2⟩
  · rintro ⟨raw, h1, h2⟩
    obtain ⟨L', e1, e2⟩ := headerLines_complete h2
    have hh := headerLines_of e1
    refine ⟨L'.flatten, ?_, ?_⟩
    · unfold lexHeader
      rw [(clex_ok_iff hs ha).mpr h1, Res.ok_bind, hh]
    · exact eachLine_unique (R := HeaderLine) (fun _ _ _ => headerLine_unique) (header_lines (clexesTo_short h1) hh) h2

end Verif
