import Verif.Lemmas.Located.SourceTokens
import Verif.Lemmas.Respell
/-
The tokens of a program under other numbers of its files, and from the tokens to the run.
-/
namespace Verif.Located
open Verif.Spec Verif.Spec.Syntax

/-- The same line of the same file -/
def SameLine (id id' : Path → Option Nat) (a b : Loc) : Prop := b.line = a.line ∧ ∃ q, id q = some a.file ∧ id' q = some b.file

/-- The same token, under other numbers of the files -/
def Renumbered (id id' : Path → Option Nat) (t t' : Token) : Prop :=
  t'.tok = t.tok ∧ SameLine id id' t.start t'.start ∧ SameLine id id' t.stop t'.stop

theorem eachLine_mono {α β : Type} {R S : α → β → Prop} (hRS : ∀ a b, R a b → S a b) {as : List α} {bs : List β} (h : EachLine R as bs) :
    EachLine S as bs := by
  induction h with
  | nil => exact .nil
  | cons h _ ih => exact .cons (hRS _ _ h) ih

section
variable {id id' : Path → Option Nat}

theorem moved_renumbered {q : Path} {n n' : Nat} (h : id q = some n) (h' : id' q = some n') {t t' : Token} (hm : Moved n n' 0 0 t t') :
    Renumbered id id' t t' := by
  obtain ⟨h1, h2, h3, h4, h5, h6, h7⟩ := hm
  exact ⟨h1, ⟨by omega, q, by rw [h2]; exact h, by rw [h4]; exact h'⟩, ⟨by omega, q, by rw [h3]; exact h, by rw [h5]; exact h'⟩⟩

theorem renumbered_words {l l' : List Token} (h : EachLine (Renumbered id id') l l') : words l' = words l := by
  induction h with
  | nil => rfl
  | cons h _ ih => simp only [words, List.map_cons, h.1] at ih ⊢; rw [ih]

theorem sameLine_iff (hn : Numbering id) (hn' : Numbering id') {a b a' b' : Loc} (h : SameLine id id' a a') (h' : SameLine id id' b b') :
    (a'.line = b'.line ∧ a'.file = b'.file) ↔ (a.line = b.line ∧ a.file = b.file) := by
  obtain ⟨h1, q, h2, h3⟩ := h
  obtain ⟨k1, r, k2, k3⟩ := h'
  rw [h1, k1]
  constructor
  · rintro ⟨e1, e2⟩
    rw [e2] at h3
    cases hn' _ _ _ h3 k3
    rw [h2] at k2
    exact ⟨e1, Option.some.inj k2⟩
  · rintro ⟨e1, e2⟩
    rw [e2] at h2
    cases hn _ _ _ h2 k2
    rw [h3] at k3
    exact ⟨e1, Option.some.inj k3⟩

theorem splits_renumbered (hn : Numbering id) (hn' : Numbering id') {T : List Token} {L : List (List Token)} (h : SplitsInto T L) :
    ∀ {T'}, EachLine (Renumbered id id') T T' → ∃ L', SplitsInto T' L' ∧ L'.map words = L.map words := by
  induction h with
  | nil => intro T' h; cases h; exact ⟨[], .nil, rfl⟩
  | @cons t l rest ls h1 h2 _ ih =>
    intro T' h
    obtain ⟨a, b, rfl, ha, hb⟩ := eachLine_split h
    have hw := renumbered_words ha
    cases ha with
    | @cons _ t' _ l' hm hl =>
      obtain ⟨L', h3, h4⟩ := ih hb
      refine ⟨(t' :: l') :: L', .cons ?_ ?_ h3, by rw [List.map_cons, List.map_cons, h4, hw]⟩
      · intro y hy
        obtain ⟨x, hx, hxm⟩ := eachLine_mem hl y hy
        exact (sameLine_iff hn hn' hxm.2.1 hm.2.2).mpr (h1 x hx)
      · intro y ys e
        subst e
        cases hb with
        | @cons x _ xs _ hxm _ => exact fun hy => h2 x xs rfl ((sameLine_iff hn hn' hxm.2.1 hm.2.2).mp hy)

theorem parses_renumbered (hn : Numbering id) (hn' : Numbering id') {T T' : List Token} (h : EachLine (Renumbered id id') T T') {p}
    (hp : Parses T p) : Parses T' p := by
  obtain ⟨ls, ss, ms, h1, h2, h3⟩ := hp
  obtain ⟨L', h4, h5⟩ := splits_renumbered hn hn' h1 h
  exact ⟨L', ss, ms, h4, by rw [show L'.map (·.map Token.tok) = ls.map (·.map Token.tok) from h5]; exact h2, h3⟩

theorem rewritten_renumbered {l l' : List Token} (h : EachLine (Renumbered id id') l l') {a a'} (ha : Rewritten l a) (ha' : Rewritten l' a') :
    EachLine (Renumbered id id') a a' := by
  have hw := renumbered_words h
  cases ha with
  | @define a d n more h1 h2 h3 =>
    cases h with
    | @cons _ a2 _ _ k1 h =>
    cases h with
    | @cons _ d2 _ _ k2 h =>
    cases h with
    | @cons _ n2 _ m2 k3 h =>
    cases ha' with
    | define _ _ _ => exact .cons k3 (.cons ⟨rfl, k1.2.1, k2.2.2⟩ h)
    | other hno => exact absurd (show words (a2 :: d2 :: n2 :: m2) = _ :: _ :: words (n2 :: m2) by
        simp only [words, List.map_cons, k1.1, k2.1, h1, h2]) (hno _)
  | other hno =>
    cases ha' with
    | @define a d n more h1 h2 h3 => exact absurd (hw.symm.trans (show words (a :: d :: n :: more) = _ :: _ :: words (n :: more) by
        simp only [words, List.map_cons, h1, h2])) (hno _)
    | other _ => exact h

theorem rewrittens_renumbered {ls ls' : List (List Token)} (h : EachLine (EachLine (Renumbered id id')) ls ls') :
    ∀ {as as'}, EachLine Rewritten ls as → EachLine Rewritten ls' as' → EachLine (Renumbered id id') as.flatten as'.flatten := by
  induction h with
  | nil => intro as as' h h'; cases h; cases h'; exact .nil
  | cons h _ ih =>
    intro as as' h1 h2
    cases h1 with
    | cons a1 a2 =>
      cases h2 with
      | cons b1 b2 => exact eachLine_join (rewritten_renumbered h a1 b1) (ih a2 b2)

theorem includesData_words {l l' : List Token} (e : words l' = words l) {name} (h : IncludesData l name) : IncludesData l' name := by
  cases h with
  | bytes h => exact .bytes (e.trans h)
  | image h1 h2 h3 h4 h5 => exact .image (e.trans h1) h2 h3 h4 h5

end

section
variable {seg : Seg} {fs : FS} {dir : Path}

theorem fileLines_moved {q : Path} (ha : ∀ t, fs.read q = some (utf8 t) → Plain seg t) {n n' : Nat} {ls ls'}
    (h : FileLines fs n q ls) (h' : FileLines fs n' q ls') : EachLine (EachLine (Moved n n' 0 0)) ls ls' := by
  obtain ⟨t, T, h1, h2, h3⟩ := h
  obtain ⟨t', T', k1, k2, k3⟩ := h'
  rw [h1] at k1
  cases utf8_text_unique (Option.some.inj k1)
  have hp := (ha t h1)
  obtain ⟨T2, h4, h5⟩ := lexes_moved (f2 := n') (b2 := []) h2 (c1 := 0) (c2 := 0) rfl rfl
  have e := (lexInput_ok_iff hp).mpr h4
  rw [(lexInput_ok_iff hp).mpr k2] at e
  cases e
  obtain ⟨L, h6, h7⟩ := splits_moved_each h3 h5
  rw [← lines_iff.mpr k3, lines_iff.mpr h6]
  exact h7

theorem headerTokens_moved (hs : AsciiSeg seg) {q : Path} (ha : ∀ t, fs.read q = some (utf8 t) → Ascii t) {n n' : Nat} {ls ls'}
    (h : HeaderTokens fs n q ls) (h' : HeaderTokens fs n' q ls') : EachLine (EachLine (Moved n n' 0 0)) ls ls' := by
  obtain ⟨t, T, h1, h2, h3⟩ := h
  obtain ⟨t', T', k1, k2, k3⟩ := h'
  rw [h1] at k1
  cases utf8_text_unique (Option.some.inj k1)
  obtain ⟨T2, h4, h5⟩ := clexes_moved (f2 := n') (b2 := []) h2 (c1 := 0) (c2 := 0) rfl
  have e := (clex_ok_iff hs (ha t h1)).mpr h4
  rw [(clex_ok_iff hs (ha t h1)).mpr k2] at e
  cases e
  obtain ⟨L, h6, h7⟩ := splits_moved_each h3 h5
  rw [← lines_iff.mpr k3, lines_iff.mpr h6]
  exact h7

/-- What the lines include has no combining characters; C headers are ASCII. -/
def LinesPlain (seg : Seg) (fs : FS) (dir file : Path) (ls : List (List Token)) : Prop :=
  (∀ l ∈ ls, ∀ name rest q, IncludeLine l name rest → FoundAt fs dir file name q → AllPlain seg fs dir q) ∧
  ∀ l ∈ ls, ∀ name q t, NamesHeader (words l) name → FoundAt fs dir file name q → fs.read q = some (utf8 t) → Ascii t

theorem linesPlain {q : Path} (ha : AllPlain seg fs dir q) {n ls} (h : FileLines fs n q ls) : LinesPlain seg fs dir q ls :=
  ⟨fun _ hl _ _ _ h1 h2 => ha.step (includes_source ha h hl h1 h2),
    fun _ hl _ q' t h1 h2 h3 => ha.2 q q' t .main (includes_header ha h hl h1 h2) h3⟩

theorem LinesPlain.tail {file : Path} {l ls} (h : LinesPlain seg fs dir file (l :: ls)) : LinesPlain seg fs dir file ls :=
  ⟨fun l hl => h.1 l (by simp [hl]), fun l hl => h.2 l (by simp [hl])⟩

theorem linesTokens_renumbered (hs : AsciiSeg seg) {id id' : Path → Option Nat} {file : Path} {ls a} (h : LinesTokens fs dir id file ls a) :
    ∀ {ls' a'}, LinesPlain seg fs dir file ls → EachLine (EachLine (Renumbered id id')) ls ls' → LinesTokens fs dir id' file ls' a' →
      EachLine (Renumbered id id') a a' := by
  induction h with
  | nil =>
    intro ls' a' _ he h'
    cases he
    cases h'
    exact .nil
  | @source file l name rest q n ls a more b h1 h2 h3 h4 h5 _ _ ih1 ih2 =>
    intro ls' a' hA he h'
    cases he with
    | @cons _ l' _ more' he hm =>
    have hw := renumbered_words he
    obtain ⟨rest', -, h1'⟩ := includedLine_words hw h1
    cases h' with
    | source k1 k2 k3 k4 k5 k6 k7 =>
      obtain ⟨rfl, rfl⟩ := includedLine_unique h1' k1
      cases found_unique h3 k3
      have hq := hA.1 l (by simp) _ _ _ h1 h3
      have hmv := fileLines_moved (fun t => hq.1 _ t .main) h5 k5
      exact eachLine_join (ih1 (linesPlain hq h5)
        (eachLine_mono (fun _ _ h => eachLine_mono (fun _ _ h => moved_renumbered h4 k4 h) h) hmv) k6) (ih2 hA.tail hm k7)
    | header k1 => exact absurd k1 (source_not_header h1')
    | data k1 => exact absurd k1 (source_not_data h1')
    | other k1 => exact absurd h1' (k1 _ _)
  | @header file l name q n hs' outs more b h1 h3 h4 h5 h6 _ ih2 =>
    intro ls' a' hA he h'
    cases he with
    | @cons _ l' _ more' he hm =>
    have hw := renumbered_words he
    have h1' : NamesHeader (words l') name := by rw [hw]; exact h1
    cases h' with
    | source k1 => exact absurd h1' (source_not_header k1)
    | header k1 k3 k4 k5 k6 k7 =>
      cases namesHeader_unique h1' k1
      cases found_unique h3 k3
      have hmv := headerTokens_moved hs (fun t => hA.2 l (by simp) _ _ t h1 h3) h5 k5
      exact eachLine_join (rewrittens_renumbered
        (eachLine_mono (fun _ _ h => eachLine_mono (fun _ _ h => moved_renumbered h4 k4 h) h) hmv) h6 k6) (ih2 hA.tail hm k7)
    | data k1 => exact absurd k1 (header_not_data h1')
    | other _ k1 => exact absurd h1' (k1 _)
  | @data file l name q more b h1 h2 _ ih2 =>
    intro ls' a' hA he h'
    cases he with
    | @cons _ l' _ more' he hm =>
    have hw := renumbered_words he
    have h1' := includesData_words hw h1
    cases h' with
    | source k1 => exact absurd h1' (source_not_data k1)
    | header k1 => exact absurd h1' (header_not_data k1)
    | data k1 k2 k3 =>
      cases includesData_unique h1' k1
      cases resolves_unique h2 k2
      refine eachLine_join ?_ (ih2 hA.tail hm k3)
      clear h1 h1' k1 hw hA
      induction he with
      | nil => exact .nil
      | cons h _ ih => exact .cons ⟨congrArg (repath _ _) h.1, h.2.1, h.2.2⟩ ih
    | other _ _ k1 => exact absurd h1' (k1 _)
  | @other file l more b h1 h2 h3 _ ih2 =>
    intro ls' a' hA he h'
    cases he with
    | @cons _ l' _ more' he hm =>
    have hw := renumbered_words he
    cases h' with
    | source k1 =>
      obtain ⟨_, _, k1⟩ := includedLine_words hw.symm k1
      exact absurd k1 (h1 _ _)
    | header k1 => rw [hw] at k1; exact absurd k1 (h2 _)
    | data k1 => exact absurd (includesData_words hw.symm k1) (h3 _)
    | other _ _ _ k2 => exact eachLine_join he (ih2 hA.tail hm k2)

theorem sourceTokens_renumbered (hs : AsciiSeg seg) {id id' : Path → Option Nat} {file : Path} (hA : AllPlain seg fs dir file) {a a'}
    (h : SourceTokens fs dir id file a) (h' : SourceTokens fs dir id' file a') : EachLine (Renumbered id id') a a' := by
  obtain ⟨n, ls, h1, h2, h3⟩ := h
  obtain ⟨n', ls', k1, k2, k3⟩ := h'
  exact linesTokens_renumbered hs h3 (linesPlain hA h2)
    (eachLine_mono (fun _ _ h => eachLine_mono (fun _ _ h => moved_renumbered h1 k1 h) h) (fileLines_moved (fun t => hA.1 _ t .main) h2 k2)) k3

/-- With the same numbers, the tokens are the same. -/
theorem rewritten_unique {l a a' : List Token} (h : Rewritten l a) (h' : Rewritten l a') : a = a' := by
  cases h with
  | @define x d n more h1 h2 h3 =>
    cases h' with
    | define _ _ _ => rfl
    | other hno => exact absurd (show words (x :: d :: n :: more) = _ :: _ :: words (n :: more) by
        simp only [words, List.map_cons, h1, h2]) (hno _)
  | other hno =>
    cases h' with
    | @define x d n more h1 h2 h3 => exact absurd (show words (x :: d :: n :: more) = _ :: _ :: words (n :: more) by
        simp only [words, List.map_cons, h1, h2]) (hno _)
    | other _ => rfl

theorem fileLines_unique {q : Path} (ha : ∀ t, fs.read q = some (utf8 t) → Plain seg t) {n : Nat} {ls ls'}
    (h : FileLines fs n q ls) (h' : FileLines fs n q ls') : ls = ls' := by
  obtain ⟨t, T, h1, h2, h3⟩ := h
  obtain ⟨t', T', k1, k2, k3⟩ := h'
  rw [h1] at k1
  cases utf8_text_unique (Option.some.inj k1)
  have hp := (ha t h1)
  have e := (lexInput_ok_iff hp).mpr h2
  rw [(lexInput_ok_iff hp).mpr k2] at e
  cases e
  rw [← lines_iff.mpr k3, lines_iff.mpr h3]

theorem headerTokens_unique (hs : AsciiSeg seg) {q : Path} (ha : ∀ t, fs.read q = some (utf8 t) → Ascii t) {n : Nat} {ls ls'}
    (h : HeaderTokens fs n q ls) (h' : HeaderTokens fs n q ls') : ls = ls' := by
  obtain ⟨t, T, h1, h2, h3⟩ := h
  obtain ⟨t', T', k1, k2, k3⟩ := h'
  rw [h1] at k1
  cases utf8_text_unique (Option.some.inj k1)
  have e := (clex_ok_iff hs (ha t h1)).mpr h2
  rw [(clex_ok_iff hs (ha t h1)).mpr k2] at e
  cases e
  rw [← lines_iff.mpr k3, lines_iff.mpr h3]

theorem linesTokens_unique (hs : AsciiSeg seg) {id : Path → Option Nat} {file : Path} {ls a} (h : LinesTokens fs dir id file ls a) :
    ∀ {a'}, LinesPlain seg fs dir file ls → LinesTokens fs dir id file ls a' → a = a' := by
  induction h with
  | nil => intro a' _ h'; cases h'; rfl
  | @source file l name rest q n ls a more b h1 h2 h3 h4 h5 _ _ ih1 ih2 =>
    intro a' hA h'
    cases h' with
    | source k1 k2 k3 k4 k5 k6 k7 =>
      obtain ⟨rfl, rfl⟩ := includedLine_unique h1 k1
      cases found_unique h3 k3
      rw [h4] at k4
      cases k4
      have hq := hA.1 l (by simp) _ _ _ h1 h3
      cases fileLines_unique (fun t => hq.1 _ t .main) h5 k5
      rw [ih1 (linesPlain hq h5) k6, ih2 hA.tail k7]
    | header k1 => exact absurd k1 (source_not_header h1)
    | data k1 => exact absurd k1 (source_not_data h1)
    | other k1 => exact absurd h1 (k1 _ _)
  | @header file l name q n hs' outs more b h1 h3 h4 h5 h6 _ ih2 =>
    intro a' hA h'
    cases h' with
    | source k1 => exact absurd h1 (source_not_header k1)
    | header k1 k3 k4 k5 k6 k7 =>
      cases namesHeader_unique h1 k1
      cases found_unique h3 k3
      rw [h4] at k4
      cases k4
      cases headerTokens_unique hs (fun t => hA.2 l (by simp) _ _ t h1 h3) h5 k5
      rw [eachLine_unique (R := Rewritten) (fun _ _ _ h h' => rewritten_unique h h') h6 k6, ih2 hA.tail k7]
    | data k1 => exact absurd k1 (header_not_data h1)
    | other _ k1 => exact absurd h1 (k1 _)
  | @data file l name q more b h1 h2 _ ih2 =>
    intro a' hA h'
    cases h' with
    | source k1 => exact absurd h1 (source_not_data k1)
    | header k1 => exact absurd h1 (header_not_data k1)
    | data k1 k2 k3 =>
      cases includesData_unique h1 k1
      cases resolves_unique h2 k2
      rw [ih2 hA.tail k3]
    | other _ _ k1 => exact absurd h1 (k1 _)
  | @other file l more b h1 h2 h3 _ ih2 =>
    intro a' hA h'
    cases h' with
    | source k1 => exact absurd k1 (h1 _ _)
    | header k1 => exact absurd k1 (h2 _)
    | data k1 => exact absurd k1 (h3 _)
    | other _ _ _ k2 => rw [ih2 hA.tail k2]

theorem sourceTokens_unique (hs : AsciiSeg seg) {id : Path → Option Nat} {file : Path} (hA : AllPlain seg fs dir file) {a a'}
    (h : SourceTokens fs dir id file a) (h' : SourceTokens fs dir id file a') : a = a' := by
  obtain ⟨n, ls, h1, h2, h3⟩ := h
  obtain ⟨n', ls', k1, k2, k3⟩ := h'
  rw [h1] at k1
  cases k1
  cases fileLines_unique (fun t => hA.1 _ t .main) h2 k2
  exact linesTokens_unique hs h3 (linesPlain hA h2) k3

/-! ### From the tokens to the run -/

theorem rewritten_fine {l a : List Token} (h : Rewritten l a) : HeaderFine l := by
  cases h with
  | define _ _ h => exact h
  | other h => exact ⟨_, .other h⟩

theorem linesTokens_reads {id : Path → Option Nat} {file : Path} {ls a} (h : LinesTokens fs dir id file ls a) :
    ∀ l ∈ ls, LineReads fs dir file l := by
  induction h with
  | nil => nofun
  | @source file l name rest q n ls a more b h1 h2 h3 h4 h5 _ _ ih1 ih2 =>
    intro x hx
    rcases List.mem_cons.mp hx with rfl | hx
    · refine ⟨fun name' rest' h' => ?_, fun name' h' => absurd h' (source_not_header h1)⟩
      obtain ⟨rfl, rfl⟩ := includedLine_unique h1 h'
      exact ⟨h2, q, h3, sourceReads_iff.mpr ⟨n, ls, h5, ih1⟩⟩
    · exact ih2 x hx
  | @header file l name q n hs' outs more b h1 h3 h4 h5 h6 _ ih2 =>
    intro x hx
    rcases List.mem_cons.mp hx with rfl | hx
    · refine ⟨fun name' rest' h' => absurd h1 (source_not_header h'), fun name' h' => ?_⟩
      cases namesHeader_unique h1 h'
      refine ⟨q, h3, n, hs', h5, ?_⟩
      clear h5
      induction h6 with
      | nil => nofun
      | cons h _ ih =>
        intro y hy
        rcases List.mem_cons.mp hy with rfl | hy
        · exact rewritten_fine h
        · exact ih y hy
    · exact ih2 x hx
  | @data file l name q more b h1 h2 _ ih2 =>
    intro x hx
    rcases List.mem_cons.mp hx with rfl | hx
    · exact ⟨fun _ _ h => absurd h1 (source_not_data h), fun _ h => absurd h1 (header_not_data h)⟩
    · exact ih2 x hx
  | @other file l more b h1 h2 h3 _ ih2 =>
    intro x hx
    rcases List.mem_cons.mp hx with rfl | hx
    · exact ⟨fun _ _ h => absurd h (h1 _ _), fun _ h => absurd h (h2 _)⟩
    · exact ih2 x hx

theorem sourceTokens_reads {id : Path → Option Nat} {file : Path} {a} (h : SourceTokens fs dir id file a) : SourceReads fs dir file := by
  obtain ⟨n, ls, -, h2, h3⟩ := h
  exact sourceReads_iff.mpr ⟨n, ls, h2, linesTokens_reads h3⟩

end

end Verif.Located
