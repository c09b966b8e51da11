import Verif.Lemmas.Include
/-
Including files, continued: the pieces of a file one by one.
-/
namespace Verif
open Spec

/-! ### Headers in another file -/

theorem clexes_moved {f1 f2 : Nat} {b1 b2 text : Text} {T : List Token} (h : CLexesTo f1 b1 text T) {c1 c2 : Nat}
    (hc : b2.count '\n' + c1 = b1.count '\n' + c2) :
    ∃ T', CLexesTo f2 b2 text T' ∧ EachLine (Moved f1 f2 c1 c2) T T' := by
  induction h generalizing b2 with
  | done hg =>
    refine ⟨_, .done hg, .cons ⟨rfl, rfl, rfl, rfl, rfl, ?_, ?_⟩ .nil⟩ <;> (simp only [placeIn]; omega)
  | @token before g w rest k toks hg hk _ ih =>
    obtain ⟨T', h1, h2⟩ := ih (b2 := b2 ++ g ++ w) (by simp only [List.count_append]; omega)
    refine ⟨_, .token hg hk h1, .cons ⟨rfl, rfl, rfl, rfl, rfl, ?_, ?_⟩ h2⟩ <;>
      (simp only [placeIn, List.count_append]; omega)

theorem clexes_last {f : Nat} {before text : Text} {A : List Token} {e : Token} (h : CLexesTo f before text (A ++ [e])) :
    e.tok = .eof := by
  generalize hT : A ++ [e] = T at h
  induction h generalizing A with
  | done hg =>
    cases A with
    | nil => cases hT; rfl
    | cons x A => have := congrArg List.length hT; simp at this
  | @token _ _ _ _ k toks _ hk hr ih =>
    cases A with
    | nil =>
      exfalso
      have := congrArg List.length hT
      simp at this
      subst this
      cases hr
    | cons x A =>
      simp only [List.cons_append, List.cons.injEq] at hT
      exact ih hT.2

theorem eachLine_snoc {α β : Type} {R : α → β → Prop} {a : List α} {x : α} {c : List β} (h : EachLine R (a ++ [x]) c) :
    ∃ c' y, c = c' ++ [y] ∧ EachLine R a c' ∧ R x y := by
  obtain ⟨c1, c2, rfl, h1, h2⟩ := eachLine_split h
  cases h2 with
  | cons h3 h4 => cases h4; exact ⟨c1, _, rfl, h1, h3⟩

/-- The token for the end of the file has no length. -/
theorem clexes_end {f : Nat} {before text : Text} {A : List Token} {e : Token} (h : CLexesTo f before text (A ++ [e])) :
    e.start = e.stop := by
  generalize hT : A ++ [e] = T at h
  induction h generalizing A with
  | done hg =>
    cases A with
    | nil => cases hT; rfl
    | cons x A => have := congrArg List.length hT; simp at this
  | @token _ _ _ _ k toks _ hk hr ih =>
    cases A with
    | nil =>
      exfalso
      have := congrArg List.length hT
      simp at this
      subst this
      cases hr
    | cons x A =>
      simp only [List.cons_append, List.cons.injEq] at hT
      exact ih hT.2

theorem lexes_end {f : Nat} {before text : Text} {A : List Token} {e : Token} (h : LexesTo f before text (A ++ [e])) :
    e.start = e.stop := by
  generalize hT : A ++ [e] = T at h
  induction h generalizing A with
  | done hg =>
    cases A with
    | nil => cases hT; rfl
    | cons x A => have := congrArg List.length hT; simp at this
  | @token _ _ _ _ k toks _ hk hr ih =>
    cases A with
    | nil =>
      exfalso
      have := congrArg List.length hT
      simp at this
      subst this
      cases hr
    | cons x A =>
      simp only [List.cons_append, List.cons.injEq] at hT
      exact ih hT.2

/-! ### Lines and their marks -/

/-- The token starts in the file `m.file`, on the line `m.first`, and ends there on the line `m.last`. -/
structure At (sf : SourceFiles) (m : Mark) (t : Token) : Prop where
  id : IdOf sf m.file t.start.file
  file : t.stop.file = t.start.file
  first : t.start.line = m.first
  last : t.stop.line = m.last

/-- The tokens consist of lines with these marks and tokens, and of tokens for the ends of files, of which some may be
missing. -/
inductive Shows (sf : SourceFiles) : List Token → List Mark → List (List Tok) → Prop where
  | nil : Shows sf [] [] []
  | line {t l O m ms K} : (∀ x ∈ l, x.start.line = t.stop.line ∧ x.start.file = t.stop.file) → At sf m t →
      m.ends = false → Shows sf O ms K → Shows sf (t :: l ++ O) (m :: ms) ((t :: l).map Token.tok :: K)
  | eof {e O m ms K} : e.tok = .eof → At sf m e → m.ends = true → Shows sf O ms K → Shows sf (e :: O) (m :: ms) K
  | skip {O m ms K} : m.ends = true → Shows sf O ms K → Shows sf O (m :: ms) K

theorem Shows.append {sf A ms K B ms' K'} (h : Shows sf A ms K) (h' : Shows sf B ms' K') :
    Shows sf (A ++ B) (ms ++ ms') (K ++ K') := by
  induction h with
  | nil => exact h'
  | line h1 h2 h3 _ ih => rw [List.append_assoc]; exact .line h1 h2 h3 ih
  | eof h1 h2 h3 _ ih => exact .eof h1 h2 h3 ih
  | skip h3 _ ih => exact .skip h3 ih

theorem Shows.mono {sf sf' A ms K m} (h : Shows sf A ms K) (he : sf'.files = sf.files ++ m) : Shows sf' A ms K := by
  have hat : ∀ {m t}, At sf m t → At sf' m t := fun h => ⟨idOf_mono he h.id, h.file, h.first, h.last⟩
  induction h with
  | nil => exact .nil
  | line h1 h2 h3 _ ih => exact .line h1 (hat h2) h3 ih
  | eof h1 h2 h3 _ ih => exact .eof h1 (hat h2) h3 ih
  | skip h3 _ ih => exact .skip h3 ih

theorem Shows.ends {sf A ms K} (h : Shows sf A ms K) {m e} (he : e.tok = .eof) (ha : At sf m e) (hm : m.ends = true) (d : Bool) :
    Shows sf (A ++ (if d then [e] else [])) (ms ++ [m]) K := by
  have := h.append (B := if d then [e] else []) (ms' := [m]) (K' := []) (by
    cases d with
    | true => exact .eof he ha hm .nil
    | false => exact .skip hm .nil)
  rwa [List.append_nil] at this

theorem separate_tail {m : Mark} {ms : List Mark} (h : Separate (m :: ms)) : Separate ms := by
  intro a x b y c e
  exact h (m :: a) x b y c (by rw [e]; rfl)

/-- The next line is not on the line `n` of `q`. -/
def Away (q : Path) (n : Nat) (ms : List Mark) : Prop :=
  ∀ b y c, ms = b ++ y :: c → y.ends = false → (∀ z ∈ b, z.ends = true) → ¬ (q = y.file ∧ n = y.first)

theorem separate_away {m : Mark} {ms : List Mark} (h : Separate (m :: ms)) : Away m.file m.last ms := by
  intro b y c e
  exact h [] m b y c (by rw [e]; rfl)

theorem away_tail {q n m ms} (h : Away q n (m :: ms)) (hm : m.ends = true) : Away q n ms := by
  intro b y c e hy hb
  refine h (m :: b) y c (by rw [e]; rfl) hy ?_
  intro z hz
  rcases List.mem_cons.mp hz with rfl | hz
  · exact hm
  · exact hb z hz

theorem kinds_cons (l : List Token) (L : List (List Token)) : kindsOf (l :: L) = l.map Token.tok :: kindsOf L := rfl

theorem shows_split {sf O ms K} (h : Shows sf O ms K) (hf : FilesOk sf) : ∀ q f n, IdOf sf q f → Separate ms → Away q n ms →
    ∃ E R L, O = E ++ R ∧ (∀ e ∈ E, e.tok = .eof ∧ e.start.line = n ∧ e.start.file = f) ∧
      (∀ x xs, R = x :: xs → ¬ (x.start.line = n ∧ x.start.file = f)) ∧ SplitsInto R L ∧ Undec (kindsOf L) K := by
  induction h with
  | nil => intro q f n _ _ _; exact ⟨[], [], [], rfl, nofun, nofun, .nil, .nil⟩
  | @line t l O m ms K h1 h2 h3 _ ih =>
    intro q f n hq hs ha
    obtain ⟨E, R, L, rfl, e2, e3, e4, e5⟩ := ih m.file t.stop.file m.last (by rw [h2.file]; exact h2.id) (separate_tail hs) (separate_away hs)
    refine ⟨[], _, (t :: (l ++ E)) :: L, rfl, nofun, ?_, ?_, ?_⟩
    · rintro x xs hx ⟨g1, g2⟩
      cases hx
      refine ha [] m ms rfl h3 nofun ⟨idOf_inj hf hq (by rw [← g2]; exact h2.id), ?_⟩
      rw [← g1]; exact h2.first
    · have e6 : t :: l ++ (E ++ R) = t :: (l ++ E) ++ R := by simp
      show SplitsInto (t :: l ++ (E ++ R)) _
      rw [e6]
      refine .cons ?_ ?_ e4
      · intro x hx
        rcases List.mem_append.mp hx with hx | hx
        · exact h1 x hx
        · exact ⟨by rw [(e2 x hx).2.1, h2.last], (e2 x hx).2.2⟩
      · intro x xs hx
        rw [h2.last]
        exact e3 x xs hx
    · rw [kinds_cons, show t :: (l ++ E) = (t :: l) ++ E by rfl, List.map_append]
      refine .line (by simp) ?_ e5
      intro x hx
      obtain ⟨y, hy, rfl⟩ := List.mem_map.mp hx
      exact (e2 y hy).1
  | @eof e O m ms K h1 h2 h3 _ ih =>
    intro q f n hq hs ha
    by_cases hk : e.start.line = n ∧ e.start.file = f
    · obtain ⟨E, R, L, rfl, e2, e3, e4, e5⟩ := ih q f n hq (separate_tail hs) (away_tail ha h3)
      refine ⟨e :: E, R, L, rfl, ?_, e3, e4, e5⟩
      intro x hx
      rcases List.mem_cons.mp hx with rfl | hx
      · exact ⟨h1, hk⟩
      · exact e2 x hx
    · obtain ⟨E, R, L, rfl, e2, e3, e4, e5⟩ := ih m.file e.stop.file m.last (by rw [h2.file]; exact h2.id) (separate_tail hs) (separate_away hs)
      refine ⟨[], _, (e :: E) :: L, rfl, nofun, ?_, ?_, ?_⟩
      · intro x xs hx
        cases hx
        exact hk
      · refine .cons (t := e) (l := E) ?_ ?_ e4
        · intro x hx
          exact ⟨by rw [(e2 x hx).2.1, h2.last], (e2 x hx).2.2⟩
        · intro x xs hx
          rw [h2.last]
          exact e3 x xs hx
      · rw [kinds_cons]
        refine .blank ?_ e5
        intro x hx
        obtain ⟨y, hy, rfl⟩ := List.mem_map.mp hx
        rcases List.mem_cons.mp hy with rfl | hy
        · exact h1
        · exact (e2 y hy).1
  | skip h3 _ ih =>
    intro q f n hq hs ha
    exact ih q f n hq (separate_tail hs) (away_tail ha h3)

/-- Without marks on the same line, the lines are what they should be. -/
theorem shows_lines {sf O ms K} (h : Shows sf O ms K) (hf : FilesOk sf) (hs : Separate ms) : Undec (kindsOf (lines O)) K := by
  induction h with
  | nil => exact .nil
  | skip h3 _ ih => exact ih (separate_tail hs)
  | @line t l O m ms K h1 h2 h3 h4 _ =>
    obtain ⟨E, R, L, e1, e2, e3, e4, e5⟩ := shows_split (.line h1 h2 h3 h4) hf m.file t.start.file (m.first + 1) h2.id hs (by
      intro b y c e hy hb
      cases b with
      | nil => simp only [List.nil_append, List.cons.injEq] at e; rw [← e.1]; omega
      | cons z b =>
        simp only [List.cons_append, List.cons.injEq] at e
        have := hb z List.mem_cons_self
        rw [← e.1, h3] at this
        cases this)
    have : E = [] := by
      cases E with
      | nil => rfl
      | cons x E =>
        exfalso
        simp only [List.cons_append, List.cons.injEq] at e1
        have := (e2 x List.mem_cons_self).2.1
        rw [← e1.1, h2.first] at this
        omega
    subst this
    rw [List.nil_append] at e1
    rw [e1, lines_iff.mpr e4]
    exact e5
  | @eof e O m ms K h1 h2 h3 h4 _ =>
    obtain ⟨E, R, L, rfl, e2, e3, e4, e5⟩ := shows_split h4 hf m.file e.stop.file m.last (by rw [h2.file]; exact h2.id) (separate_tail hs) (separate_away hs)
    have : SplitsInto (e :: (E ++ R)) ((e :: E) :: L) := by
      refine .cons (t := e) (l := E) ?_ ?_ e4
      · intro x hx
        exact ⟨by rw [(e2 x hx).2.1, h2.last], (e2 x hx).2.2⟩
      · intro x xs hx
        rw [h2.last]
        exact e3 x xs hx
    rw [lines_iff.mpr this, kinds_cons]
    refine .blank ?_ e5
    intro x hx
    obtain ⟨y, hy, rfl⟩ := List.mem_map.mp hx
    rcases List.mem_cons.mp hy with rfl | hy
    · exact h1
    · exact (e2 y hy).1

/-- Lines of one file. -/
theorem shows_own {sf : SourceFiles} {file : Path} {f : Nat} (hi : IdOf sf file f) {L L' : List (List Token)}
    (h : EachLine (EachLine (Moved 0 f 0 0)) L L') (hs : ∀ l ∈ L', l ≠ [] ∧ ∀ t r, l = t :: r → ∀ x ∈ r,
      x.start.line = t.stop.line ∧ x.start.file = t.stop.file) :
    Shows sf L'.flatten (L.map (lineMark file)) (kindsOf L') := by
  induction h with
  | nil => exact .nil
  | @cons l l' L L' h1 _ ih =>
    obtain ⟨g1, g2⟩ := hs l' List.mem_cons_self
    cases h1 with
    | nil => exact absurd rfl g1
    | @cons t t' r r' hm hr =>
      rw [List.flatten_cons]
      obtain ⟨-, -, -, m1, m2, m3, m4⟩ := hm
      exact .line (g2 _ _ rfl) ⟨by rw [m1]; exact hi, by rw [m1, m2], m3, m4⟩ rfl
        (ih fun l hl => hs l (List.mem_cons_of_mem _ hl))

/-! ### Headers -/

theorem headerLine_more {l l' : List Token} (h : headerLine l = .ok l') {e : Token} (he : e.tok = .eof) :
    headerLine (l ++ [e]) = .ok (l' ++ [e]) := by
  unfold headerLine at h
  split at h
  · rename_i hash define rest
    split at h
    · rename_i hc
      obtain ⟨⟨n, ts⟩, h1, h⟩ := Res.bind_eq_ok.mp h
      obtain ⟨⟨x, r⟩, h2, h⟩ := Res.bind_eq_ok.mp h
      cases rest with
      | nil => cases h1
      | cons name more =>
        cases h
        have hname : name.tok = .name n ∧ ts = more.map Token.tok := by
          simp only [List.map_cons] at h1
          unfold Toks.readName at h1
          split at h1 <;> simp_all
        obtain ⟨hname, rfl⟩ := hname
        obtain ⟨w, e1, e2, e3⟩ := parseExpr_iff.mp h2
        have : parseExpr ((more ++ [e]).map Token.tok) = .ok (x, r ++ [.eof]) := by
          rw [List.map_append, e1, List.map_cons, he]
          refine parseExpr_iff.mpr ⟨w, by simp, e2, ?_⟩
          intro t ts lv f ht hb
          cases r with
          | nil => cases ht; cases hb
          | cons y ys => cases ht; exact e3 _ _ _ _ rfl hb
        rw [show hash :: define :: name :: more ++ [e] = hash :: define :: name :: (more ++ [e]) by rfl]
        rw [headerLine, if_pos hc]
        simp only [List.map_cons, hname]
        rw [show Toks.readName (.name n :: (more ++ [e]).map Token.tok) = .ok (n, (more ++ [e]).map Token.tok) from rfl]
        simp only [Res.ok_bind]
        rw [this]
        rfl
    · rename_i hc
      cases h
      rw [show hash :: define :: rest ++ [e] = hash :: define :: (rest ++ [e]) by rfl]
      unfold headerLine
      exact if_neg hc
  · rename_i hne
    cases h
    match l with
    | [] => rfl
    | [x] =>
      rw [show [x] ++ [e] = x :: e :: [] by rfl, headerLine, if_neg]
      rintro ⟨-, h2⟩
      rw [he] at h2
      cases h2
    | a :: b :: c => exact absurd rfl (hne a b c)

theorem headerLines_append {A B : List (List Token)} {a b : List Token} (h1 : headerLines A = .ok a) (h2 : headerLines B = .ok b) :
    headerLines (A ++ B) = .ok (a ++ b) := by
  obtain ⟨A', e1, rfl⟩ := headerLines_ok h1
  obtain ⟨B', e2, rfl⟩ := headerLines_ok h2
  rw [headerLines_of (eachLine_join e1 e2), List.flatten_append]

theorem headerLines_one {l l' : List Token} (h : headerLine l = .ok l') : headerLines [l] = .ok l' := by
  rw [headerLines, h, Res.ok_bind]
  simp [headerLines, Res.ok_bind]

theorem headerLines_eof {A : List Token} {L M : List (List Token)} (h : SplitsInto A L)
    (hm : EachLine (fun l l' => headerLine l = .ok l') L M) {e : Token} (he : e.tok = .eof) :
    headerLines (lines (A ++ [e])) = .ok (M.flatten ++ [e]) := by
  rcases splits_eof h e with h1 | ⟨init, l, rfl, h1⟩
  · rw [lines_iff.mpr h1]
    refine headerLines_append (headerLines_of hm) (headerLines_one ?_)
    rfl
  · rw [lines_iff.mpr h1]
    obtain ⟨M', y, rfl, k1, k2⟩ := eachLine_snoc hm
    rw [List.flatten_append, List.append_assoc]
    refine headerLines_append (headerLines_of k1) ?_
    simpa using headerLines_one (headerLine_more k2 he)

theorem header_shows {sf : SourceFiles} {file : Path} {f : Nat} (hi : IdOf sf file f) {L L' : List (List Token)}
    (h : EachLine (EachLine (Moved 0 f 0 0)) L L') :
    ∀ {M}, EachLine Kept L' M → Shows sf M.flatten (L.map (lineMark file)) (kindsOf M) := by
  induction h with
  | nil => intro M hm; cases hm; exact .nil
  | @cons l l' L L' h1 _ ih =>
    intro M hm
    cases hm with
    | @cons _ y _ M hk hr =>
      obtain ⟨t, r, t', r', rfl, rfl, k1, k2, k3, k4, k5⟩ := hk
      cases h1 with
      | @cons t0 _ r0 _ hm0 _ =>
        obtain ⟨-, -, -, m1, m2, m3, m4⟩ := hm0
        rw [List.flatten_cons]
        exact .line (by rw [k3, k4]; exact k5) ⟨by rw [k2, m1]; exact hi, by rw [k2, k4, m1, m2], by rw [k1]; exact m3, by rw [k3]; exact m4⟩ rfl
          (ih hr)

theorem header_text {seg : Seg} (hs : AsciiSeg seg) {t : Text} (ha : Ascii t) {e : Token} {L : List (List Token)}
    {ls : List (List Tok)} (h1 : CLexesTo 0 [] t (L.flatten ++ [e])) (h2 : SplitsInto L.flatten L)
    (h3 : EachLine HeaderLine (kindsOf L) ls) {f : Nat} {sf : SourceFiles} {p : Path} (hi : IdOf sf p f) :
    ∃ toks, lexHeader seg (Input.new f t) = .ok toks ∧ Shows sf toks (L.map (lineMark p) ++ [endMark p e]) ls := by
  obtain ⟨T', g1, g2⟩ := clexes_moved (f2 := f) (b2 := []) h1 (c1 := 0) (c2 := 0) rfl
  obtain ⟨c1, e', rfl, g3, g4⟩ := eachLine_snoc g2
  obtain ⟨L', g5, g6⟩ := splits_moved_each h2 g3
  have he : e'.tok = .eof := clexes_last g1
  have he0 : e.start.line = e.stop.line := by
    have := clexes_end h1
    rw [this]
  rw [show kindsOf L = kindsOf L' from (moved_kinds g6).symm] at h3
  obtain ⟨M, m1, m2⟩ := headerLines_complete h3
  refine ⟨M.flatten ++ [e'], ?_, ?_⟩
  · unfold lexHeader
    rw [(clex_ok_iff hs ha).mpr g1, Res.ok_bind, headerLines_eof g5 m1 he]
  · have hsl := splits_lines g5
    have hshort := clexesTo_short g1
    have hk := m1.imp (S := Kept) fun l l' hm hr => (headerLine_ok hr (hsl.2 l hm).1
      (fun t ht => hshort t (by rw [hsl.1]; exact List.mem_append_left _ (List.mem_flatten.mpr ⟨l, hm, ht⟩))) (hsl.2 l hm).2).2
    have := header_shows hi g6 hk
    rw [show kindsOf M = ls from m2] at this
    obtain ⟨-, -, -, n1, n2, n3, n4⟩ := g4
    exact this.ends he (m := endMark p e) ⟨by rw [n1]; exact hi, by rw [n1, n2], n3, by rw [← he0] at n4; exact n4⟩ rfl true

/-! ### Pieces -/

/-- The function that processes a line. -/
abbrev stepOf (seg : Seg) (fs : FS) (file : Path) (k : Nat) := includeLine seg fs (replaceIncludes seg fs k) file

/-- What processing the text gives: lines with the marks `ms` and tokens `K`. -/
def Gives (seg : Seg) (fs : FS) (dir file : Path) (before text : Text) (ms : List Mark) (K : List (List Tok)) : Prop :=
  ∀ f, ∃ L, ReadsAt f before text L ∧ ∀ sf, Good fs dir sf → IdOf sf file f →
    ∃ n O sf', Runs (stepOf seg fs file) n sf L O sf' ∧ Good fs dir sf' ∧ (∃ m, sf'.files = sf.files ++ m) ∧ Shows sf' O ms K

theorem Gives.append {seg fs dir file before a ms K b ms' K'} (h : Gives seg fs dir file before a ms K)
    (h' : Gives seg fs dir file (before ++ a) b ms' K') (hw : ∃ a', a = a' ++ ['\n']) :
    Gives seg fs dir file before (a ++ b) (ms ++ ms') (K ++ K') := by
  intro f
  obtain ⟨L, h1, h2⟩ := h f
  obtain ⟨L', c1, c2⟩ := h' f
  refine ⟨L ++ L', readsAt_append h1 hw c1, fun sf g i => ?_⟩
  obtain ⟨n, O, sf1, r, g1, ⟨m1, e1⟩, s1⟩ := h2 sf g i
  obtain ⟨n', O', sf2, r', g2, ⟨m2, e2⟩, s2⟩ := c2 sf1 g1 (idOf_mono e1 i)
  exact ⟨max n n', O ++ O', sf2, (r.mono (Nat.le_max_left _ _)).append (r'.mono (Nat.le_max_right _ _)), g2,
    ⟨m1 ++ m2, by rw [e2, e1, List.append_assoc]⟩, (s1.mono e2).append s2⟩

theorem readsAt_move {before a : Text} {L : List (List Token)} (h : ReadsAt 0 before a L) (f : Nat) :
    ∃ L', ReadsAt f before a L' ∧ EachLine (EachLine (Moved 0 f 0 0)) L L' := by
  obtain ⟨e, h1, h2⟩ := h
  obtain ⟨T', h3, h4⟩ := lexes_moved (f2 := f) (b2 := before) h1 (c1 := 0) (c2 := 0) rfl rfl
  obtain ⟨c1, e', rfl, h5, h6⟩ := eachLine_snoc h4
  obtain ⟨L', h7, h8⟩ := splits_moved_each h2 h5
  have := splits_flatten h7
  exact ⟨L', ⟨e', by rw [this]; exact h3, by rw [this]; exact h7⟩, h8⟩

theorem head_append_eof {l : List Token} {e : Token} (he : e.tok = .eof)
    (h : (l.map Token.tok).head? ≠ some (.name ".include".toList)) :
    ((l ++ [e]).map Token.tok).head? ≠ some (.name ".include".toList) := by
  cases l with
  | nil => simp [he]
  | cons x l => exact h

theorem runs_copy {seg fs file sf} : ∀ {L : List (List Token)},
    (∀ l ∈ L, (l.map Token.tok).head? ≠ some (.name ".include".toList)) → Runs (stepOf seg fs file) 0 sf L L.flatten sf
  | [], _ => .nil
  | l :: L, h => by
    have hl := h l List.mem_cons_self
    refine .cons true (fun k _ => includeLine_copy hl) (fun e he k _ => ?_) (runs_copy fun l' h' => h l' (List.mem_cons_of_mem _ h'))
    exact includeLine_copy (head_append_eof he hl)

/-- Lines that are not includes. -/
theorem gives_lines {seg fs dir file before a L} (h : ReadsAt 0 before a L)
    (hl : ∀ l ∈ L, (l.map Token.tok).head? ≠ some (.name ".include".toList)) :
    Gives seg fs dir file before a (L.map (lineMark file)) (kindsOf L) := by
  intro f
  obtain ⟨L', h1, h2⟩ := readsAt_move h f
  refine ⟨L', h1, fun sf g i => ⟨0, L'.flatten, sf, runs_copy ?_, g, ⟨[], by simp⟩, ?_⟩⟩
  · intro l hl'
    have : l.map Token.tok ∈ kindsOf L := by
      rw [show kindsOf L = kindsOf L' from (moved_kinds h2).symm]; exact List.mem_map_of_mem hl'
    obtain ⟨l0, h0, e⟩ := List.mem_map.mp this
    rw [← e]
    exact hl l0 h0
  · obtain ⟨e, -, hs⟩ := h1
    have := shows_own i h2 (splits_lines hs).2
    rwa [show kindsOf L' = kindsOf L from moved_kinds h2] at this

/-- The one line of a piece. -/
theorem readsAs_one {a : Text} {l : List Tok} (h : ReadsAs a [l]) (f : Nat) {before : Text} (hb : lineStart before = true) :
    ∃ lt, ReadsAt f before a [lt] ∧ lt.map Token.tok = l := by
  obtain ⟨L0, h1, e⟩ := h
  obtain ⟨L, h2, h3⟩ := readsAt_shift (f2 := f) (b2 := before) h1 (by rw [hb]; rfl)
  rw [← h3] at e
  match L, e with
  | [], e => cases e
  | [lt], e => simp at e; exact ⟨lt, h2, e.symm⟩
  | _ :: _ :: _, e => simp at e

theorem includeLine_dir {seg fs go file sf} {l : List Token} {typ name rest}
    (h : parseDirective (l.map Token.tok) = .ok (some (.dir (.incl typ name), rest))) :
    includeLine seg fs go file sf l = (do
      let path ← sf.path fs (some file) (Path.parse name)
      match typ with
      | .asm => do
        let (file, sf) ← sf.load fs (some file) path
        let toks ← lexInput seg (Input.new file.id file.contents)
        let (toks, sf) ← go file.name sf toks
        if rest.isEmpty then .ok (toks, sf) else .err .unexpectedToken
      | .cHeader => do
        let (file, sf) ← sf.load fs (some file) path
        let toks ← lexHeader seg (Input.new file.id file.contents)
        .ok (toks, sf)
      | _ => .ok (l.map (fixPath name path.render), sf)) := by
  unfold includeLine
  rw [h]
  rfl

/-- Both forms of a line, without and with the token for the end of the file. -/
theorem dir_forms {l : List Token} {typ : IncludeType} {name : Text} (h : DirSyntax (l.map Token.tok) (.incl typ name)) :
    parseDirective (l.map Token.tok) = .ok (some (.dir (.incl typ name), [])) ∧
    ∀ e : Token, e.tok = .eof → parseDirective ((l ++ [e]).map Token.tok) = .ok (some (.dir (.incl typ name), [.eof])) := by
  refine ⟨?_, fun e he => ?_⟩
  · have := parseDirective_dir h (rest := []) (.inl rfl)
    rwa [List.append_nil] at this
  · have := parseDirective_dir h (rest := [.eof]) (.inr ⟨[], rfl⟩)
    rw [List.map_append, List.map_cons, he]
    exact this

/-- Includes of binary files. -/
theorem gives_binary {seg fs dir file before a l typ name p} (h : ReadsAt 0 before a [l])
    (hd : DirSyntax (l.map Token.tok) (.incl typ name))
    (ha : typ ≠ .asm) (hc : typ ≠ .cHeader) (hp : Resolves fs dir (some file) (Path.parse name) p) :
    Gives seg fs dir file before a [lineMark file l] [(l.map Token.tok).map (repath name p.render)] := by
  intro f
  obtain ⟨L', h1, h2⟩ := readsAt_move h f
  obtain ⟨lt, rfl, hm⟩ : ∃ lt, L' = [lt] ∧ EachLine (Moved 0 f 0 0) l lt := by
    cases h2 with
    | cons h3 h4 => cases h4; exact ⟨_, rfl, h3⟩
  have ht := moved_toks hm
  rw [← ht] at hd
  obtain ⟨e, hlex, hsp⟩ := h1
  have hsl := (splits_lines hsp).2 lt (by simp)
  have hfix : ∀ t, (fixPath name p.render t).start = t.start ∧ (fixPath name p.render t).stop = t.stop := by
    intro t; unfold fixPath; split <;> exact ⟨rfl, rfl⟩
  refine ⟨[lt], ⟨e, hlex, hsp⟩, fun sf g i => ?_⟩
  have hpath : sf.path fs (some file) (Path.parse name) = .ok p := path_iff.mpr (by rw [g.dir]; exact hp)
  obtain ⟨d1, d2⟩ := dir_forms hd
  refine ⟨0, lt.map (fixPath name p.render), sf, ?_, g, ⟨[], by simp⟩, ?_⟩
  · have := Runs.cons (step := stepOf seg fs file) (n := 0) (sf := sf) (l := lt) (o := lt.map (fixPath name p.render))
      (sf1 := sf) (L := []) (O := []) (sf2 := sf) true (by
        intro k _
        unfold stepOf
        rw [includeLine_dir d1, hpath, Res.ok_bind]
        cases typ <;> first | rfl | exact absurd rfl ha | exact absurd rfl hc) (by
        intro e he k _
        unfold stepOf
        rw [includeLine_dir (d2 e he), hpath, Res.ok_bind]
        have : (lt ++ [e]).map (fixPath name p.render) = lt.map (fixPath name p.render) ++ [e] := by
          simp [fixPath, he]
        rw [this]
        cases typ <;> first | rfl | exact absurd rfl ha | exact absurd rfl hc) .nil
    simpa using this
  · have hk : (lt.map (fixPath name p.render)).map Token.tok = (l.map Token.tok).map (repath name p.render) := by
      rw [← ht]
      simp only [List.map_map]
      congr 1
      funext t
      simp only [Function.comp, fixPath, repath]
      split <;> rfl
    rw [← hk]
    cases hm with
    | nil => exact absurd rfl hsl.1
    | @cons t t' r r' hm hr =>
      obtain ⟨-, -, -, m1, m2, m3, m4⟩ := hm
      have := Shows.line (sf := sf) (t := fixPath name p.render t') (l := r'.map (fixPath name p.render)) (O := []) (ms := []) (K := [])
        (m := lineMark file (t :: r)) (by
          intro x hx
          obtain ⟨y, hy, rfl⟩ := List.mem_map.mp hx
          rw [(hfix y).1, (hfix t').2]
          exact hsl.2 _ _ rfl y hy)
        ⟨by rw [(hfix t').1, m1]; exact i, by rw [(hfix t').1, (hfix t').2, m1, m2], by rw [(hfix t').1]; exact m3,
          by rw [(hfix t').2]; exact m4⟩ rfl .nil
      simpa using this

/-- Includes of C headers. -/
theorem gives_header {seg fs dir file before a name p t ls} (hs : AsciiSeg seg) (hb : lineStart before = true)
    (h : ReadsAs a [[.name ".include".toList, .name "cpp".toList, .string name]])
    (hp : Resolves fs dir (some file) (Path.parse name) p) (habs : p.abs = true) (hr : fs.read p = some (utf8 t))
    (ha : Ascii t) {e : Token} {L : List (List Token)} (h1 : CLexesTo 0 [] t (L.flatten ++ [e]))
    (h2 : SplitsInto L.flatten L) (h3 : EachLine HeaderLine (kindsOf L) ls) :
    Gives seg fs dir file before a (L.map (lineMark p) ++ [endMark p e]) ls := by
  intro f
  obtain ⟨lt, hl, el⟩ := readsAs_one h f hb
  refine ⟨[lt], hl, fun sf g i => ?_⟩
  have hpath : sf.path fs (some file) (Path.parse name) = .ok p := path_iff.mpr (by rw [g.dir]; exact hp)
  obtain ⟨q, sf1, l1, l2, l3, l4, l5, l6⟩ := load_good g (root := file) (q := p) (.absolute habs) hr
  obtain ⟨toks, t1, t2⟩ := header_text hs ha h1 h2 h3 l5
  obtain ⟨d1, d2⟩ := dir_forms (l := lt) (typ := .cHeader) (name := name) (by rw [el]; exact .cpp)
  refine ⟨0, toks, sf1, ?_, l4, l6, t2⟩
  have := Runs.cons (step := stepOf seg fs file) (n := 0) (sf := sf) (l := lt) (o := toks)
    (sf1 := sf1) (L := []) (O := []) (sf2 := sf1) false (by
      intro k _
      unfold stepOf
      rw [includeLine_dir d1, hpath, Res.ok_bind]
      simp only [l1, Res.ok_bind, l2, t1]) (by
      intro e he k _
      unfold stepOf
      rw [includeLine_dir (d2 e he), hpath, Res.ok_bind]
      simp only [l1, Res.ok_bind, l2, t1]
      simp) .nil
  simpa using this

/-- The tokens of a whole file, processed. -/
theorem gives_file {seg : Seg} {fs : FS} {dir p : Path} {t : Text} (ha : Plain seg t) {ms : List Mark}
    {K : List (List Tok)} (h : Gives seg fs dir p [] t ms K) {toks : List Token} {e : Token}
    (hlex : LexesTo 0 [] t (toks ++ [e])) {sf : SourceFiles} (hg : Good fs dir sf) {f : Nat} (hi : IdOf sf p f) :
    ∃ n T O sf', lexInput seg (Input.new f t) = .ok T ∧ (∀ k ≥ n, replaceIncludes seg fs k p sf T = .ok (O, sf')) ∧
      Good fs dir sf' ∧ (∃ m, sf'.files = sf.files ++ m) ∧ Shows sf' O (ms ++ [endMark p e]) K := by
  obtain ⟨L, ⟨e', q1, q2⟩, hq⟩ := h f
  obtain ⟨n, O, sf2, r, k1, ⟨m2, e2⟩, k3⟩ := hq sf hg hi
  have heq := (lexes_last q1).1
  obtain ⟨d, hrun⟩ := r.eof q2 heq (fun k sf => includeLine_copy (by simp [heq]))
  refine ⟨n + 1, _, O ++ (if d then [e'] else []), sf2, (lexInput_ok_iff ha).mpr q1, ?_, k1, ⟨m2, e2⟩, ?_⟩
  · intro k hk
    obtain ⟨k, rfl⟩ : ∃ j, k = j + 1 := ⟨k - 1, by omega⟩
    rw [replaceIncludes]
    exact hrun k (by omega)
  · obtain ⟨T', g1, g2⟩ := lexes_moved (f2 := f) (b2 := []) hlex (c1 := 0) (c2 := 0) rfl rfl
    obtain ⟨c1, x, rfl, g3, g4⟩ := eachLine_snoc g2
    obtain ⟨-, hx⟩ := List.append_inj' (lexesTo_unique g1 q1) rfl
    cases hx
    have he := lexes_end hlex
    obtain ⟨-, -, -, n1, n2, n3, n4⟩ := g4
    rw [← he] at n4
    exact k3.ends heq ⟨by rw [n1]; exact idOf_mono e2 hi, by rw [n1, n2], n3, n4⟩ rfl d

/-- Includes of assembly files. -/
theorem gives_asm {seg fs dir file before a name p t ms K} (hb : lineStart before = true)
    (h : ReadsAs a [[.name ".include".toList, .string name]] ∨
      ReadsAs a [[.name ".include".toList, .name "asm".toList, .string name]])
    (hp : Resolves fs dir (some file) (Path.parse name) p) (habs : p.abs = true) (hr : fs.read p = some (utf8 t))
    (ha : Plain seg t) (hc : Gives seg fs dir p [] t ms K) {toks : List Token} {e : Token} (hlex : LexesTo 0 [] t (toks ++ [e])) :
    Gives seg fs dir file before a (ms ++ [endMark p e]) K := by
  intro f
  have hl : ∃ lt, ReadsAt f before a [lt] ∧ DirSyntax (lt.map Token.tok) (.incl .asm name) := by
    rcases h with h | h
    · obtain ⟨lt, hl, el⟩ := readsAs_one h f hb
      exact ⟨lt, hl, by rw [el]; exact .incl⟩
    · obtain ⟨lt, hl, el⟩ := readsAs_one h f hb
      exact ⟨lt, hl, by rw [el]; exact .asm⟩
  obtain ⟨lt, hl, hd⟩ := hl
  refine ⟨[lt], hl, fun sf g i => ?_⟩
  have hpath : sf.path fs (some file) (Path.parse name) = .ok p := path_iff.mpr (by rw [g.dir]; exact hp)
  obtain ⟨q, sf1, l1, l2, l3, l4, l5, m, l6⟩ := load_good g (root := file) (q := p) (.absolute habs) hr
  obtain ⟨n, T, O, sf2, hT, hgo, k1, ⟨m2, e2⟩, k3⟩ := gives_file ha hc hlex l4 l5
  obtain ⟨d1, d2⟩ := dir_forms hd
  refine ⟨n, O, sf2, ?_, k1, ⟨m ++ m2, by rw [e2, l6, List.append_assoc]⟩, k3⟩
  have := Runs.cons (step := stepOf seg fs file) (n := n) (sf := sf) (l := lt) (o := O)
    (sf1 := sf2) (L := []) (O := []) (sf2 := sf2) false (by
      intro k hk
      unfold stepOf
      rw [includeLine_dir d1, hpath, Res.ok_bind]
      simp only [l1, Res.ok_bind, l2, l3, hT, hgo k hk, Toks.isEmpty]
      rfl) (by
      intro e he k hk
      unfold stepOf
      rw [includeLine_dir (d2 e he), hpath, Res.ok_bind]
      simp only [l1, Res.ok_bind, l2, l3, hT, hgo k hk, Toks.isEmpty]
      simp) .nil
  simpa using this

theorem readsAs_empty {l : List Tok} {ls : List (List Tok)} (h : ReadsAs [] (l :: ls)) : False := by
  obtain ⟨L, h1, h2⟩ := h
  rw [readsAt_empty h1] at h2
  cases h2

theorem inserted_empty {fs dir file before text' ms} (h : Inserted seg fs dir file before [] text' ms) : text' = [] ∧ ms = [] := by
  generalize ht : ([] : Text) = text at h
  cases h with
  | last h1 _ =>
    subst ht
    rw [readsAt_empty h1]
    exact ⟨rfl, rfl⟩
  | lines => simp at ht
  | asm _ h1 =>
    obtain ⟨rfl, rfl⟩ := List.append_eq_nil_iff.mp ht.symm
    rcases h1 with h1 | h1 <;> exact (readsAs_empty h1).elim
  | header _ h1 =>
    obtain ⟨rfl, rfl⟩ := List.append_eq_nil_iff.mp ht.symm
    exact (readsAs_empty h1).elim
  | binary _ h1 =>
    obtain ⟨rfl, rfl⟩ := List.append_eq_nil_iff.mp ht.symm
    cases readsAt_empty h1

theorem gives_followed {seg fs dir file before a ms K rest rest' ms'}
    (h : Gives seg fs dir file before a ms K) (hw : Whole a rest)
    (hi : Inserted seg fs dir file (before ++ a) rest rest' ms')
    (ih : lineStart (before ++ a) = true → ∃ K', ReadsAs rest' K' ∧ Gives seg fs dir file (before ++ a) rest ms' K')
    {x : Text} (hx : ReadsAs (x ++ ['\n']) K) :
    ∃ K', ReadsAs (x ++ ['\n'] ++ rest') K' ∧ Gives seg fs dir file before (a ++ rest) (ms ++ ms') K' := by
  rcases hw with ⟨b, rfl⟩ | rfl
  · obtain ⟨K', h1, h2⟩ := ih (by rw [← List.append_assoc, lineStart_snoc]; rfl)
    exact ⟨K ++ K', readsAs_append hx h1, h.append h2 ⟨b, rfl⟩⟩
  · obtain ⟨rfl, rfl⟩ := inserted_empty hi
    exact ⟨K, by rw [List.append_nil]; exact hx, by rw [List.append_nil, List.append_nil]; exact h⟩

/-- The lines of the included text are those of the text with the files inserted. -/
theorem inserted_gives {seg : Seg} (hs : AsciiSeg seg) {fs : FS} {dir file : Path} {before text text' : Text} {ms : List Mark}
    (h : Inserted seg fs dir file before text text' ms) (hb : lineStart before = true) :
    ∃ K, ReadsAs text' K ∧ Gives seg fs dir file before text ms K := by
  have plain : ∀ {before a : Text} {L : List (List Token)}, lineStart before = true → ReadsAt 0 before a L → ReadsAs a (kindsOf L) := by
    intro before a L hb h
    obtain ⟨L', h1, h2⟩ := readsAt_shift (f2 := 0) (b2 := []) h (by rw [hb]; rfl)
    exact ⟨L', h1, h2.symm⟩
  induction h with
  | last h1 h2 => exact ⟨_, plain hb h1, gives_lines h1 h2⟩
  | lines h1 h2 h3 ih => exact gives_followed (gives_lines h1 h2) (.inl ⟨_, rfl⟩) h3 ih (plain hb h1)
  | asm hw h1 h2 h3 h4 h5 _ h6 h7 ih1 ih2 =>
    obtain ⟨K, k1, k2⟩ := ih1 rfl
    have := gives_followed (gives_asm hb h1 h2 h3 h4 h5 k2 h6) hw h7 ih2 (readsAs_newline k1)
    simpa using this
  | header hw h1 h2 h3 h4 h5 h6 h7 h8 h9 h10 ih =>
    have := gives_followed (gives_header hs hb h1 h2 h3 h4 h5 h6 h7 h8) hw h10 ih (readsAs_newline h9)
    simpa using this
  | binary hw h1 h2 h3 h4 h5 h6 h7 ih =>
    exact gives_followed (gives_binary h1 h2 h3 h4 h5) hw h7 ih (readsAs_newline h6)

theorem readsAs_noeof {a : Text} {K : List (List Tok)} (h : ReadsAs a K) : ∀ l ∈ K, Tok.eof ∉ l := by
  obtain ⟨L, ⟨e, h1, -⟩, rfl⟩ := h
  intro l hl hm
  obtain ⟨l0, h0, rfl⟩ := List.mem_map.mp hl
  obtain ⟨t, ht, e⟩ := List.mem_map.mp hm
  exact (lexes_last h1).2 t (List.mem_flatten.mpr ⟨l0, h0, ht⟩) e

/-- Reading a text in one piece. -/
theorem readsAs_lex {seg : Seg} {a : Text} {K : List (List Tok)} (h : ReadsAs a K) (ha : Plain seg a) (f : Nat) :
    ∃ toks, lexInput seg (Input.new f a) = .ok toks ∧ Undec (kindsOf (lines toks)) K := by
  obtain ⟨L0, h1, rfl⟩ := h
  obtain ⟨L, ⟨e, h2, h3⟩, h4⟩ := readsAt_shift (f2 := f) (b2 := []) h1 rfl
  refine ⟨_, (lexInput_ok_iff ha).mpr h2, ?_⟩
  have hu : Undec (kindsOf L) (kindsOf L0) := by
    rw [show kindsOf L0 = kindsOf L from h4.symm]
    refine Undec.refl ?_
    intro l hl
    obtain ⟨y, hy, rfl⟩ := List.mem_map.mp hl
    simpa using ((splits_lines h3).2 y hy).1
  obtain ⟨L', k1, k2⟩ := undec_eof h3 hu (lexes_last h2).1
  rw [lines_iff.mpr k1]
  exact k2

theorem separate_snoc {ms : List Mark} (h : Separate ms) {m : Mark} (hm : m.ends = true) : Separate (ms ++ [m]) := by
  intro a x b y c e hy hb
  rcases List.eq_nil_or_concat c with rfl | ⟨c', z, rfl⟩
  · have : ms ++ [m] = (a ++ x :: b) ++ [y] := e
    obtain ⟨-, e2⟩ := List.append_inj' this rfl
    cases e2
    rw [hm] at hy
    cases hy
  · rw [List.concat_eq_append] at e
    have : ms ++ [m] = (a ++ x :: b ++ y :: c') ++ [z] := by rw [e]; simp
    obtain ⟨e1, -⟩ := List.append_inj' this rfl
    exact h a x b y c' e1 hy hb

/-- The tokens after including: their lines are those of the inserted text. -/
theorem inserted_main {seg : Seg} (hs : AsciiSeg seg) {fs : FS} {dir file : Path} {text text' : Text} {ms : List Mark}
    (h : Inserted seg fs dir file [] text text' ms) (ha : Plain seg text) (hm : Separate ms) {sf : SourceFiles}
    (hg : Good fs dir sf) {f : Nat} (hi : IdOf sf file f) :
    ∃ K n toks out sf', ReadsAs text' K ∧ lexInput seg (Input.new f text) = .ok toks ∧
      (∀ k ≥ n, replaceIncludes seg fs k file sf toks = .ok (out, sf')) ∧ Undec (kindsOf (lines out)) K := by
  obtain ⟨K, h1, h2⟩ := inserted_gives hs h rfl
  obtain ⟨L, ⟨e, q1, q2⟩, -⟩ := h2 0
  obtain ⟨n, T, O, sf', t1, t2, t3, -, t4⟩ := gives_file ha h2 q1 hg hi
  exact ⟨K, n, T, O, sf', h1, t1, t2, shows_lines t4 t3.ok (separate_snoc hm rfl)⟩

end Verif
