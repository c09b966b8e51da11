import Verif.Spec.Respelling
import Verif.Lemmas.Sources
/-
Programs whose source files have the same tokens on the same lines are read alike.
-/
namespace Verif
open Spec

/-- Both succeed with related results, or both fail in the same way. -/
inductive Both {α : Type} (R : α → α → Prop) : Res α → Res α → Prop where
  | ok {a b} : R a b → Both R (.ok a) (.ok b)
  | err {e} : Both R (.err e) (.err e)
  | panic : Both R .panic .panic
  | loop : Both R .loop .loop

theorem Both.refl {α : Type} {R : α → α → Prop} {r : Res α} (h : ∀ a, r = .ok a → R a a) : Both R r r := by
  cases r with
  | ok a => exact .ok (h a rfl)
  | err e => exact .err
  | panic => exact .panic
  | loop => exact .loop

theorem Both.bind {α β : Type} {R : α → α → Prop} {S : β → β → Prop} {r r' : Res α} {f f' : α → Res β} (h : Both R r r')
    (hf : ∀ a b, r = .ok a → r' = .ok b → R a b → Both S (f a) (f' b)) : Both S (r >>= f) (r' >>= f') := by
  cases h with
  | ok h => exact hf _ _ rfl rfl h
  | err => exact .err
  | panic => exact .panic
  | loop => exact .loop

theorem Both.eq {α : Type} {r r' : Res α} (h : Both Eq r r') : r' = r := by
  cases h with
  | ok h => rw [h]
  | _ => rfl

/-! ### Tokens -/

/-- The same token, on the same lines of the same file. -/
def Alike (a b : Token) : Prop :=
  a.tok = b.tok ∧ a.start.line = b.start.line ∧ a.stop.line = b.stop.line ∧ a.start.file = b.start.file ∧ a.stop.file = b.stop.file

theorem each_refl {α : Type} {R : α → α → Prop} (h : ∀ a, R a a) : ∀ l : List α, EachLine R l l
  | [] => .nil
  | _ :: l => .cons (h _) (each_refl h l)

theorem alike_refl (l : List Token) : EachLine Alike l l := each_refl (fun _ => ⟨rfl, rfl, rfl, rfl, rfl⟩) l

theorem alike_toks {T T' : List Token} (h : EachLine Alike T T') : T'.map Token.tok = T.map Token.tok := by
  induction h with
  | nil => rfl
  | cons h _ ih => simp only [List.map_cons, ih, h.1]

theorem splits_alike {T : List Token} {L : List (List Token)} (h : SplitsInto T L) :
    ∀ {T'}, EachLine Alike T T' → ∃ L', SplitsInto T' L' ∧ EachLine (EachLine Alike) L L' := by
  induction h with
  | nil => intro T' h; cases h; exact ⟨[], .nil, .nil⟩
  | @cons t l rest ls h1 h2 _ ih =>
    intro T' h
    obtain ⟨a, b, rfl, ha, hb⟩ := eachLine_split h
    cases ha with
    | @cons _ t' _ l' hm hl =>
      obtain ⟨L', h3, h4⟩ := ih hb
      refine ⟨(t' :: l') :: L', .cons ?_ ?_ h3, ?_⟩
      · intro x' hx'
        obtain ⟨x, hx, hxm⟩ := eachLine_mem hl x' hx'
        obtain ⟨e1, e2⟩ := h1 x hx
        obtain ⟨-, -, m2, -, m4⟩ := hm
        obtain ⟨-, n1, -, n3, -⟩ := hxm
        exact ⟨by rw [← n1, ← m2, e1], by rw [← n3, ← m4, e2]⟩
      · rintro x' xs' rfl
        cases hb with
        | @cons x _ xs _ hxm _ =>
          have := h2 x xs rfl
          obtain ⟨-, -, m2, -, m4⟩ := hm
          obtain ⟨-, n1, -, n3, -⟩ := hxm
          rintro ⟨g1, g2⟩
          exact this ⟨by rw [n1, m2, g1], by rw [n3, m4, g2]⟩
      · exact .cons (.cons hm hl) h4

theorem lines_alike {T T' : List Token} (h : EachLine Alike T T') : EachLine (EachLine Alike) (lines T) (lines T') := by
  obtain ⟨L', h1, h2⟩ := splits_alike (lines_splits T) h
  rwa [lines_iff.mpr h1]

theorem kinds_alike {L L' : List (List Token)} (h : EachLine (EachLine Alike) L L') : kindsOf L' = kindsOf L := by
  induction h with
  | nil => rfl
  | cons h _ ih =>
    show List.map Token.tok _ :: kindsOf _ = List.map Token.tok _ :: kindsOf _
    rw [ih, alike_toks h]

theorem fixPath_alike {old new : Text} {l l' : List Token} (h : EachLine Alike l l') :
    EachLine Alike (l.map (fixPath old new)) (l'.map (fixPath old new)) := by
  refine EachLine.map (h.imp fun a b _ h => ?_)
  unfold fixPath
  rw [← h.1]
  split
  · exact ⟨rfl, h.2⟩
  · exact h

/-- Related tokens, moved to the same file. -/
theorem moved_alike {f1 f2 f : Nat} {T T' : List Token} (h3 : EachLine SameSpot T T') :
    ∀ {U U'}, EachLine (Moved f1 f 0 0) T U → EachLine (Moved f2 f 0 0) T' U' → EachLine Alike U U' := by
  induction h3 with
  | nil => intro U U' h5 h7; cases h5; cases h7; exact .nil
  | cons h _ ih =>
    intro U U' h5 h7
    cases h5 with
    | cons m hm =>
      cases h7 with
      | cons n hn =>
        refine .cons ?_ (ih hm hn)
        obtain ⟨a1, -, -, a2, a3, a4, a5⟩ := m
        obtain ⟨b1, -, -, b2, b3, b4, b5⟩ := n
        obtain ⟨c1, c2, c3⟩ := h
        exact ⟨by rw [a1, b1, c1], by omega, by omega, by rw [a2, b2], by rw [a3, b3]⟩

/-- The texts, read as any file. -/
theorem sameTokens_lex {seg : Seg} {t t' : Text} (ha : Plain seg t) (ha' : Plain seg t') (h : SameTokens t t')
    (f : Nat) : ∃ T T', lexInput seg (Input.new f t) = .ok T ∧ lexInput seg (Input.new f t') = .ok T' ∧ EachLine Alike T T' := by
  obtain ⟨T, T', h1, h2, h3⟩ := h
  obtain ⟨U, h4, h5⟩ := lexes_moved (f2 := f) (b2 := []) h1 (c1 := 0) (c2 := 0) rfl rfl
  obtain ⟨U', h6, h7⟩ := lexes_moved (f2 := f) (b2 := []) h2 (c1 := 0) (c2 := 0) rfl rfl
  exact ⟨U, U', (lexInput_ok_iff ha).mpr h4, (lexInput_ok_iff ha').mpr h6, moved_alike h3 h5 h7⟩

/-- The lines of headers are rewritten alike. -/
theorem headerLine_alike {l l' : List Token} (h : EachLine Alike l l') :
    Both (EachLine Alike) (headerLine l) (headerLine l') := by
  cases h with
  | nil => exact .ok .nil
  | @cons a a' l l' ha h =>
    cases h with
    | nil => exact .ok (.cons ha .nil)
    | @cons b b' l l' hb h =>
      unfold headerLine
      dsimp only
      rw [← ha.1, ← hb.1, alike_toks h]
      split
      · refine Both.bind (R := Eq) (.refl fun _ _ => rfl) ?_
        rintro x _ - - rfl
        refine Both.bind (R := Eq) (.refl fun _ _ => rfl) ?_
        rintro y _ - - rfl
        cases h with
        | nil => exact .panic
        | cons hn h => exact .ok (.cons hn (.cons ⟨rfl, ha.2.1, hb.2.2.1, ha.2.2.2.1, hb.2.2.2.2⟩ h))
      · exact .ok (.cons ha (.cons hb h))

theorem headerLines_alike {L L' : List (List Token)} (h : EachLine (EachLine Alike) L L') :
    Both (EachLine Alike) (headerLines L) (headerLines L') := by
  induction h with
  | nil => exact .ok .nil
  | cons h _ ih =>
    exact Both.bind (headerLine_alike h) fun a b _ _ h1 => Both.bind ih fun c d _ _ h2 => .ok (eachLine_join h1 h2)

theorem clex_plain_iff {seg : Seg} {file : Nat} {text : Text} (hp : Plain seg text) (ha : Ascii text)
    {toks : List Token} : lexForWs seg (skipCBlank seg) (Input.new file text) = .ok toks ↔ CLexesTo file [] text toks := by
  unfold lexForWs
  rw [input_new]
  constructor
  · exact clexLoop_sound _ _ _ _ hp ha
  · intro h
    exact clexesTo_complete h hp ha _ (by show text.length < text.length + 2; omega)

/-- The texts, read as any C header. -/
theorem sameHeaderTokens_lex {seg : Seg} {t t' : Text} (hp : Plain seg t) (hp' : Plain seg t') (ha : Ascii t) (ha' : Ascii t')
    (h : SameHeaderTokens t t') (f : Nat) :
    Both (EachLine Alike) (lexHeader seg (Input.new f t)) (lexHeader seg (Input.new f t')) := by
  obtain ⟨T, T', h1, h2, h3⟩ := h
  obtain ⟨U, h4, h5⟩ := clexes_moved (f2 := f) (b2 := []) h1 (c1 := 0) (c2 := 0) rfl
  obtain ⟨U', h6, h7⟩ := clexes_moved (f2 := f) (b2 := []) h2 (c1 := 0) (c2 := 0) rfl
  unfold lexHeader
  rw [(clex_plain_iff hp ha).mpr h4, (clex_plain_iff hp' ha').mpr h6, Res.ok_bind, Res.ok_bind]
  exact headerLines_alike (lines_alike (moved_alike h3 h5 h7))

/-! ### Files -/

/-- The same files were loaded. -/
def SameLoaded (sf sf' : SourceFiles) : Prop :=
  sf'.workingDir = sf.workingDir ∧ EachLine (fun g g' : SourceFile => g.id = g'.id ∧ g.name = g'.name) sf.files sf'.files

theorem path_alike {fs fs' : FS} (h : Respelled fs fs') {sf sf' : SourceFiles} (hd : sf'.workingDir = sf.workingDir) (root : Option Path)
    (q : Path) : sf'.path fs' root q = sf.path fs root q := by
  unfold SourceFiles.path
  rw [h.isFile, h.isDir, hd]

theorem resolves_alike {fs fs' : FS} (h : Respelled fs fs') {dir : Path} {root q p} (hr : Resolves fs dir root q p) :
    Resolves fs' dir root q p := by
  have h1 := (path_iff (fs := fs) (sf := ⟨dir, []⟩)).mpr hr
  rw [← path_alike (sf' := ⟨dir, []⟩) h rfl] at h1
  exact path_iff.mp h1

theorem resolves_unique {fs : FS} {dir : Path} {root q a b} (ha : Resolves fs dir root q a) (hb : Resolves fs dir root q b) : a = b := by
  have h1 := (path_iff (fs := fs) (sf := ⟨dir, []⟩)).mpr ha
  rw [(path_iff (fs := fs) (sf := ⟨dir, []⟩)).mpr hb] at h1
  exact (Res.ok.inj h1).symm

theorem getId_alike {sf sf' : SourceFiles} (h : SameLoaded sf sf') (p : Path) : sf'.getId p = sf.getId p := by
  unfold SourceFiles.getId
  have := h.2
  generalize sf.files = a at this
  generalize sf'.files = b at this
  induction this with
  | nil => rfl
  | cons h _ ih => rw [List.findIdx?_cons, List.findIdx?_cons, ih, h.2]

theorem each_length {α : Type} {R : α → α → Prop} {a b : List α} (h : EachLine R a b) : a.length = b.length := by
  induction h with
  | nil => rfl
  | cons _ _ ih => simp [ih]

theorem each_get {α : Type} {R : α → α → Prop} {a b : List α} (h : EachLine R a b) (i : Nat) :
    (a[i]? = none ∧ b[i]? = none) ∨ ∃ x y, a[i]? = some x ∧ b[i]? = some y ∧ R x y := by
  induction h generalizing i with
  | nil => exact .inl ⟨rfl, rfl⟩
  | @cons x y _ _ h _ ih =>
    cases i with
    | zero => exact .inr ⟨x, y, rfl, rfl, h⟩
    | succ i => simpa using ih i

theorem loadFile_alike {fs fs' : FS} (h : Respelled fs fs') (p : Path) : Both (fun _ _ => True) (loadFile fs p) (loadFile fs' p) := by
  rcases h.read p with e | ⟨t, t', h1, h2⟩
  · unfold loadFile loadBytes
    rw [e]
    exact .refl fun _ _ => trivial
  · rw [loadFile_ok.mpr h1, loadFile_ok.mpr h2]
    exact .ok trivial

theorem load_alike {fs fs' : FS} (h : Respelled fs fs') {sf sf' : SourceFiles} (hf : SameLoaded sf sf') (root : Option Path) (q : Path) :
    Both (fun x y => x.1.id = y.1.id ∧ x.1.name = y.1.name ∧ SameLoaded x.2 y.2) (sf.load fs root q) (sf'.load fs' root q) := by
  unfold SourceFiles.load
  rw [path_alike h hf.1]
  refine Both.bind (R := Eq) (.refl fun _ _ => rfl) ?_
  rintro p _ - - rfl
  rw [getId_alike hf]
  cases sf.getId p with
  | some k =>
    dsimp only
    rcases each_get hf.2 k with ⟨e1, e2⟩ | ⟨x, y, e1, e2, h1, h2⟩
    · rw [e1, e2]; exact .panic
    · rw [e1, e2]; exact .ok ⟨h1, h2, hf⟩
  | none =>
    refine Both.bind (loadFile_alike h p) fun t t' _ _ _ => .ok ?_
    have hlen := each_length hf.2
    exact ⟨hlen, rfl, hf.1, eachLine_join hf.2 (.cons ⟨hlen, rfl⟩ .nil)⟩

/-! ### Includes -/

/-- What reading gives on both disks. -/
def Same (fs fs' : FS) (dir : Path) (x y : List Token × SourceFiles) : Prop :=
  EachLine Alike x.1 y.1 ∧ SameLoaded x.2 y.2 ∧ Good fs dir x.2 ∧ Good fs' dir y.2

theorem includeLines_alike {fs fs' : FS} {dir : Path} {step step' : SourceFiles → List Token → Res (List Token × SourceFiles)}
    {L L' : List (List Token)} (hL : EachLine (EachLine Alike) L L')
    (hstep : ∀ l ∈ L, ∀ l' sf sf', EachLine Alike l l' → SameLoaded sf sf' → Good fs dir sf → Good fs' dir sf' →
      Both (Same fs fs' dir) (step sf l) (step' sf' l')) :
    ∀ {sf sf' : SourceFiles}, SameLoaded sf sf' → Good fs dir sf → Good fs' dir sf' →
      Both (Same fs fs' dir) (includeLines step sf L) (includeLines step' sf' L') := by
  induction hL with
  | nil => exact fun h1 h2 h3 => .ok ⟨.nil, h1, h2, h3⟩
  | cons hl _ ih =>
    intro sf sf' h1 h2 h3
    rw [includeLines, includeLines]
    refine Both.bind (hstep _ (by simp) _ _ _ hl h1 h2 h3) ?_
    rintro ⟨a, s⟩ ⟨a', s'⟩ - - ⟨k1, k2, k3, k4⟩
    refine Both.bind (ih (fun l hm => hstep l (by simp [hm])) k2 k3 k4) ?_
    rintro ⟨b, s1⟩ ⟨b', s1'⟩ - - ⟨m1, m2, m3, m4⟩
    exact .ok ⟨eachLine_join k1 m1, m2, m3, m4⟩

theorem line_alike {seg : Seg} {fs fs' : FS} (h : Respelled fs fs') {dir : Path}
    {go go' : Path → SourceFiles → List Token → Res (List Token × SourceFiles)} {p : Path} {l l' : List Token} {sf sf' : SourceFiles}
    (hs : ∀ name q, NamesSource (l.map Token.tok) name → FoundAt fs dir p name q → fs'.read q = fs.read q ∨
      ∃ t t', fs.read q = some (utf8 t) ∧ fs'.read q = some (utf8 t') ∧ Plain seg t ∧ Plain seg t' ∧ SameTokens t t')
    (hh : ∀ name q, NamesHeader (l.map Token.tok) name → FoundAt fs dir p name q → fs'.read q = fs.read q ∨
      ∃ t t', fs.read q = some (utf8 t) ∧ fs'.read q = some (utf8 t') ∧ Plain seg t ∧ Plain seg t' ∧ Ascii t ∧ Ascii t' ∧
        SameHeaderTokens t t')
    (hgo : ∀ name q t f toks toks' sf sf', NamesSource (l.map Token.tok) name → FoundAt fs dir p name q → fs.read q = some (utf8 t) →
      lexInput seg (Input.new f t) = .ok toks → EachLine Alike toks toks' → SameLoaded sf sf' → Good fs dir sf → Good fs' dir sf' →
      Both (Same fs fs' dir) (go q sf toks) (go' q sf' toks'))
    (hl : EachLine Alike l l') (hf : SameLoaded sf sf') (hg : Good fs dir sf) (hg' : Good fs' dir sf') :
    Both (Same fs fs' dir) (includeLine seg fs go p sf l) (includeLine seg fs' go' p sf' l') := by
  have hk := alike_toks hl
  have hfine := parseDirective_fine (l.map Token.tok)
  by_cases hd : ∃ typ name rest, parseDirective (l.map Token.tok) = .ok (some (.dir (.incl typ name), rest))
  · obtain ⟨typ, name, rest, hd⟩ := hd
    rw [includeLine_dir hd, includeLine_dir (hk ▸ hd), path_alike h hf.1]
    refine Both.bind (R := Eq) (.refl fun _ _ => rfl) ?_
    rintro r _ hr - rfl
    have hr := path_iff.mp hr
    rw [hg.dir] at hr
    cases typ with
    | asm =>
      refine Both.bind (load_alike h hf (some p) r) ?_
      rintro ⟨g, s⟩ ⟨g', s'⟩ e e' ⟨k1, k2, k3⟩
      obtain ⟨c1, c2, c3⟩ := load_good' hg e
      obtain ⟨d1, d2, d3⟩ := load_good' hg' e'
      dsimp only at k1 k2 k3 ⊢
      have hlex : Both (EachLine Alike) (lexInput seg (Input.new g.id g.contents)) (lexInput seg (Input.new g'.id g'.contents)) := by
        rw [← k1]
        rw [← k2] at d2
        rcases hs name g.name (parse_namesSource hd) ⟨r, hr, c1⟩ with e | ⟨t, t', r1, r2, r3, r4, r5⟩
        · rw [d2, c2] at e
          rw [utf8_inj (Option.some.inj e)]
          exact .refl fun a _ => alike_refl a
        · rw [c2] at r1
          rw [d2] at r2
          rw [← utf8_inj (Option.some.inj r1)] at r3 r5
          rw [← utf8_inj (Option.some.inj r2)] at r4 r5
          obtain ⟨T, T', q1, q2, q3⟩ := sameTokens_lex r3 r4 r5 g.id
          rw [q1, q2]
          exact .ok q3
      refine Both.bind hlex ?_
      intro toks toks' et _ ht
      rw [← k2]
      refine Both.bind (hgo name g.name g.contents g.id toks toks' s s' (parse_namesSource hd) ⟨r, hr, c1⟩ c2 et ht k3 c3 d3) ?_
      rintro ⟨o, s1⟩ ⟨o', s1'⟩ - - hsame
      dsimp only
      split
      · exact .ok hsame
      · exact .err
    | cHeader =>
      refine Both.bind (load_alike h hf (some p) r) ?_
      rintro ⟨g, s⟩ ⟨g', s'⟩ e e' ⟨k1, k2, k3⟩
      obtain ⟨c1, c2, c3⟩ := load_good' hg e
      obtain ⟨d1, d2, d3⟩ := load_good' hg' e'
      dsimp only at k1 k2 k3 ⊢
      have hlex : Both (EachLine Alike) (lexHeader seg (Input.new g.id g.contents)) (lexHeader seg (Input.new g'.id g'.contents)) := by
        rw [← k1]
        rw [← k2] at d2
        rcases hh name g.name (parse_namesHeader hd) ⟨r, hr, c1⟩ with e | ⟨t, t', r1, r2, r3, r4, r5, r6, r7⟩
        · rw [d2, c2] at e
          rw [utf8_inj (Option.some.inj e)]
          exact .refl fun a _ => alike_refl a
        · rw [c2] at r1
          rw [d2] at r2
          rw [utf8_inj (Option.some.inj r1), utf8_inj (Option.some.inj r2)]
          exact sameHeaderTokens_lex r3 r4 r5 r6 r7 g.id
      refine Both.bind hlex ?_
      intro T T' _ _ hT
      exact .ok ⟨hT, k3, c3, d3⟩
    | bytes => exact .ok ⟨fixPath_alike hl, hf, hg, hg'⟩
    | icon => exact .ok ⟨fixPath_alike hl, hf, hg, hg'⟩
    | sprite => exact .ok ⟨fixPath_alike hl, hf, hg, hg'⟩
  · have : ∀ (fs : FS) go (l0 : List Token) sf, l0.map Token.tok = l.map Token.tok → includeLine seg fs go p sf l0 = .ok (l0, sf) := by
      intro fs go l0 sf h0
      unfold includeLine
      rw [h0]
      split
      next hx => exact absurd ⟨_, _, _, hx⟩ hd
      next hx => rw [hx] at hfine; exact absurd rfl hfine.2
      next hx => rw [hx] at hfine; exact absurd rfl hfine.1
      next => rfl
    rw [this fs go l sf rfl, this fs' go' l' sf' hk]
    exact .ok ⟨hl, hf, hg, hg'⟩

theorem replace_alike {seg : Seg} {fs fs' : FS} (h : Respelled fs fs') {dir main : Path}
    (hA : AllPlain seg fs dir main) (hs : SameSources seg fs fs' dir main) (hh : SameHeaders seg fs fs' dir main) :
    ∀ (fuel : Nat) {p : Path} {sf sf' : SourceFiles} {f : Nat} {t : Text} {toks toks' : List Token}, IncludeTree fs dir main p →
      fs.read p = some (utf8 t) → lexInput seg (Input.new f t) = .ok toks → EachLine Alike toks toks' → SameLoaded sf sf' →
      Good fs dir sf → Good fs' dir sf' →
      Both (Same fs fs' dir) (replaceIncludes seg fs fuel p sf toks) (replaceIncludes seg fs' fuel p sf' toks') := by
  intro fuel
  induction fuel with
  | zero => intros; exact .loop
  | succ k ih =>
    intro p sf sf' f t toks toks' htree hr hlex ht hf hg hg'
    rw [replaceIncludes, replaceIncludes]
    have ha := hA.1 p t htree hr
    refine includeLines_alike (lines_alike ht) (fun l hm l' sf sf' hl hf hg hg' => line_alike h ?_ ?_ ?_ hl hf hg hg') hf hg hg'
    · intro name q h1 h2
      obtain ⟨l0, h3, h4⟩ := (lex_hasLine hr ha hlex).1.mp ⟨l, hm, h1⟩
      exact hs q (.step htree ⟨l0, name, h3, h4, h2⟩)
    · intro name q h1 h2
      obtain ⟨l0, h3, h4⟩ := (lex_hasLine hr ha hlex).2.mp ⟨l, hm, h1⟩
      exact hh p q htree ⟨l0, name, h3, h4, h2⟩
    · intro name q t f toks toks' sf sf' h1 h2 h3 h4 h5 h6 h7 h8
      obtain ⟨l0, k3, k4⟩ := (lex_hasLine hr ha hlex).1.mp ⟨l, hm, h1⟩
      exact ih (.step htree ⟨l0, name, k3, k4, h2⟩) h3 h4 h5 h6 h7 h8

/-! ### Programs -/

theorem readProgram_alike {seg : Seg} {fs fs' : FS} (h : Respelled fs fs') {dir : Path} (hd : dir.abs = true)
    {name : Text} (hA : AllPlain seg fs dir (dir.join (Path.parse name)))
    (hs : SameSources seg fs fs' dir (dir.join (Path.parse name))) (hh : SameHeaders seg fs fs' dir (dir.join (Path.parse name)))
    (fuel : Nat) :
    Both (fun x y => x.1 = y.1 ∧ x.2.1 = dir.join (Path.parse name) ∧ y.2.1 = dir.join (Path.parse name) ∧
        x.2.2.workingDir = dir ∧ y.2.2.workingDir = dir)
      (readProgram seg fs fuel (SourceFiles.new dir) name) (readProgram seg fs' fuel (SourceFiles.new dir) name) := by
  have hf : SameLoaded (SourceFiles.new dir) (SourceFiles.new dir) := ⟨rfl, .nil⟩
  have hp : ∀ fs : FS, SourceFiles.path fs (SourceFiles.new dir) none (Path.parse name) = .ok (dir.join (Path.parse name)) := fun _ => rfl
  unfold readProgram
  rw [hp, hp, Res.ok_bind, Res.ok_bind]
  refine Both.bind (load_alike h hf none _) ?_
  rintro ⟨g, s⟩ ⟨g', s'⟩ e e' ⟨k1, k2, k3⟩
  obtain ⟨c1, c2, c3⟩ := load_good' (good_new fs dir) e
  obtain ⟨d1, d2, d3⟩ := load_good' (good_new fs' dir) e'
  dsimp only at k1 k2 k3 ⊢
  have hn : g.name = dir.join (Path.parse name) := by
    generalize hn : g.name = q at c1
    cases c1
    exact join_absolute (join_abs hd)
  have hlex : Both (EachLine Alike) (lexInput seg (Input.new g.id g.contents)) (lexInput seg (Input.new g'.id g'.contents)) := by
    rw [← k1]
    rw [← k2] at d2
    rcases hs g.name (by rw [hn]; exact .main) with e | ⟨t, t', r1, r2, r3, r4, r5⟩
    · rw [d2, c2] at e
      rw [utf8_inj (Option.some.inj e)]
      exact .refl fun a _ => alike_refl a
    · rw [c2] at r1
      rw [d2] at r2
      rw [← utf8_inj (Option.some.inj r1)] at r3 r5
      rw [← utf8_inj (Option.some.inj r2)] at r4 r5
      obtain ⟨T, T', q1, q2, q3⟩ := sameTokens_lex r3 r4 r5 g.id
      rw [q1, q2]
      exact .ok q3
  refine Both.bind hlex ?_
  intro toks toks' et _ ht
  rw [hn] at c2
  refine Both.bind (replace_alike h hA hs hh fuel .main c2 et ht k3 c3 d3) ?_
  rintro ⟨o, s1⟩ ⟨o', s1'⟩ - - ⟨m1, m2, m3, m4⟩
  dsimp only at m1 m2 m3 m4 ⊢
  have : parse o' = parse o := by
    unfold parse
    have := kinds_alike (lines_alike m1)
    unfold kindsOf at this
    rw [this]
  rw [this]
  refine Both.bind (R := Eq) (.refl fun _ _ => rfl) ?_
  rintro P _ - - rfl
  exact .ok ⟨rfl, rfl, rfl, m3.dir, m4.dir⟩

theorem includeData_alike {m : Mode} {order : List Color → List Color} {load : Text → Res Image} {fs fs' : FS} (h : Respelled fs fs')
    {main : Path} {sf sf' : SourceFiles} (hw : sf'.workingDir = sf.workingDir) {s : Stmt}
    (hb : ∀ name q, s = .dir (.incl .bytes name) → Resolves fs sf.workingDir (some main) (Path.parse name) q → fs'.read q = fs.read q) :
    includeData m order load fs' main sf' s = includeData m order load fs main sf s := by
  have hp := fun root q => path_alike h (sf := sf) (sf' := sf') hw root q
  unfold includeData
  split
  · rfl
  · rfl
  · rename_i n
    rw [hp]
    cases hr : sf.path fs (some main) (Path.parse n) with
    | ok q =>
      simp only [Res.ok_bind]
      unfold loadBytes
      rw [hb n q rfl (path_iff.mp hr)]
    | _ => rfl
  · simp only [hp]
    have : ∀ o, fixEyecatch fs' sf' main o = fixEyecatch fs sf main o := by
      intro o
      cases o with
      | none => rfl
      | some t => simp only [fixEyecatch, hp]
    simp only [this]
  · simp only [hp]
  · rfl

theorem replaceData_congr {f f' : Stmt → Res (List Stmt)} {ss : List Stmt} (h : ∀ s ∈ ss, f' s = f s) :
    replaceData f' ss = replaceData f ss := by
  induction ss with
  | nil => rfl
  | cons s ss ih => rw [replaceData, replaceData, h s (by simp), ih fun s hs => h s (by simp [hs])]

theorem readStatements_alike {m : Mode} {seg : Seg} {order : List Color → List Color} {load : Text → Res Image}
    {fs fs' : FS} (h : Respelled fs fs') {dir : Path} (hd : dir.abs = true)
    {name : Text} (hA : AllPlain seg fs dir (dir.join (Path.parse name)))
    (hs : SameSources seg fs fs' dir (dir.join (Path.parse name))) (hh : SameHeaders seg fs fs' dir (dir.join (Path.parse name)))
    {fuel : Nat} (hb : ∀ p x, readProgram seg fs fuel (SourceFiles.new dir) name = .ok (p, x) →
      SameBinaries fs fs' dir (dir.join (Path.parse name)) p) :
    readStatements m seg order load fs' fuel (SourceFiles.new dir) name =
      readStatements m seg order load fs fuel (SourceFiles.new dir) name := by
  apply Both.eq
  unfold readStatements
  refine Both.bind (readProgram_alike h hd hA hs hh fuel) ?_
  rintro ⟨p, path, sf⟩ ⟨p', path', sf'⟩ e - ⟨k1, k2, k3, k4, k5⟩
  dsimp only at k1 k2 k3 k4 k5 ⊢
  subst k1 k2 k3
  rw [replaceData_congr (f := includeData m order load fs _ sf) (f' := includeData m order load fs' _ sf')
    fun s hs => includeData_alike h (k5.trans k4.symm) fun n q hn hr => by
      subst hn
      rw [k4] at hr
      exact hb _ _ e n q hs hr]
  exact .refl fun _ _ => rfl

/-! ### Spellings -/

theorem sameTokens_recased {seg : Seg} {t t' : Text} (ha : Plain seg t) (ha' : Plain seg t') (h : Recased [] t t')
    {toks : List Token} (hl : LexesTo 0 [] t toks) : SameTokens t t' := by
  refine ⟨toks, toks, hl, ?_, each_refl (fun _ => ⟨rfl, rfl, rfl⟩) toks⟩
  rw [← lexInput_ok_iff ha', recased_lexInput ha ha' h,
    lexInput_ok_iff ha]
  exact hl

/-- Two texts that begin alike and go on with related tokens. -/
theorem reaches_swap_tokens {file : Nat} {before text b t : Text} {ks : List Tok} (h : LexReaches before text ks b t) :
    ∀ {r d1 d2 : Text} {T T' : List Token}, t = r ++ d1 → Comments d1 → Delimited d2 →
      LexesTo file b t T → LexesTo file b (r ++ d2) T' → EachLine SameSpot T T' →
      ∃ text' U U', before ++ text' = b ++ (r ++ d2) ∧ LexReaches before text' ks b (r ++ d2) ∧
        LexesTo file before text U ∧ LexesTo file before text' U' ∧ EachLine SameSpot U U' := by
  induction h with
  | here => intro r d1 d2 T T' _ _ _ h1 h2 h3; exact ⟨_, T, T', rfl, .here, h1, h2, h3⟩
  | @token before g w rest k ks b t hg hk hr ih =>
    intro r d1 d2 T T' ht hc hd h1 h2 h3
    obtain ⟨text', U, U', e, h, k1, k2, k3⟩ := ih ht hc hd h1 h2 h3
    have hlen := (reaches_length hr).2.2
    have hle := (reaches_length hr).2.1
    obtain ⟨m, hm⟩ : ∃ m, b = before ++ g ++ w ++ m := by
      have h1 : before ++ g ++ w <+: b ++ t := ⟨rest, hlen⟩
      have h2 : b <+: b ++ t := List.prefix_append _ _
      have hl := (reaches_length hr).1
      obtain ⟨m, hm⟩ := List.prefix_of_prefix_length_le h1 h2 (by omega)
      exact ⟨m, hm.symm⟩
    have hrest : rest = (m ++ r) ++ d1 := by
      rw [hm, ht] at hlen
      simp only [List.append_assoc] at hlen ⊢
      simpa using hlen
    have htext : text' = (m ++ r) ++ d2 := by
      rw [hm] at e
      simp only [List.append_assoc] at e ⊢
      simpa using e
    subst hrest htext
    have hg' := gap_swap (d2 := d2) hc (spells_ne_nil hk) hg
    have hk' := spells_swap hd hk
    refine ⟨g ++ w ++ (m ++ r ++ d2), _, _, ?_, .token hg' hk' h, .token hg hk k1, .token hg' hk' k2, .cons ⟨rfl, rfl, rfl⟩ k3⟩
    rw [hm]; simp

/-- After two blank texts that go to the end of a line and have as many lines, the same tokens follow on the same lines. -/
theorem lexes_after_blank_lines {file : Nat} {b g1 g2 post : Text} {toks : List Token}
    (h1 : Blank (lineStart b) g1 post) (h2 : Blank (lineStart b) g2 post) (hp : atEol post) (hn : g2.count '\n' = g1.count '\n')
    (h : LexesTo file b (g1 ++ post) toks) : ∃ toks', LexesTo file b (g2 ++ post) toks' ∧ EachLine SameSpot toks toks' := by
  obtain ⟨g, rest, rfl, hg⟩ := gap_exists (b ++ g1) post
  have hstuck : ∀ x : Text, Stuck (lineStart (x ++ g)) rest := by
    intro x
    rcases List.eq_nil_or_concat g with rfl | ⟨g', c, rfl⟩
    · cases rest with
      | nil => intro c hc; cases hc
      | cons c cs =>
        exfalso
        have := hg.2 c rfl
        rcases atEol_head hp c rfl with rfl | rfl
        · rw [isSpace_newline] at this; cases this.1
        · rw [isSpace_cr] at this; cases this.1
    · have := hg.2
      rw [List.concat_eq_append, ← List.append_assoc, lineStart_snoc] at this ⊢
      exact this
  have hgap : ∀ {x : Text}, Blank (lineStart b) x (g ++ rest) → Gap b (x ++ g) rest := by
    intro x hx
    refine ⟨blank_trans hx ?_, ?_⟩
    · exact blank_atEol hp hg.1
    · rw [← List.append_assoc]; exact hstuck _
  have hg1 := hgap h1
  have hg2 := hgap h2
  rw [← List.append_assoc] at h ⊢
  generalize he : g1 ++ g ++ rest = text at h
  cases h with
  | done hg' =>
    have hg3 : Gap b text ([] : Text) := hg'
    obtain ⟨rfl, rfl⟩ := gap_unique hg1 hg3 (by rw [List.append_nil, ← he])
    rw [List.append_nil]
    exact ⟨_, .done hg2, .cons ⟨rfl, rfl, rfl⟩ .nil⟩
  | @token _ g' w' rest' k' toks' hg' hk' hl' =>
    obtain ⟨rfl, rfl⟩ := gap_unique hg1 hg' (by rw [he, List.append_assoc])
    obtain ⟨toks2, h3, h4⟩ := lexes_moved (f2 := file) (b2 := b ++ (g2 ++ g) ++ w') hl' (c1 := 0) (c2 := 0)
      (by simp only [List.count_append]; omega) (by
      rw [lineStart_append (spells_ne_nil hk'), lineStart_append (spells_ne_nil hk')])
    rw [← List.append_assoc]
    refine ⟨_, .token hg2 hk' h3, .cons ⟨rfl, ?_, ?_⟩ ?_⟩
    · simp only [placeIn, List.count_append]; omega
    · simp only [placeIn, List.count_append]; omega
    · exact h4.imp fun a b _ h => ⟨h.1.symm, by have := h.2.2.2.2.2.1; omega, by have := h.2.2.2.2.2.2; omega⟩

theorem sameTokens_comment {b g t post : Text} {c : Char} {ks : List Tok}
    (hc : c = ';' ∨ (c = '*' ∧ lineStart (b ++ g) = true)) (ht : '\n' ∉ t) (hp : atEol post)
    (hr : LexReaches [] (b ++ g ++ c :: t ++ post) ks b (g ++ c :: t ++ post))
    (hb : Blank (lineStart b) g (c :: t ++ post)) {d : Text}
    (hd : d = [] ∨ ∃ c' t', d = c' :: t' ∧ (c' = ';' ∨ (c' = '*' ∧ lineStart (b ++ g) = true)) ∧ '\n' ∉ t')
    {toks : List Token} (hl : LexesTo 0 [] (b ++ g ++ c :: t ++ post) toks) :
    SameTokens (b ++ g ++ c :: t ++ post) (b ++ g ++ d ++ post) := by
  have hcom : Comments (c :: t ++ post) := ⟨c, t ++ post, rfl, by
    rcases hc with h | h
    · exact .inl h
    · exact .inr h.1⟩
  have hdel : Delimited (d ++ post) := by
    rcases hd with rfl | ⟨c', t', rfl, hc', _⟩
    · exact atEol_delimited hp
    · intro x hx
      cases hx
      rcases hc' with rfl | ⟨rfl, _⟩
      · exact .inl rfl
      · exact .inr (.inl rfl)
  have hls : lsAfter (lineStart b) g = lineStart (b ++ g) := (lsAfter_before b g).symm
  have b1 : Blank (lineStart b) (g ++ c :: t) post := by
    refine blank_trans hb ?_
    have := Blank.comment (ls := lsAfter (lineStart b) g) (c := c) (t := t) (g := []) (rest := post)
      (by rw [hls]; exact hc) ht hp .nil
    rwa [List.append_nil] at this
  have b2 : Blank (lineStart b) (g ++ d) post := by
    have hb' : Blank (lineStart b) g (d ++ post) := by
      have := blank_swap (r := []) (d2 := d ++ post) hcom hb
      exact this
    refine blank_trans hb' ?_
    rcases hd with rfl | ⟨c', t', rfl, hc', ht'⟩
    · exact .nil
    · have := Blank.comment (ls := lsAfter (lineStart b) g) (c := c') (t := t') (g := []) (rest := post)
        (by rw [hls]; exact hc') ht' hp .nil
      rwa [List.append_nil] at this
  have star : ∀ c : Char, (c = ';' ∨ (c = '*' ∧ lineStart (b ++ g) = true)) → c ≠ '\n' := by
    rintro _ (rfl | ⟨rfl, _⟩) <;> decide
  have hn : (g ++ d).count '\n' = (g ++ c :: t).count '\n' := by
    have z1 : (c :: t).count '\n' = 0 := by
      rw [List.count_eq_zero]
      simp only [List.mem_cons, not_or]
      exact ⟨fun h => star c hc h.symm, ht⟩
    have z2 : d.count '\n' = 0 := by
      rw [List.count_eq_zero]
      rcases hd with rfl | ⟨c', t', rfl, hc', ht'⟩
      · simp
      · simp only [List.mem_cons, not_or]
        exact ⟨fun h => star c' hc' h.symm, ht'⟩
    rw [List.count_append, List.count_append, z1, z2]
  obtain ⟨pre, suf, -, -, h2⟩ := lexesTo_reaches hr hl
  have h2' : LexesTo 0 b ((g ++ c :: t) ++ post) suf := by simpa only [List.append_assoc] using h2
  obtain ⟨suf', h3, h4⟩ := lexes_after_blank_lines b1 b2 hp hn h2'
  rw [List.append_assoc] at h3
  obtain ⟨text', U, U', e, -, k1, k2, k3⟩ := reaches_swap_tokens hr (r := g) (d1 := c :: t ++ post) (d2 := d ++ post) (by simp) hcom hdel h2 h3 h4
  rw [List.nil_append] at e
  subst e
  refine ⟨U, U', k1, ?_, k3⟩
  simpa only [List.append_assoc] using k2

/-! ### Comments of C headers -/

theorem cgap_exists {seg : Seg} {t : Text} (hp : Plain seg t) (ha : Ascii t) : ∃ g rest, t = g ++ rest ∧ CGap g rest := by
  obtain ⟨g, rest, h1, h2, -⟩ := skipCBlank_ascii 0 [] t hp ha
  exact ⟨g, rest, h1, h2⟩

/-- The comment `//` with what comes after it can be exchanged. -/
theorem cblank_swap {g r d1 d2 : Text} (h : CBlank g (r ++ '/' :: d1)) : CBlank g (r ++ d2) := by
  generalize he : r ++ '/' :: d1 = rest at h
  induction h with
  | nil => exact .nil
  | space hs _ ih => exact .space hs (ih he)
  | @line t g rest ht hat _ ih =>
    refine .line ht ?_ (ih he)
    subst he
    rw [← List.append_assoc] at hat ⊢
    generalize g ++ r = s at hat ⊢
    cases s with
    | nil =>
      rcases atEol_head hat '/' rfl with h | h
      · exact absurd h (by decide)
      · exact absurd h (by decide)
    | cons a s =>
      rcases hat with h | h | ⟨u', h⟩
      · cases h
      · exact .inr (.inl h)
      · obtain ⟨rfl, h2⟩ := List.cons.inj h
        cases s with
        | nil => exact absurd (List.cons.inj h2).1 (by decide)
        | cons b s =>
          obtain ⟨rfl, -⟩ := List.cons.inj h2
          exact .inr (.inr ⟨_, rfl⟩)
  | block h _ ih => exact .block h (ih he)
  | unclosed => exact absurd he (by simp)

theorem cstuck_swap {w r d1 d2 : Text} (hw : w ≠ []) (h : CStuck (w ++ (r ++ '/' :: d1))) : CStuck (w ++ (r ++ d2)) := by
  cases w with
  | nil => exact absurd rfl hw
  | cons a w =>
    rw [← List.append_assoc] at h ⊢
    rw [List.cons_append] at h ⊢
    generalize w ++ r = s at h ⊢
    refine ⟨h.1, fun u e => ?_, fun u e => ?_⟩
    · cases s with
      | nil =>
        obtain ⟨rfl, -⟩ := List.cons.inj e
        exact h.2.1 d1 rfl
      | cons b s =>
        simp only [List.cons_append, List.cons.injEq] at e
        obtain ⟨rfl, rfl, -⟩ := e
        exact h.2.1 _ rfl
    · cases s with
      | nil =>
        obtain ⟨rfl, -⟩ := List.cons.inj e
        exact h.2.1 d1 rfl
      | cons b s =>
        simp only [List.cons_append, List.cons.injEq] at e
        obtain ⟨rfl, rfl, -⟩ := e
        exact h.2.2 _ rfl

/-- Two headers that begin alike and go on with related tokens. -/
theorem creaches_swap {text text1 : Text} (h : CLexReaches text text1) :
    ∀ {r d1 d2 : Text}, text1 = r ++ '/' :: d1 → Delimited d2 →
      (∀ file b, ∃ T T', CLexesTo file b (r ++ '/' :: d1) T ∧ CLexesTo file b (r ++ d2) T' ∧ EachLine SameSpot T T') →
      ∃ m, text = m ++ (r ++ '/' :: d1) ∧ ∀ file b, ∃ T T', CLexesTo file b (m ++ (r ++ '/' :: d1)) T ∧
        CLexesTo file b (m ++ (r ++ d2)) T' ∧ EachLine SameSpot T T' := by
  induction h with
  | here => intro r d1 d2 e _ h; exact ⟨[], e, h⟩
  | @token g w rest k text' hg hk _ ih =>
    intro r d1 d2 e hd h
    obtain ⟨m, rfl, hm⟩ := ih e hd h
    refine ⟨g ++ w ++ m, by simp only [List.append_assoc], fun file b => ?_⟩
    obtain ⟨T, T', h1, h2, h3⟩ := hm file (b ++ g ++ w)
    rw [← List.append_assoc] at hg hk
    have hg' : CGap g (w ++ (m ++ r ++ d2)) := by
      refine ⟨?_, ?_⟩
      · have := cblank_swap (r := w ++ m ++ r) (d1 := d1) (d2 := d2) (by simpa only [List.append_assoc] using hg.1)
        simpa only [List.append_assoc] using this
      · have := cstuck_swap (r := m ++ r) (d1 := d1) (d2 := d2) (spells_ne_nil hk) (by simpa only [List.append_assoc] using hg.2)
        simpa only [List.append_assoc] using this
    have hk' := spells_swap (d2 := d2) hd hk
    simp only [List.append_assoc] at hg hg' hk hk' h1 h2 ⊢
    have t1 := CLexesTo.token (file := file) (before := b) hg hk (by simpa only [List.append_assoc] using h1)
    have t2 := CLexesTo.token (file := file) (before := b) hg' hk' (by simpa only [List.append_assoc] using h2)
    simp only [List.append_assoc] at t1 t2
    exact ⟨_, _, t1, t2, .cons ⟨rfl, rfl, rfl⟩ h3⟩

/-- The tokens after a comment. -/
theorem clexes_after_comment {seg : Seg} {file : Nat} {b g c d post : Text} {toks : List Token} (hp : Plain seg post) (ha : Ascii post)
    (hc : CBlank ('/' :: c) post) (hd : CBlank d post) (hb : CBlank g ('/' :: c ++ post)) (hn : d.count '\n' = c.count '\n')
    (h : CLexesTo file b (g ++ '/' :: c ++ post) toks) :
    ∃ toks', CLexesTo file b (g ++ (d ++ post)) toks' ∧ EachLine SameSpot toks toks' := by
  obtain ⟨g2, rest, rfl, hg⟩ := cgap_exists hp ha
  have b1 : CGap (g ++ ('/' :: c ++ g2)) rest := by
    refine ⟨cblank_trans ?_ (cblank_trans hc hg.1), hg.2⟩
    simpa only [List.append_assoc] using hb
  have b2 : CGap (g ++ (d ++ g2)) rest := by
    refine ⟨cblank_trans ?_ (cblank_trans hd hg.1), hg.2⟩
    rw [List.append_assoc]
    exact cblank_swap (r := []) hb
  have hn : (g ++ ('/' :: c ++ g2)).count '\n' = (g ++ (d ++ g2)).count '\n' := by
    simp [List.count_append, hn]
  have e : g ++ '/' :: c ++ (g2 ++ rest) = (g ++ ('/' :: c ++ g2)) ++ rest := by simp
  rw [e] at h
  generalize hx : (g ++ ('/' :: c ++ g2)) ++ rest = text at h
  have e2 : g ++ (d ++ (g2 ++ rest)) = (g ++ (d ++ g2)) ++ rest := by simp
  rw [e2]
  cases h with
  | done hg' =>
    have hg3 : CGap text ([] : Text) := hg'
    obtain ⟨-, rfl⟩ := cgap_unique b1 hg3 (by rw [List.append_nil, ← hx])
    rw [List.append_nil]
    exact ⟨_, .done b2, .cons ⟨rfl, rfl, rfl⟩ .nil⟩
  | @token _ g' w' rest' k' toks' hg' hk' hl' =>
    obtain ⟨rfl, rfl⟩ := cgap_unique b1 hg' (by rw [hx, List.append_assoc])
    obtain ⟨toks2, h3, h4⟩ := clexes_moved (f2 := file) (b2 := b ++ (g ++ (d ++ g2)) ++ w') hl' (c1 := 0) (c2 := 0)
      (by simp only [List.count_append] at hn ⊢; omega)
    rw [← List.append_assoc]
    refine ⟨_, .token b2 hk' h3, .cons ⟨rfl, ?_, ?_⟩ ?_⟩
    · simp only [placeIn, List.count_append] at hn ⊢; omega
    · simp only [placeIn, List.count_append] at hn ⊢; omega
    · exact h4.imp fun a b _ h => ⟨h.1.symm, by have := h.2.2.2.2.2.1; omega, by have := h.2.2.2.2.2.2; omega⟩

theorem sameHeader_comment {b g c d post : Text} (ha : Ascii post)
    (hc : CBlank ('/' :: c) post) (hd : CBlank d post) (hdel : ∀ x ∈ (d ++ post).head?, x = '/' ∨ x = ' ' ∨ x = '\n' ∨ x = '\r')
    (hn : d.count '\n' = c.count '\n') (hr : CLexReaches (b ++ g ++ '/' :: c ++ post) (g ++ '/' :: c ++ post))
    (hb : CBlank g ('/' :: c ++ post)) {toks : List Token} (hl : CLexesTo 0 [] (g ++ '/' :: c ++ post) toks) :
    SameHeaderTokens (b ++ g ++ '/' :: c ++ post) (b ++ g ++ d ++ post) := by
  have hdel : Delimited (d ++ post) := by
    intro x hx
    rcases hdel x hx with rfl | rfl | rfl | rfl
    · exact .inr (.inr (.inr (.inr (.inl rfl))))
    · exact .inr (.inr (.inr (.inr (.inr rfl))))
    · exact .inr (.inr (.inl rfl))
    · exact .inr (.inr (.inr (.inl rfl)))
  obtain ⟨m, e, hm⟩ := creaches_swap hr (r := g) (d1 := c ++ post) (d2 := d ++ post) (by simp) hdel (by
    intro file b
    obtain ⟨T, h1, -⟩ := clexes_moved (f2 := file) (b2 := b) hl (c1 := 0) (c2 := b.count '\n') (by simp)
    obtain ⟨T', h2, h3⟩ := clexes_after_comment (plain_plainSeg post) ha hc hd hb hn h1
    exact ⟨T, T', by simpa using h1, h2, h3⟩)
  have : b = m := List.append_cancel_right (bs := g ++ '/' :: (c ++ post)) (by simpa using e)
  subst this
  obtain ⟨T, T', h1, h2, h3⟩ := hm 0 []
  exact ⟨T, T', by simpa using h1, by simpa using h2, h3⟩

end Verif
