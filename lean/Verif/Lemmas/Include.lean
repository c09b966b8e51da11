import Verif.Model.Include
import Verif.Lemmas.ReadsAt
import Verif.Lemmas.Eofs
import Verif.Lemmas.Files
import Verif.Lemmas.CHeader
/-
Including files: the lines that result are those of the text with the files inserted.
-/
namespace Verif
open Spec

/-- The tokens of lines. -/
abbrev kindsOf (L : List (List Token)) : List (List Tok) := L.map (·.map Token.tok)

/-! ### Files -/

/-- The files loaded so far, all of them still as on disk. -/
structure Good (fs : FS) (dir : Path) (sf : SourceFiles) : Prop where
  ok : FilesOk sf
  dir : sf.workingDir = dir
  disk : ∀ g ∈ sf.files, fs.read g.name = some (utf8 g.contents)

/-- `i` is the number of the file `q`. -/
def IdOf (sf : SourceFiles) (q : Path) (i : Nat) : Prop := ∃ g ∈ sf.files, g.name = q ∧ g.id = i

theorem idOf_inj {sf : SourceFiles} (h : FilesOk sf) {q q' : Path} {i : Nat} (h1 : IdOf sf q i) (h2 : IdOf sf q' i) : q = q' := by
  obtain ⟨g, hg, rfl, e⟩ := h1
  obtain ⟨g', hg', rfl, e'⟩ := h2
  obtain ⟨j, hj⟩ := List.mem_iff_getElem?.mp hg
  obtain ⟨k, hk⟩ := List.mem_iff_getElem?.mp hg'
  have i1 := h.ids j _ hj
  have i2 := h.ids k _ hk
  have : j = k := by omega
  subst this
  rw [hj] at hk
  injection hk with hk
  rw [hk]

theorem idOf_mono {sf sf' : SourceFiles} {more} (h : sf'.files = sf.files ++ more) {q i} (h1 : IdOf sf q i) : IdOf sf' q i := by
  obtain ⟨g, hg, e⟩ := h1
  exact ⟨g, by rw [h]; exact List.mem_append_left _ hg, e⟩

theorem utf8_inj {a b : Text} (h : utf8 a = utf8 b) : a = b := by
  have h1 := decodeUtf8_iff.mpr h
  have h2 := decodeUtf8_iff.mpr (rfl : utf8 b = utf8 b)
  rw [h1] at h2
  injection h2

theorem load_good {fs : FS} {dir : Path} {sf : SourceFiles} (h : Good fs dir sf) {root q p : Path} {t : Text}
    (hp : Resolves fs dir (some root) q p)
    (hr : fs.read p = some (utf8 t)) : ∃ g sf1, SourceFiles.load fs sf (some root) q = .ok (g, sf1) ∧ g.contents = t ∧
      g.name = p ∧ Good fs dir sf1 ∧ IdOf sf1 p g.id ∧ ∃ more, sf1.files = sf.files ++ more := by
  have key : ∀ g sf1, SourceFiles.load fs sf (some root) q = .ok (g, sf1) → g.name = p → g.contents = t →
      ∃ g sf1, SourceFiles.load fs sf (some root) q = .ok (g, sf1) ∧ g.contents = t ∧
      g.name = p ∧ Good fs dir sf1 ∧ IdOf sf1 p g.id ∧ ∃ more, sf1.files = sf.files ++ more := by
    intro g sf1 hl hn hc
    obtain ⟨h1, h2, h3, h4⟩ := h.ok.load hl
    refine ⟨g, sf1, hl, hc, hn, ⟨h1, h2.trans h.dir, ?_⟩, ⟨g, h3, hn, rfl⟩, h4⟩
    obtain ⟨p', -, ⟨-, -, rfl⟩ | ⟨-, c2, c3, -, rfl⟩⟩ := (load_iff h.ok).mp hl
    · exact h.disk
    · intro x hx
      rcases List.mem_append.mp hx with hx | hx
      · exact h.disk x hx
      · rw [List.mem_singleton] at hx
        subst hx
        rw [c3]; exact c2
  by_cases hm : ∃ g ∈ sf.files, g.name = p
  · obtain ⟨g, hg, hn⟩ := hm
    have hd := h.disk g hg
    rw [hn, hr] at hd
    injection hd with hd
    exact key g sf ((load_iff h.ok).mpr ⟨p, by rw [h.dir]; exact hp, .inl ⟨hg, hn, rfl⟩⟩) hn (utf8_inj hd).symm
  · refine key ⟨sf.files.length, p, t⟩ ⟨sf.workingDir, sf.files ++ [⟨sf.files.length, p, t⟩]⟩
      ((load_iff h.ok).mpr ⟨p, by rw [h.dir]; exact hp, .inr ⟨?_, hr, rfl, rfl, rfl⟩⟩) rfl rfl
    intro g hg e
    exact hm ⟨g, hg, e⟩

/-! ### The token for the end of the file -/

theorem lexes_last {f : Nat} {before text : Text} {A : List Token} {e : Token} (h : LexesTo f before text (A ++ [e])) :
    e.tok = .eof ∧ ∀ t ∈ A, t.tok ≠ .eof := by
  generalize hT : A ++ [e] = T at h
  induction h generalizing A with
  | done hg =>
    cases A with
    | nil => cases hT; exact ⟨rfl, by simp⟩
    | cons x A => have := congrArg List.length hT; simp at this
  | @token _ _ _ _ k toks _ hk hr ih =>
    cases A with
    | nil =>
      exfalso
      have := congrArg List.length hT
      simp at this
      subst this
      cases hr
    | cons x A =>
      simp only [List.cons_append, List.cons.injEq] at hT
      obtain ⟨h1, h2⟩ := ih hT.2
      refine ⟨h1, ?_⟩
      intro t ht
      rcases List.mem_cons.mp ht with rfl | ht
      · rw [hT.1]; exact spells_not_eof hk
      · exact h2 t ht

theorem splits_eof {A : List Token} {L : List (List Token)} (h : SplitsInto A L) (e : Token) :
    SplitsInto (A ++ [e]) (L ++ [[e]]) ∨ ∃ init l, L = init ++ [l] ∧ SplitsInto (A ++ [e]) (init ++ [l ++ [e]]) := by
  induction h with
  | nil =>
    left
    exact .cons (l := []) (rest := []) (by simp) (by simp) .nil
  | @cons t l rest ls h1 h2 hr ih =>
    cases rest with
    | nil =>
      cases hr
      by_cases hs : e.start.line = t.stop.line ∧ e.start.file = t.stop.file
      · right
        refine ⟨[], t :: l, rfl, ?_⟩
        have := SplitsInto.cons (t := t) (l := l ++ [e]) (rest := []) (ls := []) (by
          intro x hx
          rcases List.mem_append.mp hx with hx | hx
          · exact h1 x hx
          · rw [List.mem_singleton] at hx; subst hx; exact hs) (by simp) .nil
        simpa using this
      · left
        have := SplitsInto.cons (t := t) (l := l) (rest := [e]) (ls := [[e]]) h1 (by
          intro x xs hx
          cases hx
          exact hs) (.cons (l := []) (rest := []) (by simp) (by simp) .nil)
        simpa using this
    | cons y ys =>
      have h2' : ∀ x xs, y :: ys ++ [e] = x :: xs → ¬ (x.start.line = t.stop.line ∧ x.start.file = t.stop.file) := by
        intro x xs hx
        cases hx
        exact h2 _ _ rfl
      rcases ih with ih | ⟨init, l', e1, ih⟩
      · left
        have := SplitsInto.cons (t := t) (l := l) h1 h2' ih
        simpa using this
      · right
        refine ⟨(t :: l) :: init, l', by rw [e1]; rfl, ?_⟩
        have := SplitsInto.cons (t := t) (l := l) h1 h2' ih
        simpa using this

theorem eofs_one : Eofs [.eof] := by simp [Eofs]

theorem undec_eof {A : List Token} {L : List (List Token)} {K : List (List Tok)} (h : SplitsInto A L)
    (hu : Undec (kindsOf L) K) {e : Token} (he : e.tok = .eof) :
    ∃ L', SplitsInto (A ++ [e]) L' ∧ Undec (kindsOf L') K := by
  rcases splits_eof h e with h1 | ⟨init, l, rfl, h1⟩
  · refine ⟨_, h1, ?_⟩
    have := hu.append (.blank (t := [.eof]) eofs_one .nil)
    simpa [he] using this
  · refine ⟨_, h1, ?_⟩
    simp only [kindsOf, List.map_append, List.map_cons, List.map_nil] at hu ⊢
    rw [he]
    exact hu.snoc

/-! ### Lines that are processed one after the other -/

/-- The output of processing the lines `L`, whether or not a token for the end of the file follows a line. -/
inductive Runs (step : Nat → SourceFiles → List Token → Res (List Token × SourceFiles)) (n : Nat) :
    SourceFiles → List (List Token) → List Token → SourceFiles → Prop where
  | nil {sf} : Runs step n sf [] [] sf
  | cons {sf l o sf1 L O sf2} (d : Bool) : (∀ k ≥ n, step k sf l = .ok (o, sf1)) →
      (∀ e, e.tok = .eof → ∀ k ≥ n, step k sf (l ++ [e]) = .ok (o ++ (if d then [e] else []), sf1)) →
      Runs step n sf1 L O sf2 → Runs step n sf (l :: L) (o ++ O) sf2

theorem Runs.mono {step n sf L O sf'} (h : Runs step n sf L O sf') {n'} (hn : n ≤ n') : Runs step n' sf L O sf' := by
  induction h with
  | nil => exact .nil
  | cons d h1 h2 _ ih => exact .cons d (fun k hk => h1 k (by omega)) (fun e he k hk => h2 e he k (by omega)) ih

theorem Runs.append {step n sf a O1 sf1 b O2 sf2} (h1 : Runs step n sf a O1 sf1) (h2 : Runs step n sf1 b O2 sf2) :
    Runs step n sf (a ++ b) (O1 ++ O2) sf2 := by
  induction h1 with
  | nil => exact h2
  | cons d a1 a2 _ ih => rw [List.append_assoc]; exact .cons d a1 a2 (ih h2)

theorem Runs.plain {step n sf L O sf'} (h : Runs step n sf L O sf') : ∀ k ≥ n, includeLines (step k) sf L = .ok (O, sf') := by
  induction h with
  | nil => intro k _; rfl
  | cons d h1 _ _ ih =>
    intro k hk
    rw [includeLines, h1 k hk, Res.ok_bind]
    simp only [ih k hk, Res.ok_bind]

theorem includeLines_append {step sf a x s1 b y s2} (h1 : includeLines step sf a = .ok (x, s1))
    (h2 : includeLines step s1 b = .ok (y, s2)) : includeLines step sf (a ++ b) = .ok (x ++ y, s2) := by
  induction a generalizing sf x with
  | nil => cases h1; exact h2
  | cons l a ih =>
    rw [includeLines] at h1
    obtain ⟨⟨o, s⟩, e1, h1⟩ := Res.bind_eq_ok.mp h1
    obtain ⟨⟨o', s'⟩, e2, h1⟩ := Res.bind_eq_ok.mp h1
    cases h1
    rw [List.cons_append, includeLines, e1, Res.ok_bind]
    simp only [ih e2, Res.ok_bind, List.append_assoc]

theorem Runs.last {step n sf L O sf'} (h : Runs step n sf L O sf') {e : Token} (he : e.tok = .eof) :
    ∀ init l, L = init ++ [l] → ∃ d : Bool, ∀ k ≥ n,
      includeLines (step k) sf (init ++ [l ++ [e]]) = .ok (O ++ (if d then [e] else []), sf') := by
  induction h with
  | nil => intro init l h; simp at h
  | @cons sf l0 o sf1 L O sf2 d h1 h2 hr ih =>
    intro init l hL
    cases init with
    | nil =>
      simp only [List.nil_append, List.cons.injEq] at hL
      obtain ⟨rfl, rfl⟩ := hL
      cases hr
      refine ⟨d, fun k hk => ?_⟩
      rw [List.nil_append, includeLines, h2 e he k hk, Res.ok_bind]
      simp only [includeLines, Res.ok_bind, List.append_nil]
    | cons y init =>
      simp only [List.cons_append, List.cons.injEq] at hL
      obtain ⟨rfl, hL⟩ := hL
      obtain ⟨d, ih⟩ := ih init l hL
      refine ⟨d, fun k hk => ?_⟩
      rw [List.cons_append, includeLines, h1 k hk, Res.ok_bind]
      simp only [ih k hk, Res.ok_bind, List.append_assoc]

theorem Runs.eof {step n sf L O sf'} (h : Runs step n sf L O sf') {A : List Token} (hs : SplitsInto A L) {e : Token}
    (he : e.tok = .eof) (hstep : ∀ k sf, step k sf [e] = .ok ([e], sf)) :
    ∃ d : Bool, ∀ k ≥ n, includeLines (step k) sf (lines (A ++ [e])) = .ok (O ++ (if d then [e] else []), sf') := by
  rcases splits_eof hs e with h1 | ⟨init, l, rfl, h1⟩
  · rw [lines_iff.mpr h1]
    refine ⟨true, fun k hk => includeLines_append (h.plain k hk) ?_⟩
    rw [includeLines, hstep, Res.ok_bind]
    rfl
  · rw [lines_iff.mpr h1]
    exact h.last he init l rfl

/-! ### One line -/

theorem parseDirective_dir {w d rest} (h : DirSyntax w d) (hl : LineEnd rest) :
    parseDirective (w ++ rest) = .ok (some (.dir d, rest)) := by
  obtain ⟨n, w', p, rfl, hp, hx⟩ := directive_complete h hl
  rw [List.cons_append, parseDirective_name, hp]
  dsimp only
  rw [hx]
  rfl

theorem parseDirective_incl {ts typ name rest} (h : parseDirective ts = .ok (some (.dir (.incl typ name), rest))) :
    ts.head? = some (.name ".include".toList) := by
  cases ts with
  | nil => cases h
  | cons t ts =>
    cases t with
    | name n =>
      rw [parseDirective_name] at h
      split at h
      next p hp =>
        obtain ⟨⟨d, r⟩, h1, h⟩ := Res.bind_eq_ok.mp h
        cases h
        obtain ⟨w, e, hd⟩ := directive_sound hp h1
        cases hd <;> (simp only [List.cons_append, List.cons.injEq] at e; rw [e.1]; rfl)
      next => cases h
    | _ => cases h

theorem includeLine_copy {seg fs go file sf l} (h : (l.map Token.tok).head? ≠ some (.name ".include".toList)) :
    includeLine seg fs go file sf l = .ok (l, sf) := by
  have hf := parseDirective_fine (l.map Token.tok)
  unfold includeLine
  split
  next hd => exact absurd (parseDirective_incl hd) h
  next hd => rw [hd] at hf; exact absurd rfl hf.2
  next hd => rw [hd] at hf; exact absurd rfl hf.1
  next => rfl

end Verif
