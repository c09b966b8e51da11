import Verif.Spec.Sources
import Verif.Lemmas.IncludeFile
/-
Reading the main file and all that it includes: when it ends, and what can panic.
-/
namespace Verif
open Spec

/-! ### Lines -/

theorem namesSource_parse {l : List Tok} {name : Text} (h : NamesSource l name) :
    ∃ rest, parseDirective l = .ok (some (.dir (.incl .asm name), rest)) := by
  obtain ⟨rest, rfl | rfl⟩ := h
  · exact ⟨rest, rfl⟩
  · exact ⟨rest, rfl⟩

theorem namesHeader_parse {l : List Tok} {name : Text} (h : NamesHeader l name) :
    ∃ rest, parseDirective l = .ok (some (.dir (.incl .cHeader name), rest)) := by
  obtain ⟨rest, rfl⟩ := h
  exact ⟨rest, rfl⟩

theorem parse_incl_sound {l : List Tok} {typ name rest} (h : parseDirective l = .ok (some (.dir (.incl typ name), rest))) :
    ∃ w, l = w ++ rest ∧ DirSyntax w (.incl typ name) := by
  cases l with
  | nil => cases h
  | cons t ts =>
    cases t with
    | name n =>
      rw [parseDirective_name] at h
      split at h
      next p hp =>
        obtain ⟨⟨d, r⟩, h1, h⟩ := Res.bind_eq_ok.mp h
        cases h
        obtain ⟨w, e, hd⟩ := directive_sound hp h1
        exact ⟨w, e, hd⟩
      next => cases h
    | _ => cases h

theorem parse_namesSource {l : List Tok} {name rest} (h : parseDirective l = .ok (some (.dir (.incl .asm name), rest))) :
    NamesSource l name := by
  obtain ⟨w, rfl, hd⟩ := parse_incl_sound h
  cases hd with
  | incl => exact ⟨rest, .inl rfl⟩
  | asm => exact ⟨rest, .inr rfl⟩

theorem parse_namesHeader {l : List Tok} {name rest} (h : parseDirective l = .ok (some (.dir (.incl .cHeader name), rest))) :
    NamesHeader l name := by
  obtain ⟨w, rfl, hd⟩ := parse_incl_sound h
  cases hd with
  | cpp => exact ⟨rest, rfl⟩

theorem namesSource_eof {l : List Tok} {name : Text} : NamesSource (l ++ [.eof]) name ↔ NamesSource l name := by
  constructor
  · rintro ⟨rest, h | h⟩
    · match l, h with
      | [], h => simp at h
      | [_], h => simp at h
      | a :: b :: l, h => simp only [List.cons_append, List.cons.injEq] at h; exact ⟨l, .inl (by rw [h.1, h.2.1])⟩
    · match l, h with
      | [], h => simp at h
      | [_], h => simp at h
      | [_, _], h => simp at h
      | a :: b :: c :: l, h => simp only [List.cons_append, List.cons.injEq] at h; exact ⟨l, .inr (by rw [h.1, h.2.1, h.2.2.1])⟩
  · rintro ⟨rest, rfl | rfl⟩
    · exact ⟨rest ++ [.eof], .inl rfl⟩
    · exact ⟨rest ++ [.eof], .inr rfl⟩

theorem namesHeader_eof {l : List Tok} {name : Text} : NamesHeader (l ++ [.eof]) name ↔ NamesHeader l name := by
  constructor
  · rintro ⟨rest, h⟩
    match l, h with
      | [], h => simp at h
      | [_], h => simp at h
      | [_, _], h => simp at h
      | a :: b :: c :: l, h => simp only [List.cons_append, List.cons.injEq] at h; exact ⟨l, by rw [h.1, h.2.1, h.2.2.1]⟩
  · rintro ⟨rest, rfl⟩
    exact ⟨rest ++ [.eof], rfl⟩

/-- The lines of a file that was read: those of the specification, and the token for the end of the file after them or
in the last of them. -/
theorem lex_lines {seg : Seg} {t : Text} (ha : Plain seg t) {f : Nat} {toks : List Token}
    (h : lexInput seg (Input.new f t) = .ok toks) :
    ∃ ls, ReadsAs t ls ∧ (kindsOf (lines toks) = ls ++ [[.eof]] ∨ ∃ init l, ls = init ++ [l] ∧
      kindsOf (lines toks) = init ++ [l ++ [.eof]]) := by
  have h1 := (lexInput_ok_iff ha).mp h
  have hne : toks ≠ [] := by intro e; subst e; cases h1
  obtain ⟨A, e, rfl⟩ : ∃ A e, toks = A ++ [e] := ⟨_, _, (List.dropLast_concat_getLast hne).symm⟩
  have he := (lexes_last h1).1
  have h2 := lines_splits A
  have hr : ReadsAt f [] t (lines A) := ⟨e, by rw [splits_flatten h2]; exact h1, by rw [splits_flatten h2]; exact h2⟩
  obtain ⟨L0, k1, k2⟩ := readsAt_shift (f2 := 0) (b2 := []) hr rfl
  refine ⟨kindsOf L0, ⟨L0, k1, rfl⟩, ?_⟩
  have k2 : kindsOf L0 = kindsOf (lines A) := k2
  rw [k2]
  rcases splits_eof h2 e with h3 | ⟨init, l, e1, h3⟩
  · left
    rw [lines_iff.mpr h3]
    simp [kindsOf, he]
  · right
    rw [lines_iff.mpr h3, e1]
    exact ⟨kindsOf init, l.map Token.tok, by simp [kindsOf], by simp [kindsOf, he]⟩

theorem hasLine_mem {fs : FS} {p : Path} {t : Text} (hr : fs.read p = some (utf8 t)) {ls : List (List Tok)} (h1 : ReadsAs t ls)
    {l : List Tok} : HasLine fs p l → l ∈ ls := by
  rintro ⟨t', ls', r1, r2, r3⟩
  rw [hr] at r1
  injection r1 with r1
  have := utf8_inj r1
  subst this
  obtain ⟨L, ⟨e, a1, a2⟩, rfl⟩ := h1
  obtain ⟨L', ⟨e', b1, b2⟩, rfl⟩ := r2
  have := lexesTo_unique a1 b1
  obtain ⟨c1, -⟩ := List.append_inj' this rfl
  rw [c1] at a2
  rw [← lines_iff.mpr b2, lines_iff.mpr a2] at r3
  exact r3

/-- The include directives of a file that was read. -/
theorem lex_hasLine {seg : Seg} {fs : FS} {p : Path} {t : Text} (hr : fs.read p = some (utf8 t)) (ha : Plain seg t)
    {f : Nat} {toks : List Token} (h : lexInput seg (Input.new f t) = .ok toks) {name : Text} :
    ((∃ l ∈ lines toks, NamesSource (l.map Token.tok) name) ↔ ∃ l, HasLine fs p l ∧ NamesSource l name) ∧
    ((∃ l ∈ lines toks, NamesHeader (l.map Token.tok) name) ↔ ∃ l, HasLine fs p l ∧ NamesHeader l name) := by
  obtain ⟨ls, h1, h2⟩ := lex_lines ha h
  have uniq : ∀ l, HasLine fs p l → l ∈ ls := fun l => hasLine_mem hr h1
  have key : ∀ P : List Tok → Prop, (∀ l, P (l ++ [.eof]) ↔ P l) → ¬ P [] →
      ((∃ l ∈ lines toks, P (l.map Token.tok)) ↔ ∃ l, HasLine fs p l ∧ P l) := by
    intro P hP h0
    have e1 : (∃ l ∈ lines toks, P (l.map Token.tok)) ↔ ∃ l ∈ kindsOf (lines toks), P l :=
      ⟨fun ⟨l, h, hp⟩ => ⟨_, List.mem_map_of_mem h, hp⟩, fun ⟨l, h, hp⟩ => by
        obtain ⟨l', h', rfl⟩ := List.mem_map.mp h
        exact ⟨l', h', hp⟩⟩
    rw [e1]
    constructor
    · rintro ⟨l, hl, hp⟩
      have hin : ∀ l', l' ∈ ls → P l' → ∃ l, HasLine fs p l ∧ P l := fun l' hl' hp' => ⟨l', ⟨t, ls, hr, h1, hl'⟩, hp'⟩
      rcases h2 with h2 | ⟨init, l0, e, h2⟩
      · rw [h2] at hl
        rcases List.mem_append.mp hl with hl | hl
        · exact hin l hl hp
        · rw [List.mem_singleton.mp hl] at hp
          exact absurd ((hP []).mp hp) h0
      · rw [h2] at hl
        rcases List.mem_append.mp hl with hl | hl
        · exact hin l (by rw [e]; exact List.mem_append_left _ hl) hp
        · rw [List.mem_singleton.mp hl] at hp
          exact hin l0 (by rw [e]; simp) ((hP _).mp hp)
    · rintro ⟨l, hl, hp⟩
      have hl := uniq l hl
      rcases h2 with h2 | ⟨init, l0, e, h2⟩
      · exact ⟨l, by rw [h2]; exact List.mem_append_left _ hl, hp⟩
      · rw [e] at hl
        rcases List.mem_append.mp hl with hl | hl
        · exact ⟨l, by rw [h2]; exact List.mem_append_left _ hl, hp⟩
        · rw [List.mem_singleton.mp hl] at hp
          exact ⟨l0 ++ [.eof], by rw [h2]; simp, (hP _).mpr hp⟩
  exact ⟨key (NamesSource · name) (fun _ => namesSource_eof) (by rintro ⟨r, h | h⟩ <;> cases h),
    key (NamesHeader · name) (fun _ => namesHeader_eof) (by rintro ⟨r, h⟩; cases h)⟩

/-! ### C headers -/

theorem clexLoop_end {seg : Seg} {file : Nat} : ∀ (fuel : Nat) (before text : Text), text.length < fuel → Plain seg text →
    (∀ c ∈ text, c.toNat < 128) → lexLoop seg (skipCBlank seg) fuel (inputAt file before text) ≠ .loop ∧
    (lexLoop seg (skipCBlank seg) fuel (inputAt file before text) = .panic → CHasTooBig text) := by
  intro fuel
  induction fuel with
  | zero => intro _ text h; exact absurd h (Nat.not_lt_zero _)
  | succ fuel ih =>
    intro before text hlen hp ha
    obtain ⟨g, rest, rfl, hg, hskip⟩ := skipCBlank_ascii file before text hp ha
    rw [lexLoop_step_of hp hskip]
    split
    · exact ⟨by simp, by simp⟩
    · cases hm : matchToken rest with
      | none => exact ⟨by simp, by simp⟩
      | some x =>
        obtain ⟨w, conv⟩ := x
        obtain ⟨rest', rfl, hr'⟩ := matchToken_sound hm
        rcases hr' with ⟨k, rfl, hk⟩ | ⟨v, radix, rfl, hn, hv⟩
        · have hw : 0 < w.length := List.length_pos_iff.mpr (spells_ne_nil hk)
          obtain ⟨i1, i2⟩ := ih (before ++ g ++ w) rest' (by simp only [List.length_append] at hlen; omega)
            hp.suffix.suffix (ascii_suffix (ascii_suffix ha))
          simp only [Res.ok_bind, List.drop_left]
          constructor
          · intro h
            rcases Res.bind_eq_loop.mp h with h | ⟨_, _, h⟩
            · exact i1 h
            · cases h
          · intro h
            rcases Res.bind_eq_panic.mp h with h | ⟨_, _, h⟩
            · obtain ⟨g', w', rest2, v, radix, a1, a2⟩ := i2 h
              refine ⟨g', w', rest2, v, radix, ?_, a2⟩
              rw [← List.append_assoc]
              exact .token hg hk a1
            · cases h
        · exact ⟨by simp, fun _ => ⟨g, w, rest', v, radix, by rw [← List.append_assoc]; exact .here, hg, hn, hv⟩⟩

theorem headerLine_fine (l : List Token) : Fine (headerLine l) := by
  unfold headerLine
  split
  · split
    · refine .bind (readName_fine _) fun a h1 => .bind ⟨parseExpr_not_loop _, parseExpr_not_panic _⟩ fun _ _ => ?_
      split
      · exact .ok _
      · rename_i rest _ _ 
        cases h1
    · exact .ok _
  · exact .ok _

theorem headerLines_fine : ∀ L : List (List Token), Fine (headerLines L)
  | [] => .ok _
  | l :: L => .bind (headerLine_fine l) fun _ _ => .bind (headerLines_fine L) fun _ _ => .ok _

theorem lexHeader_end {seg : Seg} (hs : AsciiSeg seg) {f : Nat} {t : Text} (ha : Ascii t) :
    lexHeader seg (Input.new f t) ≠ .loop ∧ (lexHeader seg (Input.new f t) = .panic → CHasTooBig t) := by
  have h := clexLoop_end (seg := seg) (file := f) (t.length + 2) [] t (by omega) (plain_of_ascii hs ha) ha
  unfold lexHeader
  constructor
  · intro hl
    rcases Res.bind_eq_loop.mp hl with hl | ⟨raw, _, hl⟩
    · exact h.1 hl
    · exact (headerLines_fine _).1 hl
  · intro hl
    rcases Res.bind_eq_panic.mp hl with hl | ⟨raw, _, hl⟩
    · exact h.2 hl
    · exact absurd hl (headerLines_fine _).2

/-! ### Loading -/

theorem load_good' {fs : FS} {dir : Path} {sf : SourceFiles} (h : Good fs dir sf) {root : Option Path} {q : Path} {g : SourceFile}
    {sf1 : SourceFiles} (hl : SourceFiles.load fs sf root q = .ok (g, sf1)) :
    Resolves fs dir root q g.name ∧ fs.read g.name = some (utf8 g.contents) ∧ Good fs dir sf1 := by
  obtain ⟨h1, h2, h3, h4⟩ := h.ok.load hl
  obtain ⟨p', hp, ⟨c1, c2, rfl⟩ | ⟨-, c2, c3, -, rfl⟩⟩ := (load_iff h.ok).mp hl
  · exact ⟨by rw [c2, ← h.dir]; exact hp, h.disk g c1, h⟩
  · refine ⟨by rw [c3, ← h.dir]; exact hp, by rw [c3]; exact c2, h1, h2.trans h.dir, ?_⟩
    intro x hx
    rcases List.mem_append.mp hx with hx | hx
    · exact h.disk x hx
    · rw [List.mem_singleton] at hx
      subst hx
      rw [c3]; exact c2

theorem path_end {fs : FS} {sf : SourceFiles} {root : Path} {q : Path} :
    sf.path fs (some root) q ≠ .loop ∧ (root.comps ≠ [] → sf.path fs (some root) q ≠ .panic) := by
  unfold SourceFiles.path Path.parent
  dsimp only
  constructor
  · intro h
    split at h
    · rw [Res.ok_bind] at h; split at h <;> cases h
    · split at h
      · rw [Res.ok_bind] at h; split at h <;> cases h
      · split at h
        · rw [Res.ok_bind] at h; split at h <;> cases h
        · cases h
  · intro hc h
    rw [if_neg hc] at h
    split at h
    · rw [Res.ok_bind] at h; split at h <;> cases h
    · split at h
      · rw [Res.ok_bind] at h; split at h <;> cases h
      · dsimp only at h; rw [Res.ok_bind] at h; split at h <;> cases h

theorem loadFile_fine (fs : FS) (p : Path) : Fine (loadFile fs p) := by
  unfold loadFile loadBytes
  cases fs.read p with
  | none => exact .err _
  | some bs =>
    rw [Res.ok_bind]
    split
    · exact .ok _
    · exact .err _

theorem load_end {fs : FS} {sf : SourceFiles} (h : FilesOk sf) {root : Option Path} {q : Path} :
    (sf.load fs root q = .loop → sf.path fs root q = .loop) ∧ (sf.load fs root q = .panic → sf.path fs root q = .panic) := by
  have key : ∀ p, Fine (match sf.getId p with
      | some id => match sf.files[id]? with
        | some f => (.ok (f, sf) : Res (SourceFile × SourceFiles))
        | none => .panic
      | none => do
        let contents ← loadFile fs p
        let file : SourceFile := ⟨sf.files.length, p, contents⟩
        .ok (file, { sf with files := sf.files ++ [file] })) := by
    intro p
    cases hg : sf.getId p with
    | some k =>
      obtain ⟨f, h1, -⟩ := (getId_iff h).mp hg
      simp only [h1]
      exact .ok _
    | none => exact .bind (loadFile_fine fs p) fun _ _ => .ok _
  unfold SourceFiles.load
  constructor
  · intro hl
    rcases Res.bind_eq_loop.mp hl with hl | ⟨p, _, hl⟩
    · exact hl
    · exact absurd hl (key p).1
  · intro hl
    rcases Res.bind_eq_panic.mp hl with hl | ⟨p, _, hl⟩
    · exact hl
    · exact absurd hl (key p).2

/-! ### One line -/

/-- What can happen on a line. -/
inductive LineRuns (seg : Seg) (fs : FS) (dir : Path) (go : Path → SourceFiles → List Token → Res (List Token × SourceFiles))
    (p : Path) (sf : SourceFiles) (l : List Token) : Res (List Token × SourceFiles) → Prop where
  | same {out} : LineRuns seg fs dir go p sf l (.ok (out, sf))
  | err {e} : LineRuns seg fs dir go p sf l (.err e)
  | noParent : p.comps = [] → LineRuns seg fs dir go p sf l .panic
  | lexes {name sf1 r} {g : SourceFile} : NamesSource (l.map Token.tok) name → FoundAt fs dir p name g.name →
      fs.read g.name = some (utf8 g.contents) → Good fs dir sf1 → lexInput seg (Input.new g.id g.contents) = r →
      (∀ a, r ≠ .ok a) → LineRuns seg fs dir go p sf l (r >>= fun _ => .ok ([], sf))
  | source {name sf1 toks r} {g : SourceFile} {rest : Bool} : NamesSource (l.map Token.tok) name → FoundAt fs dir p name g.name →
      fs.read g.name = some (utf8 g.contents) → Good fs dir sf1 → lexInput seg (Input.new g.id g.contents) = .ok toks →
      go g.name sf1 toks = r →
      LineRuns seg fs dir go p sf l (r >>= fun x => if rest then .ok x else .err .unexpectedToken)
  | header {name sf1 r} {g : SourceFile} : NamesHeader (l.map Token.tok) name → FoundAt fs dir p name g.name →
      fs.read g.name = some (utf8 g.contents) → Good fs dir sf1 → lexHeader seg (Input.new g.id g.contents) = r →
      LineRuns seg fs dir go p sf l (r >>= fun x => .ok (x, sf1))

theorem line_runs {seg : Seg} {fs : FS} {dir : Path} {go : Path → SourceFiles → List Token → Res (List Token × SourceFiles)}
    {p : Path} {sf : SourceFiles} (hg : Good fs dir sf) (l : List Token) :
    LineRuns seg fs dir go p sf l (includeLine seg fs go p sf l) := by
  have hf := parseDirective_fine (l.map Token.tok)
  by_cases hd : ∃ typ name rest, parseDirective (l.map Token.tok) = .ok (some (.dir (.incl typ name), rest))
  · obtain ⟨typ, name, rest, hd⟩ := hd
    rw [includeLine_dir hd]
    cases hp : sf.path fs (some p) (Path.parse name) with
    | loop => exact absurd hp path_end.1
    | err e => exact .err
    | panic =>
      refine .noParent ?_
      by_cases hc : p.comps = []
      · exact hc
      · exact absurd hp (path_end.2 hc)
    | ok r =>
      rw [Res.ok_bind]
      have hr := path_iff.mp hp
      rw [hg.dir] at hr
      have hload := load_end (fs := fs) hg.ok (root := some p) (q := r)
      cases typ with
      | asm =>
        dsimp only
        cases hl : sf.load fs (some p) r with
        | loop => exact absurd (hload.1 hl) path_end.1
        | err e => exact .err
        | panic =>
          refine .noParent ?_
          by_cases hc : p.comps = []
          · exact hc
          · exact absurd (hload.2 hl) (path_end.2 hc)
        | ok x =>
          obtain ⟨g, sf1⟩ := x
          simp only [Res.ok_bind]
          obtain ⟨h1, h2, h3⟩ := load_good' hg hl
          have hn := parse_namesSource hd
          have hfound : FoundAt fs dir p name g.name := ⟨r, hr, h1⟩
          cases hx : lexInput seg (Input.new g.id g.contents) with
          | ok toks =>
            rw [Res.ok_bind]
            have := LineRuns.source (seg := seg) (go := go) (sf := sf) (rest := rest.isEmpty) hn hfound h2 h3 hx rfl
            exact this
          | err e => exact .err
          | panic =>
            have := LineRuns.lexes (seg := seg) (go := go) (sf := sf) hn hfound h2 h3 hx (by simp)
            exact this
          | loop =>
            have := LineRuns.lexes (seg := seg) (go := go) (sf := sf) hn hfound h2 h3 hx (by simp)
            exact this
      | cHeader =>
        dsimp only
        cases hl : sf.load fs (some p) r with
        | loop => exact absurd (hload.1 hl) path_end.1
        | err e => exact .err
        | panic =>
          refine .noParent ?_
          by_cases hc : p.comps = []
          · exact hc
          · exact absurd (hload.2 hl) (path_end.2 hc)
        | ok x =>
          obtain ⟨g, sf1⟩ := x
          simp only [Res.ok_bind]
          obtain ⟨h1, h2, h3⟩ := load_good' hg hl
          exact LineRuns.header (parse_namesHeader hd) ⟨r, hr, h1⟩ h2 h3 rfl
      | bytes => exact .same
      | icon => exact .same
      | sprite => exact .same
  · have : includeLine seg fs go p sf l = .ok (l, sf) := by
      unfold includeLine
      split
      next hx => exact absurd ⟨_, _, _, hx⟩ hd
      next hx => rw [hx] at hf; exact absurd rfl hf.2
      next hx => rw [hx] at hf; exact absurd rfl hf.1
      next => rfl
    rw [this]
    exact .same

/-! ### All lines -/

theorem includeLines_ok {P : SourceFiles → Prop} {step : SourceFiles → List Token → Res (List Token × SourceFiles)} :
    ∀ {L : List (List Token)} {sf out sf'}, (∀ l ∈ L, ∀ sf out sf', P sf → step sf l = .ok (out, sf') → P sf') → P sf →
      includeLines step sf L = .ok (out, sf') → P sf' ∧ ∀ l ∈ L, ∃ sf out sf', P sf ∧ step sf l = .ok (out, sf')
  | [], _, _, _, _, h, e => by cases e; exact ⟨h, by simp⟩
  | l :: L, sf, out, sf', hs, h, e => by
    rw [includeLines] at e
    obtain ⟨⟨a, s1⟩, e1, e⟩ := Res.bind_eq_ok.mp e
    obtain ⟨⟨b, s2⟩, e2, e⟩ := Res.bind_eq_ok.mp e
    cases e
    have h1 := hs l (by simp) _ _ _ h e1
    obtain ⟨h2, h3⟩ := includeLines_ok (fun l hl => hs l (by simp [hl])) h1 e2
    refine ⟨h2, ?_⟩
    intro x hx
    rcases List.mem_cons.mp hx with rfl | hx
    · exact ⟨_, _, _, h, e1⟩
    · exact h3 x hx

theorem includeLines_stop {P : SourceFiles → Prop} {step : SourceFiles → List Token → Res (List Token × SourceFiles)}
    {r : Res (List Token × SourceFiles)} (hr : r = .loop ∨ r = .panic) :
    ∀ {L : List (List Token)} {sf}, (∀ l ∈ L, ∀ sf out sf', P sf → step sf l = .ok (out, sf') → P sf') → P sf →
      includeLines step sf L = r → ∃ l ∈ L, ∃ sf, P sf ∧ step sf l = r
  | [], _, _, _, e => by subst e; rcases hr with hr | hr <;> cases hr
  | l :: L, sf, hs, h, e => by
    rw [includeLines] at e
    cases e1 : step sf l with
    | ok x =>
      obtain ⟨a, s1⟩ := x
      simp only [e1, Res.ok_bind] at e
      have h1 := hs l (by simp) _ _ _ h e1
      cases e2 : includeLines step s1 L with
      | ok x => simp only [e2, Res.ok_bind] at e; subst e; rcases hr with hr | hr <;> cases hr
      | err x => rw [e2] at e; subst e; rcases hr with hr | hr <;> cases hr
      | panic =>
        rw [e2] at e
        obtain ⟨l', hl', c⟩ := includeLines_stop hr (fun l hl => hs l (by simp [hl])) h1 (e2.trans e)
        exact ⟨l', by simp [hl'], c⟩
      | loop =>
        rw [e2] at e
        obtain ⟨l', hl', c⟩ := includeLines_stop hr (fun l hl => hs l (by simp [hl])) h1 (e2.trans e)
        exact ⟨l', by simp [hl'], c⟩
    | err x => rw [e1] at e; subst e; rcases hr with hr | hr <;> cases hr
    | panic => rw [e1] at e; exact ⟨l, by simp, sf, h, e1.trans e⟩
    | loop => rw [e1] at e; exact ⟨l, by simp, sf, h, e1.trans e⟩

/-! ### All files -/

theorem line_good {seg : Seg} {fs : FS} {dir : Path} {go : Path → SourceFiles → List Token → Res (List Token × SourceFiles)}
    (hgo : ∀ p sf toks out sf', Good fs dir sf → go p sf toks = .ok (out, sf') → Good fs dir sf')
    {p : Path} {sf : SourceFiles} {l : List Token} {out sf'} (hg : Good fs dir sf)
    (h : includeLine seg fs go p sf l = .ok (out, sf')) : Good fs dir sf' := by
  have hr := line_runs (seg := seg) (go := go) (p := p) hg l
  rw [h] at hr
  generalize e : Res.ok (out, sf') = r at hr
  cases hr with
  | same => cases e; exact hg
  | err => cases e
  | noParent => cases e
  | @lexes name sf1 r g _ _ _ _ _ hr =>
    cases r with
    | ok a => exact absurd rfl (hr a)
    | err => cases e
    | panic => cases e
    | loop => cases e
  | source _ _ _ h3 _ h5 =>
    obtain ⟨⟨a, s⟩, e1, e2⟩ := Res.bind_eq_ok.mp e.symm
    split at e2
    · cases e2; rw [e1] at h5; exact hgo _ _ _ _ _ h3 h5
    · cases e2
  | header _ _ _ h3 _ =>
    obtain ⟨a, e1, e2⟩ := Res.bind_eq_ok.mp e.symm
    cases e2
    exact h3

theorem replace_good {seg : Seg} {fs : FS} {dir : Path} : ∀ {fuel : Nat} {p : Path} {sf : SourceFiles} {toks out sf'}, Good fs dir sf →
    replaceIncludes seg fs fuel p sf toks = .ok (out, sf') → Good fs dir sf'
  | 0, _, _, _, _, _, _, h => by cases h
  | fuel + 1, p, sf, toks, out, sf', hg, h => by
    rw [replaceIncludes] at h
    exact (includeLines_ok (P := Good fs dir) (fun l _ sf out sf' hg h =>
      line_good (fun p sf toks out sf' hg h => replace_good hg h) hg h) hg h).1

/-- More depth does not change the result. -/
theorem replace_mono {seg : Seg} {fs : FS} : ∀ {fuel : Nat} {p : Path} {sf : SourceFiles} {toks},
    replaceIncludes seg fs fuel p sf toks ≠ .loop → ∀ n ≥ fuel, replaceIncludes seg fs n p sf toks = replaceIncludes seg fs fuel p sf toks
  | 0, _, _, _, h => absurd rfl h
  | fuel + 1, p, sf, toks, h => by
    intro n hn
    obtain ⟨n, rfl⟩ : ∃ k, n = k + 1 := ⟨n - 1, by omega⟩
    rw [replaceIncludes] at h ⊢
    rw [replaceIncludes]
    have hstep : ∀ sf l, includeLine seg fs (replaceIncludes seg fs fuel) p sf l ≠ .loop →
        includeLine seg fs (replaceIncludes seg fs n) p sf l = includeLine seg fs (replaceIncludes seg fs fuel) p sf l := by
      intro sf l h
      unfold includeLine at h ⊢
      split at h
      · cases hp : sf.path fs (some p) (Path.parse _) with
        | ok r =>
          rw [hp] at h
          simp only [Res.ok_bind] at h ⊢
          split at h
          · cases hl : sf.load fs (some p) r with
            | ok x =>
              obtain ⟨g, sf1⟩ := x
              rw [hl] at h
              simp only [Res.ok_bind] at h ⊢
              cases hx : lexInput seg (Input.new g.id g.contents) with
              | ok toks =>
                rw [hx] at h
                simp only [Res.ok_bind] at h ⊢
                have : replaceIncludes seg fs fuel g.name sf1 toks ≠ .loop := by
                  intro e
                  rw [e] at h
                  exact h rfl
                rw [replace_mono this n (by omega)]
              | _ => rfl
            | _ => rfl
          · rfl
          · rfl
        | _ => rfl
      · rfl
      · rfl
      · rfl
    generalize lines toks = L at h ⊢
    induction L generalizing sf with
    | nil => rfl
    | cons l L ih =>
      rw [includeLines] at h ⊢
      rw [includeLines]
      have h1 : includeLine seg fs (replaceIncludes seg fs fuel) p sf l ≠ .loop := by
        intro e
        rw [e] at h
        exact h rfl
      rw [hstep sf l h1]
      cases e : includeLine seg fs (replaceIncludes seg fs fuel) p sf l with
      | ok x =>
        obtain ⟨a, s⟩ := x
        rw [e] at h
        simp only [Res.ok_bind] at h ⊢
        have h2 : includeLines (includeLine seg fs (replaceIncludes seg fs fuel) p) s L ≠ .loop := by
          intro e
          rw [e] at h
          exact h rfl
        rw [ih _ h2]
      | _ => rfl

/-- The includes are well founded; `finite_iff` says what this means. -/
def Finite (fs : FS) (dir main : Path) : Prop := Acc (fun q p => IncludesFile fs dir p q) main

theorem includeTree_cons {fs : FS} {dir p q r : Path} (h : IncludesFile fs dir p q) (ht : IncludeTree fs dir q r) :
    IncludeTree fs dir p r := by
  induction ht with
  | main => exact .step .main h
  | step _ h2 ih => exact .step ih h2

theorem Spec.AllPlain.step {seg : Seg} {fs : FS} {dir p q : Path} (h : AllPlain seg fs dir p) (hi : IncludesFile fs dir p q) : AllPlain seg fs dir q :=
  ⟨fun r t ht => h.1 r t (includeTree_cons hi ht), fun r s t ht => h.2 r s t (includeTree_cons hi ht)⟩

theorem found_unique {fs : FS} {dir p : Path} {name : Text} {q q' : Path} (h : FoundAt fs dir p name q) (h' : FoundAt fs dir p name q') :
    q = q' := by
  obtain ⟨r, h1, h2⟩ := h
  obtain ⟨r', h1', h2'⟩ := h'
  have key : ∀ {n a b}, Resolves fs dir (some p) n a → Resolves fs dir (some p) n b → a = b := by
    intro n a b ha hb
    have ha := path_iff (sf := SourceFiles.new dir) |>.mpr ha
    have hb := path_iff (sf := SourceFiles.new dir) |>.mpr hb
    rw [ha] at hb
    exact Res.ok.inj hb
  have := key h1 h1'
  subst this
  exact key h2 h2'

theorem namesSource_unique {l : List Tok} {a b : Text} (h : NamesSource l a) (h' : NamesSource l b) : a = b := by
  obtain ⟨r, rfl | rfl⟩ := h
  · obtain ⟨r', h | h⟩ := h' <;> simp at h; exact h.1
  · obtain ⟨r', h | h⟩ := h' <;> simp at h; exact h.1

/-- With this depth, reading the file does not run for ever. -/
def Enough (seg : Seg) (fs : FS) (dir p : Path) (n : Nat) : Prop :=
  ∀ fuel ≥ n, ∀ sf f t toks, Good fs dir sf → fs.read p = some (utf8 t) → lexInput seg (Input.new f t) = .ok toks →
    replaceIncludes seg fs fuel p sf toks ≠ .loop

theorem replace_ends {seg : Seg} (hs : AsciiSeg seg) {fs : FS} {dir p : Path} (h : Finite fs dir p) :
    AllPlain seg fs dir p → ∃ n, Enough seg fs dir p n := by
  induction h with
  | intro p _ ih =>
    intro hA
    by_cases hx : ∃ t ls, fs.read p = some (utf8 t) ∧ ReadsAs t ls
    · obtain ⟨t, ls, hr, hls⟩ := hx
      have hb : ∀ ls' : List (List Tok), (∀ l ∈ ls', l ∈ ls) → ∃ n, ∀ l ∈ ls', ∀ name q, NamesSource l name → FoundAt fs dir p name q →
          Enough seg fs dir q n := by
        intro ls'
        induction ls' with
        | nil => intro _; exact ⟨0, by simp⟩
        | cons l ls' ih' =>
          intro hin
          obtain ⟨n, hn⟩ := ih' (fun x hx => hin x (by simp [hx]))
          by_cases hq : ∃ name q, NamesSource l name ∧ FoundAt fs dir p name q
          · obtain ⟨name, q, h1, h2⟩ := hq
            have hi : IncludesFile fs dir p q := ⟨l, name, ⟨t, ls, hr, hls, hin l (by simp)⟩, h1, h2⟩
            obtain ⟨m, hm⟩ := ih q hi (hA.step hi)
            refine ⟨max n m, ?_⟩
            intro x hx name' q' h1' h2'
            rcases List.mem_cons.mp hx with rfl | hx
            · have := namesSource_unique h1 h1'
              subst this
              have := found_unique h2 h2'
              subst this
              exact fun fuel hf => hm fuel (by omega)
            · exact fun fuel hf => hn x hx name' q' h1' h2' fuel (by omega)
          · refine ⟨n, ?_⟩
            intro x hx name' q' h1' h2'
            rcases List.mem_cons.mp hx with rfl | hx
            · exact absurd ⟨_, _, h1', h2'⟩ hq
            · exact hn x hx name' q' h1' h2'
      obtain ⟨N, hN⟩ := hb ls (fun _ h => h)
      refine ⟨N + 1, fun fuel hf sf f t' toks hg hr' hlex hloop => ?_⟩
      obtain ⟨k, rfl⟩ : ∃ k, fuel = k + 1 := ⟨fuel - 1, by omega⟩
      rw [hr] at hr'
      have := utf8_inj (Option.some.inj hr')
      subst this
      have ha := hA.1 p t .main hr
      rw [replaceIncludes] at hloop
      obtain ⟨l, hl, sf1, hg1, e⟩ := includeLines_stop (P := Good fs dir) (.inl rfl)
        (fun l _ sf out sf' hg h => line_good (fun p sf toks out sf' hg h => replace_good hg h) hg h) hg hloop
      have hrun := line_runs (seg := seg) (go := replaceIncludes seg fs k) (p := p) hg1 l
      have hsrc : ∀ name q, NamesSource (l.map Token.tok) name → FoundAt fs dir p name q →
          IncludesFile fs dir p q ∧ Enough seg fs dir q N := by
        intro name q h1 h2
        obtain ⟨l', h3, h4⟩ := (lex_hasLine hr ha hlex).1.mp ⟨l, hl, h1⟩
        exact ⟨⟨l', name, h3, h4, h2⟩, hN l' (hasLine_mem hr hls h3) name q h4 h2⟩
      rw [e] at hrun
      generalize e' : Res.loop = r at hrun
      cases hrun with
      | same => cases e'
      | err => cases e'
      | noParent => cases e'
      | @lexes name sf1 r g h1 h2 h3 _ h5 h6 =>
        have hi := (hsrc _ _ h1 h2).1
        have hx := lexInput_not_loop (file := g.id) (hA.1 _ _ (.step .main hi) h3)
        cases r with
        | ok a => exact h6 a rfl
        | err => cases e'
        | panic => cases e'
        | loop => exact hx h5
      | source h1 h2 h3 h4 h5 h6 =>
        rcases Res.bind_eq_loop.mp e'.symm with e1 | ⟨a, _, e1⟩
        · exact (hsrc _ _ h1 h2).2 k (by omega) _ _ _ _ h4 h3 h5 (h6.trans e1)
        · split at e1 <;> cases e1
      | header h1 h2 h3 h4 h5 =>
        obtain ⟨l', c1, c2⟩ := (lex_hasLine hr ha hlex).2.mp ⟨l, hl, h1⟩
        have hah := hA.2 p _ _ .main ⟨l', _, c1, c2, h2⟩ h3
        rcases Res.bind_eq_loop.mp e'.symm with e1 | ⟨a, _, e1⟩
        · exact (lexHeader_end hs hah).1 (h5.trans e1)
        · cases e1
    · refine ⟨0, fun fuel _ sf f t toks hg hr hlex => absurd ?_ hx⟩
      obtain ⟨ls, h1, -⟩ := lex_lines (hA.1 p t .main hr) hlex
      exact ⟨t, ls, hr, h1⟩

theorem replace_panic {seg : Seg} (hs : AsciiSeg seg) {fs : FS} {dir main : Path} (hA : AllPlain seg fs dir main) (hnf : NamedFiles fs) :
    ∀ (fuel : Nat) {p : Path} {sf : SourceFiles} {f : Nat} {t : Text} {toks}, IncludeTree fs dir main p → Good fs dir sf →
      fs.read p = some (utf8 t) → lexInput seg (Input.new f t) = .ok toks → replaceIncludes seg fs fuel p sf toks = .panic →
      HugeNumeral fs dir main := by
  intro fuel
  induction fuel with
  | zero => intro _ _ _ _ _ _ _ _ _ h; cases h
  | succ k ih =>
    intro p sf f t toks htree hg hr hlex hpanic
    have ha := hA.1 p t htree hr
    rw [replaceIncludes] at hpanic
    obtain ⟨l, hl, sf1, hg1, e⟩ := includeLines_stop (P := Good fs dir) (.inr rfl)
      (fun l _ sf out sf' hg h => line_good (fun p sf toks out sf' hg h => replace_good hg h) hg h) hg hpanic
    have hrun := line_runs (seg := seg) (go := replaceIncludes seg fs k) (p := p) hg1 l
    have hsrc : ∀ name q, NamesSource (l.map Token.tok) name → FoundAt fs dir p name q → IncludesFile fs dir p q := by
      intro name q h1 h2
      obtain ⟨l', h3, h4⟩ := (lex_hasLine hr ha hlex).1.mp ⟨l, hl, h1⟩
      exact ⟨l', name, h3, h4, h2⟩
    rw [e] at hrun
    generalize e' : Res.panic = r at hrun
    cases hrun with
    | same => cases e'
    | err => cases e'
    | noParent hc => exact absurd hc (hnf p (by rw [hr]; simp))
    | @lexes name sf1 r g h1 h2 h3 _ h5 h6 =>
      have hi := hsrc _ _ h1 h2
      cases r with
      | ok a => exact absurd rfl (h6 a)
      | err => cases e'
      | loop => cases e'
      | panic =>
        exact .inl ⟨_, _, .step htree hi, h3, (lexInput_panic_iff (hA.1 _ _ (.step htree hi) h3)).mp h5⟩
    | source h1 h2 h3 h4 h5 h6 =>
      rcases Res.bind_eq_panic.mp e'.symm with e1 | ⟨a, _, e1⟩
      · exact ih (.step htree (hsrc _ _ h1 h2)) h4 h3 h5 (h6.trans e1)
      · split at e1 <;> cases e1
    | header h1 h2 h3 h4 h5 =>
      obtain ⟨l', c1, c2⟩ := (lex_hasLine hr ha hlex).2.mp ⟨l, hl, h1⟩
      have hi : IncludesHeader fs dir p _ := ⟨l', _, c1, c2, h2⟩
      rcases Res.bind_eq_panic.mp e'.symm with e1 | ⟨a, _, e1⟩
      · exact .inr ⟨p, _, _, htree, hi, h3, (lexHeader_end hs (hA.2 p _ _ htree hi h3)).2 (h5.trans e1)⟩
      · cases e1

/-- What was read has no endless chain of includes. -/
theorem replace_finite {seg : Seg} {fs : FS} {dir : Path} :
    ∀ (fuel : Nat) {p : Path} {sf : SourceFiles} {f : Nat} {t : Text} {toks out sf'}, AllPlain seg fs dir p → Good fs dir sf →
      fs.read p = some (utf8 t) → lexInput seg (Input.new f t) = .ok toks → replaceIncludes seg fs fuel p sf toks = .ok (out, sf') →
      Finite fs dir p := by
  intro fuel
  induction fuel with
  | zero => intro _ _ _ _ _ _ _ _ _ _ _ h; cases h
  | succ k ih =>
    intro p sf f t toks out sf' hA hg hr hlex hok
    have ha := hA.1 p t .main hr
    rw [replaceIncludes] at hok
    obtain ⟨-, hall⟩ := includeLines_ok (P := Good fs dir)
      (fun l _ sf out sf' hg h => line_good (fun p sf toks out sf' hg h => replace_good hg h) hg h) hg hok
    refine Acc.intro p fun q hq => ?_
    have hAq := hA.step hq
    obtain ⟨l0, name, h1, h2, h3⟩ := hq
    obtain ⟨l, hl, hn⟩ := (lex_hasLine hr ha hlex).1.mpr ⟨l0, h1, h2⟩
    obtain ⟨sf1, o1, sf2, hg1, e⟩ := hall l hl
    obtain ⟨rest, hd⟩ := namesSource_parse hn
    rw [includeLine_dir hd] at e
    obtain ⟨r, e1, e⟩ := Res.bind_eq_ok.mp e
    obtain ⟨⟨g, sf3⟩, e2, e⟩ := Res.bind_eq_ok.mp e
    obtain ⟨toks', e3, e⟩ := Res.bind_eq_ok.mp e
    obtain ⟨⟨o2, sf4⟩, e4, e⟩ := Res.bind_eq_ok.mp e
    obtain ⟨c1, c2, c3⟩ := load_good' hg1 e2
    have e1 := path_iff.mp e1
    rw [hg1.dir] at e1
    have := found_unique h3 ⟨r, e1, c1⟩
    subst this
    exact ih hAq c3 c2 e3 e4

/-! ### The main file -/

theorem good_new (fs : FS) (dir : Path) : Good fs dir (SourceFiles.new dir) :=
  ⟨⟨fun j g hg => by simp [SourceFiles.new] at hg, fun j k g g' hg => by simp [SourceFiles.new] at hg⟩, rfl, fun g hg => by cases hg⟩

/-- The steps of reading a program. -/
theorem readProgram_steps {seg : Seg} {fs : FS} {dir : Path} (hd : dir.abs = true) (name : Text) :
    ∃ main, main = dir.join (Path.parse name) ∧ ((∃ e, ∀ fuel, readProgram seg fs fuel (SourceFiles.new dir) name = .err e) ∨
      ∃ f t sf, Good fs dir sf ∧ fs.read main = some (utf8 t) ∧ ∀ fuel, readProgram seg fs fuel (SourceFiles.new dir) name = (do
        let toks ← lexInput seg (Input.new f t)
        let (toks, sf) ← replaceIncludes seg fs fuel main sf toks
        let program ← parse toks
        .ok (program, main, sf))) := by
  refine ⟨_, rfl, ?_⟩
  have hg := good_new fs dir
  unfold readProgram
  simp only [path_main, Res.ok_bind]
  generalize hm : (SourceFiles.new dir).workingDir.join (Path.parse name) = main
  have hm' : dir.join (Path.parse name) = main := hm
  rw [hm']
  have habs : main.abs = true := by rw [← hm']; exact join_abs hd
  cases hl : SourceFiles.load fs (SourceFiles.new dir) none main with
  | loop => exact absurd ((load_end hg.ok).1 hl) (by simp [path_main])
  | panic => exact absurd ((load_end hg.ok).2 hl) (by simp [path_main])
  | err e => exact .inl ⟨e, fun _ => rfl⟩
  | ok x =>
    obtain ⟨g, sf⟩ := x
    obtain ⟨c1, c2, c3⟩ := load_good' hg hl
    have : g.name = main := by
      generalize hn : g.name = q at c1
      cases c1
      exact join_absolute habs
    rw [this] at c2
    exact .inr ⟨g.id, g.contents, sf, c3, c2, fun _ => rfl⟩

end Verif
