import Verif.Lemmas.Located.SourceErrors
import Verif.Lemmas.DataIncludes
/-
Reading the source files: what a run of the located model says about them.
-/
namespace Verif.Located
open Verif.Spec Verif.Spec.Syntax

/-! ### Runs -/

theorem Run.bind_ok {α β : Type} {x : Run α} {f : α → Run β} {sf sf1 a} (h : x sf = (sf1, .ok a)) : (x >>= f) sf = f a sf1 := by
  rw [Run.bind_def]; unfold Run.bind; rw [h]
theorem Run.bind_err {α β : Type} {x : Run α} {f : α → Run β} {sf sf1 e} (h : x sf = (sf1, .err e)) :
    (x >>= f) sf = (sf1, .err e) := by
  rw [Run.bind_def]; unfold Run.bind; rw [h]
theorem Run.bind_panic {α β : Type} {x : Run α} {f : α → Run β} {sf sf1} (h : x sf = (sf1, .panic)) :
    (x >>= f) sf = (sf1, .panic) := by
  rw [Run.bind_def]; unfold Run.bind; rw [h]
theorem Run.bind_loop {α β : Type} {x : Run α} {f : α → Run β} {sf sf1} (h : x sf = (sf1, .loop)) :
    (x >>= f) sf = (sf1, .loop) := by
  rw [Run.bind_def]; unfold Run.bind; rw [h]

/-! ### Files -/

/-- The files loaded have the numbers `id`. -/
def Numbers (id : Path → Nat) (sf : SourceFiles) : Prop := ∀ f ∈ sf.files, id f.name = f.id

theorem numbers_of {sf : SourceFiles} (h : FilesOk sf) : Numbers (numberOf sf) sf := by
  intro f hf
  obtain ⟨k, hk⟩ := List.mem_iff_getElem?.mp hf
  have := (getId_iff h).mpr ⟨f, hk, rfl⟩
  unfold SourceFiles.getId at this
  unfold numberOf
  rw [this, h.ids k f hk]
  rfl

theorem Numbers.before {id : Path → Nat} {sf sf' : SourceFiles} (h : Numbers id sf') (hp : sf.files <+: sf'.files) : Numbers id sf :=
  fun f hf => h f (hp.subset hf)

/-- What loading a file gives -/
inductive Loads (fs : FS) (dir : Path) (sf : SourceFiles) (q : Path) : SourceFiles × Res SourceFile → Prop where
  | ok {g : SourceFile} {sf1} : g.name = q → fs.read q = some (utf8 g.contents) → g ∈ sf1.files → Verif.Good fs dir sf1 → sf.files <+: sf1.files →
      Loads fs dir sf q (sf1, .ok g)
  | missing : fs.read q = none → Loads fs dir sf q (sf, .err ⟨.fileLoadFailure q.render, .nowhere⟩)
  | notText {bs} : fs.read q = some bs → (∀ t, bs ≠ utf8 t) → Loads fs dir sf q (sf, .err ⟨.fileUtf8Error q.render, .nowhere⟩)

theorem load_cases {fs : FS} {dir : Path} {sf : SourceFiles} (h : Verif.Good fs dir sf) {root : Option Path} {r q : Path}
    (hr : Resolves fs dir root r q) : Loads fs dir sf q (load fs root r sf) := by
  have hp : sf.path fs root r = .ok q := path_iff.mpr (by rw [h.dir]; exact hr)
  have hres : ∀ {g sf1}, sf.load fs root r = .ok (g, sf1) → Loads fs dir sf q (sf1, .ok g) := by
    intro g sf1 hl
    obtain ⟨h1, h2, h3⟩ := load_good' h hl
    have hq := path_iff (sf := SourceFiles.new dir) |>.mpr h1
    have hq' := path_iff (sf := SourceFiles.new dir) |>.mpr hr
    rw [hq'] at hq
    have hq := (Verif.Res.ok.inj hq).symm
    obtain ⟨-, -, h4, more, h5⟩ := h.ok.load hl
    exact .ok hq (hq ▸ h2) h4 h3 ⟨more, h5.symm⟩
  unfold load
  cases hl : sf.load fs root r with
  | ok x => exact hres hl
  | loop => rw [(load_end h.ok).1 hl] at hp; cases hp
  | panic => rw [(load_end h.ok).2 hl] at hp; cases hp
  | err e =>
    dsimp only
    unfold SourceFiles.load at hl
    rw [hp, Verif.Res.ok_bind] at hl
    cases hg : sf.getId q with
    | some k =>
      rw [hg] at hl
      obtain ⟨f, h1, h2⟩ := (getId_iff h.ok).mp hg
      simp only [h1] at hl
      cases hl
    | none =>
      rw [hg] at hl
      dsimp only at hl
      rcases Verif.Res.bind_eq_err.mp hl with hl | ⟨_, _, hl⟩
      · unfold loadFile loadBytes at hl
        cases hf : fs.read q with
        | none => rw [hf] at hl; cases hl; exact .missing hf
        | some bs =>
          rw [hf, Verif.Res.ok_bind] at hl
          cases hd : decodeUtf8 bs with
          | some t => rw [hd] at hl; cases hl
          | none =>
            rw [hd] at hl; cases hl
            refine .notText hf fun t e => ?_
            rw [decodeUtf8_iff.mpr e.symm] at hd
            cases hd
      · cases hl

theorem load_panic {fs : FS} {dir : Path} {sf : SourceFiles} (_ : Verif.Good fs dir sf) {root : Option Path} {r : Path}
    (h : pathOf fs root r sf = (sf, .panic)) : load fs root r sf = (sf, .panic) := by
  unfold pathOf at h
  unfold load SourceFiles.load
  cases hp : sf.path fs root r with
  | panic => rfl
  | _ => rw [hp] at h; cases h

/-- What reading the tokens of a file gives -/
inductive LexRuns (fs : FS) (q : Path) (n : Nat) (t : Text) : Res (List Token) → Prop where
  | ok {toks} : FileLines fs n q (lines toks) → LexRuns fs q n t (.ok toks)
  | err {ks b r} : LexReaches [] t ks b r → NoToken b r → LexRuns fs q n t (.err ⟨charError n b, .location (placeIn n b)⟩)
  | panic : LexRuns fs q n t .panic

theorem lex_cases {seg : Seg} {fs : FS} {q : Path} {n : Nat} {t : Text} (hr : fs.read q = some (utf8 t)) (ha : Plain seg t) :
    LexRuns fs q n t (lexInput seg (Input.new n t)) := by
  have hp := ha
  unfold lexInput
  show LexRuns fs q n t (lexed n _)
  cases h : Verif.lexInput seg (Input.new n t) with
  | ok toks => exact .ok ⟨t, toks, hr, (lexInput_ok_iff hp).mp h, lines_splits toks⟩
  | err e =>
    obtain ⟨ks, b, r, h1, h2, rfl⟩ := (lexInput_err_iff hp).mp h
    exact .err h1 h2
  | panic => exact .panic
  | loop => exact absurd h (lexInput_not_loop hp)

/-! ### Lines -/

theorem includedLine_names {l : List Token} {name rest} (h : IncludeLine l name rest) : NamesSource (words l) name := by
  obtain ⟨w, rfl, h | h⟩ := h
  · exact ⟨words rest, .inl (by rw [words_append, h]; rfl)⟩
  · exact ⟨words rest, .inr (by rw [words_append, h]; rfl)⟩

theorem names_includedLine {l : List Token} {name} (h : NamesSource (words l) name) : ∃ rest, IncludeLine l name rest := by
  obtain ⟨r, h | h⟩ := h
  · match l, h with
    | [_], h => simp [words] at h
    | a :: b :: l, h =>
      simp only [words, List.map_cons, List.cons.injEq] at h
      exact ⟨l, [a, b], rfl, .inl (by simp [words, h])⟩
  · match l, h with
    | [_], h => simp [words] at h
    | [_, _], h => simp [words] at h
    | a :: b :: c :: l, h =>
      simp only [words, List.map_cons, List.cons.injEq] at h
      exact ⟨l, [a, b, c], rfl, .inr (by simp [words, h])⟩

theorem includedLine_parse {l : List Token} {name rest} (h : IncludeLine l name rest) :
    ∃ sp, parseDirective l = .ok (some (.dir (.incl sp .asm name), rest)) := by
  obtain ⟨w, rfl, h | h⟩ := h
  · match w, h with
    | [_], h => simp [words] at h
    | _ :: _ :: _ :: _, h => simp [words] at h
    | [⟨k1, a1, b1⟩, ⟨k2, a2, b2⟩], h =>
      simp only [words, List.map_cons, List.map_nil, List.cons.injEq, and_true] at h
      obtain ⟨rfl, rfl⟩ := h
      exact ⟨_, rfl⟩
  · match w, h with
    | [_], h => simp [words] at h
    | [_, _], h => simp [words] at h
    | _ :: _ :: _ :: _ :: _, h => simp [words] at h
    | [⟨k1, a1, b1⟩, ⟨k2, a2, b2⟩, ⟨k3, a3, b3⟩], h =>
      simp only [words, List.map_cons, List.map_nil, List.cons.injEq, and_true] at h
      obtain ⟨rfl, rfl, rfl⟩ := h
      exact ⟨_, rfl⟩

theorem headerName_parse {l : List Token} {name} (h : NamesHeader (words l) name) :
    ∃ sp rest, parseDirective l = .ok (some (.dir (.incl sp .cHeader name), rest)) := by
  obtain ⟨r, h⟩ := h
  match l, h with
  | [_], h => simp [words] at h
  | [_, _], h => simp [words] at h
  | ⟨k1, a1, b1⟩ :: ⟨k2, a2, b2⟩ :: ⟨k3, a3, b3⟩ :: l, h =>
    simp only [words, List.map_cons, List.cons.injEq] at h
    obtain ⟨rfl, rfl, rfl, _⟩ := h
    exact ⟨_, l, rfl⟩

theorem includedLine_unique {l : List Token} {name rest name' rest'} (h : IncludeLine l name rest) (h' : IncludeLine l name' rest') :
    name = name' ∧ rest = rest' := by
  obtain ⟨sp, h1⟩ := includedLine_parse h
  obtain ⟨sp', h2⟩ := includedLine_parse h'
  rw [h1] at h2
  cases h2
  exact ⟨rfl, rfl⟩

theorem source_not_header {l : List Token} {name rest name'} (h : IncludeLine l name rest) : ¬ NamesHeader (words l) name' := by
  intro h'
  obtain ⟨sp, h1⟩ := includedLine_parse h
  obtain ⟨sp', r', h2⟩ := headerName_parse h'
  rw [h1] at h2
  cases h2

theorem namesHeader_unique {l : List Tok} {a b : Text} (h : NamesHeader l a) (h' : NamesHeader l b) : a = b := by
  obtain ⟨r, rfl⟩ := h
  obtain ⟨r', h⟩ := h'
  simp at h
  exact h.1

/-- A line with the same tokens -/
theorem includedLine_words {l l' : List Token} (e : words l' = words l) {name rest} (h : IncludeLine l name rest) :
    ∃ rest', words rest' = words rest ∧ IncludeLine l' name rest' := by
  obtain ⟨w, rfl, h⟩ := h
  rw [words_append] at e
  obtain ⟨w', r', rfl, h1, h2⟩ := List.map_eq_append_iff.mp e
  exact ⟨r', h2, w', rfl, by rw [show words w' = words w from h1]; exact h⟩

theorem lineReads_words {fs dir file} {l l' : List Token} (e : words l' = words l) (h : LineReads fs dir file l) :
    LineReads fs dir file l' := by
  refine ⟨fun name rest hl => ?_, by rw [e]; exact h.2⟩
  obtain ⟨rest', e', hl'⟩ := includedLine_words e.symm hl
  rw [← e']
  exact h.1 name rest' hl'

theorem sourceReads_iff {fs dir file} : SourceReads fs dir file ↔ ∃ n ls, FileLines fs n file ls ∧ ∀ l ∈ ls, LineReads fs dir file l := by
  constructor
  · rintro ⟨h1, h2, h3, h4⟩
    refine ⟨_, _, h1, fun l hl => ⟨fun name rest hn => ?_, h4 l hl⟩⟩
    obtain ⟨a, q, hq⟩ := h2 l hl name rest hn
    exact ⟨a, q, hq, h3 l hl name rest q hn hq⟩
  · rintro ⟨n, ls, h1, h⟩
    refine .mk h1 (fun l hl name rest hn => ?_) (fun l hl name rest q hn hq => ?_) fun l hl => (h l hl).2
    · obtain ⟨a, q, hq, _⟩ := (h l hl).1 name rest hn
      exact ⟨a, q, hq⟩
    · obtain ⟨a, q', hq', hr⟩ := (h l hl).1 name rest hn
      rw [found_unique hq hq']
      exact hr

/-- Something is wrong with what the line includes. -/
inductive LineWrong (fs : FS) (dir : Path) (id : Path → Nat) (file : Path) (l : List Token) : Err → Place → Prop where
  | source {name rest q x p} : IncludeLine l name rest → FoundAt fs dir file name q → SourceFails fs dir id q x p →
      LineWrong fs dir id file l x p
  | excess {name u rest q} : IncludeLine l name (u :: rest) → u.tok ≠ .eof → FoundAt fs dir file name q → SourceReads fs dir q →
      LineWrong fs dir id file l .unexpectedToken (.span u.span)
  | header {name q x p} : NamesHeader (words l) name → FoundAt fs dir file name q → HeaderFails fs (id q) q x p →
      LineWrong fs dir id file l x p

theorem fails_of_line {fs dir id file before l after x p} (h1 : FileLines fs (id file) file (before ++ l :: after))
    (h2 : ∀ o ∈ before, LineReads fs dir file o) (h : LineWrong fs dir id file l x p) : SourceFails fs dir id file x p := by
  cases h with
  | source a b c => exact .source h1 h2 a b c
  | excess a b c d => exact .excess h1 h2 a b c d
  | header a b c => exact .header h1 h2 a b c

/-! ### One line -/

theorem pathOf_ok {fs : FS} {dir : Path} {sf : SourceFiles} (h : Verif.Good fs dir sf) {root : Option Path} {r q : Path}
    (hr : Resolves fs dir root r q) : pathOf fs root r sf = (sf, .ok q) := by
  unfold pathOf
  rw [path_iff.mpr (by rw [h.dir]; exact hr)]
  rfl

theorem pathOf_cases {fs : FS} {dir : Path} {sf : SourceFiles} (h : Verif.Good fs dir sf) (root : Path) (r : Path) :
    (∃ q, Resolves fs dir (some root) r q) ∨ pathOf fs (some root) r sf = (sf, .panic) := by
  unfold pathOf
  cases hp : sf.path fs (some root) r with
  | ok q => exact .inl ⟨q, by have := path_iff.mp hp; rwa [h.dir] at this⟩
  | err e => exact absurd hp path_not_err
  | panic => exact .inr rfl
  | loop => exact absurd hp path_end.1

section
variable {seg : Seg} {fs : FS} {dir : Path} {go : Path → List Token → Run (List Token)}

/-- A line that includes an assembly file -/
def sourceRun (seg : Seg) (fs : FS) (go : Path → List Token → Run (List Token)) (p : Path) (name : Text) (rest : List Token) :
    Run (List Token) := do
  let path ← pathOf fs (some p) (Path.parse name)
  let file ← load fs (some p) path
  let toks ← .of (lexInput seg (Input.new file.id file.contents))
  let toks ← go file.name toks
  if atEnd rest then .of (.ok toks) else .of (failNext .unexpectedToken rest)

/-- A line that includes a C header -/
def headerRun (seg : Seg) (fs : FS) (p : Path) (name : Text) : Run (List Token) := do
  let path ← pathOf fs (some p) (Path.parse name)
  let file ← load fs (some p) path
  .of (lexHeader seg (Input.new file.id file.contents))

theorem includeLine_source {p : Path} {l : List Token} {name rest} (h : IncludeLine l name rest) (sf : SourceFiles) :
    includeLine seg fs go p l sf = sourceRun seg fs go p name rest sf := by
  obtain ⟨sp, h⟩ := includedLine_parse h
  unfold includeLine
  rw [h]
  rfl

theorem includeLine_header {p : Path} {l : List Token} {name} (h : NamesHeader (words l) name) (sf : SourceFiles) :
    includeLine seg fs go p l sf = headerRun seg fs p name sf := by
  obtain ⟨sp, r, h⟩ := headerName_parse h
  unfold includeLine
  rw [h]
  rfl

theorem includeLine_rest {p : Path} {l : List Token} (h1 : ∀ name rest, ¬ IncludeLine l name rest)
    (h2 : ∀ name, ¬ NamesHeader (words l) name) {sf : SourceFiles} (hg : Verif.Good fs dir sf) :
    (∃ out, includeLine seg fs go p l sf = (sf, .ok out)) ∨ p.comps = [] ∧ includeLine seg fs go p l sf = (sf, .panic) := by
  have hf := parseDirective_fine (words l)
  have key : ∀ x, includeLine seg fs go p l = x → (∃ out, x sf = (sf, .ok out)) ∨ p.comps = [] ∧ x sf = (sf, .panic) := by
    intro x hx
    unfold includeLine at hx
    split at hx
    · rename_i sp typ name rest hd
      have hd' : Verif.parseDirective (words l) = .ok (some (.dir (.incl typ.erase name), words rest)) := by
        rw [← erase_parseDirective, hd]; rfl
      cases hp : sf.path fs (some p) (Path.parse name) with
      | ok q =>
        rw [← hx, Run.bind_ok (a := q) (sf1 := sf) (by unfold pathOf; rw [hp]; rfl)]
        cases typ with
        | asm =>
          obtain ⟨r, hr⟩ := names_includedLine (parse_namesSource hd')
          exact absurd hr (h1 _ _)
        | cHeader => exact absurd (parse_namesHeader hd') (h2 _)
        | _ => exact .inl ⟨_, rfl⟩
      | err e => exact absurd hp path_not_err
      | panic =>
        rw [← hx, Run.bind_panic (sf1 := sf) (by unfold pathOf; rw [hp]; rfl)]
        refine .inr ⟨?_, rfl⟩
        by_cases hc : p.comps = []
        · exact hc
        · exact absurd hp (path_end.2 hc)
      | loop => exact absurd hp path_end.1
    · rename_i h
      have h' : Verif.parseDirective (words l) = .panic := by rw [← erase_parseDirective, h]; rfl
      rw [h'] at hf; exact absurd rfl hf.2
    · rename_i h
      have h' : Verif.parseDirective (words l) = .loop := by rw [← erase_parseDirective, h]; rfl
      rw [h'] at hf; exact absurd rfl hf.1
    · exact .inl ⟨_, by rw [← hx]; rfl⟩
  exact key _ rfl

end

/-! ### What a run says -/

/-- The files are kept, and the result is as it should be. -/
structure Outcome (fs : FS) (dir : Path) (sf : SourceFiles) {α : Type} (r : SourceFiles × Res α) (R : Prop)
    (F : (Path → Nat) → Err → Place → Prop) : Prop where
  good : Verif.Good fs dir r.1
  more : sf.files <+: r.1.files
  ok {a} : r.2 = .ok a → R
  err {x p} : r.2 = .err ⟨x, p⟩ → ∀ id, Numbers id r.1 → F id x p

/-- Loading a file and replacing the includes in it -/
def fileRun (seg : Seg) (fs : FS) (go : Path → List Token → Run (List Token)) (root : Option Path) (r : Path) : Run (List Token) := do
  let file ← load fs root r
  let toks ← .of (lexInput seg (Input.new file.id file.contents))
  go file.name toks

theorem sourceRun_eq {seg : Seg} {fs : FS} {dir : Path} {go : Path → List Token → Run (List Token)} {p : Path} {name : Text}
    {rest : List Token} {sf : SourceFiles} (hg : Verif.Good fs dir sf) {r : Path} (hr : Resolves fs dir (some p) (Path.parse name) r) :
    sourceRun seg fs go p name rest sf =
      (fileRun seg fs go (some p) r >>= fun toks => if atEnd rest then .of (.ok toks) else .of (failNext .unexpectedToken rest)) sf := by
  unfold sourceRun
  rw [Run.bind_ok (pathOf_ok hg hr)]
  unfold fileRun
  simp only [Run.bind_def, Run.bind]
  rcases load fs (some p) r sf with ⟨sf1, a | e | _ | _⟩ <;> try rfl
  dsimp only
  rcases (Run.of (lexInput seg (Input.new a.id a.contents))) sf1 with ⟨sf2, b | e | _ | _⟩ <;> rfl

theorem includeLines_outcome {fs : FS} {dir : Path} {step : List Token → Run (List Token)} {R : List Token → Prop}
    {F : List Token → (Path → Nat) → Err → Place → Prop} : ∀ {L : List (List Token)} {sf : SourceFiles}, Verif.Good fs dir sf →
      (∀ l ∈ L, ∀ sf, Verif.Good fs dir sf → Outcome fs dir sf (step l sf) (R l) (F l)) →
      Outcome fs dir sf (includeLines step L sf) (∀ l ∈ L, R l)
        (fun id x p => ∃ before l after, L = before ++ l :: after ∧ (∀ o ∈ before, R o) ∧ F l id x p)
  | [], sf, hg, _ => ⟨hg, List.prefix_refl _, fun _ => nofun, fun h => by cases h⟩
  | l :: L, sf, hg, h => by
    have h1 := h l (by simp) sf hg
    cases e : step l sf with
    | mk sf1 r =>
    rw [e] at h1
    obtain ⟨g1, g2, g3, g4⟩ := h1
    dsimp only at g1 g2 g3 g4
    unfold includeLines
    cases r with
    | err x =>
      rw [Run.bind_err e]
      refine ⟨g1, g2, fun h => (by cases h), fun {x p} h id hid => ?_⟩
      cases h
      exact ⟨[], l, L, rfl, nofun, g4 rfl id hid⟩
    | panic => rw [Run.bind_panic e]; exact ⟨g1, g2, fun h => (by cases h), fun h => (by cases h)⟩
    | loop => rw [Run.bind_loop e]; exact ⟨g1, g2, fun h => (by cases h), fun h => (by cases h)⟩
    | ok a =>
      rw [Run.bind_ok e]
      have h2 := includeLines_outcome (L := L) g1 fun l' hl' => h l' (by simp [hl'])
      cases e2 : includeLines step L sf1 with
      | mk sf2 r2 =>
      rw [e2] at h2
      obtain ⟨k1, k2, k3, k4⟩ := h2
      dsimp only at k1 k2 k3 k4
      cases r2 with
      | err x =>
        rw [Run.bind_err e2]
        refine ⟨k1, g2.trans k2, fun h => (by cases h), fun {x p} h id hid => ?_⟩
        cases h
        obtain ⟨b, l', c, rfl, m1, m2⟩ := k4 rfl id hid
        refine ⟨l :: b, l', c, rfl, fun o ho => ?_, m2⟩
        rcases List.mem_cons.mp ho with rfl | ho
        · exact g3 rfl
        · exact m1 o ho
      | panic => rw [Run.bind_panic e2]; exact ⟨k1, g2.trans k2, fun h => (by cases h), fun h => (by cases h)⟩
      | loop => rw [Run.bind_loop e2]; exact ⟨k1, g2.trans k2, fun h => (by cases h), fun h => (by cases h)⟩
      | ok b =>
        rw [Run.bind_ok e2]
        refine ⟨k1, g2.trans k2, fun _ o ho => ?_, fun h => (by cases h)⟩
        rcases List.mem_cons.mp ho with rfl | ho
        · exact g3 rfl
        · exact k3 rfl o ho

section
variable {seg : Seg} {fs : FS} {dir : Path} {go : Path → List Token → Run (List Token)}

/-- A file, if the lines of it do as they should -/
theorem file_outcome {q : Path} (ha : ∀ t, fs.read q = some (utf8 t) → Plain seg t)
    (hgo : ∀ n toks sf, FileLines fs n q (lines toks) → Verif.Good fs dir sf →
      Outcome fs dir sf (go q toks sf) (∀ l ∈ lines toks, LineReads fs dir q l)
        (fun id x p => ∃ before l after, lines toks = before ++ l :: after ∧ (∀ o ∈ before, LineReads fs dir q o) ∧
          LineWrong fs dir id q l x p))
    {sf : SourceFiles} (hg : Verif.Good fs dir sf) {root : Option Path} {r : Path} (hr : Resolves fs dir root r q) :
    Outcome fs dir sf (fileRun seg fs go root r sf) (SourceReads fs dir q) (fun id => SourceFails fs dir id q) := by
  have hl := load_cases hg hr
  unfold fileRun
  generalize e : load fs root r sf = y at hl
  cases hl with
  | missing h =>
    rw [Run.bind_err e]
    refine ⟨hg, List.prefix_refl _, fun h => (by cases h), fun h' id _ => ?_⟩
    cases h'
    exact .missing h
  | notText h h2 =>
    rw [Run.bind_err e]
    refine ⟨hg, List.prefix_refl _, fun h => (by cases h), fun h' id _ => ?_⟩
    cases h'
    exact .notText h h2
  | @ok g sf1 hn hc hm hg1 hp =>
    rw [Run.bind_ok e]
    have hx := lex_cases (n := g.id) hc (ha _ hc)
    generalize e2 : lexInput seg (Input.new g.id g.contents) = z at hx ⊢
    cases hx with
    | panic =>
      rw [Run.bind_panic (sf1 := sf1) rfl]
      exact ⟨hg1, hp, fun h => (by cases h), fun h => (by cases h)⟩
    | err h1 h2 =>
      rw [Run.bind_err (sf1 := sf1) rfl]
      refine ⟨hg1, hp, fun h => (by cases h), fun h' id hid => ?_⟩
      cases h'
      have := hid g hm
      rw [hn] at this
      rw [← this]
      exact .character hc h1 h2
    | @ok toks h1 =>
      rw [Run.bind_ok (sf1 := sf1) rfl, hn]
      obtain ⟨k1, k2, k3, k4⟩ := hgo g.id toks sf1 h1 hg1
      refine ⟨k1, hp.trans k2, fun h => sourceReads_iff.mpr ⟨_, _, h1, k3 h⟩, fun h id hid => ?_⟩
      obtain ⟨b, l, c, m1, m2, m3⟩ := k4 h id hid
      have := hid g (k2.subset hm)
      rw [hn] at this
      rw [m1, ← this] at h1
      exact fails_of_line h1 m2 m3

/-- A line, if the files do as they should -/
theorem line_outcome (hs : AsciiSeg seg) {p : Path} {l : List Token}
    (hh : ∀ name q t, NamesHeader (words l) name → FoundAt fs dir p name q → fs.read q = some (utf8 t) → Ascii t)
    (hf : ∀ name rest r q sf, IncludeLine l name rest → Resolves fs dir (some p) (Path.parse name) r → Resolves fs dir (some p) r q →
      Verif.Good fs dir sf → Outcome fs dir sf (fileRun seg fs go (some p) r sf) (SourceReads fs dir q) (fun id => SourceFails fs dir id q))
    {sf : SourceFiles} (hg : Verif.Good fs dir sf) :
    Outcome fs dir sf (includeLine seg fs go p l sf) (LineReads fs dir p l) (fun id => LineWrong fs dir id p l) := by
  by_cases h1 : ∃ name rest, IncludeLine l name rest
  · obtain ⟨name, rest, h1⟩ := h1
    rw [includeLine_source h1]
    rcases pathOf_cases hg p (Path.parse name) with ⟨r, hr⟩ | h
    · rcases pathOf_cases hg p r with ⟨q, hq⟩ | h
      · have hfound : FoundAt fs dir p name q := ⟨r, hr, hq⟩
        rw [sourceRun_eq hg hr]
        have ho := hf name rest r q sf h1 hr hq hg
        cases e : fileRun seg fs go (some p) r sf with
        | mk sf1 y =>
        rw [e] at ho
        obtain ⟨k1, k2, k3, k4⟩ := ho
        dsimp only at k1 k2 k3 k4
        cases y with
        | err x =>
          rw [Run.bind_err e]
          refine ⟨k1, k2, fun h => (by cases h), fun {x p} h id hid => ?_⟩
          cases h
          exact .source h1 hfound (k4 rfl id hid)
        | panic => rw [Run.bind_panic e]; exact ⟨k1, k2, fun h => (by cases h), fun h => (by cases h)⟩
        | loop => rw [Run.bind_loop e]; exact ⟨k1, k2, fun h => (by cases h), fun h => (by cases h)⟩
        | ok a =>
          rw [Run.bind_ok e]
          by_cases hend : atEnd rest = true
          · rw [if_pos hend]
            refine ⟨k1, k2, fun _ => ⟨fun name' rest' h' => ?_, fun name' h' => absurd h' (source_not_header h1)⟩, fun h => (by cases h)⟩
            obtain ⟨rfl, rfl⟩ := includedLine_unique h1 h'
            exact ⟨isEmpty_iff.mp hend, q, hfound, k3 rfl⟩
          · rw [if_neg hend]
            cases rest with
            | nil => exact absurd rfl hend
            | cons u rest =>
              refine ⟨k1, k2, fun h => (by cases h), fun h id hid => ?_⟩
              cases h
              refine .excess h1 (fun hu => hend ?_) hfound (k3 rfl)
              exact isEmpty_iff.mpr (.inr ⟨words rest, by rw [words, List.map_cons, hu]⟩)
      · unfold sourceRun
        rw [Run.bind_ok (pathOf_ok hg hr), Run.bind_panic (sf1 := sf)]
        · exact ⟨hg, List.prefix_refl _, fun h => (by cases h), fun h => (by cases h)⟩
        · exact load_panic hg h
    · unfold sourceRun
      rw [Run.bind_panic h]
      exact ⟨hg, List.prefix_refl _, fun h => (by cases h), fun h => (by cases h)⟩
  · by_cases h2 : ∃ name, NamesHeader (words l) name
    · obtain ⟨name, h2⟩ := h2
      rw [includeLine_header h2]
      unfold headerRun
      rcases pathOf_cases hg p (Path.parse name) with ⟨r, hr⟩ | h
      · rw [Run.bind_ok (pathOf_ok hg hr)]
        rcases pathOf_cases hg p r with ⟨q, hq⟩ | h
        · have hfound : FoundAt fs dir p name q := ⟨r, hr, hq⟩
          have hl := load_cases hg hq
          generalize e : load fs (some p) r sf = y at hl
          cases hl with
          | missing h =>
            rw [Run.bind_err e]
            refine ⟨hg, List.prefix_refl _, fun h => (by cases h), fun h' id _ => ?_⟩
            cases h'
            exact .header h2 hfound (.missing h)
          | notText h h3 =>
            rw [Run.bind_err e]
            refine ⟨hg, List.prefix_refl _, fun h => (by cases h), fun h' id _ => ?_⟩
            cases h'
            exact .header h2 hfound (.notText h h3)
          | @ok g sf1 hn hc hm hg1 hp =>
            rw [Run.bind_ok e]
            have ha := hh name q _ h2 hfound hc
            refine ⟨hg1, hp, fun h => ⟨fun name' rest' h' => absurd ⟨_, _, h'⟩ h1, fun name' h' => ?_⟩, fun h id hid => ?_⟩
            · cases namesHeader_unique h2 h'
              obtain ⟨ls, h⟩ := lexHeader_ok hs hc ha h
              exact ⟨q, hfound, _, ls, h⟩
            · have := hid g hm
              rw [hn] at this
              exact .header h2 hfound (by rw [this]; exact lexHeader_err hs hc ha h)
        · rw [Run.bind_panic (sf1 := sf)]
          · exact ⟨hg, List.prefix_refl _, fun h => (by cases h), fun h => (by cases h)⟩
          · exact load_panic hg h
      · rw [Run.bind_panic h]
        exact ⟨hg, List.prefix_refl _, fun h => (by cases h), fun h => (by cases h)⟩
    · have h1' : ∀ name rest, ¬ IncludeLine l name rest := fun name rest h => h1 ⟨name, rest, h⟩
      have h2' : ∀ name, ¬ NamesHeader (words l) name := fun name h => h2 ⟨name, h⟩
      rcases includeLine_rest (seg := seg) (go := go) (p := p) h1' h2' hg with ⟨out, e⟩ | ⟨-, e⟩
      · rw [e]
        exact ⟨hg, List.prefix_refl _, fun _ => ⟨fun _ _ h => absurd h (h1' _ _), fun _ h => absurd h (h2' _)⟩, fun h => (by cases h)⟩
      · rw [e]
        exact ⟨hg, List.prefix_refl _, fun h => (by cases h), fun h => (by cases h)⟩

end

/-- The lines of a file that includes only ASCII files -/
theorem fileLines_hasLine {seg : Seg} {fs : FS} {p : Path} (ha : ∀ t, fs.read p = some (utf8 t) → Plain seg t) {n : Nat}
    {ls : List (List Token)} (h : FileLines fs n p ls) {l : List Token} (hl : l ∈ ls) {name : Text} :
    (NamesSource (words l) name → ∃ l', HasLine fs p l' ∧ NamesSource l' name) ∧
    (NamesHeader (words l) name → ∃ l', HasLine fs p l' ∧ NamesHeader l' name) := by
  obtain ⟨t, toks, h1, h2, h3⟩ := h
  have hp := (ha t h1)
  have h4 := lex_hasLine h1 (ha t h1) ((lexInput_ok_iff hp).mpr h2) (name := name)
  rw [lines_iff.mpr h3] at h4
  exact ⟨fun h => h4.1.mp ⟨l, hl, h⟩, fun h => h4.2.mp ⟨l, hl, h⟩⟩

theorem includes_source {seg : Seg} {fs : FS} {dir p q : Path} (ha : AllPlain seg fs dir p) {n : Nat}
    {ls : List (List Token)} (h : FileLines fs n p ls) {l : List Token} (hl : l ∈ ls) {name : Text} {rest} (h1 : IncludeLine l name rest)
    (h2 : FoundAt fs dir p name q) : IncludesFile fs dir p q := by
  obtain ⟨l', h3, h4⟩ := (fileLines_hasLine (fun t => ha.1 p t .main) h hl).1 (includedLine_names h1)
  exact ⟨l', name, h3, h4, h2⟩

theorem includes_header {seg : Seg} {fs : FS} {dir p q : Path} (ha : AllPlain seg fs dir p) {n : Nat}
    {ls : List (List Token)} (h : FileLines fs n p ls) {l : List Token} (hl : l ∈ ls) {name : Text} (h1 : NamesHeader (words l) name)
    (h2 : FoundAt fs dir p name q) : IncludesHeader fs dir p q := by
  obtain ⟨l', h3, h4⟩ := (fileLines_hasLine (fun t => ha.1 p t .main) h hl).2 h1
  exact ⟨l', name, h3, h4, h2⟩

/-- Replacing the includes of a file -/
theorem replace_outcome {seg : Seg} (hs : AsciiSeg seg) {fs : FS} {dir : Path} : ∀ (fuel : Nat) {q : Path}, AllPlain seg fs dir q →
    ∀ n toks sf, FileLines fs n q (lines toks) → Verif.Good fs dir sf →
      Outcome fs dir sf (replaceIncludes seg fs fuel q toks sf) (∀ l ∈ lines toks, LineReads fs dir q l)
        (fun id x p => ∃ before l after, lines toks = before ++ l :: after ∧ (∀ o ∈ before, LineReads fs dir q o) ∧
          LineWrong fs dir id q l x p)
  | 0, _, _, _, _, _, _, hg => ⟨hg, List.prefix_refl _, fun h => (by cases h), fun h => (by cases h)⟩
  | fuel + 1, q, ha, n, toks, sf, hl, hg => by
    rw [replaceIncludes]
    refine includeLines_outcome hg fun l hm sf hg => line_outcome hs ?_ ?_ hg
    · intro name q' t h1 h2 h3
      exact ha.2 q q' t .main (includes_header ha hl hm h1 h2) h3
    · intro name rest r q' sf h1 h2 h3 hg
      have ha' := ha.step (includes_source ha hl hm h1 ⟨r, h2, h3⟩)
      exact file_outcome (fun t => ha'.1 q' t .main) (replace_outcome hs fuel ha') hg h3

end Verif.Located
