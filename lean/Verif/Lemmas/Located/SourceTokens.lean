import Verif.Spec.SourceTokens
import Verif.Lemmas.Located.SourceRunsBack
/-
The tokens of a program that consists of several files.
-/
namespace Verif.Located
open Verif.Spec Verif.Spec.Syntax

/-! ### Numbers -/

/-- The files loaded have the numbers `id`. -/
def Numbered (id : Path → Option Nat) (sf : SourceFiles) : Prop := ∀ f ∈ sf.files, id f.name = some f.id

theorem numbered_of {sf : SourceFiles} (h : FilesOk sf) : Numbered (loadedAs sf) sf := by
  intro f hf
  obtain ⟨k, hk⟩ := List.mem_iff_getElem?.mp hf
  have := (getId_iff h).mpr ⟨f, hk, rfl⟩
  unfold SourceFiles.getId at this
  unfold loadedAs
  rw [this, h.ids k f hk]

theorem Numbered.before {id : Path → Option Nat} {sf sf' : SourceFiles} (h : Numbered id sf') (hp : sf.files <+: sf'.files) :
    Numbered id sf := fun f hf => h f (hp.subset hf)

theorem loadedAs_numbering (sf : SourceFiles) : Numbering (loadedAs sf) := by
  intro p q n hp hq
  unfold loadedAs at hp hq
  rw [List.findIdx?_eq_some_iff_getElem] at hp hq
  obtain ⟨h1, h2, -⟩ := hp
  obtain ⟨h3, h4, -⟩ := hq
  simp only [decide_eq_true_eq] at h2 h4
  rw [← h2, ← h4]

/-! ### Lines -/

theorem headerLine_rewritten {l out : List Token} (h : headerLine l = .ok out) : Rewritten l out := by
  rcases define_or l with ⟨a, d, r, rfl, ha, hd⟩ | hn
  · have hf := headerLine_fine_iff.mp ⟨_, h⟩
    rw [headerLine_eq ha hd] at h
    obtain ⟨_, -, h⟩ := Res.bind_eq_ok.mp h
    cases r with
    | nil => cases h
    | cons n more => cases h; exact .define ha hd hf
  · rw [headerLine_other hn] at h
    cases h
    exact .other hn

theorem headerLines_rewritten : ∀ {ls : List (List Token)} {out}, headerLines ls = .ok out → ∃ outs, EachLine Rewritten ls outs ∧ out = outs.flatten
  | [], out, h => by cases h; exact ⟨[], .nil, rfl⟩
  | l :: ls, out, h => by
    obtain ⟨a, h1, h⟩ := Res.bind_eq_ok.mp h
    obtain ⟨b, h2, h⟩ := Res.bind_eq_ok.mp h
    cases h
    obtain ⟨outs, h3, rfl⟩ := headerLines_rewritten h2
    exact ⟨a :: outs, .cons (headerLine_rewritten h1) h3, rfl⟩

theorem lexHeader_rewritten {seg : Seg} (hs : AsciiSeg seg) {fs : FS} {q : Path} {n : Nat} {t : Text} (hr : fs.read q = some (utf8 t))
    (ha : Ascii t) {out} (h : lexHeader seg (Input.new n t) = .ok out) :
    ∃ ls outs, HeaderTokens fs n q ls ∧ EachLine Rewritten ls outs ∧ out = outs.flatten := by
  obtain ⟨raw, h1, h2⟩ := Res.bind_eq_ok.mp h
  have h3 : lexForWs seg (skipCBlank seg) (Input.new n t) = .ok raw := by
    rw [← erase_lexed n (lexForWs _ _ _), show lexed n _ = _ from h1]; rfl
  obtain ⟨outs, h4, h5⟩ := headerLines_rewritten h2
  exact ⟨_, outs, ⟨t, raw, hr, (clex_ok_iff hs ha).mp h3, lines_splits raw⟩, h4, h5⟩

theorem fixPath_eq (old new : Text) : fixPath old new = fun t : Token => { t with tok := repath old new t.tok } := by
  funext t
  unfold fixPath repath
  split <;> rfl

theorem includesData_parse {l : List Token} {name} (h : IncludesData l name) :
    ∃ typ rest, Verif.parseDirective (words l) = .ok (some (.dir (.incl typ name), rest)) ∧ typ ≠ .asm ∧ typ ≠ .cHeader := by
  cases h with
  | @bytes _ rest h => rw [h]; exact ⟨.bytes, rest, rfl, nofun, nofun⟩
  | @image w e typ _ h1 h2 h3 h4 h5 => rw [h1]; exact ⟨typ, e, parseDirective_dir h3 h2, h4, h5⟩

theorem dir_ends {w rest : List Tok} {typ name} (hp : Verif.parseDirective (w ++ rest) = .ok (some (.dir (.incl typ name), rest)))
    (hd : DirSyntax w (.incl typ name)) (h1 : typ ≠ .asm) (h2 : typ ≠ .cHeader) (h3 : typ ≠ .bytes) : LineEnd rest := by
  cases hd with
  | incl => exact absurd rfl h1
  | asm => exact absurd rfl h1
  | bytes => exact absurd rfl h3
  | cpp => exact absurd rfl h2
  | icon a b =>
    rw [List.cons_append, List.cons_append, List.cons_append, parseDirective_name] at hp
    change (Verif.parseIncludeDir _ >>= _) = _ at hp
    obtain ⟨⟨d, r⟩, h, hp⟩ := Verif.Res.bind_eq_ok.mp hp
    cases hp
    obtain ⟨_, -, h⟩ := Verif.Res.bind_eq_ok.mp h
    obtain ⟨⟨ps, r2⟩, hk, h'⟩ := Verif.Res.bind_eq_ok.mp h
    obtain ⟨_, _, h'⟩ := Verif.Res.bind_eq_ok.mp h'
    have e := (Prod.mk.inj (Verif.Res.ok.inj h')).2
    subst e
    obtain ⟨_, _, _, _, _, h⟩ := keyVals_sound hk
    exact h
  | sprite a b c =>
    rw [List.cons_append, List.cons_append, List.cons_append, parseDirective_name] at hp
    change (Verif.parseIncludeDir _ >>= _) = _ at hp
    obtain ⟨⟨d, r⟩, h, hp⟩ := Verif.Res.bind_eq_ok.mp hp
    cases hp
    obtain ⟨_, -, h⟩ := Verif.Res.bind_eq_ok.mp h
    obtain ⟨⟨ps, r2⟩, hk, h'⟩ := Verif.Res.bind_eq_ok.mp h
    obtain ⟨_, _, h'⟩ := Verif.Res.bind_eq_ok.mp h'
    obtain ⟨_, _, h'⟩ := Verif.Res.bind_eq_ok.mp h'
    have e := (Prod.mk.inj (Verif.Res.ok.inj h')).2
    subst e
    obtain ⟨_, _, _, _, _, h⟩ := keyVals_sound hk
    exact h

theorem parse_includesData {l : List Token} {typ name rest}
    (h : Verif.parseDirective (words l) = .ok (some (.dir (.incl typ name), rest))) (h1 : typ ≠ .asm) (h2 : typ ≠ .cHeader) :
    IncludesData l name := by
  obtain ⟨w, e, hd⟩ := parse_incl_sound h
  by_cases h3 : typ = .bytes
  · subst h3
    cases hd
    exact .bytes e
  · rw [e] at h
    exact .image e (dir_ends h hd h1 h2 h3) hd h1 h2

theorem includesData_unique {l : List Token} {a b} (h : IncludesData l a) (h' : IncludesData l b) : a = b := by
  obtain ⟨_, _, e, _⟩ := includesData_parse h
  obtain ⟨_, _, e', _⟩ := includesData_parse h'
  rw [e] at e'
  cases e'
  rfl

theorem source_not_data {l : List Token} {name rest name'} (h : IncludeLine l name rest) : ¬ IncludesData l name' := by
  intro h'
  obtain ⟨_, h⟩ := namesSource_parse (includedLine_names h)
  obtain ⟨_, _, e, h1, _⟩ := includesData_parse h'
  rw [h] at e
  cases e
  exact h1 rfl

theorem header_not_data {l : List Token} {name name'} (h : NamesHeader (words l) name) : ¬ IncludesData l name' := by
  intro h'
  obtain ⟨_, h⟩ := namesHeader_parse h
  obtain ⟨_, _, e, _, h1⟩ := includesData_parse h'
  rw [h] at e
  cases e
  exact h1 rfl

theorem parse_located {l : List Token} {typ name rest} (h : Verif.parseDirective (words l) = .ok (some (.dir (.incl typ name), rest))) :
    ∃ sp typ' rest', parseDirective l = .ok (some (.dir (.incl sp typ' name), rest')) ∧ typ'.erase = typ := by
  have h : Verif.parseDirective (toks l) = _ := h
  rw [← erase_parseDirective] at h
  generalize parseDirective l = y at h
  rcases y with a | _ | _ | _ <;> try cases h
  rcases a with _ | ⟨s, r⟩ <;> try cases h
  cases s <;> try cases h
  rename_i d
  cases d <;> cases h
  exact ⟨_, _, _, rfl, rfl⟩

theorem includeLine_data {seg : Seg} {fs : FS} {dir : Path} {go : Path → List Token → Run (List Token)} {p : Path} {l : List Token}
    {name} (h : IncludesData l name) {sf sf' : SourceFiles} (hg : Verif.Good fs dir sf) {out}
    (hr : includeLine seg fs go p l sf = (sf', .ok out)) :
    ∃ q, Resolves fs dir (some p) (Path.parse name) q ∧ out = l.map (fun t => { t with tok := repath name q.render t.tok }) := by
  obtain ⟨typ', rest', hd, ht1, ht2⟩ := includesData_parse h
  obtain ⟨sp, typ, rest, hp, rfl⟩ := parse_located hd
  unfold includeLine at hr
  rw [hp] at hr
  dsimp only at hr
  rcases pathOf_cases hg p (Path.parse name) with ⟨q, hq⟩ | hq
  · rw [Run.bind_ok (pathOf_ok hg hq)] at hr
    refine ⟨q, hq, ?_⟩
    cases typ with
    | asm => exact absurd rfl ht1
    | cHeader => exact absurd rfl ht2
    | _ => cases hr; rw [fixPath_eq]
  · rw [Run.bind_panic hq] at hr; cases hr

theorem includeLine_plain {seg : Seg} {fs : FS} {go : Path → List Token → Run (List Token)} {p : Path} {l : List Token}
    (h1 : ∀ name rest, ¬ IncludeLine l name rest) (h2 : ∀ name, ¬ NamesHeader (words l) name) (h3 : ∀ name, ¬ IncludesData l name)
    {sf sf' : SourceFiles} {out} (hr : includeLine seg fs go p l sf = (sf', .ok out)) : out = l := by
  have key : ∀ x, includeLine seg fs go p l = x → x sf = (sf', .ok out) → out = l := by
    intro x hx hr
    unfold includeLine at hx
    split at hx
    · rename_i sp typ name rest hd
      have e : Verif.parseDirective (words l) = .ok (some (.dir (.incl typ.erase name), words rest)) := by
        rw [← erase_parseDirective, hd]; rfl
      cases ht : typ with
      | asm =>
        rw [ht] at e
        obtain ⟨r, hr⟩ := names_includedLine (parse_namesSource e)
        exact absurd hr (h1 _ _)
      | cHeader => rw [ht] at e; exact absurd (parse_namesHeader e) (h2 _)
      | _ => exact absurd (parse_includesData e (by rw [ht]; nofun) (by rw [ht]; nofun)) (h3 _)
    · rw [← hx] at hr; cases hr
    · rw [← hx] at hr; cases hr
    · rw [← hx] at hr; cases hr; rfl
  exact key _ rfl hr

/-! ### From the run to the tokens -/

section
variable {seg : Seg} {fs : FS} {dir : Path}

theorem line_tokens (hs : AsciiSeg seg) {fuel : Nat} {p : Path} {l : List Token}
    (hh : ∀ name q t, NamesHeader (words l) name → FoundAt fs dir p name q → fs.read q = some (utf8 t) → Ascii t)
    (hf : ∀ name rest q, IncludeLine l name rest → FoundAt fs dir p name q → AllPlain seg fs dir q)
    (ih : ∀ {q : Path}, AllPlain seg fs dir q → ∀ n toks sf sf' out, FileLines fs n q (lines toks) → Verif.Good fs dir sf →
      replaceIncludes seg fs fuel q toks sf = (sf', .ok out) → ∀ id, Numbered id sf' → LinesTokens fs dir id q (lines toks) out)
    {sf sf' : SourceFiles} (hg : Verif.Good fs dir sf) {a} (h : includeLine seg fs (replaceIncludes seg fs fuel) p l sf = (sf', .ok a))
    {id} (hid : Numbered id sf') {more b} (hb : LinesTokens fs dir id p more b) : LinesTokens fs dir id p (l :: more) (a ++ b) := by
  by_cases h1 : ∃ name rest, IncludeLine l name rest
  · obtain ⟨name, rest, h1⟩ := h1
    rw [includeLine_source h1] at h
    rcases pathOf_cases hg p (Path.parse name) with ⟨r, hr⟩ | hr
    · rcases pathOf_cases hg p r with ⟨q, hq⟩ | hq
      · have hfound : FoundAt fs dir p name q := ⟨r, hr, hq⟩
        have ha := hf name rest q h1 hfound
        rw [sourceRun_eq hg hr] at h
        cases e : fileRun seg fs (replaceIncludes seg fs fuel) (some p) r sf with
        | mk sf1 y =>
        cases y with
        | err x => rw [Run.bind_err e] at h; cases h
        | panic => rw [Run.bind_panic e] at h; cases h
        | loop => rw [Run.bind_loop e] at h; cases h
        | ok out =>
          rw [Run.bind_ok e] at h
          by_cases hend : atEnd rest = true
          · rw [if_pos hend] at h
            cases h
            have hl := load_cases hg hq
            unfold fileRun at e
            generalize e1 : load fs (some p) r sf = y at hl
            cases hl with
            | missing _ => rw [Run.bind_err e1] at e; cases e
            | notText _ _ => rw [Run.bind_err e1] at e; cases e
            | @ok g sf2 hn hc hm hg1 hp =>
              rw [Run.bind_ok e1] at e
              have hx := lex_cases (n := g.id) hc (ha.1 _ _ .main hc)
              generalize e2 : lexInput seg (Input.new g.id g.contents) = z at hx e
              cases hx with
              | panic => rw [Run.bind_panic (sf1 := sf2) rfl] at e; cases e
              | err _ _ => rw [Run.bind_err (sf1 := sf2) rfl] at e; cases e
              | @ok toks hfl =>
                rw [Run.bind_ok (sf1 := sf2) rfl, hn] at e
                have hmore := (replace_outcome hs fuel ha g.id toks sf2 hfl hg1).more
                rw [e] at hmore
                have hnum := hid g (hmore.subset hm)
                rw [hn] at hnum
                exact .source h1 (isEmpty_iff.mp hend) hfound hnum hfl (ih ha _ _ _ _ _ hfl hg1 e _ hid) hb
          · rw [if_neg hend] at h
            cases rest with
            | nil => exact absurd rfl hend
            | cons u rest => cases h
      · unfold sourceRun at h
        rw [Run.bind_ok (pathOf_ok hg hr), Run.bind_panic (sf1 := sf) (load_panic hg hq)] at h
        cases h
    · unfold sourceRun at h
      rw [Run.bind_panic hr] at h
      cases h
  · by_cases h2 : ∃ name, NamesHeader (words l) name
    · obtain ⟨name, h2⟩ := h2
      rw [includeLine_header h2] at h
      unfold headerRun at h
      rcases pathOf_cases hg p (Path.parse name) with ⟨r, hr⟩ | hr
      · rw [Run.bind_ok (pathOf_ok hg hr)] at h
        rcases pathOf_cases hg p r with ⟨q, hq⟩ | hq
        · have hfound : FoundAt fs dir p name q := ⟨r, hr, hq⟩
          have hl := load_cases hg hq
          generalize e1 : load fs (some p) r sf = y at hl
          cases hl with
          | missing _ => rw [Run.bind_err e1] at h; cases h
          | notText _ _ => rw [Run.bind_err e1] at h; cases h
          | @ok g sf2 hn hc hm hg1 hp =>
            rw [Run.bind_ok e1] at h
            injection h with h3 h4
            subst h3
            obtain ⟨ls, outs, k1, k2, rfl⟩ := lexHeader_rewritten hs hc (hh name q _ h2 hfound hc) h4
            have hnum := hid g hm
            rw [hn] at hnum
            exact .header h2 hfound hnum k1 k2 hb
        · rw [Run.bind_panic (sf1 := sf) (load_panic hg hq)] at h; cases h
      · rw [Run.bind_panic hr] at h; cases h
    · have h1' : ∀ name rest, ¬ IncludeLine l name rest := fun name rest h => h1 ⟨name, rest, h⟩
      have h2' : ∀ name, ¬ NamesHeader (words l) name := fun name h => h2 ⟨name, h⟩
      by_cases h3 : ∃ name, IncludesData l name
      · obtain ⟨name, h3⟩ := h3
        obtain ⟨q, hq, rfl⟩ := includeLine_data h3 hg h
        exact .data h3 hq hb
      · have h3' : ∀ name, ¬ IncludesData l name := fun name h => h3 ⟨name, h⟩
        rw [includeLine_plain h1' h2' h3' h]
        exact .other h1' h2' h3' hb

theorem replace_tokens (hs : AsciiSeg seg) : ∀ (fuel : Nat) {q : Path}, AllPlain seg fs dir q → ∀ n toks sf sf' out,
    FileLines fs n q (lines toks) → Verif.Good fs dir sf → replaceIncludes seg fs fuel q toks sf = (sf', .ok out) →
    ∀ id, Numbered id sf' → LinesTokens fs dir id q (lines toks) out
  | 0, _, _, _, _, _, _, _, _, _, h, _, _ => by cases h
  | fuel + 1, q, ha, n, toks, sf, sf', out, hl, hg, h, id, hid => by
    rw [replaceIncludes] at h
    have key : ∀ L : List (List Token), (∀ l ∈ L, l ∈ lines toks) → ∀ sf sf' out, Verif.Good fs dir sf →
        includeLines (includeLine seg fs (replaceIncludes seg fs fuel) q) L sf = (sf', .ok out) →
        (Numbered id sf' → LinesTokens fs dir id q L out) ∧ sf.files <+: sf'.files := by
      intro L
      induction L with
      | nil => intro _ sf sf' out hg h; cases h; exact ⟨fun _ => .nil, List.prefix_refl _⟩
      | cons l L ihL =>
        intro hm sf sf' out hg h
        have hml := hm l (by simp)
        have h1 : ∀ name q' t, NamesHeader (words l) name → FoundAt fs dir q name q' → fs.read q' = some (utf8 t) → Ascii t :=
          fun name q' t h1 h2 h3 => ha.2 q q' t .main (includes_header ha hl hml h1 h2) h3
        have h2 : ∀ name rest q', IncludeLine l name rest → FoundAt fs dir q name q' → AllPlain seg fs dir q' :=
          fun name rest q' h1 h2 => ha.step (includes_source ha hl hml h1 h2)
        have ho := line_outcome (seg := seg) (go := replaceIncludes seg fs fuel) hs h1 (fun name rest r q' sf h1 h3 h4 hg =>
          file_outcome (fun t => (h2 name rest q' h1 ⟨r, h3, h4⟩).1 q' t .main) (replace_outcome hs fuel (h2 name rest q' h1 ⟨r, h3, h4⟩)) hg h4) hg
        unfold includeLines at h
        cases e : includeLine seg fs (replaceIncludes seg fs fuel) q l sf with
        | mk sf1 y =>
        rw [e] at ho
        cases y with
        | err x => rw [Run.bind_err e] at h; cases h
        | panic => rw [Run.bind_panic e] at h; cases h
        | loop => rw [Run.bind_loop e] at h; cases h
        | ok a =>
          rw [Run.bind_ok e] at h
          cases e2 : includeLines (includeLine seg fs (replaceIncludes seg fs fuel) q) L sf1 with
          | mk sf2 y =>
          cases y with
          | err x => rw [Run.bind_err e2] at h; cases h
          | panic => rw [Run.bind_panic e2] at h; cases h
          | loop => rw [Run.bind_loop e2] at h; cases h
          | ok b =>
            rw [Run.bind_ok e2] at h
            cases h
            obtain ⟨k1, k2⟩ := ihL (fun l hl => hm l (by simp [hl])) sf1 _ _ ho.good e2
            exact ⟨fun hid => line_tokens hs h1 h2 (replace_tokens hs fuel) hg e (hid.before k2) (k1 hid), ho.more.trans k2⟩
    exact (key _ (fun _ h => h) _ _ _ hg h).1 hid

theorem readTokens_tokens (hs : AsciiSeg seg) (hd : dir.abs = true) {name : Text} (hA : AllPlain seg fs dir (dir.join (Path.parse name)))
    {fuel : Nat} {sf toks path} (h : readTokens seg fs fuel name (SourceFiles.new dir) = (sf, .ok (toks, path))) :
    path = dir.join (Path.parse name) ∧ ∀ id, Numbered id sf → SourceTokens fs dir id (dir.join (Path.parse name)) toks := by
  rw [readTokens_eq hd] at h
  cases e : fileRun seg fs (replaceIncludes seg fs fuel) none (dir.join (Path.parse name)) (SourceFiles.new dir) with
  | mk sf1 y =>
  cases y with
  | err x => rw [Run.bind_err e] at h; cases h
  | panic => rw [Run.bind_panic e] at h; cases h
  | loop => rw [Run.bind_loop e] at h; cases h
  | ok out =>
    rw [Run.bind_ok e] at h
    cases h
    refine ⟨rfl, fun id hid => ?_⟩
    have hl := load_cases (good_new fs dir) (main_resolves (fs := fs) hd name)
    unfold fileRun at e
    generalize e1 : load fs none (dir.join (Path.parse name)) (SourceFiles.new dir) = y at hl
    cases hl with
    | missing _ => rw [Run.bind_err e1] at e; cases e
    | notText _ _ => rw [Run.bind_err e1] at e; cases e
    | @ok g sf2 hn hc hm hg1 hp =>
      rw [Run.bind_ok e1] at e
      have hx := lex_cases (n := g.id) hc (hA.1 _ _ .main hc)
      generalize e2 : lexInput seg (Input.new g.id g.contents) = z at hx e
      cases hx with
      | panic => rw [Run.bind_panic (sf1 := sf2) rfl] at e; cases e
      | err _ _ => rw [Run.bind_err (sf1 := sf2) rfl] at e; cases e
      | @ok toks hfl =>
        rw [Run.bind_ok (sf1 := sf2) rfl, hn] at e
        have hmore := (replace_outcome hs fuel hA g.id toks sf2 hfl hg1).more
        rw [e] at hmore
        have hnum := hid g (hmore.subset hm)
        rw [hn] at hnum
        exact ⟨_, _, hnum, hfl, replace_tokens hs fuel hA _ _ _ _ _ hfl hg1 e _ hid⟩

end

end Verif.Located
