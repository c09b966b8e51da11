import Verif.Lemmas.Located.SourceRuns
import Verif.Lemmas.ReadsAt
/-
Reading the source files: what the files say about a run of the located model.
-/
namespace Verif.Located
open Verif.Spec Verif.Spec.Syntax

/-! ### The tokens with another number for the file -/

theorem utf8_text_unique {t t' : Text} (h : utf8 t = utf8 t') : t = t' := by
  have h1 := decodeUtf8_iff.mpr h
  rw [decodeUtf8_iff.mpr rfl] at h1
  exact (Option.some.inj h1).symm

theorem fileLines_lex {seg : Seg} {fs : FS} {q : Path} {n : Nat} {ls : List (List Token)} (h : FileLines fs n q ls)
    {t : Text} (hr : fs.read q = some (utf8 t)) (ha : Plain seg t) (k : Nat) :
    ∃ toks, lexInput seg (Input.new k t) = .ok toks ∧ (lines toks).map words = ls.map words ∧ (n = k → lines toks = ls) := by
  obtain ⟨t', T, h1, h2, h3⟩ := h
  rw [h1] at hr
  cases utf8_text_unique (Option.some.inj hr)
  have hp := ha
  obtain ⟨T', h4, h5⟩ := lexes_moved (f2 := k) (b2 := []) h2 (c1 := 0) (c2 := 0) rfl rfl
  obtain ⟨L', h6, h7⟩ := splits_moved h3 h5
  have h8 := (lexInput_ok_iff hp).mpr h4
  refine ⟨T', by unfold lexInput; rw [h8]; rfl, ?_, ?_⟩
  · rw [lines_iff.mpr h6]; exact h7
  · rintro rfl
    have h9 := (lexInput_ok_iff hp).mpr h2
    rw [h8] at h9
    cases h9
    exact lines_iff.mpr h3

theorem header_lex {seg : Seg} (hs : AsciiSeg seg) {fs : FS} {q : Path} {n : Nat} {ls : List (List Token)} (h : HeaderTokens fs n q ls)
    {t : Text} (hr : fs.read q = some (utf8 t)) (ha : Ascii t) (k : Nat) :
    ∃ toks, lexHeader seg (Input.new k t) = headerLines (lines toks) ∧ (lines toks).map words = ls.map words ∧
      (n = k → lines toks = ls) := by
  obtain ⟨t', T, h1, h2, h3⟩ := h
  rw [h1] at hr
  cases utf8_text_unique (Option.some.inj hr)
  obtain ⟨T', h4, h5⟩ := clexes_moved (f2 := k) (b2 := []) h2 (c1 := 0) (c2 := 0) rfl
  obtain ⟨L', h6, h7⟩ := splits_moved h3 h5
  have h8 := (clex_ok_iff hs ha).mpr h4
  refine ⟨T', ?_, ?_, ?_⟩
  · unfold lexHeader
    show lexed k (lexForWs seg (skipCBlank seg) (Input.new k t)) >>= _ = _
    rw [h8]
    rfl
  · rw [lines_iff.mpr h6]; exact h7
  · rintro rfl
    have h9 := (clex_ok_iff hs ha).mpr h2
    rw [h8] at h9
    cases h9
    exact lines_iff.mpr h3

/-- The same split of lines with the same tokens -/
theorem lines_split {ls before after : List (List Token)} {l : List Token}
    (h : ls.map words = (before ++ l :: after).map words) :
    ∃ before' l' after', ls = before' ++ l' :: after' ∧ before'.map words = before.map words ∧ words l' = words l ∧
      (ls = before ++ l :: after → before' = before ∧ l' = l) := by
  rw [List.map_append, List.map_cons] at h
  obtain ⟨b', r, rfl, h1, h2⟩ := List.map_eq_append_iff.mp h
  obtain ⟨l', a', rfl, h3, h4⟩ := List.map_eq_cons_iff.mp h2
  refine ⟨b', l', a', rfl, h1, h3, fun e => ?_⟩
  have hlen : b'.length = before.length := by simpa using congrArg List.length h1
  obtain ⟨e1, e2⟩ := List.append_inj e hlen
  cases e2
  exact ⟨e1, rfl⟩

theorem words_mem {ls ls' : List (List Token)} (h : ls'.map words = ls.map words) {P : List Token → Prop}
    (hP : ∀ {l l'}, words l' = words l → P l → P l') (h1 : ∀ l ∈ ls, P l) : ∀ l ∈ ls', P l := by
  intro l' hl'
  have : words l' ∈ ls'.map words := List.mem_map.mpr ⟨l', hl', rfl⟩
  rw [h] at this
  obtain ⟨l, hl, e⟩ := List.mem_map.mp this
  exact hP e.symm (h1 l hl)

theorem headerFine_words {l l' : List Token} (e : words l' = words l) (h : HeaderFine l) : HeaderFine l' := by
  unfold HeaderFine at *
  rw [e]; exact h

theorem stuck_words {L : List Tok → Prop} {l l' : List Token} (e : words l' = words l) {x p} (h : Syntax.Stuck L l x p) :
    ∃ p', Syntax.Stuck L l' x p' := by
  cases h with
  | @token w t rest x h1 h2 h3 =>
    rw [words_append] at e
    obtain ⟨w', r, rfl, e1, e2⟩ := List.map_eq_append_iff.mp e
    obtain ⟨t', a', rfl, e3, -⟩ := List.map_eq_cons_iff.mp e2
    have e1 : words w' = words w := e1
    exact ⟨_, .token (by rw [e1]; exact h1) (by rw [e1, e3]; exact h2) (by rw [e1, e3]; exact h3)⟩
  | short h1 h2 => exact ⟨_, .short (by rw [e]; exact h1) (by rw [e]; exact h2)⟩

/-! ### C headers -/

theorem header_reads {seg : Seg} (hs : AsciiSeg seg) {fs : FS} {q : Path} (h : HeaderReads fs q) {t : Text}
    (hr : fs.read q = some (utf8 t)) (ha : Ascii t) (k : Nat) : ∃ out, lexHeader seg (Input.new k t) = .ok out := by
  obtain ⟨n, ls, h1, h2⟩ := h
  obtain ⟨toks, h3, h4, -⟩ := header_lex hs h1 hr ha k
  rw [h3]
  exact headerLines_ok_iff.mpr (words_mem h4 headerFine_words h2)

theorem header_fails {seg : Seg} (hs : AsciiSeg seg) {fs : FS} {n : Nat} {q : Path} {x p} (h : HeaderFails fs n q x p) {t : Text}
    (hr : fs.read q = some (utf8 t)) (ha : Ascii t) (k : Nat) :
    ∃ p', lexHeader seg (Input.new k t) = .err ⟨x, p'⟩ ∧ (n = k → p' = p) := by
  cases h with
  | missing h => rw [h] at hr; cases hr
  | notText h1 h2 => rw [h1] at hr; exact absurd (Option.some.inj hr) (h2 t)
  | @character t' b r h1 h2 h3 =>
    rw [h1] at hr
    cases utf8_text_unique (Option.some.inj hr)
    refine ⟨.location (placeIn k b), ?_, fun e => by rw [e]⟩
    unfold lexHeader
    show lexed k (lexForWs seg (skipCBlank seg) (Input.new k t)) >>= _ = _
    rw [(clex_err_iff hs ha).mpr ⟨b, r, h2, h3, rfl⟩]
    rfl
  | @define before a d l after x p h1 h2 h3 h4 h5 =>
    obtain ⟨toks, e1, e2, e3⟩ := header_lex hs h1 hr ha k
    obtain ⟨b', l', a', e4, e5, e6, e7⟩ := lines_split e2
    obtain ⟨u, r, rfl, e8, e9⟩ := List.map_eq_cons_iff.mp e6
    obtain ⟨v, r, rfl, e10, e11⟩ := List.map_eq_cons_iff.mp e9
    obtain ⟨p', hp'⟩ := stuck_words (l' := r) e11 h5
    have hb := words_mem e5 headerFine_words h2
    refine ⟨p', ?_, fun e => ?_⟩
    · rw [e1]
      exact headerLines_err_iff.mpr ⟨b', _, a', e4, hb, headerLine_err_iff.mpr ⟨u, v, r, rfl, by rw [e8, h3], by rw [e10, h4], hp'⟩⟩
    · obtain ⟨-, e12⟩ := e7 (e3 e)
      cases e12
      exact (stuck_unique hp' h5).2

/-! ### Lines that can be read -/

/-- The file can be read in `n` steps. -/
def FileEnough (seg : Seg) (fs : FS) (dir q : Path) (n : Nat) : Prop :=
  ∀ fuel ≥ n, ∀ sf, Verif.Good fs dir sf → ∀ root r, Resolves fs dir root r q →
    ∃ sf' out, fileRun seg fs (replaceIncludes seg fs fuel) root r sf = (sf', .ok out)

theorem line_reads {seg : Seg} (hs : AsciiSeg seg) {fs : FS} {dir p : Path} (hc : p.comps ≠ []) {l : List Token} {fuel : Nat}
    (h1 : ∀ name rest, IncludeLine l name rest →
      LineEnd (words rest) ∧ ∃ q, FoundAt fs dir p name q ∧ FileEnough seg fs dir q fuel)
    (h2 : ∀ name, NamesHeader (words l) name → ∃ q, FoundAt fs dir p name q ∧ HeaderReads fs q ∧ ∀ t, fs.read q = some (utf8 t) → Ascii t)
    {sf : SourceFiles} (hg : Verif.Good fs dir sf) :
    ∃ sf' out, includeLine seg fs (replaceIncludes seg fs fuel) p l sf = (sf', .ok out) := by
  by_cases e1 : ∃ name rest, IncludeLine l name rest
  · obtain ⟨name, rest, e1⟩ := e1
    obtain ⟨hend, q, ⟨r, hr, hq⟩, he⟩ := h1 name rest e1
    obtain ⟨sf', out, e⟩ := he fuel (Nat.le_refl _) sf hg _ _ hq
    rw [includeLine_source e1, sourceRun_eq hg hr, Run.bind_ok e, if_pos (show atEnd rest = true from isEmpty_iff.mpr hend)]
    exact ⟨_, _, rfl⟩
  · by_cases e2 : ∃ name, NamesHeader (words l) name
    · obtain ⟨name, e2⟩ := e2
      obtain ⟨q, ⟨r, hr, hq⟩, hread, hasc⟩ := h2 name e2
      rw [includeLine_header e2]
      unfold headerRun
      rw [Run.bind_ok (pathOf_ok hg hr)]
      have hl := load_cases hg hq
      generalize e : load fs (some p) r sf = y at hl
      have hread' := hread
      obtain ⟨_, _, ⟨t, _, hrd, _⟩, _⟩ := hread
      cases hl with
      | missing h => rw [h] at hrd; cases hrd
      | notText h h3 => rw [h] at hrd; exact absurd (Option.some.inj hrd) (h3 t)
      | @ok g sf1 hn hc hm hg1 hp =>
        rw [Run.bind_ok e]
        obtain ⟨out, ho⟩ := header_reads hs hread' hc (hasc _ hc) g.id
        exact ⟨sf1, out, by rw [ho]; rfl⟩
    · rcases includeLine_rest (seg := seg) (go := replaceIncludes seg fs fuel) (p := p) (fun name rest h => e1 ⟨name, rest, h⟩)
        (fun name h => e2 ⟨name, h⟩) hg with ⟨out, e⟩ | ⟨e, -⟩
      · exact ⟨sf, out, e⟩
      · exact absurd e hc

theorem includeLines_all {fs : FS} {dir : Path} {step : List Token → Run (List Token)} : ∀ {L : List (List Token)} {sf : SourceFiles},
    Verif.Good fs dir sf →
    (∀ l ∈ L, ∀ sf, Verif.Good fs dir sf → (∃ sf' out, step l sf = (sf', .ok out)) ∧ Verif.Good fs dir (step l sf).1) →
    ∃ sf' out, includeLines step L sf = (sf', .ok out)
  | [], sf, _, _ => ⟨sf, [], rfl⟩
  | l :: L, sf, hg, h => by
    obtain ⟨⟨sf1, a, e⟩, hg1⟩ := h l (by simp) sf hg
    rw [e] at hg1
    obtain ⟨sf2, b, e2⟩ := includeLines_all (L := L) hg1 fun l' hl' => h l' (by simp [hl'])
    exact ⟨sf2, a ++ b, by rw [includeLines, Run.bind_ok e, Run.bind_ok e2]; rfl⟩

theorem includeLines_fails {fs : FS} {dir : Path} {step : List Token → Run (List Token)} {l : List Token} {L' : List (List Token)} {x : SourceFiles → Error → Prop} :
    ∀ {L : List (List Token)} {sf : SourceFiles}, Verif.Good fs dir sf →
    (∀ l ∈ L, ∀ sf, Verif.Good fs dir sf → (∃ sf' out, step l sf = (sf', .ok out)) ∧ Verif.Good fs dir (step l sf).1) →
    (∀ sf, Verif.Good fs dir sf → ∃ sf' e, step l sf = (sf', .err e) ∧ x sf' e) →
    ∃ sf' e, includeLines step (L ++ l :: L') sf = (sf', .err e) ∧ x sf' e
  | [], sf, hg, _, h => by
    obtain ⟨sf1, e, h1, h2⟩ := h sf hg
    exact ⟨sf1, e, by rw [List.nil_append, includeLines, Run.bind_err h1], h2⟩
  | o :: L, sf, hg, h, h' => by
    obtain ⟨⟨sf1, a, e⟩, hg1⟩ := h o (by simp) sf hg
    rw [e] at hg1
    obtain ⟨sf2, b, e2, hx⟩ := includeLines_fails (L := L) hg1 (fun l' hl' => h l' (by simp [hl'])) h'
    exact ⟨sf2, b, by rw [List.cons_append, includeLines, Run.bind_ok e, Run.bind_err e2], hx⟩

/-- One number for all members of a list -/
theorem bound_all {α : Type} {P : α → Nat → Prop} (hm : ∀ {a n k}, P a n → n ≤ k → P a k) :
    ∀ {l : List α}, (∀ a ∈ l, ∃ n, P a n) → ∃ n, ∀ a ∈ l, P a n
  | [], _ => ⟨0, nofun⟩
  | a :: l, h => by
    obtain ⟨n, hn⟩ := h a (by simp)
    obtain ⟨k, hk⟩ := bound_all (P := P) hm (l := l) fun b hb => h b (by simp [hb])
    refine ⟨max n k, fun b hb => ?_⟩
    rcases List.mem_cons.mp hb with rfl | hb
    · exact hm hn (Nat.le_max_left _ _)
    · exact hm (hk b hb) (Nat.le_max_right _ _)

theorem FileEnough.mono {seg : Seg} {fs : FS} {dir q : Path} {n k : Nat} (h : FileEnough seg fs dir q n) (hk : n ≤ k) :
    FileEnough seg fs dir q k := fun fuel hf => h fuel (Nat.le_trans hk hf)

/-- What a line includes can be read in `n` steps. -/
def LineEnough (seg : Seg) (fs : FS) (dir p : Path) (l : List Token) (n : Nat) : Prop :=
  (∀ name rest, IncludeLine l name rest → LineEnd (words rest) ∧ ∃ q, FoundAt fs dir p name q ∧ FileEnough seg fs dir q n) ∧
  ∀ name, NamesHeader (words l) name → ∃ q, FoundAt fs dir p name q ∧ HeaderReads fs q ∧ ∀ t, fs.read q = some (utf8 t) → Ascii t

theorem LineEnough.mono {seg : Seg} {fs : FS} {dir p : Path} {l} {n k : Nat} (h : LineEnough seg fs dir p l n) (hk : n ≤ k) :
    LineEnough seg fs dir p l k := by
  refine ⟨fun name rest hl => ?_, h.2⟩
  obtain ⟨h1, q, h2, h3⟩ := h.1 name rest hl
  exact ⟨h1, q, h2, h3.mono hk⟩

theorem lineEnough_words {seg : Seg} {fs : FS} {dir p : Path} {l l' : List Token} {n : Nat} (e : words l' = words l)
    (h : LineEnough seg fs dir p l n) : LineEnough seg fs dir p l' n := by
  refine ⟨fun name rest hl => ?_, by rw [e]; exact h.2⟩
  obtain ⟨rest', e', hl'⟩ := includedLine_words e.symm hl
  rw [← e']
  exact h.1 name rest' hl'

/-- Lines whose included files can be read -/
theorem lines_enough {seg : Seg} {fs : FS} {dir p : Path} (ha : AllPlain seg fs dir p) {n : Nat}
    {ls : List (List Token)} (h : FileLines fs n p ls) {before : List (List Token)} (hb : ∀ l ∈ before, l ∈ ls)
    (h1 : ∀ l ∈ before, LineReads fs dir p l)
    (hE : ∀ l ∈ before, ∀ name rest q, IncludeLine l name rest → FoundAt fs dir p name q → AllPlain seg fs dir q →
      ∃ k, FileEnough seg fs dir q k) :
    ∃ k, ∀ l ∈ before, LineEnough seg fs dir p l k := by
  refine bound_all (P := LineEnough seg fs dir p) LineEnough.mono fun l hl => ?_
  have h2 : ∀ name, NamesHeader (words l) name → ∃ q, FoundAt fs dir p name q ∧ HeaderReads fs q ∧ ∀ t, fs.read q = some (utf8 t) → Ascii t := by
    intro name hn
    obtain ⟨q, h3, h4⟩ := (h1 l hl).2 name hn
    exact ⟨q, h3, h4, fun t => ha.2 p q t .main (includes_header ha h (hb l hl) hn h3)⟩
  by_cases e1 : ∃ name rest, IncludeLine l name rest
  · obtain ⟨name, rest, e1⟩ := e1
    obtain ⟨h3, q, h4, -⟩ := (h1 l hl).1 name rest e1
    obtain ⟨k, hk⟩ := hE l hl name rest q e1 h4 (ha.step (includes_source ha h (hb l hl) e1 h4))
    refine ⟨k, fun name' rest' e2 => ?_, h2⟩
    obtain ⟨rfl, rfl⟩ := includedLine_unique e1 e2
    exact ⟨h3, q, h4, hk⟩
  · exact ⟨0, fun name rest e2 => absurd ⟨_, _, e2⟩ e1, h2⟩

/-- The part of a step that does not depend on what is wrong -/
theorem line_good {seg : Seg} (hs : AsciiSeg seg) {fs : FS} {dir p : Path} (ha : AllPlain seg fs dir p) {n : Nat}
    {ls : List (List Token)} (h : FileLines fs n p ls) {l : List Token} (hl : l ∈ ls) (fuel : Nat) {sf : SourceFiles} (hg : Verif.Good fs dir sf) :
    Verif.Good fs dir (includeLine seg fs (replaceIncludes seg fs fuel) p l sf).1 := by
  refine (line_outcome hs ?_ ?_ hg).good
  · intro name q' t h1 h2 h3
    exact ha.2 p q' t .main (includes_header ha h hl h1 h2) h3
  · intro name rest r q' sf h1 h2 h3 hg
    have ha' := ha.step (includes_source ha h hl h1 ⟨r, h2, h3⟩)
    exact file_outcome (fun t => ha'.1 q' t .main) (replace_outcome hs fuel ha') hg h3

/-- Loading a file with these lines -/
theorem file_starts {seg : Seg} {fs : FS} {dir p : Path} (ha : AllPlain seg fs dir p) {n : Nat}
    {ls : List (List Token)} (h : FileLines fs n p ls) {sf : SourceFiles} (hg : Verif.Good fs dir sf) {root : Option Path} {r : Path}
    (hr : Resolves fs dir root r p) : ∃ sf1 k toks, Verif.Good fs dir sf1 ∧
      (∀ go, fileRun seg fs go root r sf = go p toks sf1) ∧ FileLines fs k p (lines toks) ∧
      (lines toks).map words = ls.map words ∧ (n = k → lines toks = ls) ∧ ∀ id sf', sf1.files <+: sf'.files → Numbers id sf' → id p = k := by
  have hl := load_cases hg hr
  generalize e : load fs root r sf = y at hl
  obtain ⟨t, _, hrd, _⟩ := id h
  cases hl with
  | missing h => rw [h] at hrd; cases hrd
  | notText h h3 => rw [h] at hrd; exact absurd (Option.some.inj hrd) (h3 t)
  | @ok g sf1 hn hc hm hg1 hp =>
    obtain ⟨toks, h1, h2, h3⟩ := fileLines_lex h hc (ha.1 p _ .main hc) g.id
    have hx := lex_cases (n := g.id) hc (ha.1 p _ .main hc)
    rw [h1] at hx
    cases hx with
    | ok hfl =>
      refine ⟨sf1, g.id, toks, hg1, fun go => ?_, hfl, h2, h3, fun id sf' hpre hid => ?_⟩
      · unfold fileRun
        rw [Run.bind_ok e, Run.bind_ok (a := toks) (sf1 := sf1) (by rw [h1]; rfl), hn]
      · have := hid g (hpre.subset hm)
        rwa [hn] at this

theorem source_enough {seg : Seg} (hs : AsciiSeg seg) {fs : FS} {dir p : Path} (hN : NamedFiles fs) (h : SourceReads fs dir p) :
    AllPlain seg fs dir p → ∃ n, FileEnough seg fs dir p n := by
  induction h with
  | @mk n file ls h1 h2 h3 h4 ih =>
    intro ha
    have hR : ∀ l ∈ ls, LineReads fs dir file l := by
      intro l hl
      refine ⟨fun name rest hn => ?_, h4 l hl⟩
      obtain ⟨a, q, hq⟩ := h2 l hl name rest hn
      exact ⟨a, q, hq, h3 l hl name rest q hn hq⟩
    obtain ⟨k, hk⟩ := lines_enough ha h1 (before := ls) (fun _ h => h) hR fun l hl name rest q a b c => ih l hl name rest q a b c
    refine ⟨k + 1, fun fuel hf sf hg root r hr => ?_⟩
    obtain ⟨fuel, rfl⟩ : ∃ f, fuel = f + 1 := ⟨fuel - 1, by omega⟩
    obtain ⟨sf1, j, toks, hg1, e1, e2, e3, -, -⟩ := file_starts ha h1 hg hr
    rw [e1, replaceIncludes]
    have hcomps : file.comps ≠ [] := by
      obtain ⟨t, _, hrd, _⟩ := h1
      exact hN file (by rw [hrd]; nofun)
    refine includeLines_all hg1 fun l hl sf hg => ⟨?_, line_good hs ha e2 hl fuel hg⟩
    have hE := words_mem e3 lineEnough_words (fun l hl => (hk l hl).mono (show k ≤ fuel by omega)) l hl
    exact line_reads hs hcomps hE.1 hE.2 hg

/-- The file fails in `n` steps with `x`, and at `p` if the files have the numbers `id`. -/
def FileStops (seg : Seg) (fs : FS) (dir : Path) (id : Path → Nat) (q : Path) (x : Err) (p : Place) (n : Nat) : Prop :=
  ∀ fuel ≥ n, ∀ sf, Verif.Good fs dir sf → ∀ root r, Resolves fs dir root r q →
    ∃ sf' p', fileRun seg fs (replaceIncludes seg fs fuel) root r sf = (sf', .err ⟨x, p'⟩) ∧ (Numbers id sf' → p' = p)

/-- A file of which one line fails -/
theorem stops_of_line {seg : Seg} (hs : AsciiSeg seg) {fs : FS} {dir : Path} (hN : NamedFiles fs) {id : Path → Nat} {file : Path}
    (ha : AllPlain seg fs dir file) {before l after} (h1 : FileLines fs (id file) file (before ++ l :: after))
    (h2 : ∀ o ∈ before, LineReads fs dir file o) {x p k}
    (h : ∀ l', words l' = words l → ∀ fuel ≥ k, ∀ sf, Verif.Good fs dir sf → ∃ sf' p',
      includeLine seg fs (replaceIncludes seg fs fuel) file l' sf = (sf', .err ⟨x, p'⟩) ∧ (l' = l → Numbers id sf' → p' = p)) :
    ∃ n, FileStops seg fs dir id file x p n := by
  obtain ⟨k', hk⟩ := lines_enough ha h1 (before := before) (fun _ h => by simp [h]) h2 fun l hl name rest q a b c => by
    obtain ⟨-, q', hq', hr⟩ := (h2 l hl).1 name rest a
    rw [found_unique b hq']
    exact source_enough hs hN hr (by rw [← found_unique b hq']; exact c)
  refine ⟨max k k' + 1, fun fuel hf sf hg root r hr => ?_⟩
  obtain ⟨fuel, rfl⟩ : ∃ f, fuel = f + 1 := ⟨fuel - 1, by omega⟩
  obtain ⟨sf1, j, toks, hg1, e1, e2, e3, e4, e5⟩ := file_starts ha h1 hg hr
  obtain ⟨b', l', a', e6, e7, e8, e9⟩ := lines_split e3
  have hcomps : file.comps ≠ [] := by
    obtain ⟨t, _, hrd, _⟩ := h1
    exact hN file (by rw [hrd]; nofun)
  have hout := (replace_outcome hs (fuel + 1) ha j toks sf1 e2 hg1).more
  rw [e1]
  rw [replaceIncludes, e6] at hout ⊢
  have hmain := includeLines_fails (fs := fs) (dir := dir) (L' := a') (l := l')
    (step := includeLine seg fs (replaceIncludes seg fs fuel) file) (L := b')
    (x := fun sf' e => e.err = x ∧ (l' = l → Numbers id sf' → e.place = p)) hg1 ?_ ?_
  · obtain ⟨sf', ⟨x', p'⟩, hrun, hx, hp'⟩ := hmain
    cases hx
    refine ⟨sf', p', hrun, fun hid => ?_⟩
    rw [hrun] at hout
    exact hp' (e9 (e6 ▸ e4 (e5 id sf' hout hid))).2 hid
  · intro o ho sf hg
    refine ⟨?_, line_good hs ha e2 (by rw [e6]; simp [ho]) fuel hg⟩
    have hE := words_mem e7 lineEnough_words (fun l hl => (hk l hl).mono (show k' ≤ fuel by omega)) o ho
    exact line_reads hs hcomps hE.1 hE.2 hg
  · intro sf hg
    obtain ⟨sf', p', h3, h4⟩ := h l' e8 fuel (by omega) sf hg
    exact ⟨sf', _, h3, rfl, h4⟩

theorem source_stops {seg : Seg} (hs : AsciiSeg seg) {fs : FS} {dir : Path} (hN : NamedFiles fs) {id : Path → Nat} {file : Path} {x p}
    (h : SourceFails fs dir id file x p) : AllPlain seg fs dir file → ∃ n, FileStops seg fs dir id file x p n := by
  induction h with
  | @missing file h =>
    intro ha
    refine ⟨0, fun fuel _ sf hg root r hr => ?_⟩
    have hl := load_cases hg hr
    generalize e : load fs root r sf = y at hl
    unfold fileRun
    cases hl with
    | missing _ => exact ⟨sf, _, by rw [Run.bind_err e], fun _ => rfl⟩
    | notText h' => rw [h] at h'; cases h'
    | ok _ h' => rw [h] at h'; cases h'
  | @notText file bs h h2 =>
    intro ha
    refine ⟨0, fun fuel _ sf hg root r hr => ?_⟩
    have hl := load_cases hg hr
    generalize e : load fs root r sf = y at hl
    unfold fileRun
    cases hl with
    | missing h' => rw [h] at h'; cases h'
    | notText _ _ => exact ⟨sf, _, by rw [Run.bind_err e], fun _ => rfl⟩
    | ok _ h' => rw [h] at h'; exact absurd (Option.some.inj h') (h2 _)
  | @character file t ks b r h1 h2 h3 =>
    intro ha
    refine ⟨0, fun fuel _ sf hg root r hr => ?_⟩
    have hl := load_cases hg hr
    generalize e : load fs root r sf = y at hl
    unfold fileRun
    cases hl with
    | missing h' => rw [h1] at h'; cases h'
    | notText h' h'' => rw [h1] at h'; exact absurd (Option.some.inj h').symm (h'' t)
    | @ok g sf1 hn hc hm hg1 hp =>
      rw [h1] at hc
      have ht := utf8_text_unique (Option.some.inj hc)
      have hlex : lexInput seg (Input.new g.id g.contents) = .err ⟨charError g.id b, .location (placeIn g.id b)⟩ := by
        unfold lexInput
        rw [← ht, (lexInput_err_iff (ha.1 file t .main h1)).mpr ⟨ks, b, _, h2, h3, rfl⟩]
        rfl
      refine ⟨sf1, .location (placeIn g.id b), ?_, fun hid => ?_⟩
      · rw [Run.bind_ok e, Run.bind_err (sf1 := sf1) (e := ⟨charError g.id b, .location (placeIn g.id b)⟩) (by rw [hlex]; rfl)]
        rfl
      · have := hid g hm
        rw [hn] at this
        rw [this]
  | @source file before l after name rest q x p h1 h2 h3 h4 _ ih =>
    intro ha
    obtain ⟨k, hk⟩ := ih (ha.step (includes_source ha h1 (by simp) h3 h4))
    refine stops_of_line hs hN ha h1 h2 (k := k) fun l' e fuel hf sf hg => ?_
    obtain ⟨rest', -, h3'⟩ := includedLine_words e h3
    obtain ⟨r, hr, hq⟩ := h4
    obtain ⟨sf', p', h5, h6⟩ := hk fuel hf sf hg _ _ hq
    refine ⟨sf', p', ?_, fun _ => h6⟩
    rw [includeLine_source h3', sourceRun_eq hg hr, Run.bind_err h5]
  | @excess file before l after name u rest q h1 h2 h3 hu h4 h5 =>
    intro ha
    obtain ⟨k, hk⟩ := source_enough hs hN h5 (ha.step (includes_source ha h1 (by simp) h3 h4))
    refine stops_of_line hs hN ha h1 h2 (k := k) fun l' e fuel hf sf hg => ?_
    obtain ⟨rest', e', h3'⟩ := includedLine_words e h3
    obtain ⟨u', r', rfl, e1, e2⟩ := List.map_eq_cons_iff.mp e'
    obtain ⟨r, hr, hq⟩ := h4
    obtain ⟨sf', out, h6⟩ := hk fuel hf sf hg _ _ hq
    refine ⟨sf', .span u'.span, ?_, fun el _ => ?_⟩
    · rw [includeLine_source h3', sourceRun_eq hg hr, Run.bind_ok h6, if_neg]
      · rfl
      · intro hend
        rcases isEmpty_iff.mp hend with h | ⟨more, h⟩
        · cases h
        · injection h with h _
          exact hu (e1 ▸ h)
    · subst el
      obtain ⟨-, h⟩ := includedLine_unique h3 h3'
      cases h
      rfl
  | @header file before l after name q x p h1 h2 h3 h4 h5 =>
    intro ha
    have hasc : ∀ t, fs.read q = some (utf8 t) → Ascii t := fun t => ha.2 file q t .main (includes_header ha h1 (by simp) h3 h4)
    refine stops_of_line hs hN ha h1 h2 (k := 0) fun l' e fuel hf sf hg => ?_
    obtain ⟨r, hr, hq⟩ := h4
    rw [includeLine_header (by rw [e]; exact h3)]
    unfold headerRun
    rw [Run.bind_ok (pathOf_ok hg hr)]
    have hl := load_cases hg hq
    generalize e : load fs (some file) r sf = y at hl
    cases hl with
    | missing h =>
      have : x = .fileLoadFailure q.render ∧ p = .nowhere := by
        cases h5 with
        | missing _ => exact ⟨rfl, rfl⟩
        | notText h' => rw [h] at h'; cases h'
        | character h' => rw [h] at h'; cases h'
        | define h' => obtain ⟨t, _, h', _⟩ := h'; rw [h] at h'; cases h'
      rw [this.1, this.2]
      exact ⟨sf, _, by rw [Run.bind_err e], fun _ _ => rfl⟩
    | notText h hn =>
      have : x = .fileUtf8Error q.render ∧ p = .nowhere := by
        cases h5 with
        | missing h' => rw [h] at h'; cases h'
        | notText _ _ => exact ⟨rfl, rfl⟩
        | @character t _ _ h' => rw [h] at h'; exact absurd (Option.some.inj h') (hn _)
        | define h' => obtain ⟨t, _, h', _⟩ := h'; rw [h] at h'; exact absurd (Option.some.inj h') (hn _)
      rw [this.1, this.2]
      exact ⟨sf, _, by rw [Run.bind_err e], fun _ _ => rfl⟩
    | @ok g sf1 hn hc hm hg1 hp =>
      rw [Run.bind_ok e]
      obtain ⟨p', h6, h7⟩ := header_fails hs h5 hc (hasc _ hc) g.id
      refine ⟨sf1, p', by rw [h6]; rfl, fun _ hid => h7 ?_⟩
      have := hid g hm
      rwa [hn] at this

/-! ### More steps -/

/-- `x` may have been given up for lack of steps; otherwise it is the same as `y`. -/
def Upper {α : Type} (x y : Run α) : Prop := ∀ sf, (x sf).2 ≠ .loop → y sf = x sf

theorem Upper.refl {α : Type} (x : Run α) : Upper x x := fun _ _ => rfl

theorem Upper.bind {α β : Type} {x y : Run α} {f g : α → Run β} (h : Upper x y) (hf : ∀ a, Upper (f a) (g a)) : Upper (x >>= f) (y >>= g) := by
  intro sf hl
  cases e : x sf with
  | mk sf1 r =>
  cases r with
  | loop => rw [Run.bind_loop e] at hl; exact absurd rfl hl
  | err e' => rw [Run.bind_err e, Run.bind_err ((h sf (by rw [e]; nofun)).trans e)]
  | panic => rw [Run.bind_panic e, Run.bind_panic ((h sf (by rw [e]; nofun)).trans e)]
  | ok a =>
    rw [Run.bind_ok e] at hl
    rw [Run.bind_ok e, Run.bind_ok ((h sf (by rw [e]; nofun)).trans e)]
    exact hf a sf1 hl

theorem includeLine_upper {seg : Seg} {fs : FS} {go go' : Path → List Token → Run (List Token)} (h : ∀ p ts, Upper (go p ts) (go' p ts))
    (p : Path) (l : List Token) : Upper (includeLine seg fs go p l) (includeLine seg fs go' p l) := by
  unfold includeLine
  split
  · refine .bind (.refl _) fun path => ?_
    split
    · refine .bind (.refl _) fun file => .bind (.refl _) fun toks => .bind (h _ _) fun _ => .refl _
    · exact .refl _
    · exact .refl _
  · exact .refl _
  · exact .refl _
  · exact .refl _

theorem includeLines_upper {step step' : List Token → Run (List Token)} (h : ∀ l, Upper (step l) (step' l)) :
    ∀ L, Upper (includeLines step L) (includeLines step' L)
  | [] => .refl _
  | l :: L => .bind (h l) fun _ => .bind (includeLines_upper h L) fun _ => .refl _

theorem replace_upper {seg : Seg} {fs : FS} : ∀ {n k : Nat}, n ≤ k → ∀ p ts, Upper (replaceIncludes seg fs n p ts) (replaceIncludes seg fs k p ts)
  | 0, _, _, _, _ => fun _ h => absurd rfl h
  | n + 1, k, h, p, ts => by
    obtain ⟨k, rfl⟩ : ∃ j, k = j + 1 := ⟨k - 1, by omega⟩
    rw [replaceIncludes, replaceIncludes]
    exact includeLines_upper (includeLine_upper (replace_upper (by omega)) p) _

theorem readTokens_upper {seg : Seg} {fs : FS} {n k : Nat} (h : n ≤ k) (name : Text) :
    Upper (readTokens seg fs n name) (readTokens seg fs k name) := by
  unfold readTokens
  exact .bind (.refl _) fun _ => .bind (.refl _) fun _ => .bind (.refl _) fun _ => .bind (replace_upper h _ _) fun _ => .refl _

/-! ### The main file -/

theorem readTokens_eq {seg : Seg} {fs : FS} {dir : Path} (hd : dir.abs = true) (fuel : Nat) (name : Text) :
    readTokens seg fs fuel name (SourceFiles.new dir) =
      (fileRun seg fs (replaceIncludes seg fs fuel) none (dir.join (Path.parse name)) >>= fun toks =>
        .of (.ok (toks, dir.join (Path.parse name)))) (SourceFiles.new dir) := by
  have hg := good_new fs dir
  have hp : Resolves fs dir none (Path.parse name) (dir.join (Path.parse name)) := .main
  have hm : Resolves fs dir none (dir.join (Path.parse name)) (dir.join (Path.parse name)) := by
    have h : Resolves fs dir none (dir.join (Path.parse name)) (dir.join (dir.join (Path.parse name))) := .main
    rwa [join_absolute (p := dir) (join_abs hd)] at h
  unfold readTokens
  rw [Run.bind_ok (pathOf_ok hg hp)]
  have hl := load_cases hg hm
  unfold fileRun
  generalize e : load fs none (dir.join (Path.parse name)) (SourceFiles.new dir) = y at hl
  cases hl with
  | missing _ => rw [Run.bind_err e, Run.bind_err]; rw [Run.bind_err e]
  | notText _ _ => rw [Run.bind_err e, Run.bind_err]; rw [Run.bind_err e]
  | @ok g sf1 hn =>
    rw [Run.bind_ok e]
    simp only [Run.bind_def, Run.bind, e, hn]
    rcases (Run.of (lexInput seg (Input.new g.id g.contents))) sf1 with ⟨sf2, b | e | _ | _⟩ <;> rfl

theorem main_resolves {fs : FS} {dir : Path} (hd : dir.abs = true) (name : Text) :
    Resolves fs dir none (dir.join (Path.parse name)) (dir.join (Path.parse name)) := by
  have h : Resolves fs dir none (dir.join (Path.parse name)) (dir.join (dir.join (Path.parse name))) := .main
  rwa [join_absolute (p := dir) (join_abs hd)] at h

/-- Reading the files -/
theorem readTokens_outcome {seg : Seg} (hs : AsciiSeg seg) {fs : FS} {dir : Path} (hd : dir.abs = true) {name : Text}
    (hA : AllPlain seg fs dir (dir.join (Path.parse name))) (fuel : Nat) :
    Outcome fs dir (SourceFiles.new dir) (readTokens seg fs fuel name (SourceFiles.new dir)) (SourceReads fs dir (dir.join (Path.parse name)))
      (fun id => SourceFails fs dir id (dir.join (Path.parse name))) := by
  have h := file_outcome (fun t => hA.1 _ t .main) (replace_outcome hs fuel hA) (good_new fs dir) (main_resolves hd name)
  rw [readTokens_eq hd]
  cases e : fileRun seg fs (replaceIncludes seg fs fuel) none (dir.join (Path.parse name)) (SourceFiles.new dir) with
  | mk sf1 r =>
  rw [e] at h
  obtain ⟨h1, h2, h3, h4⟩ := h
  dsimp only at h1 h2 h3 h4
  cases r with
  | ok a => rw [Run.bind_ok e]; exact ⟨h1, h2, fun _ => h3 rfl, fun h => (by cases h)⟩
  | err e' =>
    rw [Run.bind_err e]
    exact ⟨h1, h2, fun h => (by cases h), fun {x p} h => h4 (by cases h; rfl)⟩
  | panic => rw [Run.bind_panic e]; exact ⟨h1, h2, fun h => (by cases h), fun h => (by cases h)⟩
  | loop => rw [Run.bind_loop e]; exact ⟨h1, h2, fun h => (by cases h), fun h => (by cases h)⟩

theorem readTokens_reads {seg : Seg} (hs : AsciiSeg seg) {fs : FS} (hN : NamedFiles fs) {dir : Path} (hd : dir.abs = true) {name : Text}
    (hA : AllPlain seg fs dir (dir.join (Path.parse name))) (h : SourceReads fs dir (dir.join (Path.parse name))) :
    ∃ n, ∀ fuel ≥ n, ∃ sf' out, readTokens seg fs fuel name (SourceFiles.new dir) = (sf', .ok out) := by
  obtain ⟨n, hn⟩ := source_enough hs hN h hA
  refine ⟨n, fun fuel hf => ?_⟩
  obtain ⟨sf', out, e⟩ := hn fuel hf _ (good_new fs dir) _ _ (main_resolves hd name)
  rw [readTokens_eq hd, Run.bind_ok e]
  exact ⟨_, _, rfl⟩

theorem readTokens_stops {seg : Seg} (hs : AsciiSeg seg) {fs : FS} (hN : NamedFiles fs) {dir : Path} (hd : dir.abs = true) {name : Text}
    (hA : AllPlain seg fs dir (dir.join (Path.parse name))) {id x p} (h : SourceFails fs dir id (dir.join (Path.parse name)) x p) :
    ∃ n, ∀ fuel ≥ n, ∃ sf' p', readTokens seg fs fuel name (SourceFiles.new dir) = (sf', .err ⟨x, p'⟩) ∧ (Numbers id sf' → p' = p) := by
  obtain ⟨n, hn⟩ := source_stops hs hN h hA
  refine ⟨n, fun fuel hf => ?_⟩
  obtain ⟨sf', p', e, hp⟩ := hn fuel hf _ (good_new fs dir) _ _ (main_resolves hd name)
  rw [readTokens_eq hd, Run.bind_err e]
  exact ⟨_, _, rfl, hp⟩

end Verif.Located
