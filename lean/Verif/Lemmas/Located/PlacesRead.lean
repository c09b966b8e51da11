import Verif.Lemmas.Located.PlacesAsm
import Verif.Lemmas.Located.EraseRead
import Verif.Lemmas.Files
/-
The places of errors in the reading of files, and the files that places are in.
-/
namespace Verif.Located
open Verif.Spec Verif.Spec.Places

variable {load : Text → Verif.Res Image} {seg : Seg}

/-! ### Positions of tokens -/

theorem clusters_snoc {text rest : Text} {gs : List Text} (h : Clusters seg text gs rest) (hr : rest ≠ []) :
    Clusters seg text (gs ++ [rest.take (seg rest)]) (rest.drop (seg rest)) := by
  induction h with
  | nil => exact .cons hr .nil
  | cons h _ ih => exact .cons h (ih hr)

/-- The input is in the file. -/
def Inside (seg : Seg) (f : SourceFile) (i : Input) : Prop :=
  i.file = f.id ∧ ∃ gs, Clusters seg f.contents gs i.rest ∧ i.done = gs.flatten ∧ i.line = 1 + gs.countP isNewline ∧
    i.column = (gs.reverse.takeWhile fun g => !isNewline g).length

variable {f : SourceFile} {i : Input}

theorem inside_new : Inside seg f (Input.new f.id f.contents) := ⟨rfl, [], .nil, rfl, rfl, rfl⟩

theorem inside_over (h : Inside seg f i) (hr : i.rest ≠ []) :
    Inside seg f (i.over (i.rest.take (seg i.rest)) (i.rest.drop (seg i.rest))) := by
  obtain ⟨h0, gs, h1, h2, h3, h4⟩ := h
  generalize hg : i.rest.take (seg i.rest) = g
  have hc := clusters_snoc h1 hr
  rw [hg] at hc
  unfold Input.over
  split
  next hn =>
    have hn' : isNewline g = true := by
      rcases hn with rfl | rfl <;> rfl
    refine ⟨h0, _, hc, by simp [h2], ?_, ?_⟩
    · simp only [List.countP_append, List.countP_cons, List.countP_nil, hn', if_true, h3]; omega
    · simp [hn']
  next hn =>
    have hn' : isNewline g = false := by
      rw [not_or] at hn
      simp [isNewline, hn.1, hn.2]
    refine ⟨h0, _, hc, by simp [h2], ?_, ?_⟩
    · simp [List.countP_append, hn', h3]
    · simp [hn', h4]

theorem inside_updateLoop (fuel : Nat) : ∀ n i, Inside seg f i → Inside seg f (i.updateLoop seg fuel n) := by
  induction fuel with
  | zero => intro n i h; exact h
  | succ fuel ih =>
    intro n i h
    unfold Input.updateLoop
    split
    · exact h
    next hr =>
      dsimp only
      split
      · exact h
      · exact ih _ _ (inside_over h hr)

theorem inside_update (h : Inside seg f i) (n : Nat) : Inside seg f (i.update seg n) := inside_updateLoop _ _ _ h

theorem inside_blank (h : Inside seg f i) : Inside seg f (skipBlank seg i) := by
  unfold skipBlank
  generalize i.rest.length + 1 = fuel
  induction fuel generalizing i with
  | zero => exact h
  | succ fuel ih =>
    have h1 : Inside seg f (skipComment seg (skipStarComment seg (i.skipWhitespace seg))) := by
      have h2 : Inside seg f (i.skipWhitespace seg) := inside_update h _
      have h3 : Inside seg f (skipStarComment seg (i.skipWhitespace seg)) := by
        unfold skipStarComment; split
        · exact inside_update h2 _
        · exact h2
      unfold skipComment; split
      · exact inside_update h3 _
      · exact h3
    unfold skipBlankLoop
    dsimp only
    split
    · exact ih h1
    · exact h1

theorem inside_cblank {j : Input} (h : Inside seg f i) (hj : skipCBlank seg i = .ok j) : Inside seg f j := by
  unfold skipCBlank at hj
  generalize i.rest.length + 1 = fuel at hj
  induction fuel generalizing i with
  | zero => cases hj; exact h
  | succ fuel ih =>
    unfold skipCBlankLoop at hj
    obtain ⟨k, hk, hj⟩ := Verif.Res.bind_eq_ok.mp hj
    have h1 : Inside seg f (skipLineComment seg (i.skipWhitespace seg)) := by
      have h2 : Inside seg f (i.skipWhitespace seg) := inside_update h _
      unfold skipLineComment; split
      · exact inside_update h2 _
      · exact h2
    have h2 : Inside seg f k := by
      unfold skipBlock at hk
      split at hk
      · obtain ⟨r, _, hk⟩ := Verif.Res.bind_eq_ok.mp hk
        cases hk
        exact inside_update h1 _
      · cases hk; exact h1
    split at hj
    · exact ih h2 hj
    · cases hj; exact h2

/-- The token is in the file. -/
def TokIn (seg : Seg) (files : List SourceFile) (t : Token) : Prop := RangeIn seg files ⟨t.start, t.stop⟩

variable {files : List SourceFile}

theorem inside_location (hf : files[f.id]? = some f) (h : Inside seg f i) : InFile seg files i.location := by
  obtain ⟨h0, gs, h1, h2, h3, h4⟩ := h
  refine ⟨f, gs, i.rest, ?_, h1, ?_, h3, h4⟩
  · show files[i.file]? = _; rw [h0]; exact hf
  · show byteLen i.done = _; rw [h2]

theorem tok_location {j : Input} (hf : files[f.id]? = some f) (h : Inside seg f i) (h' : Inside seg f j) (k : Tok) :
    TokIn seg files ⟨k, i.location, j.location⟩ :=
  ⟨inside_location hf h, inside_location hf h', h.1.trans h'.1.symm⟩

/-- The conversion of the matcher does not fail with an error. -/
def Clean (m : Matcher) : Prop := ∀ t w c, m t = some (w, c) → NoErr c

theorem noErr_ok {α : Type} (a : α) : NoErr (.ok a : Verif.Res α) := by intro e h; cases h

theorem clean_fixed (s : Text) (k : Tok) : Clean (fixed s k) := by
  intro t w c h
  unfold fixed at h
  split at h <;> cases h
  exact noErr_ok _

theorem clean_map {o : Option Text} {g : Text → Text × Verif.Res Tok} (hg : ∀ x, NoErr (g x).2) {w : Text} {c : Verif.Res Tok}
    (h : o.map g = some (w, c)) : NoErr c := by
  obtain ⟨x, _, hx⟩ := Option.map_eq_some_iff.mp h
  have := hg x
  rw [hx] at this
  exact this

theorem clean_number (ps : List Text) (base : Nat) (radix : Radix) : Clean (numberMatcher ps base radix) := by
  intro t w c h
  unfold numberMatcher at h
  split at h
  · refine clean_map (fun x => ?_) h
    unfold toNumber
    intro e he
    dsimp only at he
    split at he <;> cases he
  · cases h

theorem clean_matchers : ∀ m ∈ matchers, Clean m := by
  have h1 : Clean macroIdentMatcher := by
    intro t w c h
    unfold macroIdentMatcher at h
    split at h
    · exact clean_map (fun _ => noErr_ok _) h
    · cases h
  have h2 : Clean macroLabelMatcher := by
    intro t w c h
    unfold macroLabelMatcher at h
    split at h
    · split at h <;> cases h
      exact noErr_ok _
    · cases h
  have h3 : Clean stringMatcher := by
    intro t w c h
    unfold stringMatcher at h
    split at h
    · exact clean_map (fun _ => noErr_ok _) h
    · cases h
  have h4 : Clean nameMatcher := by
    intro t w c h
    exact clean_map (fun _ => noErr_ok _) h
  unfold matchers
  repeat (refine List.forall_mem_cons.mpr ⟨by first | exact clean_fixed _ _ | exact clean_number _ _ _ | assumption, ?_⟩)
  intro m hm
  cases hm

theorem matchToken_noErr {t w : Text} {c : Verif.Res Tok} (h : matchToken t = some (w, c)) : NoErr c := by
  obtain ⟨m, hm, h⟩ := List.exists_of_findSome?_eq_some h
  exact clean_matchers m hm _ _ _ h

theorem lexLoop_in (hf : files[f.id]? = some f) {skipWs : Input → Verif.Res Input} (he : ∀ i, NoErr (skipWs i))
    (hw : ∀ i j, Inside seg f i → skipWs i = .ok j → Inside seg f j) (fuel : Nat) :
    ∀ i, Inside seg f i → (∀ toks, lexLoop seg skipWs fuel i = .ok toks → ∀ t ∈ toks, TokIn seg files t) ∧
      ∀ e, lexLoop seg skipWs fuel i = .err e → ∃ j, Inside seg f j ∧ e = .unexpectedChar j.pos j.line j.column := by
  induction fuel with
  | zero => intro i _; exact ⟨fun _ h => (by cases h), fun _ h => (by cases h)⟩
  | succ fuel ih =>
    intro i hi
    have hread : NoErr (readToken seg skipWs i) ∧ ∀ j t, readToken seg skipWs i = .ok (some (j, t)) →
        Inside seg f j ∧ TokIn seg files t := by
      unfold readToken
      constructor
      · refine NoErr.bind (he i) fun j => ?_
        split
        · exact noErr_ok _
        · split
          · exact noErr_ok _
          next w c hm => exact NoErr.bind (matchToken_noErr hm) fun k => noErr_ok _
      · intro j t h
        obtain ⟨i', hi', h⟩ := Verif.Res.bind_eq_ok.mp h
        have hin := hw i i' hi hi'
        split at h
        · cases h
          exact ⟨hin, tok_location hf hin hin _⟩
        · split at h
          · cases h
          · obtain ⟨k, _, h⟩ := Verif.Res.bind_eq_ok.mp h
            cases h
            exact ⟨inside_update hin _, tok_location hf hin (inside_update hin _) _⟩
    obtain ⟨hne, hok⟩ := hread
    unfold lexLoop
    constructor
    · intro toks h
      obtain ⟨r, hr, h⟩ := Verif.Res.bind_eq_ok.mp h
      split at h
      · cases h
      next j t =>
        obtain ⟨h1, h2⟩ := hok j t hr
        split at h
        · cases h
          intro x hx
          cases List.mem_singleton.mp hx
          exact tok_location hf hi hi _
        · obtain ⟨rest, hrest, h⟩ := Verif.Res.bind_eq_ok.mp h
          cases h
          exact List.forall_mem_cons.mpr ⟨h2, (ih j h1).1 rest hrest⟩
    · intro e h
      rcases Verif.Res.bind_eq_err.mp h with h | ⟨r, hr, h⟩
      · exact absurd h (hne e)
      · split at h
        · cases h
          exact ⟨i, hi, rfl⟩
        next j t =>
          split at h
          · cases h
          · rcases Verif.Res.bind_eq_err.mp h with h | ⟨_, _, h⟩
            · exact (ih j (hok j t hr).1).2 e h
            · cases h

theorem noErr_blockRest : ∀ t, NoErr (blockRest t)
  | [] => noErr_ok _
  | c :: cs => by
    unfold blockRest
    split
    · exact noErr_ok _
    · exact noErr_ok _
    next a as _ hc =>
      cases hc
      split
      · intro e h; cases h
      · exact NoErr.bind (noErr_blockRest cs) fun _ => noErr_ok _

theorem noErr_cblank (i : Input) : NoErr (skipCBlank seg i) := by
  unfold skipCBlank
  generalize i.rest.length + 1 = fuel
  induction fuel generalizing i with
  | zero => exact noErr_ok _
  | succ fuel ih =>
    unfold skipCBlankLoop
    refine NoErr.bind ?_ fun j => ?_
    · unfold skipBlock
      split
      · exact NoErr.bind (noErr_blockRest _) fun _ => noErr_ok _
      · exact noErr_ok _
    · split
      · exact ih j
      · exact noErr_ok _

/-- The tokens of a file are in it, and so is an unexpected character. -/
theorem fileTokens_in (hf : files[f.id]? = some f) {toks : List Token} (h : FileTokens seg f toks) :
    ∀ t ∈ toks, TokIn seg files t := by
  rcases h with h | h
  · exact (lexLoop_in hf (fun i => noErr_ok _) (fun i j hi hj => by cases hj; exact inside_blank hi) _ _ inside_new).1 _ h
  · exact (lexLoop_in hf noErr_cblank (fun i j hi hj => inside_cblank hi hj) _ _ inside_new).1 _ h

theorem lexError_in (hf : files[f.id]? = some f) {e : Err}
    (h : Verif.lexInput seg (Input.new f.id f.contents) = .err e ∨
      lexForWs seg (skipCBlank seg) (Input.new f.id f.contents) = .err e) :
    ∃ pos line column, e = .unexpectedChar pos line column ∧ InFile seg files ⟨f.id, pos, line, column⟩ := by
  obtain ⟨j, hj, rfl⟩ : ∃ j, Inside seg f j ∧ e = .unexpectedChar j.pos j.line j.column := by
    rcases h with h | h
    · exact (lexLoop_in hf (fun i => noErr_ok _) (fun i j hi hj => by cases hj; exact inside_blank hi) _ _ inside_new).2 _ h
    · exact (lexLoop_in hf noErr_cblank (fun i j hi hj => inside_cblank hi hj) _ _ inside_new).2 _ h
  refine ⟨_, _, _, rfl, ?_⟩
  have := inside_location hf hj
  unfold Input.location at this
  rw [hj.1] at this
  exact this

/-! ### Places of a program whose tokens are in files -/

variable {all : List Token}

theorem covers_in (hall : ∀ t ∈ all, TokIn seg files t) {l w : List Token} {r : Range} (hl : IsLine all l) (hw : w <:+: l)
    (h : Covers w r) : RangeIn seg files r := by
  obtain ⟨a, b, ha, hb, rfl⟩ := h
  have ha' : a ∈ l := hw.subset (List.mem_of_head? ha)
  have hb' : b ∈ l := hw.subset (List.mem_of_getLast? hb)
  have h1 := hall a (isLine_mem hl ha')
  have h2 := hall b (isLine_mem hl hb')
  refine ⟨h1.1, h2.2.1, ?_⟩
  obtain ⟨ls, hs, hm⟩ := hl
  have key : ∀ x ∈ l, ∀ y ∈ l, x.start.file = y.stop.file := by
    have hsame : ∃ k, ∀ x ∈ l, x.start.file = k := by
      clear h1 h2 ha hb ha' hb' hw
      induction hs with
      | nil => cases hm
      | @cons t l' rest ls h1 h2 hs ih =>
        rcases List.mem_cons.mp hm with rfl | hm
        · refine ⟨t.stop.file, fun x hx => ?_⟩
          rcases List.mem_cons.mp hx with rfl | hx
          · exact (hall x (by simp)).2.2
          · exact (h1 x hx).2
        · exact ih (fun t ht => hall t (by simp [ht])) hm
    obtain ⟨k, hk⟩ := hsame
    intro x hx y hy
    have hy' : y ∈ all := by
      rw [← splits_flatten hs]; exact List.mem_flatten.mpr ⟨l, hm, hy⟩
    rw [hk x hx, ← (hall y hy').2.2, hk y hy]
  exact key a ha' b hb'

theorem callOn_in (hall : ∀ t ∈ all, TokIn seg files t) {n : Text} {l : List Token} {r : Range} (h : CallOn all n l r) :
    RangeIn seg files r := by
  obtain ⟨hl, t, w, hw, _, hc⟩ := h
  exact covers_in hall hl hw hc

theorem expanded_in (hall : ∀ t ∈ all, TokIn seg files t) {n : Text} {rs : List Range} (h : Expanded all n rs) :
    ∀ r ∈ rs, RangeIn seg files r := by
  induction h with
  | call h => intro r hr; cases List.mem_singleton.mp hr; exact callOn_in hall h
  | nested h _ _ ih => exact List.forall_mem_cons.mpr ⟨callOn_in hall h, ih⟩

theorem trace_in (hall : ∀ t ∈ all, TokIn seg files t) {l : List Token} {rs : List Range} (h : Trace all l rs) :
    ∀ r ∈ rs, RangeIn seg files r := by
  rcases h with rfl | ⟨n, h, _⟩
  · intro r hr; cases hr
  · exact expanded_in hall h

theorem shown_in (hall : ∀ t ∈ all, TokIn seg files t) {w : List Token} {s : Span} (h : Shown all w s) :
    Places.SpanIn seg files s := by
  obtain ⟨l, hl, hw, hc, ht⟩ := h
  exact ⟨covers_in hall hl hw hc, trace_in hall ht⟩

theorem shownExpr_in (hall : ∀ t ∈ all, TokIn seg files t) {e : Verif.Expr} {s : Span} (h : ShownExpr all e s) :
    Places.SpanIn seg files s := by
  obtain ⟨l, w, hl, hw, hc, ht⟩ := h
  obtain ⟨w', hw', hc⟩ := hc.covers
  exact ⟨covers_in hall hl (hw'.trans hw) hc, trace_in hall ht⟩

theorem blames_in (hall : ∀ t ∈ all, TokIn seg files t) (h0 : files ≠ []) {e : Err} {p : Place} (h : Blames all load e p) :
    PlaceIn seg files p := by
  have h00 : Places.SpanIn seg files .default := by
    obtain ⟨f, fs, rfl⟩ := List.exists_cons_of_ne_nil h0
    have : InFile seg (f :: fs) (Span.default).start := ⟨f, [], f.contents, rfl, .nil, rfl, rfl, rfl⟩
    exact ⟨⟨this, this, rfl⟩, fun r hr => by cases hr⟩
  have param : ∀ {t : Token} {s : Span} {r : Range} {rs : List Range}, ShownToken all t ⟨s.start, s.stop, []⟩ →
      s.parents = r :: rs → Places.SpanIn seg files ⟨r.start, r.stop, rs⟩ → Places.SpanIn seg files s := by
    intro t s r rs h1 h2 h3
    refine ⟨(shown_in hall h1).1, ?_⟩
    rw [h2]
    exact List.forall_mem_cons.mpr ⟨h3.1, h3.2⟩
  cases h with
  | nowhere | image => trivial
  | frames | frameSize => exact h00
  | immediateNotAllowed h1 _ h2 h3 => exact param h1 h2 (shownExpr_in hall h3.choose_spec)
  | indirectionNotAllowed h1 _ h2 h3 => exact param h1 h2 (shown_in hall h3)
  | nameAlreadyExists h1 h2 =>
    obtain ⟨_, _, ⟨_, h1⟩, _⟩ := h1
    obtain ⟨_, _, ⟨_, h2⟩, _⟩ := h2
    exact ⟨shown_in hall h1, shown_in hall h2⟩
  | macroAlreadyExists h1 _ h2 => exact ⟨shown_in hall h1, shown_in hall h2⟩
  | invalidExpression h => exact (hall _ h).1
  | misfit _ h => exact shownExpr_in hall h
  | _ h => first | exact shown_in hall h | exact shownExpr_in hall h | (obtain ⟨_, h⟩ := h; exact shown_in hall h)

/-! ### Reading files -/

/-- More files have been loaded. -/
structure Grows (sf sf' : SourceFiles) : Prop where
  ok : FilesOk sf'
  more : ∃ more, sf'.files = sf.files ++ more

theorem Grows.trans {a b c : SourceFiles} (h : Grows a b) (h' : Grows b c) : Grows a c := by
  obtain ⟨_, x, hx⟩ := h
  obtain ⟨ho, y, hy⟩ := h'
  exact ⟨ho, x ++ y, by rw [hy, hx, List.append_assoc]⟩

theorem Grows.refl {sf : SourceFiles} (h : FilesOk sf) : Grows sf sf := ⟨h, [], by simp⟩

theorem Grows.mem {a b : SourceFiles} (h : Grows a b) {f : SourceFile} (hf : f ∈ a.files) : f ∈ b.files := by
  obtain ⟨_, x, hx⟩ := h
  simp [hx, hf]

theorem inFile_grows {a b : SourceFiles} (h : Grows a b) {l : Loc} (hl : InFile seg a.files l) : InFile seg b.files l := by
  obtain ⟨_, x, hx⟩ := h
  obtain ⟨f, gs, rest, h1, h2⟩ := hl
  refine ⟨f, gs, rest, ?_, h2⟩
  rw [hx, List.getElem?_append_left]
  · exact h1
  · exact (List.getElem?_eq_some_iff.mp h1).1

theorem tokIn_grows {a b : SourceFiles} (h : Grows a b) {t : Token} (ht : TokIn seg a.files t) : TokIn seg b.files t :=
  ⟨inFile_grows h ht.1, inFile_grows h ht.2.1, ht.2.2⟩

/-- The error is in the text of a loaded file, or in the syntax of its lines. -/
def FileError (load : Text → Verif.Res Image) (seg : Seg) (sf : SourceFiles) (e : Err) (p : Place) : Prop :=
  Placeless e ∧ p = .nowhere ∨ ∃ f ∈ sf.files, BadCharacter seg f e p ∨ ∃ all, FileTokens seg f all ∧ Blames all load e p

/-- The run loads files, fails only with errors of this kind, and its result has the property. -/
def Run.All {α : Type} (x : Run α) (E : SourceFiles → Err → Place → Prop) (P : SourceFiles → α → Prop) (sf : SourceFiles) : Prop :=
  Grows sf (x sf).1 ∧ (x sf).2.All (E (x sf).1) (P (x sf).1)

namespace Run.All
variable {α β : Type} {E : SourceFiles → Err → Place → Prop} {P : SourceFiles → α → Prop} {Q : SourceFiles → β → Prop}
  {sf : SourceFiles}

theorem bind {x : Run α} {k : α → Run β} (h : x.All E P sf)
    (hk : ∀ a sf', Grows sf sf' → P sf' a → (k a).All E Q sf') : (x >>= k).All E Q sf := by
  rw [Run.All, Run.bind_def]
  unfold Run.bind
  unfold Run.All at h
  generalize x sf = y at h ⊢
  obtain ⟨sf', r⟩ := y
  obtain ⟨h1, h2⟩ := h
  cases r with
  | ok a =>
    obtain ⟨h3, h4⟩ := hk a sf' h1 h2
    exact ⟨h1.trans h3, h4⟩
  | err e => exact ⟨h1, h2⟩
  | panic => exact ⟨h1, trivial⟩
  | loop => exact ⟨h1, trivial⟩

theorem of {r : Res α} (hs : FilesOk sf) (h : r.All (E sf) (P sf)) : (Run.of r).All E P sf := ⟨.refl hs, h⟩

end Run.All

theorem getFile {sf : SourceFiles} (h : FilesOk sf) {f : SourceFile} (hf : f ∈ sf.files) : sf.files[f.id]? = some f := by
  obtain ⟨k, hk⟩ := List.mem_iff_getElem?.mp hf
  rw [h.ids k f hk]
  exact hk

variable {fs : FS} {sf : SourceFiles}

theorem pathOf_all (h : FilesOk sf) {root : Option Path} {filename : Path} {E : SourceFiles → Err → Place → Prop} :
    (pathOf fs root filename).All E (fun _ _ => True) sf :=
  ⟨.refl h, (path_noErr _ _ _ _).silent⟩

theorem load_all (h : FilesOk sf) {root : Option Path} {filename : Path} :
    (Located.load fs root filename).All (FileError load seg) (fun sf f => f ∈ sf.files) sf := by
  unfold Run.All Located.load
  cases hl : sf.load fs root filename with
  | ok x =>
    obtain ⟨f, sf'⟩ := x
    obtain ⟨h1, _, h2, h3⟩ := h.load hl
    exact ⟨⟨h1, h3⟩, h2⟩
  | panic => exact ⟨.refl h, trivial⟩
  | loop => exact ⟨.refl h, trivial⟩
  | err e =>
    refine ⟨.refl h, .inl ⟨?_, rfl⟩⟩
    unfold SourceFiles.load at hl
    rcases Verif.Res.bind_eq_err.mp hl with hl | ⟨p, _, hl⟩
    · exact absurd hl (path_noErr _ _ _ _ e)
    · split at hl
      · split at hl <;> cases hl
      · rcases Verif.Res.bind_eq_err.mp hl with hl | ⟨_, _, hl⟩
        · unfold loadFile at hl
          rcases Verif.Res.bind_eq_err.mp hl with hl | ⟨_, _, hl⟩
          · unfold loadBytes at hl
            split at hl <;> cases hl
            exact .load
          · split at hl <;> cases hl
            exact .utf8
        · cases hl

/-- Lexing a file -/
theorem lexed_all (h : FilesOk sf) (hf : f ∈ sf.files) {r : Verif.Res (List Token)}
    (hr : r = Verif.lexInput seg (Input.new f.id f.contents) ∨
      r = lexForWs seg (skipCBlank seg) (Input.new f.id f.contents)) :
    (lexed f.id r).All (FileError load seg sf) (FileTokens seg f) := by
  cases r with
  | ok toks => exact hr.imp Eq.symm Eq.symm
  | panic => trivial
  | loop => trivial
  | err e =>
    have h1 : Verif.lexInput seg (Input.new f.id f.contents) = .err e ∨
        lexForWs seg (skipCBlank seg) (Input.new f.id f.contents) = .err e := hr.imp Eq.symm Eq.symm
    obtain ⟨pos, line, column, rfl, _⟩ := lexError_in (getFile h hf) h1
    exact .inr ⟨f, hf, .inl ⟨pos, line, column, rfl, rfl, h1⟩⟩

theorem fileError_of {all : List Token} (hf : f ∈ sf.files) (ht : FileTokens seg f all) {α : Type} {r : Res α} {P : α → Prop}
    (h : r.All (Blames all load) P) : r.All (FileError load seg sf) P := by
  cases r with
  | ok a => exact h
  | err e => exact .inr ⟨f, hf, .inr ⟨all, ht, h⟩⟩
  | panic => trivial
  | loop => trivial

theorem isLine_lines {l : List Token} (h : l ∈ lines all) : IsLine all l := ⟨_, lines_splits all, h⟩

theorem headerLine_places {l : List Token} (hl : IsLine all l) :
    (headerLine l).All (Blames all load) fun _ => True := by
  unfold headerLine
  split
  next hash define rest =>
    refine .ite (fun _ => ?_) fun _ => trivial
    refine .bind (readName_all hl (suffix_drop (w := [hash, define]) (List.suffix_refl _))) fun ⟨_, ts⟩ ⟨t, ht, _⟩ => ?_
    dsimp only at ht ⊢
    refine .bind (parseExpr_places hl (ts := ts) ⟨[hash, define, t], by simp [ht]⟩) fun _ _ => ?_
    split <;> trivial
  next => trivial

theorem headerLine_in (hall : ∀ t ∈ all, TokIn seg files t) {l out : List Token} (hl : IsLine all l) (h : headerLine l = .ok out) :
    ∀ t ∈ out, TokIn seg files t := by
  have hm : ∀ t ∈ l, TokIn seg files t := fun t ht => hall t (isLine_mem hl ht)
  unfold headerLine at h
  split at h
  next hash define rest =>
    split at h
    · cases hn : readName rest with
      | ok x =>
        rw [hn] at h
        cases he : parseExpr x.2 with
        | ok y =>
          simp only [Res.ok_bind, he] at h
          split at h
          next name more =>
            cases h
            have hr : RangeIn seg files ⟨hash.start, define.stop⟩ :=
              covers_in hall hl (w := [hash, define]) ⟨[], name :: more, by simp⟩ ⟨hash, define, rfl, rfl, rfl⟩
            intro t ht
            simp only [List.mem_cons] at ht hm
            rcases ht with rfl | rfl | ht
            · exact hm _ (by simp)
            · exact hr
            · exact hm t (by simp [ht])
          · cases h
        | err e => simp only [Res.ok_bind, he] at h; cases h
        | panic => simp only [Res.ok_bind, he] at h; cases h
        | loop => simp only [Res.ok_bind, he] at h; cases h
      | err e => rw [hn] at h; cases h
      | panic => rw [hn] at h; cases h
      | loop => rw [hn] at h; cases h
    · cases h; exact hm
  · cases h; exact hm

theorem headerLines_places (hall : ∀ t ∈ all, TokIn seg files t) {ls : List (List Token)} (h : ∀ l ∈ ls, IsLine all l) :
    (headerLines ls).All (Blames all load) fun out => ∀ t ∈ out, TokIn seg files t := by
  induction ls with
  | nil => intro t ht; cases ht
  | cons l ls ih =>
    have hl := h l (by simp)
    refine .bind ((headerLine_places hl).and fun a ha => headerLine_in hall hl ha) fun a ⟨_, ha⟩ => ?_
    refine .bind (ih fun l hl => h l (by simp [hl])) fun b hb => ?_
    intro t ht
    rcases List.mem_append.mp ht with ht | ht
    · exact ha t ht
    · exact hb t ht

/-- The tokens are in loaded files. -/
def ToksIn (seg : Seg) (sf : SourceFiles) (toks : List Token) : Prop := ∀ t ∈ toks, TokIn seg sf.files t

theorem lexInput_all (h : FilesOk sf) (hf : f ∈ sf.files) :
    (Run.of (Located.lexInput seg (Input.new f.id f.contents))).All (FileError load seg)
      (fun _ toks => FileTokens seg f toks) sf :=
  .of h (lexed_all h hf (.inl rfl))

theorem lexHeader_all (h : FilesOk sf) (hf : f ∈ sf.files) :
    (Run.of (Located.lexHeader seg (Input.new f.id f.contents))).All (FileError load seg) (ToksIn seg) sf := by
  refine .of h ?_
  unfold Located.lexHeader
  refine .bind (lexed_all h hf (.inr rfl)) fun raw hraw => ?_
  exact fileError_of hf hraw (headerLines_places (fileTokens_in (getFile h hf) hraw) fun l hl => isLine_lines hl)

theorem fixPath_in {old new : Text} {t : Token} (h : TokIn seg files t) : TokIn seg files (fixPath old new t) := by
  unfold fixPath
  split
  · exact h
  · exact h

theorem includeLine_places {go : Path → List Token → Run (List Token)} {filename : Path} {l : List Token}
    (hgo : ∀ {sf p toks f}, FilesOk sf → f ∈ sf.files → FileTokens seg f toks → (go p toks).All (FileError load seg) (ToksIn seg) sf)
    (h : FilesOk sf) (hf : f ∈ sf.files) (ht : FileTokens seg f all) (hl : IsLine all l) :
    (includeLine seg fs go filename l).All (FileError load seg) (ToksIn seg) sf := by
  have hin : ToksIn seg sf l := fun t hm => fileTokens_in (getFile h hf) ht t (isLine_mem hl hm)
  have hd := parseDirective_places (load := load) hl (List.suffix_refl l)
  unfold includeLine
  split
  next sp typ name rest hp =>
    rw [hp] at hd
    have hrest : rest <:+ l := (hd _ rfl).2
    refine .bind (pathOf_all h) fun path sf1 g1 _ => ?_
    split
    · refine .bind (load_all g1.ok) fun file sf2 g2 hfile => ?_
      refine .bind (lexInput_all g2.ok hfile) fun toks sf3 g3 htoks => ?_
      refine .bind (hgo g3.ok (g3.mem hfile) htoks) fun out sf4 g4 hout => ?_
      split
      · exact .of g4.ok hout
      · exact .of g4.ok (fileError_of (g4.mem (g3.mem (g2.mem (g1.mem hf)))) ht (unexpectedToken_all hl hrest))
    · refine .bind (load_all g1.ok) fun file sf2 g2 hfile => ?_
      exact lexHeader_all g2.ok hfile
    · refine .of g1.ok ?_
      intro t hm
      obtain ⟨t', ht', rfl⟩ := List.mem_map.mp hm
      exact fixPath_in (tokIn_grows g1 (hin t' ht'))
  · exact .of h trivial
  · exact .of h trivial
  · exact .of h hin

theorem includeLines_places {step : List Token → Run (List Token)} (hs : ∀ {sf l}, FilesOk sf → f ∈ sf.files → IsLine all l →
      (step l).All (FileError load seg) (ToksIn seg) sf) {ls : List (List Token)} (hls : ∀ l ∈ ls, IsLine all l) :
    ∀ {sf}, FilesOk sf → f ∈ sf.files → (includeLines step ls).All (FileError load seg) (ToksIn seg) sf := by
  induction ls with
  | nil => intro sf h hf; exact .of h fun t ht => by cases ht
  | cons l ls ih =>
    intro sf h hf
    refine .bind (hs h hf (hls l (by simp))) fun a sf1 g1 ha => ?_
    refine .bind (ih (fun l hl => hls l (by simp [hl])) g1.ok (g1.mem hf)) fun b sf2 g2 hb => ?_
    refine .of g2.ok ?_
    intro t ht
    rcases List.mem_append.mp ht with ht | ht
    · exact tokIn_grows g2 (ha t ht)
    · exact hb t ht

theorem replaceIncludes_places (fuel : Nat) : ∀ {sf p toks f}, FilesOk sf → f ∈ sf.files → FileTokens seg f toks →
    (replaceIncludes seg fs fuel p toks).All (FileError load seg) (ToksIn seg) sf := by
  induction fuel with
  | zero => intro sf p toks f h _ _; exact .of h trivial
  | succ fuel ih =>
    intro sf p toks f h hf ht
    exact includeLines_places (all := toks) (f := f) (fun h hf hl => includeLine_places ih h hf ht hl)
      (fun l hl => isLine_lines hl) h hf

theorem readTokens_places {fuel : Nat} {name : Text} (h : FilesOk sf) :
    (readTokens seg fs fuel name).All (FileError load seg) (fun sf x => ToksIn seg sf x.1 ∧ sf.files ≠ []) sf := by
  unfold readTokens
  refine .bind (pathOf_all h) fun path sf1 g1 _ => ?_
  refine .bind (load_all g1.ok) fun file sf2 g2 hfile => ?_
  refine .bind (lexInput_all g2.ok hfile) fun toks sf3 g3 htoks => ?_
  refine .bind (replaceIncludes_places fuel g3.ok (g3.mem hfile) htoks) fun toks sf4 g4 htoks => ?_
  exact .of g4.ok ⟨htoks, List.ne_nil_of_mem (g4.mem (g3.mem hfile))⟩

theorem fileError_in (h : FilesOk sf) {e : Err} {p : Place} (hp : FileError load seg sf e p) : PlaceIn seg sf.files p := by
  rcases hp with ⟨_, rfl⟩ | ⟨f, hf, ⟨_, _, _, rfl, rfl, h1⟩ | ⟨all, h1, h2⟩⟩
  · trivial
  · obtain ⟨_, _, _, h2, h3⟩ := lexError_in (getFile h hf) h1
    cases h2
    exact h3
  · exact blames_in (fileTokens_in (getFile h hf) h1) (List.ne_nil_of_mem hf) h2

/-- The tokens of the whole program -/
theorem program_places {m : Mode} {order : List Color → List Color} {uuid : Nat → Text} {macroFuel : Nat} {path : Path} :
    (do
      let program ← parse all
      let stmts ← replaceData (includeData m order load fs path sf) program.stmts
      let program ← expandMacros uuid macroFuel { program with stmts := stmts }
      assemble m program.stmts).All (Blames all load) fun _ => True := by
  refine .bind (parse_places (load := load) all) fun p ⟨hm, hs⟩ => ?_
  refine .bind (replaceData_places (fun s hs => includeData_places hs) hs) fun stmts hs => ?_
  exact .bind (expandMacros_places hm hs) fun q hq => assemble_places hq

theorem assembleFile_places {m : Mode} {order : List Color → List Color} {uuid : Nat → Text} {fuel macroFuel : Nat}
    {name : Text} (h : FilesOk sf) {sf' : SourceFiles} {e : Err} {p : Place}
    (hr : assembleFile m seg order load uuid fs fuel macroFuel name sf = (sf', .err ⟨e, p⟩)) :
    FilesOk sf' ∧ (FileError load seg sf' e p ∨ ∃ all path, readTokens seg fs fuel name sf = (sf', .ok (all, path)) ∧
      ToksIn seg sf' all ∧ sf'.files ≠ [] ∧ Blames all load e p) := by
  have h1 := readTokens_places (load := load) (seg := seg) (fs := fs) (fuel := fuel) (name := name) h
  unfold assembleFile readStatements at hr
  simp only [Run.bind_def, Run.bind, Run.of] at hr
  unfold Run.All at h1
  generalize readTokens seg fs fuel name sf = x at hr h1
  obtain ⟨sf1, r⟩ := x
  cases r with
  | panic => cases hr
  | loop => cases hr
  | err x => cases hr; exact ⟨h1.1.ok, .inl h1.2⟩
  | ok x =>
    obtain ⟨all, path⟩ := x
    obtain ⟨h1, h2, h3⟩ := h1
    have h4 := program_places (all := all) (load := load) (m := m) (order := order) (uuid := uuid) (macroFuel := macroFuel)
      (fs := fs) (sf := sf1) (path := path)
    dsimp only at hr h1 h2 h3
    cases hp : parse all with
    | panic => rw [hp] at hr; cases hr
    | loop => rw [hp] at hr; cases hr
    | err x => rw [hp] at hr h4; cases hr; exact ⟨h1.ok, .inr ⟨all, path, rfl, h2, h3, h4⟩⟩
    | ok program =>
      simp only [hp, Res.ok_bind, Run.bind_def, Run.bind, replaceByteIncludes] at hr h4
      cases hd : replaceData (includeData m order load fs path sf1) program.stmts with
      | panic => rw [hd] at hr; cases hr
      | loop => rw [hd] at hr; cases hr
      | err x => rw [hd] at hr h4; cases hr; exact ⟨h1.ok, .inr ⟨all, path, rfl, h2, h3, h4⟩⟩
      | ok stmts =>
        simp only [hd, Res.ok_bind] at hr h4
        injection hr with hr1 hr2
        subst hr1
        rw [hr2] at h4
        exact ⟨h1.ok, .inr ⟨all, path, rfl, h2, h3, h4⟩⟩

end Verif.Located
