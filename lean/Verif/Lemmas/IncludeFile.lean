import Verif.Lemmas.Inserted
import Verif.Lemmas.IncludeData
/-
Reading a program from files.
-/
namespace Verif
open Spec

/-- The lines of one file are separate. -/
theorem separate_own {p : Path} {T : List Token} {L : List (List Token)} (h : SplitsInto T L)
    (hf : ∀ t ∈ T, ∀ u ∈ T, t.start.file = u.stop.file) : Separate (L.map (lineMark p)) := by
  induction h with
  | nil => intro a x b y c e; simp at e
  | @cons t l rest ls h1 h2 h3 ih =>
    intro a x b y c e hy hb
    have hends : ∀ z ∈ ((t :: l) :: ls).map (lineMark p), z.ends = false := by
      intro z hz
      obtain ⟨l', -, rfl⟩ := List.mem_map.mp hz
      cases l' <;> rfl
    cases b with
    | cons z b =>
      have := hends z (by rw [e]; simp)
      rw [hb z List.mem_cons_self] at this
      cases this
    | nil =>
      cases a with
      | nil =>
        rw [List.map_cons, List.nil_append] at e
        injection e with e1 e2
        subst e1
        cases h3 with
        | nil => cases e2
        | @cons t' l' rest' ls' g1 g2 g3 =>
          obtain ⟨e2, e3⟩ := List.cons.inj (show lineMark p (t' :: l') :: ls'.map (lineMark p) = y :: c from e2)
          subst e2
          rintro ⟨-, hl⟩
          refine h2 t' (l' ++ rest') rfl ⟨hl.symm, ?_⟩
          exact hf t' (by simp) t (by simp)
      | cons m a =>
        rw [List.map_cons, List.cons_append, List.cons_append] at e
        injection e with e1 e2
        exact ih (fun t ht u hu => hf t (by simp [ht]) u (by simp [hu])) a x [] y c e2 hy hb

theorem clexes_files {f : Nat} {before text : Text} {T : List Token} (h : CLexesTo f before text T) :
    ∀ t ∈ T, t.start.file = f ∧ t.stop.file = f := by
  induction h with
  | done => intro t ht; rw [List.mem_singleton.mp ht]; exact ⟨rfl, rfl⟩
  | token _ _ _ ih =>
    intro t ht
    rcases List.mem_cons.mp ht with rfl | ht
    · exact ⟨rfl, rfl⟩
    · exact ih t ht

/-- Reading a header gives its rewritten lines. -/
theorem header_undec {seg : Seg} (hs : AsciiSeg seg) {t : Text} (ha : Ascii t) {e : Token} {L : List (List Token)}
    {ls : List (List Tok)} (h1 : CLexesTo 0 [] t (L.flatten ++ [e])) (h2 : SplitsInto L.flatten L)
    (h3 : EachLine HeaderLine (kindsOf L) ls) (f : Nat) :
    ∃ toks, lexHeader seg (Input.new f t) = .ok toks ∧ Undec (kindsOf (lines toks)) ls := by
  let p : Path := ⟨true, []⟩
  let mk : Nat → SourceFile := fun i => ⟨i, ⟨true, List.replicate i []⟩, []⟩
  let sf : SourceFiles := ⟨p, (List.range (f + 1)).map mk⟩
  have hget : ∀ (j : Nat) g, sf.files[j]? = some g → g = mk j ∧ j < f + 1 := by
    intro j g hg
    simp only [sf, List.getElem?_map] at hg
    by_cases hj : j < f + 1
    · rw [List.getElem?_range hj] at hg
      exact ⟨(Option.some.inj hg).symm, hj⟩
    · rw [List.getElem?_eq_none (by simp; omega)] at hg
      cases hg
  have hok : FilesOk sf := by
    refine ⟨fun j g hg => ?_, fun j k g g' hg hg' hn => ?_⟩
    · rw [(hget j g hg).1]
    · rw [(hget j g hg).1, (hget k g' hg').1] at hn
      have := congrArg (fun q : Path => q.comps.length) hn
      simpa [mk] using this
  have hi : IdOf sf (mk f).name f := ⟨mk f, List.mem_map.mpr ⟨f, List.mem_range.mpr (by omega), rfl⟩, rfl, rfl⟩
  obtain ⟨toks, e1, e2⟩ := header_text hs ha h1 h2 h3 hi
  refine ⟨toks, e1, shows_lines e2 hok (separate_snoc (separate_own h2 ?_) rfl)⟩
  intro t ht u hu
  rw [(clexes_files h1 t (List.mem_append_left _ ht)).1, (clexes_files h1 u (List.mem_append_left _ hu)).2]

theorem lineSyntax_head {l : List Tok} {ss : List Stmt} (h : LineSyntax l ss) : ∀ t ∈ l.head?, ∃ n, t = .name n := by
  intro t ht
  cases h with
  | empty => cases ht
  | label => cases ht; exact ⟨_, rfl⟩
  | labelled => cases ht; exact ⟨_, rfl⟩
  | localLabel => cases ht; exact ⟨_, rfl⟩
  | instr hi => cases hi <;> (cases ht; exact ⟨_, rfl⟩)
  | directive hd => cases hd <;> (cases ht; exact ⟨_, rfl⟩)
  | alias => cases ht; exact ⟨_, rfl⟩
  | «variable» => cases ht; exact ⟨_, rfl⟩

theorem headerStmts_line {l : List Tok} {ss : List Stmt} (h : HeaderStmts l ss) : ∃ l', HeaderLine l l' ∧ LineSyntax l' ss := by
  cases h with
  | @define n w e hn he =>
    have := HeaderLine.define (n := n) (rest := []) he (by intro t ts lv f e; cases e)
    rw [List.append_nil] at this
    exact ⟨_, this, .alias hn he⟩
  | line hl =>
    refine ⟨l, .other ?_, hl⟩
    rintro r rfl
    obtain ⟨n, e⟩ := lineSyntax_head hl .hash rfl
    cases e

theorem headerStmts_lines {ls : List (List Tok)} {sss : List (List Stmt)} (h : EachLine HeaderStmts ls sss) :
    ∃ K, EachLine HeaderLine ls K ∧ EachLine LineSyntax K sss := by
  induction h with
  | nil => exact ⟨[], .nil, .nil⟩
  | cons h1 _ ih =>
    obtain ⟨l', a, b⟩ := headerStmts_line h1
    obtain ⟨K, c, d⟩ := ih
    exact ⟨l' :: K, .cons a c, .cons b d⟩

theorem program_of_lines {K : List (List Tok)} {sss : List (List Stmt)} (h : EachLine LineSyntax K sss) (ms : List MacroDef) :
    ProgramSyntax ms K sss.flatten ms := by
  induction h with
  | nil => exact .nil
  | @cons l ss _ _ h1 _ ih =>
    have hm : (l ++ []).head? ≠ some (.macroIdent "%macro".toList) := by
      rw [List.append_nil]
      intro e
      obtain ⟨n, e⟩ := lineSyntax_head h1 _ e
      cases e
    have := ProgramSyntax.line hm h1 (.inl rfl) ih
    rwa [List.append_nil] at this

theorem lineSyntax_noMacro {K : List (List Tok)} {sss : List (List Stmt)} (h : EachLine LineSyntax K sss) :
    ∀ l ∈ K, l.head? ≠ some (.macroIdent "%macro".toList) := by
  induction h with
  | nil => nofun
  | cons h1 _ ih =>
    intro l hl e
    rcases List.mem_cons.mp hl with rfl | hl
    · obtain ⟨n, e⟩ := lineSyntax_head h1 _ e
      cases e
    · exact ih l hl e

theorem clexes_noeof {f : Nat} {before text : Text} {A : List Token} {e : Token} (h : CLexesTo f before text (A ++ [e])) :
    ∀ t ∈ A, t.tok ≠ .eof := by
  generalize hT : A ++ [e] = T at h
  induction h generalizing A with
  | done hg =>
    cases A with
    | nil => nofun
    | cons x A => have := congrArg List.length hT; simp at this
  | @token before g w rest k toks hg hk h2 ih =>
    cases A with
    | nil => nofun
    | cons x A =>
      injection hT with e1 e2
      intro t ht
      rcases List.mem_cons.mp ht with rfl | ht
      · rw [e1]; exact spells_not_eof hk
      · exact ih e2 t ht

theorem headerLine_noeof {l l' : List Tok} (h : HeaderLine l l') (he : Tok.eof ∉ l) : Tok.eof ∉ l' := by
  cases h with
  | define => simp at he ⊢; exact he
  | other => exact he

theorem headerLines_noeof {ls K : List (List Tok)} (h : EachLine HeaderLine ls K) (he : ∀ l ∈ ls, Tok.eof ∉ l) :
    ∀ l ∈ K, Tok.eof ∉ l := by
  induction h with
  | nil => nofun
  | cons h1 _ ih =>
    intro l hl
    rcases List.mem_cons.mp hl with rfl | hl
    · exact headerLine_noeof h1 (he _ List.mem_cons_self)
    · exact ih (fun l hl => he l (List.mem_cons_of_mem _ hl)) l hl

/-- A header of defines and assembly lines is the program of their statements. -/
theorem header_program {seg : Seg} (hs : AsciiSeg seg) {t : Text} (ha : Ascii t) {e : Token} {L : List (List Token)}
    {sss : List (List Stmt)} (h1 : CLexesTo 0 [] t (L.flatten ++ [e])) (h2 : SplitsInto L.flatten L)
    (h3 : EachLine HeaderStmts (kindsOf L) sss) (f : Nat) :
    (lexHeader seg (Input.new f t) >>= parse) = .ok ⟨[], sss.flatten⟩ := by
  obtain ⟨K, k1, k2⟩ := headerStmts_lines h3
  obtain ⟨toks, e1, e2⟩ := header_undec hs ha h1 h2 k1 f
  rw [e1, Res.ok_bind]
  have hk : ∀ l ∈ kindsOf L, Tok.eof ∉ l := by
    intro l hl hm
    obtain ⟨l0, h0, rfl⟩ := List.mem_map.mp hl
    obtain ⟨t, ht, e⟩ := List.mem_map.mp hm
    exact clexes_noeof h1 t (List.mem_flatten.mpr ⟨l0, h0, ht⟩) e
  refine (parse_undec_iff e2 (headerLines_noeof k1 hk) (.inr ?_)).mpr (parseTokLines_iff.mpr ⟨[], program_of_lines k2 [], rfl⟩)
  exact lineSyntax_noMacro k2

theorem path_main {fs : FS} {sf : SourceFiles} {q : Path} : sf.path fs none q = .ok (sf.workingDir.join q) := rfl

theorem join_absolute {p q : Path} (h : q.abs = true) : p.join q = q := by simp [Path.join, h]

theorem join_abs {p q : Path} (h : p.abs = true) : (p.join q).abs = true := by
  unfold Path.join
  split
  · assumption
  · rw [if_neg (by intro hp; rw [hp] at h; cases h)]
    exact h

/-- Reading the main file and the files it includes gives the lines of the text with the files inserted. -/
theorem readProgram_inserted {seg : Seg} (hs : AsciiSeg seg) {fs : FS} {dir : Path} {name text text' : Text} {ms : List Mark}
    (hd : dir.abs = true) (hr : fs.read (dir.join (Path.parse name)) = some (utf8 text)) (ha : Plain seg text)
    (h : Inserted seg fs dir (dir.join (Path.parse name)) [] text text' ms) (hm : Separate ms) :
    ∃ K n out sf, ReadsAs text' K ∧ Undec (kindsOf (lines out)) K ∧ ∀ k ≥ n,
      readProgram seg fs k (SourceFiles.new dir) name =
        (parse out >>= fun prog => .ok (prog, dir.join (Path.parse name), sf)) := by
  have habs := join_abs (q := Path.parse name) hd
  generalize hroot : dir.join (Path.parse name) = root at *
  let f : SourceFile := ⟨0, root, text⟩
  let sf1 : SourceFiles := ⟨dir, [f]⟩
  have hok : FilesOk (SourceFiles.new dir) := ⟨fun j g hg => by simp [SourceFiles.new] at hg, fun j k g g' hg => by simp [SourceFiles.new] at hg⟩
  have hl : SourceFiles.load fs (SourceFiles.new dir) none root = .ok (f, sf1) := by
    refine (load_iff hok).mpr ⟨root, ?_, .inr ⟨nofun, hr, rfl, rfl, rfl⟩⟩
    have := @Resolves.main fs dir root
    rwa [join_absolute habs] at this
  have hg : Good fs dir sf1 := by
    refine ⟨(hok.load hl).1, rfl, ?_⟩
    intro g hg
    rw [List.mem_singleton.mp hg]
    exact hr
  obtain ⟨K, n, toks, out, sf', h1, h2, h3, h4⟩ := inserted_main hs h ha hm hg (f := 0) ⟨f, by simp [sf1], rfl, rfl⟩
  refine ⟨K, n, out, sf', h1, h4, fun k hk => ?_⟩
  unfold readProgram
  rw [path_main, Res.ok_bind, show (SourceFiles.new dir).workingDir.join (Path.parse name) = root from hroot]
  simp only [hl, Res.ok_bind]
  rw [show lexInput seg (Input.new f.id f.contents) = .ok toks from h2]
  simp only [Res.ok_bind, h3 k hk]

end Verif
