import Verif.Lemmas.Respell
import Verif.Props.Sources
import Verif.Props.Reread
/-
C68: only the tokens of the source files and C headers and their lines matter.  `SameTokens`, `SameHeaderTokens`, `Respelled`,
`SameSources`, `SameHeaders` and `SameBinaries` are in Spec/Respelling.lean.
-/
namespace Verif.Props
open Verif.Spec

/-- **C68**: if source files and C headers are spelled differently, the same program is read, or reading fails in the same way. -/
theorem C68_program {seg : Seg} {fs fs' : FS} (h : Respelled fs fs') {dir : Path} (hd : dir.abs = true)
    {name : Text} (hA : AllPlain seg fs dir (dir.join (Path.parse name)))
    (hs : SameSources seg fs fs' dir (dir.join (Path.parse name))) (hh : SameHeaders seg fs fs' dir (dir.join (Path.parse name)))
    (fuel : Nat) :
    (readProgram seg fs' fuel (SourceFiles.new dir) name >>= fun x => .ok x.1) =
      (readProgram seg fs fuel (SourceFiles.new dir) name >>= fun x => .ok x.1) :=
  ((readProgram_alike h hd hA hs hh fuel).bind fun a b _ _ h => .ok (R := Eq) h.1).eq

/-- **C68**: the bytes, or the failure, of assembling are the same. -/
theorem C68_bytes {m : Mode} {seg : Seg} {order : List Color → List Color} {load : Text → Res Image}
    {uuid : Nat → Text} {fs fs' : FS} (h : Respelled fs fs') {dir : Path} (hd : dir.abs = true)
    {name : Text} (hA : AllPlain seg fs dir (dir.join (Path.parse name)))
    (hs : SameSources seg fs fs' dir (dir.join (Path.parse name))) (hh : SameHeaders seg fs fs' dir (dir.join (Path.parse name)))
    {fuel : Nat} (hb : ∀ p x, readProgram seg fs fuel (SourceFiles.new dir) name = .ok (p, x) →
      SameBinaries fs fs' dir (dir.join (Path.parse name)) p) (macroFuel : Nat) :
    assembleFile m seg order load uuid fs' fuel macroFuel (SourceFiles.new dir) name =
      assembleFile m seg order load uuid fs fuel macroFuel (SourceFiles.new dir) name := by
  unfold assembleFile
  rw [readStatements_alike h hd hA hs hh hb]

/-- **C68**: so is the text of the `expand` command. -/
theorem C68_expand {m : Mode} {seg : Seg} {order : List Color → List Color} {load : Text → Res Image}
    {uuid : Nat → Text} {fs fs' : FS} (h : Respelled fs fs') {dir : Path} (hd : dir.abs = true)
    {name : Text} (hA : AllPlain seg fs dir (dir.join (Path.parse name)))
    (hs : SameSources seg fs fs' dir (dir.join (Path.parse name))) (hh : SameHeaders seg fs fs' dir (dir.join (Path.parse name)))
    {fuel : Nat} (hb : ∀ p x, readProgram seg fs fuel (SourceFiles.new dir) name = .ok (p, x) →
      SameBinaries fs fs' dir (dir.join (Path.parse name)) p) (macroFuel : Nat) :
    expandFile m seg order load uuid fs' fuel macroFuel (SourceFiles.new dir) name =
      expandFile m seg order load uuid fs fuel macroFuel (SourceFiles.new dir) name := by
  unfold expandFile
  rw [readStatements_alike h hd hA hs hh hb]

/-- **C68**: the case of letters outside strings can be changed. -/
theorem C68_case {t t' : Text} (h : Recased [] t t') {toks : List Token} (hl : LexesTo 0 [] t toks) :
    SameTokens t t' :=
  sameTokens_recased (plain_plainSeg t) (plain_plainSeg t') h hl

/-- **C68**: a comment can be removed or exchanged for another one. -/
theorem C68_comment {b g t post : Text} {c : Char} {ks : List Tok}
    (hc : c = ';' ∨ (c = '*' ∧ lineStart (b ++ g) = true)) (ht : '\n' ∉ t) (hp : atEol post)
    (hr : LexReaches [] (b ++ g ++ c :: t ++ post) ks b (g ++ c :: t ++ post))
    (hb : Blank (lineStart b) g (c :: t ++ post)) {d : Text}
    (hd : d = [] ∨ ∃ c' t', d = c' :: t' ∧ (c' = ';' ∨ (c' = '*' ∧ lineStart (b ++ g) = true)) ∧ '\n' ∉ t')
    {toks : List Token} (hl : LexesTo 0 [] (b ++ g ++ c :: t ++ post) toks) :
    SameTokens (b ++ g ++ c :: t ++ post) (b ++ g ++ d ++ post) :=
  sameTokens_comment hc ht hp hr hb hd hl

/-- **C68**: in a C header, a comment can be exchanged for other comments or white space with as many line breaks. -/
theorem C68_header_comment {b g c d post : Text} (ha : Ascii post) (hc : CBlank ('/' :: c) post) (hd : CBlank d post)
    (hdel : ∀ x ∈ (d ++ post).head?, x = '/' ∨ x = ' ' ∨ x = '\n' ∨ x = '\r') (hn : d.count '\n' = c.count '\n')
    (hr : CLexReaches (b ++ g ++ '/' :: c ++ post) (g ++ '/' :: c ++ post)) (hb : CBlank g ('/' :: c ++ post))
    {toks : List Token} (hl : CLexesTo 0 [] (g ++ '/' :: c ++ post) toks) :
    SameHeaderTokens (b ++ g ++ '/' :: c ++ post) (b ++ g ++ d ++ post) :=
  sameHeader_comment ha hc hd hdel hn hr hb hl

/-! An example: the two files of C64, spelled differently. -/

def twoFilesAgain : FS := folder [("main.s",
    ".INCLUDE\t\"a.s\" ; the macro\nstart : TWICE#5\n  .include BYTES \"b.bin\";\n.cnop 0,4\n\tJMP START ; again\n\n"),
  ("a.s", "%Macro twice %X;two\n\tadd\t%x\nLP% : bnz lp%\n%END"), ("b.bin", "AB")]

/-- A check of `EachLine SameSpot`. -/
def sameSpots : List Token → List Token → Bool
  | [], [] => true
  | a :: l, b :: l' => a.tok == b.tok && a.start.line == b.start.line && a.stop.line == b.stop.line && sameSpots l l'
  | _, _ => false

theorem sameSpots_each : ∀ {l l' : List Token}, sameSpots l l' = true → EachLine SameSpot l l'
  | [], [], _ => .nil
  | _ :: _, _ :: _, h => by
    simp only [sameSpots, Bool.and_eq_true, beq_iff_eq] at h
    exact .cons ⟨h.1.1.1, h.1.1.2, h.1.2⟩ (sameSpots_each h.2)
  | [], _ :: _, h => nomatch h
  | _ :: _, [], h => nomatch h

theorem sameTokens_ex {t t' : String} (h : Readable t) (h' : Readable t')
    (hs : sameSpots (exToks t ++ [exEnd t]) (exToks t' ++ [exEnd t']) = true) : SameTokens t.toList t'.toList :=
  ⟨_, _, (exReads h).1, (exReads h').1, sameSpots_each hs⟩

theorem folder_spelled {files files' : List (String × String)} {R : Text → Text → Prop}
    (h : EachLine (fun f f' => f.1 = f'.1 ∧ (f.2 = f'.2 ∨ R f.2.toList f'.2.toList)) files files') (p : Path) :
    (folder files').read p = (folder files).read p ∨
      ∃ t t', (folder files).read p = some (utf8 t) ∧ (folder files').read p = some (utf8 t') ∧ R t t' := by
  unfold folder
  dsimp only
  induction h with
  | nil => exact .inl rfl
  | @cons f f' _ _ h _ ih =>
    rw [List.find?_cons, List.find?_cons, ← h.1]
    split
    · rcases h.2 with e | h3
      · exact .inl (by show some (utf8 f'.2.toList) = some (utf8 f.2.toList); rw [e])
      · exact .inr ⟨_, _, rfl, rfl, h3⟩
    · exact ih

theorem folder_respelled {files files' : List (String × String)} (h : files.map Prod.fst = files'.map Prod.fst) :
    Respelled (folder files) (folder files') where
  isFile := by
    funext p
    unfold folder
    dsimp only
    have : ∀ fs : List (String × String), fs.any (fun f => decide (p = inWork f.1)) = (fs.map Prod.fst).any fun n => decide (p = inWork n) := by
      intro fs
      rw [List.any_map]
      rfl
    exact (this files').trans (h ▸ (this files).symm)
  isDir := rfl
  read := by
    have : EachLine (fun f f' : String × String => f.1 = f'.1 ∧ (f.2 = f'.2 ∨ True)) files files' := by
      induction files generalizing files' with
      | nil => cases files' with
        | nil => exact .nil
        | cons => cases h
      | cons f files ih => cases files' with
        | nil => cases h
        | cons f' files' =>
          rw [List.map_cons, List.map_cons, List.cons.injEq] at h
          exact .cons ⟨h.1, .inr trivial⟩ (ih h.2)
    intro p
    rcases folder_spelled (R := fun _ _ => True) this p with e | ⟨t, t', h1, h2, -⟩
    · exact .inl e
    · exact .inr ⟨t, t', h1, h2⟩

/-- The disks meet the first hypothesis of C68, and the one on the sources. -/
theorem twoFiles_respelled : Respelled twoFiles twoFilesAgain := folder_respelled rfl

theorem twoFiles_sources (main : Path) : SameSources plainSeg twoFiles twoFilesAgain work main := by
  intro p _
  have key : ∀ p, twoFilesAgain.read p = twoFiles.read p ∨
      ∃ t t', twoFiles.read p = some (utf8 t) ∧ twoFilesAgain.read p = some (utf8 t') ∧ SameTokens t t' :=
    folder_spelled (R := SameTokens) (.cons ⟨rfl, .inr (sameTokens_ex (by decide +kernel) (by decide +kernel) (by decide +kernel))⟩
    (.cons ⟨rfl, .inr (sameTokens_ex (by decide +kernel) (by decide +kernel) (by decide +kernel))⟩
    (.cons ⟨rfl, .inl rfl⟩ .nil)))
  rcases key p with e | ⟨t, t', h1, h2, h3⟩
  · exact .inl e
  · exact .inr ⟨t, t', h1, h2, plain_plainSeg _, plain_plainSeg _, h3⟩

/-- The C header that a line includes. -/
def headerName (l : List Token) : Option Text :=
  match parseDirective (l.map Token.tok) with
  | .ok (some (.dir (.incl .cHeader name), _)) => some name
  | _ => none

theorem folder_no_headers {files : List (String × String)}
    (key : ∀ f ∈ files, Readable f.2 ∧ (lines (exToks f.2 ++ [exEnd f.2])).filterMap headerName = []) {dir p q : Path} :
    ¬ IncludesHeader (folder files) dir p q := by
  rintro ⟨l, name, ⟨t, ls, hr, h1⟩, h2, -⟩
  have hr' := hr
  simp only [folder, Option.map_eq_some_iff] at hr
  obtain ⟨f, hf, e⟩ := hr
  have hk := key f (List.mem_of_find?_eq_some hf)
  rw [← e] at hr'
  obtain ⟨l', hl', hn'⟩ := (lex_hasLine hr' (plain_plainSeg _) hk.1).2.mpr ⟨l, ⟨_, ls, hr', utf8_inj e ▸ h1⟩, h2⟩
  obtain ⟨rest, hp⟩ := namesHeader_parse hn'
  have : name ∈ (lines (exToks f.2 ++ [exEnd f.2])).filterMap headerName :=
    List.mem_filterMap.mpr ⟨l', hl', by unfold headerName; rw [hp]⟩
  rw [hk.2] at this
  cases this

/-- They have no C headers. -/
theorem twoFiles_headers (main : Path) : SameHeaders plainSeg twoFiles twoFilesAgain work main :=
  fun _ _ _ h => absurd h (folder_no_headers (by decide +kernel))

/-- Files with letters that are not ASCII, in comments and in strings. -/
def foreignFiles : FS := folder [("main.s", ".include \"a.s\" ; été\n jmp start\n"), ("a.s", "start:\n .byte \"ボタン\" ; ボ\n")]

/-- They meet the hypothesis on the files. -/
theorem foreign_plain : AllPlain plainSeg foreignFiles work (work.join (Path.parse "main.s".toList)) :=
  ⟨fun _ t _ _ => plain_plainSeg t, fun _ _ _ _ h _ => absurd h (folder_no_headers (by decide +kernel))⟩

example : bytesOfMain foreignFiles = .ok [0xE3, 0x83, 0x9C, 0xE3, 0x82, 0xBF, 0xE3, 0x83, 0xB3, 0x28, 0] := by decide +kernel

/-- The program of both. -/
example : bytesOfMain twoFilesAgain = bytesOfMain twoFiles ∧ expandMain twoFilesAgain = expandMain twoFiles :=
  have hb : ∀ p x, readProgram plainSeg twoFiles 3 (SourceFiles.new work) "main.s".toList = .ok (p, x) →
      SameBinaries twoFiles twoFilesAgain work (work.join (Path.parse "main.s".toList)) p := by
    intro p x h name q hm hq
    have hn : ∀ s ∈ p.stmts, ∀ n, s = .dir (.incl .bytes n) → n = "/w/b.bin".toList := by
      have : (readProgram plainSeg twoFiles 3 (SourceFiles.new work) "main.s".toList >>= fun x =>
        .ok (x.1.stmts.all fun s => match s with | .dir (.incl .bytes n) => n == "/w/b.bin".toList | _ => true)) = .ok true := by
          decide +kernel
      rw [h] at this
      have := List.all_eq_true.mp (Res.ok.inj this)
      rintro s hs n rfl
      simpa using this _ hs
    have e := hn _ hm name rfl
    subst e
    have hq' : q = inWork "b.bin" := resolves_unique hq (exPath (by decide +kernel))
    subst hq'
    decide +kernel
  ⟨C68_bytes twoFiles_respelled rfl twoFiles_files.1 (twoFiles_sources _) (twoFiles_headers _) hb 3,
   C68_expand twoFiles_respelled rfl twoFiles_files.1 (twoFiles_sources _) (twoFiles_headers _) hb 3⟩

/-! An example with a C header. -/

def oneHeader : FS := folder [("main.s", ".include cpp \"h.h\"\n .byte TWO, six\n"), ("h.h", "#define TWO 2\n#define SIX TWO * 3\n")]

def oneHeaderAgain : FS := folder [("main.s", ".include cpp \"h.h\"\n .byte TWO, six\n"),
  ("h.h", "#DEFINE two 02 // don't\n # define\tSIX TWO * /* [?] */ 3")]

theorem headerTokens_ex {t : String} (ha : Ascii t.toList)
    (h : lexForWs plainSeg (skipCBlank plainSeg) (Input.new 0 t.toList) = .ok (headerToks t)) : CLexesTo 0 [] t.toList (headerToks t) :=
  (clex_plain_iff (plain_plainSeg _) ha).mp h

/-- A comment in a header that is exchanged. -/
example : SameHeaderTokens "#/* one\ncomment */define".toList "# // two\ndefine".toList := by
  have noClose : ∀ t : Text, '/' ∉ t → NoClose t := by
    rintro _ h a b rfl
    exact h (by simp)
  refine C68_header_comment (b := ['#']) (g := []) (c := "* one\ncomment */".toList) (d := " // two\n".toList) (post := "define".toList)
    (by unfold Ascii; decide +kernel) ?_ ?_ ?_ (by decide +kernel) ?_ .nil
    (headerTokens_ex (t := "/* one\ncomment */define") (by unfold Ascii; decide +kernel) (by decide +kernel))
  · exact .block (t := " one\ncomment ".toList) (g := []) (noClose _ (by decide +kernel)) .nil
  · exact .space (by decide +kernel) (.line (t := " two".toList) (g := ['\n']) (by decide +kernel) (.inr (.inl rfl)) (.space (by decide) .nil))
  · intro x hx
    cases hx
    exact .inr (.inl rfl)
  · refine .token (g := []) (w := ['#']) (k := .hash) ⟨.nil, ?_, ?_, ?_⟩ (.symbol (by decide +kernel) (by intro h; cases h)) .here
    · intro x hx
      cases hx
      decide
    · intro u h
      cases h
    · intro u h
      cases h

theorem only_main {fs : FS} {dir main p : Path} (h : ∀ q, ¬ IncludesFile fs dir main q) (ht : IncludeTree fs dir main p) : p = main := by
  induction ht with
  | main => rfl
  | step _ h1 ih => subst ih; exact absurd h1 (h _)

theorem header_main {p : Path} (ht : IncludeTree oneHeader work (work.join (Path.parse "main.s".toList)) p) :
    p = inWork "main.s" := by
  refine only_main (fun q h => ?_) ht
  obtain ⟨n, hn, -⟩ := includes_only (text := ".include cpp \"h.h\"\n .byte TWO, six\n") (names := [])
    (by decide +kernel) (by decide +kernel) (by decide +kernel) h
  cases hn

theorem header_respelled : Respelled oneHeader oneHeaderAgain := folder_respelled rfl

/-- A header with other comments, spaces, cases and numbers, which are not all tokens of assembly files, gives the same bytes. -/
example : bytesOfMain oneHeaderAgain = bytesOfMain oneHeader ∧ bytesOfMain oneHeader = .ok [2, 6] := by
  refine ⟨C68_bytes header_respelled rfl (folder_ascii (by unfold Ascii; decide +kernel) _ _)
    (fun p ht => .inl ?_) (fun p q _ _ => ?_) (fun p x h name q hm _ => ?_) 3, by decide +kernel⟩
  · rw [header_main ht]
    decide +kernel
  · have key : ∀ q, oneHeaderAgain.read q = oneHeader.read q ∨
        ∃ t t', oneHeader.read q = some (utf8 t) ∧ oneHeaderAgain.read q = some (utf8 t') ∧ Ascii t ∧ Ascii t' ∧ SameHeaderTokens t t' :=
      folder_spelled (R := fun t t' => Ascii t ∧ Ascii t' ∧ SameHeaderTokens t t') (.cons ⟨rfl, .inl rfl⟩
      (.cons ⟨rfl, .inr ⟨by unfold Ascii; decide +kernel, by unfold Ascii; decide +kernel, _, _,
        headerTokens_ex (by unfold Ascii; decide +kernel) (by decide +kernel),
        headerTokens_ex (by unfold Ascii; decide +kernel) (by decide +kernel), sameSpots_each (by decide +kernel)⟩⟩ .nil))
    rcases key q with e | ⟨t, t', h1, h2, h3⟩
    · exact .inl e
    · exact .inr ⟨t, t', h1, h2, plain_plainSeg _, plain_plainSeg _, h3⟩
  · have : (readProgram plainSeg oneHeader 3 (SourceFiles.new work) "main.s".toList >>= fun x =>
      .ok (x.1.stmts.all fun s => match s with | .dir (.incl .bytes _) => false | _ => true)) = .ok true := by decide +kernel
    rw [h] at this
    have := List.all_eq_true.mp (Res.ok.inj this) _ hm
    cases this

/-- Texts with the same tokens on the same lines, and texts with the same tokens on other lines. -/
example : SameTokens "a\nb".toList "a ; c\nb;".toList ∧ ¬ SameTokens "a\nb".toList "a\n\nb".toList := by
  refine ⟨sameTokens_ex (t := "a\nb") (t' := "a ; c\nb;") (by decide +kernel) (by decide +kernel) (by decide +kernel), ?_⟩
  rintro ⟨T, T', h1, h2, h3⟩
  have e1 := (lexInput_ok_iff (plain_of_ascii plainSeg_ascii (by decide +kernel))).mpr h1
  have e2 := (lexInput_ok_iff (plain_of_ascii plainSeg_ascii (by decide +kernel))).mpr h2
  have k1 : (lexInput plainSeg (Input.new 0 "a\nb".toList) >>= fun T => .ok (T.map fun t => t.start.line)) = .ok [1, 2, 2] := by decide +kernel
  have k2 : (lexInput plainSeg (Input.new 0 "a\n\nb".toList) >>= fun T => .ok (T.map fun t => t.start.line)) = .ok [1, 3, 3] := by decide +kernel
  rw [e1] at k1
  rw [e2] at k2
  have : ∀ {T T' : List Token}, EachLine SameSpot T T' → T.map (fun t => t.start.line) = T'.map fun t => t.start.line := by
    intro T T' h
    induction h with
    | nil => rfl
    | cons h _ ih => rw [List.map_cons, List.map_cons, ih, h.2.1]
  have := this h3
  rw [Res.ok.inj k1, Res.ok.inj k2] at this
  revert this
  decide

end Verif.Props
