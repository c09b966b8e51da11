import Verif.Lemmas.LineEnds
import Verif.Props.Respelling
/-
C91: source files with the line ends of Windows.  `windows`, `TokensOnLines` and `OtherLineEnds` are in Spec/LineEnds.lean.
-/
namespace Verif.Props
open Verif.Spec

/-- **C91**: with CR LF instead of LF at the ends of its lines, a text has the same tokens on the same lines. -/
theorem C91_tokens {seg : Seg} {t : Text} (hr : '\r' ∉ t) (hp : Plain seg t) (hp' : Plain seg (windows t)) (file : Nat) {toks : List Token}
    (h : lexInput seg (Input.new file t) = .ok toks) (hl : ∀ k ∈ toks, k.start.line = k.stop.line) :
    ∃ toks', lexInput seg (Input.new file (windows t)) = .ok toks' ∧ EachLine SameSpot toks toks' := by
  obtain ⟨toks', h1, h2⟩ := windows_lexes ((lexInput_ok_iff hp).mp h) hr hl
  exact ⟨toks', (lexInput_ok_iff hp').mpr h1, h2⟩

/-- **C91**: so the line ends of the source files and C headers change neither the bytes nor the failure of assembling. -/
theorem C91_bytes {m : Mode} {seg : Seg} {order : List Color → List Color} {load : Text → Res Image}
    {uuid : Nat → Text} {fs fs' : FS} {dir : Path} (hd : dir.abs = true) {name : Text}
    (h : OtherLineEnds seg fs fs' dir (dir.join (Path.parse name))) (hA : AllPlain seg fs dir (dir.join (Path.parse name)))
    {fuel : Nat} (hb : ∀ p x, readProgram seg fs fuel (SourceFiles.new dir) name = .ok (p, x) →
      SameBinaries fs fs' dir (dir.join (Path.parse name)) p) (macroFuel : Nat) :
    assembleFile m seg order load uuid fs' fuel macroFuel (SourceFiles.new dir) name =
      assembleFile m seg order load uuid fs fuel macroFuel (SourceFiles.new dir) name :=
  C68_bytes (respelled_lineEnds h) hd hA (sources_lineEnds h) (headers_lineEnds h) hb macroFuel

/-- **C91**: nor the text that `expand` prints. -/
theorem C91_expand {m : Mode} {seg : Seg} {order : List Color → List Color} {load : Text → Res Image}
    {uuid : Nat → Text} {fs fs' : FS} {dir : Path} (hd : dir.abs = true) {name : Text}
    (h : OtherLineEnds seg fs fs' dir (dir.join (Path.parse name))) (hA : AllPlain seg fs dir (dir.join (Path.parse name)))
    {fuel : Nat} (hb : ∀ p x, readProgram seg fs fuel (SourceFiles.new dir) name = .ok (p, x) →
      SameBinaries fs fs' dir (dir.join (Path.parse name)) p) (macroFuel : Nat) :
    expandFile m seg order load uuid fs' fuel macroFuel (SourceFiles.new dir) name =
      expandFile m seg order load uuid fs fuel macroFuel (SourceFiles.new dir) name :=
  C68_expand (respelled_lineEnds h) hd hA (sources_lineEnds h) (headers_lineEnds h) hb macroFuel

/-- **C91**, the limits: in a string over the end of a line the line end is part of the data; and a single CR does not end
a line. -/
theorem C91_limits :
    bytesOfMain (folder [("main.s", ".byte \"a\nb\"\n")]) = .ok [0x61, 0x0A, 0x62] ∧
    bytesOfMain (folder [("main.s", String.ofList (windows ".byte \"a\nb\"\n".toList))]) = .ok [0x61, 0x0D, 0x0A, 0x62] ∧
    bytesOfMain (folder [("main.s", "nop\nnop\n")]) = .ok [0, 0] ∧
    ∃ e, bytesOfMain (folder [("main.s", "nop\rnop\r")]) = .err e := by
  refine ⟨by decide +kernel, by decide +kernel, by decide +kernel, ?_⟩
  have err : ∀ (r : Res (List UInt8)), (match r with | .err _ => true | _ => false) = true → ∃ e, r = .err e := by
    intro r h
    cases r with
    | err e => exact ⟨e, rfl⟩
    | _ => cases h
  exact err _ (by decide +kernel)

/-! Examples in which the line ends of some files are changed. -/

/-- Files, with the texts of some of them changed. -/
def unixOf (files : List (String × String × Bool)) : FS := folder (files.map fun f => (f.1, f.2.1))

def windowsOf (files : List (String × String × Bool)) : FS :=
  folder (files.map fun f => (f.1, if f.2.2 then String.ofList (windows f.2.1.toList) else f.2.1))

theorem read_ends (files : List (String × String × Bool)) (p : Path) : (windowsOf files).read p = (unixOf files).read p ∨
    ∃ f ∈ files, f.2.2 = true ∧ (unixOf files).read p = some (utf8 f.2.1.toList) ∧
      (windowsOf files).read p = some (utf8 (windows f.2.1.toList)) := by
  unfold unixOf windowsOf folder
  dsimp only
  induction files with
  | nil => exact .inl rfl
  | cons f files ih =>
    rw [List.map_cons, List.map_cons, List.find?_cons, List.find?_cons]
    dsimp only
    generalize decide (p = _) = b
    cases b with
    | true =>
      cases hf : f.2.2 with
      | false => exact .inl (by simp)
      | true => exact .inr ⟨f, by simp, hf, rfl, by simp⟩
    | false =>
      rcases ih with e | ⟨g, h1, h2⟩
      · exact .inl e
      · exact .inr ⟨g, List.mem_cons_of_mem _ h1, h2⟩

theorem windows_no_cr {t : Text} (h : '\r' ∉ windows t) : windows t = t := by
  refine windows_same fun hn => h ?_
  exact List.mem_flatMap.mpr ⟨'\n', hn, by simp⟩

theorem differ_ends {files : List (String × String × Bool)} {p : Path} {t : Text} (h : EndsDiffer (unixOf files) (windowsOf files) p t) :
    ∃ f ∈ files, f.2.2 = true ∧ t = f.2.1.toList := by
  obtain ⟨h1, h2, h3⟩ := h
  rcases read_ends files p with e | ⟨f, h4, h5, h6, h7⟩
  · exact absurd e h1
  · refine ⟨f, h4, h5, ?_⟩
    rw [h6, h7] at h3
    rcases h3 with ⟨e, -⟩ | ⟨-, e⟩
    · exact (utf8_inj (Option.some.inj e)).symm
    · have := utf8_inj (Option.some.inj e)
      rw [← this] at h2 ⊢
      exact windows_no_cr h2

theorem ends_ex {files : List (String × String × Bool)} {dir main : Path} (hr : ∀ f ∈ files, '\r' ∉ f.2.1.toList)
    (hs : ∀ f ∈ files, f.2.2 = true → TokensOnLines f.2.1.toList)
    (hh : ∀ f ∈ files, ∀ p q, f.2.2 = true → IncludesHeader (unixOf files) dir p q → HeaderOnLines f.2.1.toList ∧ Ascii f.2.1.toList) :
    OtherLineEnds plainSeg (unixOf files) (windowsOf files) dir main where
  isFile := (folder_respelled (by rw [List.map_map, List.map_map]; rfl)).isFile
  isDir := rfl
  read p := by
    by_cases e : (windowsOf files).read p = (unixOf files).read p
    · exact .inl e
    · rcases read_ends files p with e' | ⟨f, h1, h2, h3, h4⟩
      · exact .inl e'
      · exact .inr ⟨_, e, hr f h1, .inl ⟨h3, h4⟩⟩
  sources p t _ h := by
    obtain ⟨f, h1, h2, rfl⟩ := differ_ends h
    exact ⟨hs f h1 h2, plain_plainSeg _, plain_plainSeg _⟩
  headers p q t _ hi h := by
    obtain ⟨f, h1, h2, rfl⟩ := differ_ends h
    obtain ⟨h3, h4⟩ := hh f h1 p q h2 hi
    exact ⟨h3, h4, plain_plainSeg _, plain_plainSeg _⟩

theorem onLines_ex {t : String} (h : Readable t) (hl : ∀ k ∈ exToks t ++ [exEnd t], k.start.line = k.stop.line) :
    TokensOnLines t.toList := ⟨_, (exReads h).1, hl⟩

/-- Two source files, of which one is changed. -/
def endsSources : List (String × String × Bool) := [("main.s", ".include \"a.s\"\n jmp start\n", false),
  ("a.s", "start: ; a label\n* a comment\n nop\n .byte \"ß\", 1\n", true)]

theorem endsSources_ex (main : Path) : OtherLineEnds plainSeg (unixOf endsSources) (windowsOf endsSources) work main := by
  refine ends_ex (by decide +kernel) ?_ fun f _ p q _ h => absurd h (folder_no_headers (by decide +kernel))
  intro f hf hc
  simp only [endsSources, List.mem_cons, List.not_mem_nil, or_false] at hf
  rcases hf with rfl | rfl
  · cases hc
  · exact onLines_ex (by decide +kernel) (by decide +kernel)

/-- All hypotheses are met, and the program is not trivial. -/
example : bytesOfMain (windowsOf endsSources) = bytesOfMain (unixOf endsSources) ∧
    bytesOfMain (unixOf endsSources) = .ok [0, 0xC3, 0x9F, 1, 0x28, 0] := by
  refine ⟨C91_bytes rfl (endsSources_ex _)
    ⟨fun _ t _ _ => plain_plainSeg t, fun _ _ _ _ h _ => absurd h (folder_no_headers (by decide +kernel))⟩
    (fun p x h name q hm _ => ?_) 3, by decide +kernel⟩
  have : (readProgram plainSeg (unixOf endsSources) 3 (SourceFiles.new work) "main.s".toList >>= fun x =>
    .ok (x.1.stmts.all fun s => match s with | .dir (.incl .bytes _) => false | _ => true)) = .ok true := by decide +kernel
  rw [h] at this
  have := List.all_eq_true.mp (Res.ok.inj this) _ hm
  cases this

/-- A source file and a header that is changed. -/
def endsHeader : List (String × String × Bool) := [("main.s", ".include cpp \"h.h\"\n .byte N\n", false),
  ("h.h", "#define N 7 // seven\n/* two\nlines */\n", true)]

theorem endsHeader_ex (main : Path) : OtherLineEnds plainSeg (unixOf endsHeader) (windowsOf endsHeader) work main := by
  refine ends_ex (by decide +kernel) ?_ ?_
  · intro f hf hc
    simp only [endsHeader, List.mem_cons, List.not_mem_nil, or_false] at hf
    rcases hf with rfl | rfl
    · cases hc
    · exact onLines_ex (by decide +kernel) (by decide +kernel)
  · intro f hf p q hc _
    simp only [endsHeader, List.mem_cons, List.not_mem_nil, or_false] at hf
    rcases hf with rfl | rfl
    · cases hc
    · exact ⟨⟨_, headerTokens_ex (by unfold Ascii; decide +kernel) (by decide +kernel), by decide +kernel⟩, by unfold Ascii; decide +kernel⟩

example : bytesOfMain (windowsOf endsHeader) = bytesOfMain (unixOf endsHeader) ∧ bytesOfMain (unixOf endsHeader) = .ok [7] := by
  refine ⟨C91_bytes rfl (endsHeader_ex _) (folder_ascii (by unfold Ascii; decide +kernel) _ _)
    (fun p x h name q hm _ => ?_) 3, by decide +kernel⟩
  have : (readProgram plainSeg (unixOf endsHeader) 3 (SourceFiles.new work) "main.s".toList >>= fun x =>
    .ok (x.1.stmts.all fun s => match s with | .dir (.incl .bytes _) => false | _ => true)) = .ok true := by decide +kernel
  rw [h] at this
  have := List.all_eq_true.mp (Res.ok.inj this) _ hm
  cases this

end Verif.Props
