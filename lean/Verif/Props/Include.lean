import Verif.Lemmas.IncludeFile
/-
Properties of include directives: C46–C48.
-/
namespace Verif.Props
open Verif.Spec

/-! C46: includes behave like insertion. -/

/-- **C46**: a main file with its includes is read as the program that the text with the included files inserted is,
for every tree of includes.  `fuel` bounds the depth of the recursion; the real program has no such bound. -/
theorem C46_inserted {seg : Seg} (hs : AsciiSeg seg) {fs : FS} {dir : Path} {name text text' : Text} {ms : List Mark}
    (hd : dir.abs = true) (hr : fs.read (dir.join (Path.parse name)) = some (utf8 text)) (ha : Plain seg text)
    (ha' : Plain seg text') (h : Inserted seg fs dir (dir.join (Path.parse name)) [] text text' ms) (hm : Separate ms)
    (hb : NoBareInMacro text') :
    ∃ n, ∀ fuel ≥ n, ∀ prog, (∃ file sf, readProgram seg fs fuel (SourceFiles.new dir) name = .ok (prog, file, sf)) ↔
      (lexInput seg (Input.new 0 text') >>= parse) = .ok prog := by
  obtain ⟨K, n, out, sf, h1, h2, h3⟩ := readProgram_inserted hs hd hr ha h hm
  obtain ⟨toks, e1, e2⟩ := readsAs_lex h1 ha' 0
  refine ⟨n, fun fuel hf prog => ?_⟩
  rw [h3 fuel hf, e1, Res.ok_bind]
  have k1 := parse_undec_iff h2 (readsAs_noeof h1) (hb _ h1) (p := prog)
  have k2 := parse_undec_iff e2 (readsAs_noeof h1) (hb _ h1) (p := prog)
  rw [show parse toks = parseTokLines (kindsOf (lines toks)) from rfl, k2, ← k1]
  constructor
  · rintro ⟨file, sf', h⟩
    obtain ⟨p, h4, h5⟩ := Res.bind_eq_ok.mp h
    cases h5
    exact h4
  · intro h
    exact ⟨_, _, Res.bind_eq_ok.mpr ⟨prog, h, rfl⟩⟩

/-- **C46**: without the condition on local labels in macros, the two programs are the same if both are accepted. -/
theorem C46_both_accepted {seg : Seg} (hs : AsciiSeg seg) {fs : FS} {dir : Path} {name text text' : Text} {ms : List Mark}
    (hd : dir.abs = true) (hr : fs.read (dir.join (Path.parse name)) = some (utf8 text)) (ha : Plain seg text)
    (ha' : Plain seg text') (h : Inserted seg fs dir (dir.join (Path.parse name)) [] text text' ms) (hm : Separate ms) :
    ∃ n, ∀ fuel ≥ n, ∀ prog prog' file sf, readProgram seg fs fuel (SourceFiles.new dir) name = .ok (prog, file, sf) →
      (lexInput seg (Input.new 0 text') >>= parse) = .ok prog' → prog = prog' := by
  obtain ⟨K, n, out, sf, h1, h2, h3⟩ := readProgram_inserted hs hd hr ha h hm
  obtain ⟨toks, e1, e2⟩ := readsAs_lex h1 ha' 0
  refine ⟨n, fun fuel hf prog prog' file sf' hp hp' => ?_⟩
  rw [h3 fuel hf] at hp
  rw [e1, Res.ok_bind] at hp'
  obtain ⟨p, h4, h5⟩ := Res.bind_eq_ok.mp hp
  cases h5
  have k1 := parse_undec h2 (readsAs_noeof h1) h4
  have k2 := parse_undec e2 (readsAs_noeof h1) hp'
  rw [k1] at k2
  exact Res.ok.inj k2

/-- The files of the examples, all in the directory `/w`. -/
def folder (files : List (String × String)) : FS :=
  ⟨fun p => files.any fun f => p = ⟨true, ["w".toList, f.1.toList]⟩, fun p => p = ⟨true, ["w".toList]⟩,
    fun p => (files.find? fun f => p = ⟨true, ["w".toList, f.1.toList]⟩).map fun f => utf8 f.2.toList⟩

/-- The directory of the examples, and its files. -/
def work : Path := ⟨true, ["w".toList]⟩
def inWork (name : String) : Path := ⟨true, ["w".toList, name.toList]⟩

/-- The program in `main.s`. -/
def readMain (fs : FS) (fuel : Nat) : Option Program :=
  match readProgram plainSeg fs fuel (SourceFiles.new work) "main.s".toList with
  | .ok (p, _, _) => some p
  | _ => none

/-- The program of a text. -/
def readText (text : String) : Option Program :=
  match lexInput plainSeg (Input.new 0 text.toList) >>= parse with
  | .ok p => some p
  | _ => none

/-- The tokens of a text, and its end, for the examples. -/
def exToks (text : String) : List Token :=
  match lexInput plainSeg (Input.new 0 text.toList) with
  | .ok toks => toks.dropLast
  | _ => []
def exEnd (text : String) : Token :=
  match lexInput plainSeg (Input.new 0 text.toList) with
  | .ok toks => toks.getLastD ⟨.eof, placeIn 0 [], placeIn 0 []⟩
  | _ => ⟨.eof, placeIn 0 [], placeIn 0 []⟩

/-- The text can be read. -/
def Readable (text : String) : Prop :=
  lexInput plainSeg (Input.new 0 text.toList) = .ok (exToks text ++ [exEnd text])

instance (text : String) : Decidable (Readable text) := by unfold Readable; infer_instance

theorem exReads {text : String} (h : Readable text) : LexesTo 0 [] text.toList (exToks text ++ [exEnd text]) ∧
    ReadsAt 0 [] text.toList (lines (exToks text)) := by
  have hl : LexesTo 0 [] text.toList (exToks text ++ [exEnd text]) :=
    (lexInput_ok_iff (plain_plainSeg _)).mp h
  have hs := lines_splits (exToks text)
  have hf := splits_flatten hs
  exact ⟨hl, exEnd text, by rw [hf]; exact hl, by rw [hf]; exact hs⟩

theorem exReadsAs {text : String} (h : Readable text) {ls : List (List Tok)} (e : (lines (exToks text)).map (·.map Token.tok) = ls) :
    ReadsAs text.toList ls := ⟨_, (exReads h).2, e.symm⟩

theorem exReads_only {text : String} (h : Readable text) {ls : List (List Tok)} (hr : ReadsAs text.toList ls) :
    ls = (lines (exToks text)).map (·.map Token.tok) := by
  obtain ⟨L, ⟨e, h1, h2⟩, rfl⟩ := hr
  have h3 := (lexInput_ok_iff (plain_plainSeg _)).mpr h1
  rw [show lexInput _ _ = _ from h] at h3
  obtain ⟨h4, -⟩ := List.append_inj' (Res.ok.inj h3) rfl
  rw [h4, lines_iff.mpr h2]

theorem exPath {fs : FS} {file p : Path} {name : String}
    (h : SourceFiles.path fs (SourceFiles.new work) (some file) (Path.parse name.toList) = .ok p) :
    Resolves fs work (some file) (Path.parse name.toList) p := path_iff.mp h

/-- Whether the marks are separate. -/
def apart : List Mark → Bool
  | [] => true
  | x :: ms =>
    (match ms.find? (fun m => !m.ends) with
    | some y => !(decide (x.file = y.file) && decide (x.last = y.first))
    | none => true) && apart ms

theorem apart_separate : ∀ {ms : List Mark}, apart ms = true → Separate ms
  | [], _ => by intro a x b y c e; simp at e
  | m :: ms, h => by
    rw [apart, Bool.and_eq_true] at h
    intro a x b y c e hy hb
    cases a with
    | cons m' a =>
      rw [List.cons_append, List.cons_append] at e
      injection e with e1 e2
      exact apart_separate h.2 a x b y c e2 hy hb
    | nil =>
      rw [List.nil_append, List.cons_append] at e
      injection e with e1 e2
      subst e1
      have hf : ms.find? (fun m => !m.ends) = some y := by
        rw [e2, List.find?_append, List.find?_eq_none.mpr (by intro z hz; simp [hb z hz])]
        simp [hy]
      rw [hf] at h
      rintro ⟨c1, c2⟩
      simp [c1, c2] at h

/-- A main file that includes an assembly file that includes a C header. -/
def nested : FS := folder [("main.s", "nop\n.include \"a.s\"\n"), ("a.s", "st 1\n.include cpp \"h.h\"\n"),
  ("h.h", "#define X 5 // five\n")]

/-- The tokens of a C header, for the examples. -/
def headerToks (text : String) : List Token :=
  match lexForWs plainSeg (skipCBlank plainSeg) (Input.new 0 text.toList) with
  | .ok toks => toks
  | _ => []

theorem exExpr {w : List Tok} {e : Expr} (h : parseExpr w = .ok (e, [])) : ExprSyntax w e := by
  obtain ⟨w', h1, h2, -⟩ := parseExpr_iff.mp h
  rw [List.append_nil] at h1
  rwa [h1]

theorem nested_inserted : ∃ ms, Inserted plainSeg nested work (inWork "main.s") [] "nop\n.include \"a.s\"\n".toList
    "nop\nst 1\nx equ 5\n\n".toList ms ∧ Separate ms := by
  have hh : CLexesTo 0 [] "#define X 5 // five\n".toList (headerToks "#define X 5 // five\n") :=
    (clex_ok_iff plainSeg_ascii (by decide +kernel)).mp (by decide +kernel)
  have hl : lines (headerToks "#define X 5 // five\n").dropLast = [(headerToks "#define X 5 // five\n").dropLast] := by
    decide +kernel
  have hx : EachLine HeaderLine [[Tok.hash, .name "define".toList, .name "x".toList, .number 5 .decimal]]
      [[.name "x".toList, .name "equ".toList, .number 5 .decimal]] :=
    .cons (.define (w := [.number 5 .decimal]) (rest := []) (exExpr (e := .number 5 .decimal) (by decide +kernel)) nofun) .nil
  have r1 : Readable "nop\n" := by decide +kernel
  have r2 : Readable ".include \"a.s\"\n" := by decide +kernel
  have r3 : Readable "st 1\n" := by decide +kernel
  have r4 : Readable ".include cpp \"h.h\"\n" := by decide +kernel
  have r5 : Readable "x equ 5" := by decide +kernel
  have r6 : Readable "st 1\n.include cpp \"h.h\"\n" := by decide +kernel
  have p1 := exPath (fs := nested) (file := inWork "a.s") (name := "h.h") (p := inWork "h.h") (by decide +kernel)
  have p2 := exPath (fs := nested) (file := inWork "main.s") (name := "a.s") (p := inWork "a.s") (by decide +kernel)
  have d1 : nested.read (inWork "h.h") = some (utf8 "#define X 5 // five\n".toList) := by decide +kernel
  have d2 : nested.read (inWork "a.s") = some (utf8 "st 1\n.include cpp \"h.h\"\n".toList) := by decide +kernel
  have n1 : ∀ l ∈ lines (exToks "nop\n"), (l.map Token.tok).head? ≠ some (.name ".include".toList) := by decide +kernel
  have n2 : ∀ l ∈ lines (exToks "st 1\n"), (l.map Token.tok).head? ≠ some (.name ".include".toList) := by decide +kernel
  have k1 := exReadsAs r4 (ls := [[.name ".include".toList, .name "cpp".toList, .string "h.h".toList]]) (by decide +kernel)
  have k2 := exReadsAs r2 (ls := [[.name ".include".toList, .string "a.s".toList]]) (by decide +kernel)
  have k3 := exReadsAs r5 (ls := [[.name "x".toList, .name "equ".toList, .number 5 .decimal]]) (by decide +kernel)
  have a1 : Ascii "#define X 5 // five\n".toList := by unfold Ascii; decide +kernel
  have hspl : SplitsInto (headerToks "#define X 5 // five\n").dropLast [(headerToks "#define X 5 // five\n").dropLast] := lines_iff.mp hl
  have e1 : (headerToks "#define X 5 // five\n").dropLast ++ [⟨.eof, placeIn 0 "#define X 5".toList, placeIn 0 "#define X 5".toList⟩] =
    headerToks "#define X 5 // five\n" := by decide +kernel
  have e2 : [(headerToks "#define X 5 // five\n").dropLast].map (·.map Token.tok) =
    [[Tok.hash, .name "define".toList, .name "x".toList, .number 5 .decimal]] := by decide +kernel
  have fl : [(headerToks "#define X 5 // five\n").dropLast].flatten = (headerToks "#define X 5 // five\n").dropLast := by simp
  have c := Inserted.header (seg := plainSeg) (fs := nested) (dir := work) (before := "st 1".toList ++ ['\n']) (rest := []) (.inr rfl) k1 p1 rfl d1 a1
    (L := [(headerToks "#define X 5 // five\n").dropLast])
    (by rw [fl, e1]; exact hh) (by rw [fl]; exact hspl) (by rw [e2]; exact hx) k3 (.last readsAt_nil nofun)
  have b := Inserted.lines (a := "st 1".toList) (exReads r3).2 n2 c
  have a := Inserted.asm (before := "nop".toList ++ ['\n']) (rest := []) (.inr rfl) (.inl k2) p2 rfl d2 (plain_plainSeg _) b (exReads r6).1
    (.last readsAt_nil nofun)
  have m := Inserted.lines (a := "nop".toList) (before := []) (exReads r1).2 n1 a
  exact ⟨_, m, apart_separate (by decide +kernel)⟩

/-- The example meets all hypotheses of `C46_inserted`. -/
example : ∃ text' ms, Inserted plainSeg nested work (work.join (Path.parse "main.s".toList)) [] "nop\n.include \"a.s\"\n".toList text' ms ∧
    Separate ms ∧ Plain plainSeg text' ∧ NoBareInMacro text' ∧
    nested.read (work.join (Path.parse "main.s".toList)) = some (utf8 "nop\n.include \"a.s\"\n".toList) := by
  obtain ⟨ms, h1, h2⟩ := nested_inserted
  refine ⟨_, ms, h1, h2, ?_, ?_, by decide +kernel⟩
  · exact plain_plainSeg _
  · intro ls h
    rw [exReads_only (text := "nop\nst 1\nx equ 5\n\n") (by decide +kernel) h]
    exact .inr (by decide +kernel)

example : readMain nested 3 = readText "nop\nst 1\nx equ 5\n\n" ∧
    readMain nested 3 = some ⟨[], [.instr .Nop, .instr (.St_d9 (.number 1 .decimal)), .alias "x".toList (.number 5 .decimal)]⟩ := by
  decide +kernel

/-- **C46**, why the lines must be separate: of two includes in a row of a file with one line, the second one is
dropped without an error. -/
theorem C46_twice : readMain (folder [("main.s", ".include \"a.s\"\n.include \"a.s\"\n"), ("a.s", "nop\n")]) 3 =
      some ⟨[], [.instr .Nop]⟩ ∧
    readText "nop\n\nnop\n\n" = some ⟨[], [.instr .Nop, .instr .Nop]⟩ := by decide +kernel

/-- **C46**, why bare labels in macros are excluded: the last line of the included file is rejected. -/
theorem C46_bare_label : readMain (folder [("main.s", "%macro m\n.include \"a.s\"\n%end\n"), ("a.s", ".l")]) 3 = none ∧
    readText "%macro m\n.l\n%end\n" = some ⟨[(("m".toList, 0), ⟨"m".toList, [], [.label ".l".toList]⟩)], []⟩ := by
  decide +kernel

/-- A file that includes itself. -/
def cycle : FS := folder [("main.s", ".include \"main.s\"")]

/-- **C46**: a file that includes itself is read for ever. -/
theorem C46_cycle (fuel : Nat) : readProgram plainSeg cycle fuel (SourceFiles.new work) "main.s".toList = .loop := by
  let f : SourceFile := ⟨0, inWork "main.s", ".include \"main.s\"".toList⟩
  have h1 : SourceFiles.path cycle (SourceFiles.new work) none (Path.parse "main.s".toList) = .ok (inWork "main.s") := by
    decide +kernel
  have h2 : SourceFiles.load cycle (SourceFiles.new work) none (inWork "main.s") = .ok (f, ⟨work, [f]⟩) := by decide +kernel
  have h3 : lexInput plainSeg (Input.new f.id f.contents) = .ok (exToks ".include \"main.s\"" ++ [exEnd ".include \"main.s\""]) := by
    decide +kernel
  have h4 : lines (exToks ".include \"main.s\"" ++ [exEnd ".include \"main.s\""]) = [exToks ".include \"main.s\"" ++ [exEnd ".include \"main.s\""]] := by
    decide +kernel
  have h5 : parseDirective ((exToks ".include \"main.s\"" ++ [exEnd ".include \"main.s\""]).map Token.tok) =
      .ok (some (.dir (.incl .asm "main.s".toList), [.eof])) := by decide +kernel
  have h6 : SourceFiles.path cycle ⟨work, [f]⟩ (some (inWork "main.s")) (Path.parse "main.s".toList) = .ok (inWork "main.s") := by
    decide +kernel
  have h7 : SourceFiles.load cycle ⟨work, [f]⟩ (some (inWork "main.s")) (inWork "main.s") = .ok (f, ⟨work, [f]⟩) := by decide +kernel
  have key : ∀ fuel, replaceIncludes plainSeg cycle fuel (inWork "main.s") ⟨work, [f]⟩
      (exToks ".include \"main.s\"" ++ [exEnd ".include \"main.s\""]) = .loop := by
    intro fuel
    induction fuel with
    | zero => rfl
    | succ n ih =>
      rw [replaceIncludes, h4, includeLines, includeLine_dir h5]
      simp only [h6, h7, h3, Res.ok_bind]
      rw [show f.name = inWork "main.s" from rfl, ih]
      rfl
  unfold readProgram
  rw [h1, Res.ok_bind, h2]
  simp only [Res.ok_bind, h3, key]
  rfl

/-- **C46**: an include in a C header is not replaced; the program crashes on it. -/
theorem C46_header_include (m : Mode) (order : List Color → List Color) (load : Text → Res Image) :
    readStatements m plainSeg order load (folder [("main.s", ".include cpp \"h.h\""), ("h.h", ".include \"a.s\"")]) 3
      (SourceFiles.new work) "main.s".toList = .panic := by
  have h : readProgram plainSeg (folder [("main.s", ".include cpp \"h.h\""), ("h.h", ".include \"a.s\"")]) 3
      (SourceFiles.new work) "main.s".toList = .ok (⟨[], [.dir (.incl .asm "a.s".toList)]⟩, inWork "main.s",
        ⟨work, [⟨0, inWork "main.s", ".include cpp \"h.h\"".toList⟩, ⟨1, inWork "h.h", ".include \"a.s\"".toList⟩]⟩) := by
    decide +kernel
  unfold readStatements
  simp only [h, Res.ok_bind]
  rfl

/-! C47: binary includes. -/

/-- The statements that the program with binary includes becomes. -/
abbrev included (m : Mode) (order : List Color → List Color) (load : Text → Res Image) (fs : FS) (file : Path)
    (sf : SourceFiles) (stmts : List Stmt) : Res (List Stmt) := replaceData (includeData m order load fs file sf) stmts

/-- **C47**: an include of bytes becomes one line with exactly the bytes of the file found under its name, in order;
the lines around it are replaced on their own. -/
theorem C47_bytes {m : Mode} {order : List Color → List Color} {load : Text → Res Image} {fs : FS} {file : Path}
    {sf : SourceFiles} {name : Text} {pre post out : List Stmt} :
    included m order load fs file sf (pre ++ [.dir (.incl .bytes name)] ++ post) = .ok out ↔
      ∃ p bs pre' post', Resolves fs sf.workingDir (some file) (Path.parse name) p ∧ fs.read p = some bs ∧
        included m order load fs file sf pre = .ok pre' ∧ included m order load fs file sf post = .ok post' ∧
        out = pre' ++ [.dir (.byte (bs.map fun b => .expr (.number b.toNat .hex)))] ++ post' := by
  unfold included
  constructor
  · intro h
    obtain ⟨a, c, h1, h2, rfl⟩ := replaceData_append.mp h
    obtain ⟨a, b, h6, h3, rfl⟩ := replaceData_append.mp h1
    obtain ⟨p, bs, h4, h5, rfl⟩ := includeData_bytes.mp (replaceData_one.mp h3)
    exact ⟨p, bs, a, c, h4, h5, h6, h2, rfl⟩
  · rintro ⟨p, bs, a, c, h4, h5, h1, h2, rfl⟩
    exact replaceData_append.mpr ⟨_, _, replaceData_append.mpr ⟨_, _, h1, replaceData_one.mpr
      (includeData_bytes.mpr ⟨p, bs, h4, h5, rfl⟩), rfl⟩, h2, rfl⟩

/-- **C47**: if the file cannot be read, the result is an error that names it. -/
theorem C47_missing {m : Mode} {order : List Color → List Color} {load : Text → Res Image} {fs : FS} {file p : Path}
    {sf : SourceFiles} {name : Text} (hp : Resolves fs sf.workingDir (some file) (Path.parse name) p) (hr : fs.read p = none) :
    includeData m order load fs file sf (.dir (.incl .bytes name)) = .err (.fileLoadFailure p.render) := by
  unfold includeData
  dsimp only
  rw [path_iff.mpr hp, Res.ok_bind, loadBytes, hr]
  rfl

/-- **C47**: in the output, the bytes of the file stand at the position of the directive, that is, where the lines
before it end, unless later lines are placed back there by `.org`. -/
theorem C47_position {m : Mode} {order : List Color → List Color} {load : Text → Res Image} {fs : FS} {file : Path}
    {sf : SourceFiles} {name : Text} {pre post stmts : List Stmt} {out : List UInt8}
    (hi : included m order load fs file sf (pre ++ [.dir (.incl .bytes name)] ++ post) = .ok stmts)
    (hs : Source stmts) (hb : m = .checked ∨ Below2GiB stmts) (h : assemble m stmts = .ok out) :
    ∃ p bs pre' post' ps1 ps2, Resolves fs sf.workingDir (some file) (Path.parse name) p ∧ fs.read p = some bs ∧
      included m order load fs file sf pre = .ok pre' ∧ included m order load fs file sf post = .ok post' ∧
      layout pre' = some ps1 ∧ place (stop 0 ps1 + bs.length) (pre'.foldl nextScope []) post' = some ps2 ∧
      stop 0 ps1 + bs.length ≤ out.length ∧
      ((∀ q ∈ ps2, stop 0 ps1 + bs.length ≤ q.addr) → (out.drop (stop 0 ps1)).take bs.length = bs) := by
  obtain ⟨p, bs, pre', post', h1, h2, h3, h4, rfl⟩ := C47_bytes.mp hi
  obtain ⟨ps1, ps2, k1, k2, k3, k4⟩ := literal_bytes hs hb h
  exact ⟨p, bs, pre', post', ps1, ps2, h1, h2, h3, h4, k1, k2, k3, k4⟩

/-- **C47**: the file may as well be written into the program as a string or as numbers. -/
theorem C47_literal {m : Mode} {order : List Color → List Color} {load : Text → Res Image} {fs : FS} {file : Path}
    {sf : SourceFiles} {name : Text} {pre post stmts : List Stmt} {out : List UInt8}
    (hi : included m order load fs file sf (pre ++ [.dir (.incl .bytes name)] ++ post) = .ok stmts)
    (hs : Source stmts) (hb : m = .checked ∨ Below2GiB stmts) (h : assemble m stmts = .ok out) :
    ∃ p bs pre' post', Resolves fs sf.workingDir (some file) (Path.parse name) p ∧ fs.read p = some bs ∧
      included m order load fs file sf pre = .ok pre' ∧ included m order load fs file sf post = .ok post' ∧
      ∀ lines, Data lines bs → assemble m (pre' ++ lines ++ post') = .ok out := by
  obtain ⟨p, bs, pre', post', h1, h2, h3, h4, rfl⟩ := C47_bytes.mp hi
  obtain ⟨ps, hl⟩ := laid_of_ok hs hb h
  refine ⟨p, bs, pre', post', h1, h2, h3, h4, fun lines hd => ?_⟩
  have hdata : Data [.dir (.byte (bs.map fun b => .expr (.number b.toNat .hex)))] bs := by
    have := Data.byte (r := .hex) bs .nil
    rwa [List.append_nil] at this
  exact ((data_block hdata hd hl).2 out).mp h

/-- A program with a binary include between two instructions. -/
def withBytes : FS := folder [("main.s", "ld 5\n.include bytes \"b.bin\"\nend: nop\n"), ("b.bin", "\x01Ab")]

theorem withBytes_statements (order : List Color → List Color) (load : Text → Res Image) :
    ∃ sf, readProgram plainSeg withBytes 2 (SourceFiles.new work) "main.s".toList =
      .ok (⟨[], [.instr (.Ld_d9 (.number 5 .decimal))] ++ [.dir (.incl .bytes "/w/b.bin".toList)] ++
        [.label "end".toList, .instr .Nop]⟩, inWork "main.s", sf) ∧
    included .checked order load withBytes (inWork "main.s") sf ([.instr (.Ld_d9 (.number 5 .decimal))] ++
      [.dir (.incl .bytes "/w/b.bin".toList)] ++ [.label "end".toList, .instr .Nop]) =
        .ok [.instr (.Ld_d9 (.number 5 .decimal)), .dir (.byte [.expr (.num 1), .expr (.num 65), .expr (.num 98)]),
          .label "end".toList, .instr .Nop] ∧
    assemble .checked [.instr (.Ld_d9 (.number 5 .decimal)), .dir (.byte [.expr (.num 1), .expr (.num 65), .expr (.num 98)]),
      .label "end".toList, .instr .Nop] = .ok [0x02, 5, 1, 65, 98, 0] := by
  refine ⟨⟨work, [⟨0, inWork "main.s", "ld 5\n.include bytes \"b.bin\"\nend: nop\n".toList⟩]⟩, by decide +kernel, ?_, by decide +kernel⟩
  refine (C47_bytes (pre := [_]) (post := [_, _])).mpr ⟨inWork "b.bin", [1, 65, 98], [.instr (.Ld_d9 (.number 5 .decimal))],
    [.label "end".toList, .instr .Nop], ?_, by decide +kernel, rfl, rfl, rfl⟩
  exact exPath (name := "/w/b.bin") (by decide +kernel)

/-! C48: C headers. -/

/-- **C48**: the lines of an included C header.  Comments are blank; `#define NAME expression` becomes `NAME equ
expression`, and other lines are kept.  If a define has no expression, there is no result. -/
theorem C48_lines {seg : Seg} (hs : AsciiSeg seg) {file : Nat} {text : Text} (ha : Ascii text) {K : List (List Tok)} :
    (∃ toks, lexHeader seg (Input.new file text) = .ok toks ∧ KindLines toks K) ↔
      ∃ raw R, CLexesTo file [] text raw ∧ KindLines raw R ∧ EachLine HeaderLine R K := by
  have hk : ∀ toks K, KindLines toks K ↔ (lines toks).map (·.map Token.tok) = K := by
    intro toks K
    constructor
    · rintro ⟨L, h1, h2⟩; rw [lines_iff.mpr h1, h2]
    · intro h; exact ⟨_, lines_splits toks, h.symm⟩
  simp only [hk]
  rw [lexHeader_iff hs ha]
  constructor
  · rintro ⟨raw, h1, h2⟩; exact ⟨raw, _, h1, rfl, h2⟩
  · rintro ⟨raw, R, h1, rfl, h2⟩; exact ⟨raw, h1, h2⟩

/-- **C48**: a header whose lines are defines and assembly lines is read as the aliases and the statements of these
lines, in order. -/
theorem C48_defines {seg : Seg} (hs : AsciiSeg seg) {t : Text} (ha : Ascii t) {e : Token} {L : List (List Token)}
    {sss : List (List Stmt)} (h1 : CLexesTo 0 [] t (L.flatten ++ [e])) (h2 : SplitsInto L.flatten L)
    (h3 : EachLine HeaderStmts (L.map (·.map Token.tok)) sss) (file : Nat) :
    (lexHeader seg (Input.new file t) >>= parse) = .ok ⟨[], sss.flatten⟩ := header_program hs ha h1 h2 h3 file

/-- **C48**: so a header with defines may as well be an assembly file with aliases. -/
theorem C48_aliases {seg : Seg} (hs : AsciiSeg seg) {t t' : Text} (ha : Ascii t) (ha' : Plain seg t') {e : Token}
    {L : List (List Token)} {defs : List (Text × List Tok × Expr)}
    (hd : ∀ d ∈ defs, d.1 ∉ directives.map String.toList ∧ ExprSyntax d.2.1 d.2.2)
    (h1 : CLexesTo 0 [] t (L.flatten ++ [e])) (h2 : SplitsInto L.flatten L)
    (h3 : L.map (·.map Token.tok) = defs.map fun d => Tok.hash :: .name "define".toList :: .name d.1 :: d.2.1)
    (h4 : ReadsAs t' (defs.map fun d => Tok.name d.1 :: .name "equ".toList :: d.2.1)) (file : Nat) :
    (lexHeader seg (Input.new file t) >>= parse) = .ok ⟨[], defs.map fun d => .alias d.1 d.2.2⟩ ∧
    (lexInput seg (Input.new file t') >>= parse) = .ok ⟨[], defs.map fun d => .alias d.1 d.2.2⟩ := by
  have hflat : ∀ defs : List (Text × List Tok × Expr), (defs.map fun d => [Stmt.alias d.1 d.2.2]).flatten =
      defs.map fun d => Stmt.alias d.1 d.2.2 := by
    intro defs
    induction defs with
    | nil => rfl
    | cons d ds ih => rw [List.map_cons, List.flatten_cons, ih]; rfl
  constructor
  · have h5 : ∀ defs : List (Text × List Tok × Expr), (∀ d ∈ defs, d.1 ∉ directives.map String.toList ∧ ExprSyntax d.2.1 d.2.2) →
        EachLine HeaderStmts (defs.map fun d => Tok.hash :: .name "define".toList :: .name d.1 :: d.2.1)
          (defs.map fun d => [.alias d.1 d.2.2]) := by
      intro defs hd
      induction defs with
      | nil => exact .nil
      | cons d ds ih =>
        exact .cons (.define (hd d List.mem_cons_self).1 (hd d List.mem_cons_self).2) (ih fun x hx => hd x (List.mem_cons_of_mem _ hx))
    rw [← hflat]
    exact header_program hs ha h1 h2 (by rw [show kindsOf L = _ from h3]; exact h5 defs hd) file
  · obtain ⟨toks, e1, e2⟩ := readsAs_lex h4 ha' file
    rw [e1, Res.ok_bind]
    have h5 : ∀ defs : List (Text × List Tok × Expr), (∀ d ∈ defs, d.1 ∉ directives.map String.toList ∧ ExprSyntax d.2.1 d.2.2) →
        EachLine LineSyntax (defs.map fun d => Tok.name d.1 :: .name "equ".toList :: d.2.1)
          (defs.map fun d => [.alias d.1 d.2.2]) := by
      intro defs hd
      induction defs with
      | nil => exact .nil
      | cons d ds ih =>
        exact .cons (.alias (hd d List.mem_cons_self).1 (hd d List.mem_cons_self).2) (ih fun x hx => hd x (List.mem_cons_of_mem _ hx))
    refine (parse_undec_iff e2 (readsAs_noeof h4) (.inr ?_)).mpr (parseTokLines_iff.mpr ⟨[], ?_, rfl⟩)
    · intro l hl
      obtain ⟨d, -, rfl⟩ := List.mem_map.mp hl
      simp
    · rw [← hflat]
      exact program_of_lines (h5 defs hd) []

/-- The result of reading a header. -/
def readHeader (text : String) : Option Program :=
  match lexHeader plainSeg (Input.new 0 text.toList) >>= parse with
  | .ok p => some p
  | _ => none

/-- A header with comments, defines and an assembly line. -/
example : readHeader "/* Ports\n */\n#define P1 0x44 // port 1\n#define BIT3 (P1 + 1) * 8\n\nx = 3\n" =
    some ⟨[], [.alias "p1".toList (.number 0x44 .hex), .alias "bit3".toList
      (.times (.plus (.name "p1".toList) (.number 1 .decimal)) (.number 8 .decimal)),
      .variable "x".toList (.number 3 .decimal)]⟩ := by decide +kernel

/-- It meets the hypotheses of `C48_defines`. -/
example : ∃ e L sss, CLexesTo 0 [] "/* P */\n#define P1 0x44 // port 1\nx = 3\n".toList (L.flatten ++ [e]) ∧
    SplitsInto L.flatten L ∧ EachLine HeaderStmts (L.map (·.map Token.tok)) sss ∧ sss.flatten.length = 2 := by
  have hh : CLexesTo 0 [] "/* P */\n#define P1 0x44 // port 1\nx = 3\n".toList
      (headerToks "/* P */\n#define P1 0x44 // port 1\nx = 3\n") :=
    (clex_ok_iff plainSeg_ascii (by decide +kernel)).mp (by decide +kernel)
  have hl := lines_splits (headerToks "/* P */\n#define P1 0x44 // port 1\nx = 3\n").dropLast
  have hf := splits_flatten hl
  refine ⟨⟨.eof, ⟨0, 39, 3, 5⟩, ⟨0, 39, 3, 5⟩⟩, lines (headerToks "/* P */\n#define P1 0x44 // port 1\nx = 3\n").dropLast,
    [[.alias "p1".toList (.number 0x44 .hex)], [.variable "x".toList (.number 3 .decimal)]], ?_, ?_, ?_, rfl⟩
  · rw [hf]
    have : (headerToks "/* P */\n#define P1 0x44 // port 1\nx = 3\n").dropLast ++ [⟨.eof, ⟨0, 39, 3, 5⟩, ⟨0, 39, 3, 5⟩⟩] =
      headerToks "/* P */\n#define P1 0x44 // port 1\nx = 3\n" := by decide +kernel
    rw [this]
    exact hh
  · rw [hf]; exact hl
  · have : (lines (headerToks "/* P */\n#define P1 0x44 // port 1\nx = 3\n").dropLast).map (·.map Token.tok) =
        [[Tok.hash, .name "define".toList, .name "p1".toList, .number 0x44 .hex],
          [.name "x".toList, .equals, .number 3 .decimal]] := by decide +kernel
    rw [this]
    exact .cons (.define (w := [.number 0x44 .hex]) (by decide +kernel) (exExpr (by decide +kernel)))
      (.cons (.line (.variable (w := [.number 3 .decimal]) (by decide +kernel) (exExpr (by decide +kernel)))) .nil)

/-- **C48**, the limits: a define without an expression, as in an include guard, is an error, and other
preprocessor lines are kept and then rejected by the parser. -/
theorem C48_no_expression : lexHeader plainSeg (Input.new 0 "#define FOO_H\n".toList) = .err .invalidExpression ∧
    lexHeader plainSeg (Input.new 0 "#ifdef A".toList) = lexInput plainSeg (Input.new 0 "#ifdef A".toList) ∧
    readHeader "#ifdef A" = none := by decide +kernel

/-- **C48**, the limits: a block comment with a character outside ASCII crashes the program. -/
theorem C48_comment_crash : lexHeader plainSeg (Input.new 0 ("/* ".toList ++ [Char.ofNat 0xE9] ++ " */".toList)) = .panic := by
  decide +kernel

end Verif.Props
