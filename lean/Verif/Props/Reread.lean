import Verif.Lemmas.ReadBack
import Verif.Lemmas.Rewrite
import Verif.Props.Pipeline
/-
C65: printed programs read back.  `CleanStmt`, `Lowers` and `Reread` are in Spec/Reread.lean.
-/
namespace Verif.Props
open Verif.Spec

/-- The text with an end of line, if it is ASCII, or has no combining characters. -/
theorem plain_line {seg : Seg} (hs : AsciiSeg seg) {t : Text} {A : Prop} (h : A → Verif.Ascii t) (hp : A ∨ Plain seg (t ++ "\n".toList)) :
    Plain seg (t ++ "\n".toList) := by
  rcases hp with hA | hp
  · refine plain_of_ascii hs fun c hc => ?_
    rcases List.mem_append.mp hc with hc | hc
    · exact h hA c hc
    · rw [List.mem_singleton.mp hc]; decide
  · exact hp

/-- **C65**: printing statements succeeds, and the text is read as the same statements: nothing else than comments and
the case of names is lost.  Comments and strings may have any characters, as long as the text has no combining characters. -/
theorem C65_program {seg : Seg} (hs : AsciiSeg seg) {ss : List Stmt} (hc : ∀ s ∈ ss, CleanStmt s) :
    ∃ text ss', printStatements ss = .ok text ∧
      ((∀ s ∈ ss, AsciiStmt s) ∨ Plain seg (text ++ "\n".toList) →
        (lexInput seg (Input.new 0 (text ++ "\n".toList)) >>= parse) = .ok ⟨[], ss'⟩) ∧ Reread ss ss' := by
  obtain ⟨t, K, sss, h1, h2, h3, h4, h5⟩ := printed_reads hc
  exact ⟨t, _, h1, fun hp => text_parses (plain_line hs h2 hp) h3 h4 0, h5⟩

/-- **C65**: if its names are in lower case already, as in all programs that come from source files, the program is read
back as itself without its comments, and assembles to the same bytes, or fails in the same way. -/
theorem C65_same {seg : Seg} (hs : AsciiSeg seg) {ss : List Stmt} (hc : ∀ s ∈ ss, CleanStmt s)
    (hl : ∀ s ∈ ss, (∀ t, s ≠ .comment t) → Lowers s s) :
    ∃ text ss', printStatements ss = .ok text ∧
      ((∀ s ∈ ss, AsciiStmt s) ∨ Plain seg (text ++ "\n".toList) →
        (lexInput seg (Input.new 0 (text ++ "\n".toList)) >>= parse) = .ok ⟨[], ss'⟩) ∧
      (∀ s, s ∈ ss' ↔ s ∈ ss ∧ ∀ t, s ≠ .comment t) ∧ ss'.Sublist ss ∧ ∀ m, assemble m ss' = assemble m ss := by
  obtain ⟨t, ss', h1, h2, h3⟩ := C65_program hs hc
  have hcode : ∀ s, isCode s = true ↔ ∀ t, s ≠ .comment t := by
    intro s
    cases s <;> simp [isCode]
  have he := reread_same h3 fun s hs h => hl s hs ((hcode s).mp h)
  subst he
  refine ⟨t, _, h1, h2, fun s => ?_, List.filter_sublist, fun m => assemble_comments m ss⟩
  rw [List.mem_filter, hcode]

/-- **C65**: the output of `expand`, stored as a file, assembles to the same bytes as the file that was expanded, or
fails in the same way: includes, images and macros are all written out. -/
theorem C65_expand {m : Mode} {seg : Seg} (hs : AsciiSeg seg) {order : List Color → List Color} {load : Text → Res Image}
    {uuid : Nat → Text} {fs : FS} {fuel macroFuel : Nat} {sf : SourceFiles} {name : Text} {p q : Program}
    (hr : readStatements m seg order load fs fuel sf name = .ok p) (he : expandMacros uuid macroFuel p = .ok q)
    (hc : ∀ s ∈ q.stmts, CleanStmt s) (hl : ∀ s ∈ q.stmts, (∀ t, s ≠ .comment t) → Lowers s s) :
    ∃ text, expandFile m seg order load uuid fs fuel macroFuel sf name = .ok text ∧
      ((∀ s ∈ q.stmts, AsciiStmt s) ∨ Plain seg text →
      ∀ (fs' : FS) (dir : Path) (name' : Text), dir.abs = true → fs'.read (dir.join (Path.parse name')) = some (utf8 text) →
        ∃ n, ∀ fuel' ≥ n, ∀ uuid' macroFuel',
          assembleFile m seg order load uuid' fs' fuel' macroFuel' (SourceFiles.new dir) name' =
            assembleFile m seg order load uuid fs fuel macroFuel sf name) := by
  obtain ⟨t, K, sss, h1, h2, h3, h4, h5⟩ := printed_reads hc
  refine ⟨t ++ "\n".toList, ?_, fun hp fs' dir name' hd hf => ?_⟩
  · unfold expandFile
    rw [hr, Res.ok_bind, he, Res.ok_bind, h1, Res.ok_bind]
  · obtain ⟨g1, g2, g3⟩ := reread_plain h5 hc
    have hpl := plain_line hs h2 hp
    obtain ⟨n, h6⟩ := assemble_of_lines hs hd hf hpl h3 h4 g1 g2 g3 m order load
    refine ⟨n, fun fuel' hf' uuid' mf' => ?_⟩
    have hcode : ∀ s, isCode s = true → ∀ t, s ≠ .comment t := by
      intro s
      cases s <;> simp [isCode]
    rw [h6 fuel' hf' uuid' mf', reread_same h5 fun s hs h => hl s hs (hcode s h), assemble_comments]
    unfold assembleFile
    rw [hr, Res.ok_bind, he, Res.ok_bind]

/-- **C65**: so it is for every file whose expanded program satisfies `Rewritable`; that its names are identifiers in lower
case and its numbers are small follows from its having been read. -/
theorem C65_source {m : Mode} {seg : Seg} (hs : AsciiSeg seg) {order : List Color → List Color} {load : Text → Res Image}
    {uuid : Nat → Text} (hu : Suffixes uuid) {fs : FS} {fuel macroFuel : Nat} {sf : SourceFiles} {name : Text} {p q : Program}
    (hr : readStatements m seg order load fs fuel sf name = .ok p) (he : expandMacros uuid macroFuel p = .ok q)
    (hc : ∀ s ∈ q.stmts, Rewritable s) :
    ∃ text, expandFile m seg order load uuid fs fuel macroFuel sf name = .ok text ∧
      ((∀ s ∈ q.stmts, AsciiStmt s) ∨ Plain seg text →
      ∀ (fs' : FS) (dir : Path) (name' : Text), dir.abs = true → fs'.read (dir.join (Path.parse name')) = some (utf8 text) →
        ∃ n, ∀ fuel' ≥ n, ∀ uuid' macroFuel',
          assembleFile m seg order load uuid' fs' fuel' macroFuel' (SourceFiles.new dir) name' =
            assembleFile m seg order load uuid fs fuel macroFuel sf name) := by
  have h := expandMacros_sane hu (readStatements_sane hr) he
  exact C65_expand hs hr he (fun s hm => (h s hm).1.clean (hc s hm)) fun s hm ht => (h s hm).1.lowers (hc s hm) ht

/-- What was printed, stored as a file, is printed again without its comments. -/
theorem expand_printed {m : Mode} {seg : Seg} (hs : AsciiSeg seg) {order : List Color → List Color} {load : Text → Res Image}
    {ss : List Stmt} (hc : ∀ s ∈ ss, CleanStmt s) (hl : ∀ s ∈ ss, (∀ t, s ≠ .comment t) → Lowers s s) :
    ∃ text text', printStatements ss = .ok text ∧ printStatements (ss.filter isCode) = .ok text' ∧
      ((∀ s ∈ ss, AsciiStmt s) ∨ Plain seg (text ++ "\n".toList) →
      ∀ (fs' : FS) (dir : Path) (name' : Text), dir.abs = true → fs'.read (dir.join (Path.parse name')) = some (utf8 (text ++ "\n".toList)) →
        ∃ n, ∀ fuel' ≥ n, ∀ uuid' macroFuel',
          expandFile m seg order load uuid' fs' fuel' macroFuel' (SourceFiles.new dir) name' = .ok (text' ++ "\n".toList)) := by
  obtain ⟨t, K, sss, h1, h2, h3, h4, h5⟩ := printed_reads hc
  obtain ⟨t', -, -, h1', -⟩ := printed_reads (ss := ss.filter isCode) fun s hm => hc s (List.mem_filter.mp hm).1
  refine ⟨t, t', h1, h1', fun hp fs' dir name' hd hf => ?_⟩
  obtain ⟨g1, g2, g3⟩ := reread_plain h5 hc
  have hpl := plain_line hs h2 hp
  obtain ⟨n, h6⟩ := file_of_lines hs hd hf hpl h3 h4 g1 g2 m order load
  have hcode : ∀ s, isCode s = true → ∀ t, s ≠ .comment t := by
    intro s
    cases s <;> simp [isCode]
  have hsame := reread_same h5 fun s hs h => hl s hs (hcode s h)
  refine ⟨n, fun fuel' hf' uuid' mf' => ?_⟩
  unfold expandFile
  rw [h6 fuel' hf', Res.ok_bind]
  unfold expandMacros
  simp only [expandStmts_none (uuid := uuid') (macros := []) (fuel := mf') (k := 0) fun x hx n a e => g3 n a (e ▸ hx), Res.ok_bind]
  rw [hsame, h1', Res.ok_bind]

/-- **C65**: for such files, expanding the output of `expand` again removes at most the comments, and from then on nothing changes. -/
theorem C65_again {m : Mode} {seg : Seg} (hs : AsciiSeg seg) {order : List Color → List Color} {load : Text → Res Image}
    {uuid : Nat → Text} (hu : Suffixes uuid) {fs : FS} {fuel macroFuel : Nat} {sf : SourceFiles} {name : Text} {p q : Program}
    (hr : readStatements m seg order load fs fuel sf name = .ok p) (he : expandMacros uuid macroFuel p = .ok q)
    (hc : ∀ s ∈ q.stmts, Rewritable s) :
    ∃ text text', expandFile m seg order load uuid fs fuel macroFuel sf name = .ok text ∧
      ((∀ s ∈ q.stmts, ∀ t, s ≠ .comment t) → text' = text) ∧
      ∀ (fs' : FS) (dir : Path) (name' : Text), dir.abs = true →
        (∃ u, (u = text ∨ u = text') ∧ fs'.read (dir.join (Path.parse name')) = some (utf8 u) ∧
          ((∀ s ∈ q.stmts, AsciiStmt s) ∨ Plain seg u)) →
        ∃ n, ∀ fuel' ≥ n, ∀ uuid' macroFuel',
          expandFile m seg order load uuid' fs' fuel' macroFuel' (SourceFiles.new dir) name' = .ok text' := by
  have h := expandMacros_sane hu (readStatements_sane hr) he
  have hc' : ∀ s ∈ q.stmts, CleanStmt s := fun s hm => (h s hm).1.clean (hc s hm)
  have hl : ∀ s ∈ q.stmts, (∀ t, s ≠ .comment t) → Lowers s s := fun s hm ht => (h s hm).1.lowers (hc s hm) ht
  obtain ⟨t, t', h1, h2, h3⟩ := expand_printed (m := m) (order := order) (load := load) hs hc' hl
  obtain ⟨u, u', k1, k2, k3⟩ := expand_printed (m := m) (order := order) (load := load) (ss := q.stmts.filter isCode) hs
    (fun s hm => hc' s (List.mem_filter.mp hm).1) (fun s hm => hl s (List.mem_filter.mp hm).1)
  rw [h2] at k1
  cases k1
  rw [List.filter_filter] at k2
  simp only [Bool.and_self] at k2
  rw [h2] at k2
  cases k2
  refine ⟨t ++ "\n".toList, t' ++ "\n".toList, ?_, fun hn => ?_, fun fs' dir name' hd hf => ?_⟩
  · unfold expandFile
    rw [hr, Res.ok_bind, he, Res.ok_bind, h1, Res.ok_bind]
  · have : q.stmts.filter isCode = q.stmts := List.filter_eq_self.mpr fun s hm => by
      have := hn s hm
      cases s with
      | comment t => exact absurd rfl (this t)
      | _ => rfl
    rw [this, h1] at h2
    cases h2
    rfl
  · obtain ⟨u, hu, hf, hp⟩ := hf
    rcases hu with rfl | rfl
    · exact h3 hp fs' dir name' hd hf
    · exact k3 (hp.imp_left fun ha s hm => ha s (List.mem_filter.mp hm).1) fs' dir name' hd hf

/-- The text that `expand` prints for `main.s`. -/
def expandMain (fs : FS) : Res Text :=
  expandFile .checked plainSeg id (fun _ => .err (.invalidPath [])) suffixes fs 3 3 (SourceFiles.new work) "main.s".toList

/-- The text for the two files of C64. -/
def expandedText : Text :=
  "start:\n  add   #5\nlp_u0:\n  bnz   lp_u0\n  .byte $41,$42\n  .cnop 0, 4\n  jmp   start\n".toList

/-- The statements in it. -/
def expandedStmts : List Stmt :=
  [.label "start".toList, .instr (.Add_i8 (.number 5 .decimal)), .label "lp_u0".toList, .instr (.Bnz (.name "lp_u0".toList)),
    .dir (.byte [.expr (.number 0x41 .hex), .expr (.number 0x42 .hex)]), .dir (.cnop (.number 0 .decimal) (.number 4 .decimal)),
    .instr (.Jmp (.name "start".toList))]

theorem ident_start : Ident "start".toList := ⟨'s', "tart".toList, rfl, .inl (by decide), by
  intro d hd
  have : ∀ d ∈ "tart".toList, d.isAlpha = true := by decide
  exact .inl (.inl (this d hd))⟩

theorem ident_loop : Ident "lp_u0".toList := ⟨'l', "p_u0".toList, rfl, .inl (by decide), by
  intro d hd
  have : ∀ d ∈ "p_u0".toList, d.isAlpha = true ∨ d = '_' ∨ d.isDigit = true := by decide
  rcases this d hd with h | h | h
  · exact .inl (.inl h)
  · exact .inl (.inr (.inl h))
  · exact .inr (.inl h)⟩

/-- The program of C64 meets the hypotheses of the theorems. -/
example : (∀ s ∈ expandedStmts, CleanStmt s) ∧ ∀ s ∈ expandedStmts, (∀ t, s ≠ .comment t) → Lowers s s := by
  have hn : ∀ (v : Int) (r : Radix), r = .hex ∨ r = .decimal → 0 ≤ v → v < 100 → Clean (.number v r) := by
    intro v r hr h0 h1
    rcases hr with rfl | rfl
    · exact ⟨⟨h0, by omega⟩, h0⟩
    · exact ⟨⟨by omega, by omega⟩, h0⟩
  constructor
  · simp only [expandedStmts, List.forall_mem_cons, List.not_mem_nil, false_implies, implies_true, and_true]
    refine ⟨.label ident_start (by decide), .instr ?_, .label ident_loop (by decide), .instr ?_, .byte (by simp) ?_,
      .cnop (hn _ _ (.inr rfl) (by omega) (by omega)) (hn _ _ (.inr rfl) (by omega) (by omega)), .instr ?_⟩
    · intro e he
      obtain rfl : e = .number 5 .decimal := by simpa [operands] using he
      exact ⟨hn _ _ (.inr rfl) (by omega) (by omega), rfl, by simp [namesIn]⟩
    · intro e he
      obtain rfl : e = .name "lp_u0".toList := by simpa [operands] using he
      exact ⟨⟨ident_loop, trivial⟩, rfl, by simp only [namesIn, List.mem_singleton]; rintro n rfl; decide⟩
    · intro v hv
      simp only [List.mem_cons, List.not_mem_nil, or_false] at hv
      rcases hv with rfl | rfl
      · exact .expr (hn _ _ (.inl rfl) (by omega) (by omega))
      · exact .expr (hn _ _ (.inl rfl) (by omega) (by omega))
    · intro e he
      obtain rfl : e = .name "start".toList := by simpa [operands] using he
      exact ⟨⟨ident_start, trivial⟩, rfl, by simp only [namesIn, List.mem_singleton]; rintro n rfl; decide⟩
  · simp only [expandedStmts, List.forall_mem_cons, List.not_mem_nil, false_implies, implies_true, and_true]
    refine ⟨fun _ => .label, fun _ => .instr rfl rfl, fun _ => .label, fun _ => .instr rfl rfl, fun _ => .byte, fun _ => .cnop, fun _ => .instr rfl rfl⟩

/-- It satisfies `Rewritable`. -/
example : ∀ s ∈ expandedStmts, Rewritable s := by
  simp only [expandedStmts, List.forall_mem_cons, List.not_mem_nil, false_implies, implies_true, and_true]
  refine ⟨.label (by decide), .instr ?_, .label (by decide), .instr ?_, .byte (by simp) ?_, .cnop nofun nofun, .instr ?_⟩
  · intro e he
    obtain rfl : e = .number 5 .decimal := by simpa [operands] using he
    exact ⟨nofun, rfl, by simp [namesIn]⟩
  · intro e he
    obtain rfl : e = .name "lp_u0".toList := by simpa [operands] using he
    exact ⟨trivial, rfl, by decide⟩
  · intro v hv
    simp only [List.mem_cons, List.not_mem_nil, or_false] at hv
    rcases hv with rfl | rfl
    · exact .inl ⟨_, rfl, nofun, by show (0 : Int) ≤ _; omega⟩
    · exact .inl ⟨_, rfl, nofun, by show (0 : Int) ≤ _; omega⟩
  · intro e he
    obtain rfl : e = .name "start".toList := by simpa [operands] using he
    exact ⟨trivial, rfl, by decide⟩

/-- It is the program that is expanded, it is printed as said, and the printed file assembles to the same bytes. -/
example : (readStatements .checked plainSeg id (fun _ => .err (.invalidPath [])) twoFiles 3 (SourceFiles.new work) "main.s".toList >>=
      expandMacros suffixes 3 >>= fun q => .ok q.stmts) = .ok expandedStmts ∧
    expandMain twoFiles = .ok expandedText ∧
    bytesOfMain (folder [("main.s", String.ofList expandedText)]) = bytesOfMain twoFiles ∧
    expandMain (folder [("main.s", String.ofList expandedText)]) = .ok expandedText := by decide +kernel

/-- A program with letters outside ASCII is rewritable, and read back. -/
example : Rewritable (.dir (.byte [.str (utf8 "größe".toList)])) ∧ ¬ AsciiStmt (.dir (.byte [.str (utf8 "größe".toList)])) ∧
    (∀ text, Plain plainSeg text) ∧
    expandMain (folder [("main.s", ".byte \"größe\" ; Größe\n")]) = .ok "  .byte \"größe\"\n".toList ∧
    bytesOfMain (folder [("main.s", "  .byte \"größe\"\n")]) = .ok [0x67, 0x72, 0xC3, 0xB6, 0xC3, 0x9F, 0x65] := by
  refine ⟨.byte (by simp) fun v hv => .inr ⟨_, List.mem_singleton.mp hv, ?_⟩, fun h => ?_, fun _ _ _ _ _ => rfl, by decide +kernel, by decide +kernel⟩
  · unfold Quotable; decide
  · exact absurd (h _ (List.mem_singleton_self _) 0xC3 (by decide +kernel)) (by decide)

/-- **C65**, the limits: `.text` and `.string` are printed without the quotes, so their text is not read back; an octal
number is read back as another number; a string with a quote is not read back; so is a macro call with two
arguments (which `expand` does not print). -/
theorem C65_limits :
    expandMain (folder [("main.s", ".text 3 \"abc\"\n")]) = .ok "  .text 3 abc\n".toList ∧
    (∃ e, bytesOfMain (folder [("main.s", "  .text 3 abc\n")]) = .err e) ∧
    expandMain (folder [("main.s", ".string 3 \"abc\"\n")]) = .ok "  .string 3 abc\n".toList ∧
    (∃ e, bytesOfMain (folder [("main.s", "  .string 3 abc\n")]) = .err e) ∧
    bytesOfMain (folder [("main.s", ".byte 0o10\n")]) = .ok [8] ∧
    expandMain (folder [("main.s", ".byte 0o10\n")]) = .ok "  .byte $0010\n".toList ∧
    bytesOfMain (folder [("main.s", "  .byte $0010\n")]) = .ok [16] ∧
    expandMain (folder [("main.s", ".byte \"\\\"\"\n")]) = .ok "  .byte \"\"\"\n".toList ∧
    (∃ e, bytesOfMain (folder [("main.s", "  .byte \"\"\"\n")]) = .err e) ∧
    Stmt.print (.macroCall "m".toList [.ex (.name "a".toList), .ex (.name "b".toList)]) = .ok "m a b".toList := by
  have err : ∀ (r : Res (List UInt8)), (match r with | .err _ => true | _ => false) = true → ∃ e, r = .err e := by
    intro r h
    cases r with
    | err e => exact ⟨e, rfl⟩
    | _ => cases h
  exact ⟨by decide +kernel, err _ (by decide +kernel), by decide +kernel, err _ (by decide +kernel), by decide +kernel, by decide +kernel,
    by decide +kernel, by decide +kernel, err _ (by decide +kernel), by decide +kernel⟩

end Verif.Props
