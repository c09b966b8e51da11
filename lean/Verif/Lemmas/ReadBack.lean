import Verif.Lemmas.PrintProgram
import Verif.Lemmas.IncludeData
import Verif.Lemmas.Hygiene
/-
Files of printed statements, and assembly without comments.
-/
namespace Verif
open Verif.Spec

/-! Comments do not matter -/

/-- Not a comment. -/
def isCode : Stmt → Bool
  | .comment _ => false
  | _ => true

theorem runSteps_skip {σ : Type} {step : σ → Stmt → Res σ} (Inv : σ → Prop) (hi : ∀ s x s', Inv s → step s x = .ok s' → Inv s')
    (hc : ∀ s t, Inv s → step s (.comment t) = .ok s) : ∀ (ss : List Stmt) (s : σ), Inv s →
    runSteps step (ss.filter isCode) s = runSteps step ss s := by
  intro ss
  induction ss with
  | nil => intro s _; rfl
  | cons x ss ih =>
    intro s hs
    by_cases hx : ∃ t, x = .comment t
    · obtain ⟨t, rfl⟩ := hx
      have : (Stmt.comment t :: ss).filter isCode = ss.filter isCode := rfl
      rw [this, runSteps, hc s t hs, Res.ok_bind]
      exact ih s hs
    · have : (x :: ss).filter isCode = x :: ss.filter isCode := by
        cases x <;> first | rfl | exact absurd ⟨_, rfl⟩ hx
      rw [this, runSteps, runSteps]
      cases h : step s x with
      | ok s' => simp only [Res.ok_bind]; exact ih s' (hi s x s' hs h)
      | err => rfl
      | panic => rfl
      | loop => rfl

theorem moveTo_inv (s : NameState) (p : Int) : (s.moveTo p).pos ≤ (s.moveTo p).maxPos := by
  simp only [NameState.moveTo]
  split <;> omega

theorem moveTo_same {s : NameState} (h : s.pos ≤ s.maxPos) : s.moveTo s.pos = s := by
  simp only [NameState.moveTo]
  rw [if_neg (by omega)]

theorem nameStep_inv {m : Mode} {s s' : NameState} {x : Stmt} (h : nameStep m s x = .ok s') : s'.pos ≤ s'.maxPos := by
  cases x with
  | dir d =>
    obtain ⟨a, _, h⟩ := Res.bind_eq_ok.mp h
    obtain ⟨b, _, h⟩ := Res.bind_eq_ok.mp h
    cases h; exact moveTo_inv _ _
  | label => cases h; exact moveTo_inv _ _
  | instr i =>
    obtain ⟨b, _, h⟩ := Res.bind_eq_ok.mp h
    cases h; exact moveTo_inv _ _
  | «variable» n e =>
    obtain ⟨a, _, h⟩ := Res.bind_eq_ok.mp h
    obtain ⟨b, _, h⟩ := Res.bind_eq_ok.mp h
    cases h; exact moveTo_inv _ _
  | alias n e =>
    obtain ⟨a, _, h⟩ := Res.bind_eq_ok.mp h
    obtain ⟨b, _, h⟩ := Res.bind_eq_ok.mp h
    cases h; exact moveTo_inv _ _
  | comment => cases h; exact moveTo_inv _ _
  | macroCall => cases h

theorem assemble_comments (m : Mode) (ss : List Stmt) : assemble m (ss.filter isCode) = assemble m ss := by
  have h1 : computeLabels m (ss.filter isCode) = computeLabels m ss := by
    unfold computeLabels
    rw [runSteps_skip (fun _ => True) (fun _ _ _ _ _ => trivial) (fun _ _ _ => rfl) ss _ trivial]
  have h2 : computeNames m (ss.filter isCode) = computeNames m ss := by
    unfold computeNames
    rw [h1]
    congr 1
    funext labels
    rw [runSteps_skip (fun s => s.pos ≤ s.maxPos) (fun _ _ _ _ h => nameStep_inv h)
      (fun s t h => by show Res.ok (s.moveTo s.pos) = _; rw [moveTo_same h]) ss _ (Int.le_refl _)]
  unfold assemble
  rw [h2]
  congr 1
  funext x
  dsimp only
  split
  · rfl
  · rw [runSteps_skip (fun _ => True) (fun _ _ _ _ _ => trivial) (fun _ _ _ => rfl) ss _ trivial]

/-! Files of lines -/

theorem replaceData_none {f : Stmt → Res (List Stmt)} {ss : List Stmt} (h : ∀ s ∈ ss, f s = .ok [s]) : replaceData f ss = .ok ss := by
  induction ss with
  | nil => rfl
  | cons s ss ih =>
    rw [replaceData, h s List.mem_cons_self, Res.ok_bind, ih fun x hx => h x (List.mem_cons_of_mem _ hx), Res.ok_bind]
    rfl

theorem includeData_none {m : Mode} {order : List Color → List Color} {load : Text → Res Image} {fs : FS} {p : Path} {sf : SourceFiles}
    {s : Stmt} (h : ∀ t path, s ≠ .dir (.incl t path)) : includeData m order load fs p sf s = .ok [s] := by
  cases s with
  | dir d => cases d <;> first | rfl | exact absurd rfl (h _ _)
  | _ => rfl

theorem line_no_include {l : List Tok} {ss : List Stmt} (h : LineSyntax l ss) (h1 : ∀ t path, Stmt.dir (.incl t path) ∉ ss)
    (h2 : Stmt.label ".include".toList ∉ ss) : l.head? ≠ some (.name ".include".toList) := by
  intro he
  have hd : ".include".toList ∈ directives.map String.toList := by decide
  have hm : ∀ {w s}, InstrSyntax w s → w.head? ≠ some (.name ".include".toList) := by
    intro w s hw he
    cases hw with
    | instr _ hw =>
      simp only [List.head?_cons, Option.some.injEq, Tok.name.injEq] at he
      obtain ⟨hn, -⟩ := hw
      rw [he] at hn
      have : ∀ f, ".include".toList ≠ (row f).name.toList := by
        intro f e
        have h3 := (row_names f).1 '.' (by rw [← e]; decide)
        revert h3; decide
      exact this _ hn
    | call _ hd _ =>
      simp only [List.head?_cons, Option.some.injEq, Tok.name.injEq] at he
      exact hd ⟨"include".toList, by rw [he]; decide⟩
  cases h with
  | empty => cases he
  | label => simp at he; subst he; exact h2 (by decide)
  | labelled => simp at he; subst he; exact h2 (by simp)
  | localLabel _ hn => simp at he; subst he; exact hn (by decide)
  | instr hw _ => exact hm hw he
  | directive hdir =>
    cases hdir <;> simp at he
    all_goals exact h1 _ _ (by simp; exact ⟨rfl, rfl⟩)
  | alias hn => simp at he; subst he; exact hn (by decide)
  | «variable» hn => simp at he; subst he; exact hn (by decide)

theorem lines_no_include {K : List (List Tok)} {sss : List (List Stmt)} (h : EachLine LineSyntax K sss)
    (h1 : ∀ t path, Stmt.dir (.incl t path) ∉ sss.flatten) (h2 : Stmt.label ".include".toList ∉ sss.flatten) :
    ∀ l ∈ K, l.head? ≠ some (.name ".include".toList) := by
  induction h with
  | nil => nofun
  | cons h3 _ ih =>
    simp only [List.flatten_cons, List.mem_append, not_or] at h1 h2
    intro l hl
    rcases List.mem_cons.mp hl with rfl | hl
    · exact line_no_include h3 (fun t p => (h1 t p).1) h2.1
    · exact ih (fun t p => (h1 t p).2) h2.2 l hl

/-- A file of lines without includes and macros. -/
theorem file_of_lines {seg : Seg} (hs : AsciiSeg seg) {fs : FS} {dir : Path} {name text : Text} (hd : dir.abs = true)
    (hr : fs.read (dir.join (Path.parse name)) = some (utf8 text)) (ha : Plain seg text) {K : List (List Tok)} {sss : List (List Stmt)}
    (h1 : ReadsAs text K) (h2 : EachLine LineSyntax K sss) (h3 : ∀ t path, Stmt.dir (.incl t path) ∉ sss.flatten)
    (h4 : Stmt.label ".include".toList ∉ sss.flatten) (m : Mode) (order : List Color → List Color) (load : Text → Res Image) :
    ∃ n, ∀ fuel ≥ n, readStatements m seg order load fs fuel (SourceFiles.new dir) name = .ok ⟨[], sss.flatten⟩ := by
  obtain ⟨L, ⟨e, q1, q2⟩, rfl⟩ := h1
  have hni := lines_no_include h2 h3 h4
  have hI := Inserted.last (seg := seg) (fs := fs) (dir := dir) (file := dir.join (Path.parse name)) (before := []) ⟨e, q1, q2⟩
    (fun l hl => hni _ (List.mem_map_of_mem hl))
  have hb := lexes_bounds q1
  have hsep := separate_own (p := dir.join (Path.parse name)) q2 (fun t ht u hu => by
    rw [(hb t (by simp [ht])).1, (hb u (by simp [hu])).2.1])
  obtain ⟨K, n, out, sf, k1, k2, k3⟩ := readProgram_inserted hs hd hr ha hI hsep
  have hK := readsAs_unique k1 ⟨L, ⟨e, q1, q2⟩, rfl⟩
  rw [hK] at k2 k1
  have hp : parse out = .ok ⟨[], sss.flatten⟩ :=
    (parse_undec_iff k2 (readsAs_noeof k1) (.inr (lineSyntax_noMacro h2))).mpr (parseTokLines_iff.mpr ⟨[], program_of_lines h2 [], rfl⟩)
  refine ⟨n, fun fuel hf => ?_⟩
  unfold readStatements
  rw [k3 fuel hf, hp]
  simp only [Res.ok_bind]
  rw [replaceData_none fun s hs => includeData_none fun t path e => h3 t path (e ▸ hs)]
  rfl

theorem assemble_of_lines {seg : Seg} (hs : AsciiSeg seg) {fs : FS} {dir : Path} {name text : Text} (hd : dir.abs = true)
    (hr : fs.read (dir.join (Path.parse name)) = some (utf8 text)) (ha : Plain seg text) {K : List (List Tok)} {sss : List (List Stmt)}
    (h1 : ReadsAs text K) (h2 : EachLine LineSyntax K sss) (h3 : ∀ t path, Stmt.dir (.incl t path) ∉ sss.flatten)
    (h4 : Stmt.label ".include".toList ∉ sss.flatten) (h5 : ∀ n a, Stmt.macroCall n a ∉ sss.flatten)
    (m : Mode) (order : List Color → List Color) (load : Text → Res Image) :
    ∃ n, ∀ fuel ≥ n, ∀ uuid macroFuel, assembleFile m seg order load uuid fs fuel macroFuel (SourceFiles.new dir) name =
      assemble m sss.flatten := by
  obtain ⟨n, h⟩ := file_of_lines hs hd hr ha h1 h2 h3 h4 m order load
  refine ⟨n, fun fuel hf uuid mf => ?_⟩
  unfold assembleFile
  rw [h fuel hf, Res.ok_bind]
  unfold expandMacros
  simp only [expandStmts_none (uuid := uuid) (macros := []) (fuel := mf) (k := 0) fun x hx n a e => h5 n a (e ▸ hx), Res.ok_bind]

/-! What is read back -/

theorem instr_parts {i j : Instr Expr IM} (h1 : i.form = j.form) (h2 : operands i = operands j) : i = j := by
  have a : makeInstr (row i.form).name.toList (List.zipWith writtenAs (kinds i.form) (operands i)) = .ok i :=
    makeInstr_ok_iff.mpr ⟨rfl, rfl⟩
  have b : makeInstr (row j.form).name.toList (List.zipWith writtenAs (kinds j.form) (operands j)) = .ok j :=
    makeInstr_ok_iff.mpr ⟨rfl, rfl⟩
  rw [h1, h2, b] at a
  cases a; rfl

theorem lowers_unique {s a b : Stmt} (h : Lowers s a) (h' : Lowers s b) : a = b := by
  cases h with
  | instr h1 h2 =>
    cases h' with
    | instr h3 h4 => rw [instr_parts (h1.trans h3.symm) (h2.trans h4.symm)]
  | _ => cases h'; rfl

theorem lowers_code {s s' : Stmt} (h : Lowers s s') : isCode s = true := by cases h <;> rfl

theorem reread_same {ss ss' : List Stmt} (h : Reread ss ss') (hn : ∀ s ∈ ss, isCode s = true → Lowers s s) : ss' = ss.filter isCode := by
  induction h with
  | nil => rfl
  | comment _ ih => exact ih fun s hs => hn s (List.mem_cons_of_mem _ hs)
  | @cons s s' ss ss' h1 _ ih =>
    have hc := lowers_code h1
    rw [List.filter_cons_of_pos hc, lowers_unique h1 (hn s List.mem_cons_self hc), ih fun s hs => hn s (List.mem_cons_of_mem _ hs)]

theorem reread_mem {ss ss' : List Stmt} (h : Reread ss ss') : ∀ s' ∈ ss', ∃ s ∈ ss, Lowers s s' := by
  induction h with
  | nil => nofun
  | comment _ ih =>
    intro s' hs
    obtain ⟨s, h1, h2⟩ := ih s' hs
    exact ⟨s, List.mem_cons_of_mem _ h1, h2⟩
  | cons h1 _ ih =>
    intro s' hs
    rcases List.mem_cons.mp hs with rfl | hs
    · exact ⟨_, List.mem_cons_self, h1⟩
    · obtain ⟨s, h1, h2⟩ := ih s' hs
      exact ⟨s, List.mem_cons_of_mem _ h1, h2⟩

theorem reread_plain {ss ss' : List Stmt} (h : Reread ss ss') (hc : ∀ s ∈ ss, CleanStmt s) :
    (∀ t path, Stmt.dir (.incl t path) ∉ ss') ∧ Stmt.label ".include".toList ∉ ss' ∧ ∀ n a, Stmt.macroCall n a ∉ ss' := by
  refine ⟨fun t p hm => ?_, fun hm => ?_, fun n a hm => ?_⟩
  · obtain ⟨s, _, h⟩ := reread_mem h _ hm; cases h
  · obtain ⟨s, hs, h⟩ := reread_mem h _ hm
    generalize hx : Stmt.label ".include".toList = x at h
    cases h with
    | @label n =>
      injection hx with hx
      cases hc _ hs with
      | label _ h2 => exact h2 hx.symm
    | _ => cases hx
  · obtain ⟨s, _, h⟩ := reread_mem h _ hm; cases h

end Verif
