import Verif.Lemmas.RenamingText
import Verif.Props.Include
/-
C86: what labels, variables and aliases are called does not matter.
-/
namespace Verif.Props
open Verif.Spec

/-- **C86**: if the labels, variables and aliases of a program are renamed, such that different names stay different and local
names stay local, then it is assembled to the same bytes, or refused with the same error, or crashes in the same way; only
the name in the error is the new one. -/
theorem C86_renamed {f : Text → Text} (hf : Renaming f) (m : Mode) {p p' : List Stmt} (hp : RenamedProgram f p p')
    (hl : SourceLabels p) : assemble m p' = renameOutcome f (assemble m p) :=
  renRes_eq (RenRes.assemble hf m hp fun _ hx n e hd => (hl n (e ▸ hx) hd).1)

/-- **C86**: in particular the bytes are the same. -/
theorem C86_bytes {f : Text → Text} (hf : Renaming f) (m : Mode) {p p' : List Stmt} (hp : RenamedProgram f p p')
    (hl : SourceLabels p) (bytes : List UInt8) : assemble m p' = .ok bytes ↔ assemble m p = .ok bytes := by
  rw [C86_renamed hf m hp hl]
  cases assemble m p <;> simp [renameOutcome]

/-- **C86**: one name can be replaced by another that is not used in the program. -/
theorem C86_one {old new : Text} (ho : lower old = old) (hn : lower new = new) (ho0 : old ≠ []) (hn0 : new ≠ [])
    (hd : dotted new = dotted old) (m : Mode) {p p' : List Stmt} (hp : RenamedProgram (insteadOf old new) p p')
    (hfresh : ∀ s ∈ p, new ∉ namesOf s) (hl : SourceLabels p) (bytes : List UInt8) :
    assemble m p' = .ok bytes ↔ assemble m p = .ok bytes :=
  C86_bytes (renaming_exchange ho hn ho0 hn0 hd) m
    (renamedProgram_congr hp fun s hs n h => insteadOf_exchange fun e => hfresh s hs (e ▸ h)) hl bytes

/-- **C86**: the new name must not be in use: with `a = 1`, `b = 2` and `.byte a`, replacing `a` by `b` gives a program that is
refused. -/
theorem C86_in_use : ∃ p p' : List Stmt, RenamedProgram (insteadOf "a".toList "b".toList) p p' ∧
    assemble .checked p = .ok [1] ∧ assemble .checked p' = .err (.nameAlreadyExists "b".toList) :=
  ⟨[.variable "a".toList (.num 1), .variable "b".toList (.num 2), .dir (.byte [.expr (.name "a".toList)])],
    [.variable "b".toList (.num 1), .variable "b".toList (.num 2), .dir (.byte [.expr (.name "b".toList)])],
    .cons .variable (.cons .variable (.cons .byte .nil)), by decide +kernel, by decide +kernel⟩

/-- **C86**: in the source: if the names in the text of a file without macros and includes are replaced, other than those of
directives and instructions, then the file is assembled to the same bytes, or refused with the same error, or crashes in the
same way; only the name in the error is the new one. -/
theorem C86_text {f : Text → Text} (hf : Renaming f) (hr : ∀ n, Reserved n → f n = n) {t t' : Text} {K : List (List Tok)}
    {ss : List Stmt} (h : OneFile t K ss) (h' : ReadsAs t' (K.map (·.map (renameTok f)))) {seg : Seg} (hs : AsciiSeg seg) (ha : Plain seg t) (ha' : Plain seg t')
    (m : Mode) (order : List Color → List Color) (load : Text → Res Image) (uuid : Nat → Text) (macroFuel : Nat) {dir : Path} (hd : dir.abs = true) {name name' : Text} {fs fs' : FS}
    (h1 : fs.read (dir.join (Path.parse name)) = some (utf8 t)) (h2 : fs'.read (dir.join (Path.parse name')) = some (utf8 t')) :
    ∃ n, ∀ fuel ≥ n, assembleFile m seg order load uuid fs' fuel macroFuel (SourceFiles.new dir) name' =
      renameOutcome f (assembleFile m seg order load uuid fs fuel macroFuel (SourceFiles.new dir) name) := by
  obtain ⟨hl, ss', h'', hp⟩ := ren_oneFile hf hr h h'
  obtain ⟨sss, a1, a2, rfl, a3, a4, a5⟩ := h
  obtain ⟨sss', b1, b2, rfl, b3, b4, b5⟩ := h''
  obtain ⟨n, hn⟩ := assemble_of_lines hs hd h1 ha a1 a2 a3 a5 a4 m order load
  obtain ⟨n', hn'⟩ := assemble_of_lines hs hd h2 ha' b1 b2 b3 b5 b4 m order load
  refine ⟨max n n', fun fuel hfuel => ?_⟩
  rw [hn fuel (by omega), hn' fuel (by omega)]
  exact C86_renamed hf m hp hl

/-- A global label used before it is defined, a local label, and a variable -/
private def named (g l v : Text) : List Stmt :=
  [.instr (.Jmpf (.name g)), .variable v (.num 7), .label g, .label l, .dir (.byte [.expr (.name v)]), .instr (.Br (.name l))]

example : RenamedProgram (insteadOf "start".toList "main".toList)
      (named "start".toList ".loop".toList "v".toList) (named "main".toList ".loop".toList "v".toList) ∧
    (∀ s ∈ named "start".toList ".loop".toList "v".toList, "main".toList ∉ namesOf s) ∧
    SourceLabels (named "start".toList ".loop".toList "v".toList) ∧
    assemble .checked (named "start".toList ".loop".toList "v".toList) = .ok [0x21, 0, 3, 7, 1, 0xFD] ∧
    assemble .checked (named "main".toList ".loop".toList "v".toList) = .ok [0x21, 0, 3, 7, 1, 0xFD] := by
  refine ⟨.cons (.instr rfl rfl) (.cons .variable (.cons .label (.cons .label (.cons .byte (.cons (.instr rfl rfl) .nil))))),
    by decide +kernel, ?_, by decide +kernel, by decide +kernel⟩
  intro n hn hd
  simp only [named, List.mem_cons, reduceCtorEq, Stmt.label.injEq, List.not_mem_nil, false_or, or_false] at hn
  rcases hn with rfl | rfl
  · exact ⟨by decide, by decide⟩
  · exact absurd hd (by decide)

/-- Renaming with an error: the error names the new name. -/
example : Renaming (exchange "gone".toList "lost".toList) ∧
    RenamedProgram (exchange "gone".toList "lost".toList) [.instr (.Jmpf (.name "Gone".toList))] [.instr (.Jmpf (.name "lost".toList))] ∧
    assemble .checked [.instr (.Jmpf (.name "Gone".toList))] = .err (.nameNotFound "Gone".toList) ∧
    assemble .checked [.instr (.Jmpf (.name "lost".toList))] = .err (.nameNotFound "lost".toList) :=
  ⟨renaming_exchange (by decide) (by decide) (by decide) (by decide) (by decide), .cons (.instr rfl (by decide)) .nil,
    by decide +kernel, by decide +kernel⟩

/-- The names in a text: `Loop`, and later `loop`, become `again`. -/
example : OneFile "Loop: nop\n br loop\n".toList [[.name "loop".toList, .colon, .name "nop".toList], [.name "br".toList, .name "loop".toList]]
      [.label "loop".toList, .instr .Nop, .instr (.Br (.name "loop".toList))] ∧
    ReadsAs "again: nop ; was Loop\n br AGAIN\n".toList
      ([[.name "loop".toList, .colon, .name "nop".toList], [.name "br".toList, .name "loop".toList]].map
        (·.map (renameTok (exchange "loop".toList "again".toList)))) ∧
    Renaming (exchange "loop".toList "again".toList) ∧ (∀ n, Reserved n → exchange "loop".toList "again".toList n = n) := by
  refine ⟨⟨[[.label "loop".toList, .instr .Nop], [.instr (.Br (.name "loop".toList))]],
      exReadsAs (by decide +kernel) (by decide +kernel), ?_, rfl, by simp, by simp, by simp⟩,
    exReadsAs (by decide +kernel) (by decide +kernel), renaming_exchange (by decide) (by decide) (by decide) (by decide) (by decide), ?_⟩
  · refine .cons (.labelled (.instr (.inl ⟨rfl, rfl⟩) ⟨rfl, rfl⟩)) (.cons (.instr (.instr (.inr (.one ?_)) ⟨rfl, rfl⟩) (by simp)) .nil)
    exact .ex (.tight (.tight (.tight (.tight (.atom .name))))) (by simp)
  · rintro n (h | ⟨g, rfl⟩ | rfl)
    · revert n
      decide
    · cases g <;> decide
    · decide

end Verif.Props
