import Verif.Lemmas.SameData
import Verif.Lemmas.Located.SourceTokensBack
import Verif.Lemmas.Located.EraseRead
import Verif.Lemmas.Expand
import Verif.Lemmas.AsmOutcome
import Verif.Props.Expansion
/-
From files to the program they stand for, and to the bytes.
-/
namespace Verif
open Spec Syntax

section
variable {seg : Seg} {fs : FS} {dir : Path} {name : Text}

theorem readProgram_run {fuel : Nat} {sf : SourceFiles} :
    readProgram seg fs fuel sf name =
      (Located.eraseRun (fun a => a) (Located.readTokens seg fs fuel name sf) >>= fun x => do
        let p ← parse x.1.1
        .ok (p, x.1.2, x.2)) := by
  rw [Located.erase_readTokens]
  simp only [readProgram, Located.Verif.Res.bind_assoc, Res.ok_bind]

/-- The program that was read is the one that the files are. -/
theorem readProgram_source (hs : AsciiSeg seg) (hd : dir.abs = true) (hA : AllPlain seg fs dir (dir.join (Path.parse name))) {fuel p path sf}
    (h : readProgram seg fs fuel (SourceFiles.new dir) name = .ok (p, path, sf)) :
    SourceProgram fs dir (dir.join (Path.parse name)) p := by
  rw [readProgram_run] at h
  obtain ⟨⟨⟨toks, path'⟩, sf'⟩, h1, h⟩ := Res.bind_eq_ok.mp h
  obtain ⟨p', h2, h⟩ := Res.bind_eq_ok.mp h
  cases h
  have ho := Located.readTokens_outcome hs hd hA fuel
  cases e : Located.readTokens seg fs fuel name (SourceFiles.new dir) with
  | mk sf1 r =>
    rw [e] at h1 ho
    cases r with
    | ok a =>
      obtain ⟨a, b⟩ := a
      cases h1
      exact ⟨_, _, Located.loadedAs_numbering _, (Located.readTokens_tokens hs hd hA e).2 _ (Located.numbered_of ho.good.ok), parse_iff.mp h2⟩
    | err x => cases h1
    | panic => cases h1
    | loop => cases h1

theorem parses_unique {toks : List Token} {p p'} (h : Parses toks p) (h' : Parses toks p') : p = p' := by
  have h1 := parse_iff.mpr h
  rw [parse_iff.mpr h'] at h1
  exact (Res.ok.inj h1).symm

theorem sourceProgram_unique (hs : AsciiSeg seg) {main : Path} (hA : AllPlain seg fs dir main) {p p'}
    (h : SourceProgram fs dir main p) (h' : SourceProgram fs dir main p') : p = p' := by
  obtain ⟨id, toks, h1, h2, h3⟩ := h
  obtain ⟨id', toks', k1, k2, k3⟩ := h'
  exact parses_unique (Located.parses_renumbered h1 k1 (Located.sourceTokens_renumbered hs hA h2 k2) h3) k3

/-- It is read. -/
theorem readProgram_complete (hs : AsciiSeg seg) (hN : NamedFiles fs) (hd : dir.abs = true)
    (hA : AllPlain seg fs dir (dir.join (Path.parse name))) {p} (h : SourceProgram fs dir (dir.join (Path.parse name)) p) :
    ∃ n sf, ∀ fuel ≥ n, readProgram seg fs fuel (SourceFiles.new dir) name = .ok (p, dir.join (Path.parse name), sf) := by
  obtain ⟨id, toks, h1, h2, h3⟩ := h
  obtain ⟨n, hn⟩ := Located.readTokens_reads hs hN hd hA (Located.sourceTokens_reads h2)
  obtain ⟨sf, ⟨toks', path⟩, e⟩ := hn n (Nat.le_refl _)
  have ho := Located.readTokens_outcome hs hd hA n
  rw [e] at ho
  obtain ⟨rfl, ht⟩ := Located.readTokens_tokens hs hd hA e
  have ht := ht _ (Located.numbered_of ho.good.ok)
  have hp := Located.parses_renumbered h1 (Located.loadedAs_numbering sf) (Located.sourceTokens_renumbered hs hA h2 ht) h3
  refine ⟨n, sf, fun fuel hf => ?_⟩
  rw [readProgram_run, Located.readTokens_upper hf name _ (by rw [e]; nofun), e]
  change (parse toks' >>= _) = _
  rw [parse_iff.mpr hp]
  rfl

end

section
variable {m : Mode} {seg : Seg} {order : List Color → List Color} {load : Text → Res Image} {uuid : Nat → Text} {fs : FS} {dir : Path}
  {name : Text}

theorem after_calls {dark file ss out} (h : AfterIncludes m fs dir load dark file ss out) (hc : ClosedCalls ss) : ClosedCalls out := by
  induction h with
  | nil => exact hc
  | other _ _ ih =>
    intro n args hm
    rcases List.mem_cons.mp hm with e | hm
    · exact hc n args (e ▸ List.mem_cons_self)
    · exact ih (fun n args hm => hc n args (List.mem_cons_of_mem _ hm)) n args hm
  | data _ hd _ ih =>
    intro n args hm
    rcases List.mem_append.mp hm with hm | hm
    · exact absurd rfl (data_not_call hd _ hm n args)
    · exact ih (fun n args hm => hc n args (List.mem_cons_of_mem _ hm)) n args hm

theorem readStatements_means (hs : AsciiSeg seg) (ho : ∀ l, (order l).Perm l) (hl : LoadsFrames load) (hv : EvenFrames load)
    (hd : dir.abs = true) (hA : AllPlain seg fs dir (dir.join (Path.parse name))) {fuel p}
    (h : readStatements m seg order load fs fuel (SourceFiles.new dir) name = .ok p) :
    ∃ q, SourceProgram fs dir (dir.join (Path.parse name)) q ∧ p.macros = q.macros ∧
      AfterIncludes m fs dir load darkBit (dir.join (Path.parse name)) q.stmts p.stmts := by
  unfold readStatements at h
  obtain ⟨⟨q, path, sf⟩, hr, h⟩ := Res.bind_eq_ok.mp h
  obtain ⟨ss, h1, h⟩ := Res.bind_eq_ok.mp h
  cases h
  obtain ⟨rfl, hw⟩ := readProgram_dir hd hr
  subst hw
  exact ⟨q, readProgram_source hs hd hA hr, rfl, replaceData_ok ho hl hv (readProgram_icon hr) h1⟩

/-- What was assembled is what the files mean. -/
theorem assembleFile_means (hs : AsciiSeg seg) (ho : ∀ l, (order l).Perm l) (hl : LoadsFrames load) (hv : EvenFrames load)
    (hd : dir.abs = true) (hA : AllPlain seg fs dir (dir.join (Path.parse name))) (hc : CallsClosed fs dir (dir.join (Path.parse name)))
    (hu : Suffixes uuid) {fuel macroFuel out}
    (h : assembleFile m seg order load uuid fs fuel macroFuel (SourceFiles.new dir) name = .ok out) :
    ∃ q, FilesMean m fs dir load darkBit uuid (dir.join (Path.parse name)) q ∧ Source q ∧ assemble m q = .ok out := by
  unfold assembleFile at h
  obtain ⟨p, h1, h⟩ := Res.bind_eq_ok.mp h
  obtain ⟨q, h2, h⟩ := Res.bind_eq_ok.mp h
  obtain ⟨p0, k1, k2, k3⟩ := readStatements_means hs ho hl hv hd hA h1
  obtain ⟨-, fresh, k4, k5⟩ := (expandMacros_iff (Props.readStatements_wellFormed h1) (after_calls k3 (hc _ k1))).mp ⟨_, h2⟩
  rw [k2] at k4
  exact ⟨q.stmts, ⟨p0, p.stmts, fresh, k1, k3, k4, k5⟩, (Props.C64_source hu h1 h2).1, h⟩

/-- What the files mean is assembled. -/
theorem means_assembleFile (hs : AsciiSeg seg) (hN : NamedFiles fs) (ho : ∀ l, (order l).Perm l) (hl : LoadsFrames load)
    (hv : EvenFrames load) (hd : dir.abs = true) (hA : AllPlain seg fs dir (dir.join (Path.parse name)))
    (hc : CallsClosed fs dir (dir.join (Path.parse name))) (hu : Suffixes uuid) {q}
    (h : FilesMean m fs dir load darkBit uuid (dir.join (Path.parse name)) q) :
    ∃ n q', (∀ fuel ≥ n, ∀ macroFuel ≥ n,
      assembleFile m seg order load uuid fs fuel macroFuel (SourceFiles.new dir) name = assemble m q') ∧ Source q' ∧ Source q ∧
      SameData (fun a b => b.length = a.length) q q' ∧ (NoIcons fs dir (dir.join (Path.parse name)) → SameData Eq q q') ∧
      ∀ t n, .dir (.incl t n) ∉ q' := by
  obtain ⟨p, ss, fresh, h1, h2, h3, h4⟩ := h
  obtain ⟨n1, sf, hn1⟩ := readProgram_complete hs hN hd hA h1
  have hwf : WellFormed p.macros := by
    have e := hn1 n1 (Nat.le_refl _)
    unfold readProgram at e
    obtain ⟨_, -, e⟩ := Res.bind_eq_ok.mp e
    obtain ⟨⟨_, _⟩, -, e⟩ := Res.bind_eq_ok.mp e
    obtain ⟨_, -, e⟩ := Res.bind_eq_ok.mp e
    obtain ⟨⟨_, _⟩, -, e⟩ := Res.bind_eq_ok.mp e
    obtain ⟨r, hr, e⟩ := Res.bind_eq_ok.mp e
    cases e
    exact (Props.C45_wellFormed hr : WellFormed p.macros)
  have hr := hn1 n1 (Nat.le_refl _)
  obtain ⟨-, hw⟩ := readProgram_dir hd hr
  subst hw
  obtain ⟨ss', k2⟩ := replaceData_complete (m := m) (order := order) ho hl hv (readProgram_icon hr)
    fun t n ht => ⟨darkBit, afterIncludes_all h2 t n ht⟩
  have k3 := replaceData_ok ho hl hv (readProgram_icon hr) k2
  obtain ⟨hsame, heq⟩ := afterIncludes_same h2 k3
  obtain ⟨q', k4, hq⟩ := sameData_expands hsame h3
  obtain ⟨n2, hn2⟩ := expandStmts_complete (uuid := uuid) hwf k4 (after_calls k3 (hc _ h1))
  have hrs : ∀ fuel ≥ n1, readStatements m seg order load fs fuel (SourceFiles.new sf.workingDir) name = .ok { p with stmts := ss' } := by
    intro fuel hf
    unfold readStatements
    rw [hn1 fuel hf, Res.ok_bind]
    dsimp only
    rw [k2, Res.ok_bind]
  have hex : ∀ fuel ≥ n2, expandMacros uuid fuel { p with stmts := ss' } = .ok { p with stmts := q' } := by
    intro fuel hf
    simp only [expandMacros, hn2 fuel hf 0 h4]
    rfl
  obtain ⟨hsrc, -, hno⟩ := Props.C64_source hu (hrs n1 (Nat.le_refl _)) (hex n2 (Nat.le_refl _))
  refine ⟨n1 + n2, q', fun fuel hf macroFuel hm => ?_, hsrc, sameData_source hq.symm hsrc, hq, fun hi => ?_,
    fun t n hm => (hno _ hm).2 _ _ rfl⟩
  · unfold assembleFile
    rw [hrs fuel (by omega), Res.ok_bind, hex macroFuel (by omega), Res.ok_bind]
  · obtain ⟨q2, k5, hq2⟩ := sameData_expands (heq (hi _ h1)) h3
    have := hn2 n2 (Nat.le_refl _) 0 h4
    obtain ⟨n3, hn3⟩ := expandStmts_complete (uuid := uuid) hwf k5 (after_calls k3 (hc _ h1))
    have e1 := hn2 (n2 + n3) (by omega) 0 h4
    have e2 := hn3 (n2 + n3) (by omega) 0 h4
    rw [e1] at e2
    rw [(Prod.mk.inj (Res.ok.inj e2)).1]
    exact hq2

/-- What the files mean, assembled -/
theorem files_accepted (hs : AsciiSeg seg) (hN : NamedFiles fs) (ho : ∀ l, (order l).Perm l) (hl : LoadsFrames load)
    (hv : EvenFrames load) (hd : dir.abs = true) (hA : AllPlain seg fs dir (dir.join (Path.parse name)))
    (hc : CallsClosed fs dir (dir.join (Path.parse name))) (hu : Suffixes uuid) {q out}
    (h : FilesMean m fs dir load darkBit uuid (dir.join (Path.parse name)) q) (ha : Addressable m q) (hb : Assembles m q out) :
    ∃ n out', (∀ fuel ≥ n, ∀ macroFuel ≥ n,
      assembleFile m seg order load uuid fs fuel macroFuel (SourceFiles.new dir) name = .ok out') ∧
      (NoIcons fs dir (dir.join (Path.parse name)) → out' = out) := by
  obtain ⟨n, q', hn, k1, k2, k3, k4, -⟩ := means_assembleFile (seg := seg) (order := order) hs hN ho hl hv hd hA hc hu h
  have hb' := hb
  obtain ⟨ps, _, _, hlay, -⟩ := hb'
  obtain ⟨h1, h2⟩ := ha ps hlay
  have hL : Laid m ([] ++ q) ps := ⟨k2, hlay, h1, h2⟩
  have hq := (assemble_iff m k2.1 hlay h1 h2 out).mpr hb
  obtain ⟨out', ho⟩ := (sameData_laid (fun _ _ h => h) k3 hL).2 ⟨out, hq⟩
  refine ⟨n, out', fun fuel hf macroFuel hm => (hn fuel hf macroFuel hm).trans ho, fun hi => ?_⟩
  have := (sameData_bytes (k4 hi) hL out).mp hq
  rw [show assemble m ([] ++ q') = .ok out' from ho] at this
  exact Res.ok.inj this

end

end Verif
