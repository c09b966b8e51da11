import Verif.Lemmas.SameErrors
import Verif.Spec.FileErrors
import Verif.Props.SourceErrors
import Verif.Props.DataIncludes
import Verif.Props.Syntax
import Verif.Props.Reasons
/-
The errors for files.
-/
namespace Verif
open Spec Syntax

section
variable {m : Mode} {seg : Seg} {order : List Color → List Color} {load : Text → Res Image} {uuid : Nat → Text} {fs : FS} {dir : Path}
  {name : Text}

theorem readProgram_fails (hs : AsciiSeg seg) (hd : dir.abs = true) (hA : AllPlain seg fs dir (dir.join (Path.parse name))) {fuel x} {dark}
    (h : readProgram seg fs fuel (SourceFiles.new dir) name = .err x) :
    FilesFail m fs dir load dark uuid (dir.join (Path.parse name)) x := by
  rw [readProgram_run] at h
  have ho := Located.readTokens_outcome hs hd hA fuel
  cases e : Located.readTokens seg fs fuel name (SourceFiles.new dir) with
  | mk sf r =>
    rw [e] at h ho
    cases r with
    | err y =>
      obtain ⟨y, p⟩ := y
      cases h
      exact .files (Props.C80_error hs hd hA e)
    | panic => cases h
    | loop => cases h
    | ok a =>
      obtain ⟨toks, path⟩ := a
      have h : (parse toks >>= fun p => Res.ok (p, path, sf)) = .err x := h
      rcases Res.bind_eq_err.mp h with h | ⟨_, _, h⟩
      rotate_left
      · cases h
      have ht := (Located.readTokens_tokens hs hd hA e).2 _ (Located.numbered_of ho.good.ok)
      have hp := Located.erase_parse toks
      rw [h] at hp
      cases hl : Located.parse toks with
      | err z =>
        obtain ⟨z, p⟩ := z
        rw [hl] at hp
        cases hp
        exact .syntax (Located.loadedAs_numbering _) ht (Located.parse_err hl)
      | ok => rw [hl] at hp; cases hp
      | panic => rw [hl] at hp; cases hp
      | loop => rw [hl] at hp; cases hp

theorem assembleFile_fails (hs : AsciiSeg seg) (ho : ∀ l, (order l).Perm l) (hl : LoadsFrames load) (hv : EvenFrames load)
    (hd : dir.abs = true) (hA : AllPlain seg fs dir (dir.join (Path.parse name))) (hc : CallsClosed fs dir (dir.join (Path.parse name)))
    (hu : Suffixes uuid)
    (hb : ∀ q, FilesMean m fs dir load darkBit uuid (dir.join (Path.parse name)) q → StaysBelow q) {fuel macroFuel x}
    (h : assembleFile m seg order load uuid fs fuel macroFuel (SourceFiles.new dir) name = .err x) :
    FilesFail m fs dir load darkBit uuid (dir.join (Path.parse name)) x := by
  unfold assembleFile at h
  rcases Res.bind_eq_err.mp h with h | ⟨p, h1, h⟩
  · rcases (Props.C79_first ho hl hv hd).mp h with h | ⟨q, sf, before, t, n, after, h1, h2, h3, h4⟩
    · exact readProgram_fails hs hd hA h
    · exact .data (readProgram_source hs hd hA h1) h2 h3 h4
  · obtain ⟨p0, k1, k2, k3⟩ := readStatements_means hs ho hl hv hd hA h1
    have hwf := Props.readStatements_wellFormed h1
    have hcl := after_calls k3 (hc _ k1)
    have hr := Located.erase_readStatements m seg order load fs fuel name (SourceFiles.new dir)
    rw [h1] at hr
    cases e : (Located.readStatements m seg order load fs fuel name (SourceFiles.new dir)).2 with
    | err => rw [e] at hr; cases hr
    | panic => rw [e] at hr; cases hr
    | loop => rw [e] at hr; cases hr
    | ok program =>
      rw [e] at hr
      have hp : program.erase = p := Res.ok.inj hr
      have hm := Located.erase_expandMacros uuid macroFuel program
      rw [hp] at hm
      rcases Res.bind_eq_err.mp h with h | ⟨q, h2, h⟩
      · rw [h] at hm
        cases e2 : Located.expandMacros uuid macroFuel program with
        | ok => rw [e2] at hm; cases hm
        | panic => rw [e2] at hm; cases hm
        | loop => rw [e2] at hm; cases hm
        | err z =>
          obtain ⟨z, pl⟩ := z
          rw [e2] at hm
          cases hm
          subst hp
          obtain ⟨t, -, hf⟩ := Located.expandMacros_fails hwf hcl e2
          exact .macros k1 k3 (by rw [← k2]) hf
      · rw [h2] at hm
        cases e2 : Located.expandMacros uuid macroFuel program with
        | err => rw [e2] at hm; cases hm
        | panic => rw [e2] at hm; cases hm
        | loop => rw [e2] at hm; cases hm
        | ok expanded =>
          rw [e2] at hm
          have hq : expanded.erase = q := Res.ok.inj hm
          obtain ⟨-, fresh, k4, k5⟩ := (expandMacros_iff hwf hcl).mp ⟨_, h2⟩
          rw [k2] at k4
          obtain ⟨hsrc, -, hn⟩ := Props.C64_source hu h1 h2
          have hmean : FilesMean m fs dir load darkBit uuid (dir.join (Path.parse name)) q.stmts := ⟨p0, p.stmts, fresh, k1, k3, k4, k5⟩
          have hbel := hb _ hmean
          subst hq
          have ha := Located.erase_assemble m expanded.stmts
          have h : assemble m (expanded.stmts.map Located.Stmt.erase) = .err x := h
          rw [h] at ha
          cases e3 : Located.assemble m expanded.stmts with
          | ok => rw [e3] at ha; cases ha
          | panic => rw [e3] at ha; cases ha
          | loop => rw [e3] at ha; cases ha
          | err z =>
            obtain ⟨z, pl⟩ := z
            rw [e3] at ha
            cases ha
            refine .program hmean (Props.C76_wrong ⟨fun s t path hm => ?_, fun s n args hm => ?_⟩ hsrc ?_ e3)
            · exact (hn _ (List.mem_map.mpr ⟨_, hm, rfl⟩)).2 _ _ rfl
            · exact (hn _ (List.mem_map.mpr ⟨_, hm, rfl⟩)).1 _ _ rfl
            · intro before after ps eq hl
              exact hbel (before.map _) (after.map _) ps (by
                show expanded.stmts.map _ = _
                rw [eq, List.map_append]) hl

theorem parse_renumbered {id id' : Path → Option Nat} (hn : Numbering id) (hn' : Numbering id') {T T' : List Token}
    (h : EachLine (Located.Renumbered id id') T T') {x} (hp : parse T = .err x) : parse T' = .err x := by
  obtain ⟨L', h1, h2⟩ := Located.splits_renumbered hn hn' (lines_splits T) h
  unfold parse at hp ⊢
  rw [lines_iff.mpr h1, show L'.map (·.map Token.tok) = (lines T).map (·.map Token.tok) from h2]
  exact hp

theorem data_incl {d : List Stmt} {bs} (h : Data d bs) : ∀ t n, Stmt.dir (.incl t n) ∉ d := by
  induction h <;> simp_all

theorem sameData_incl {E} {ss ss' : List Stmt} (h : SameData E ss ss') {t n} (hm : .dir (.incl t n) ∈ ss) : .dir (.incl t n) ∈ ss' := by
  induction h with
  | nil => exact hm
  | same _ ih =>
    rcases List.mem_cons.mp hm with e | hm
    · exact e ▸ List.mem_cons_self
    · exact List.mem_cons_of_mem _ (ih hm)
  | data hd _ _ _ ih =>
    rcases List.mem_append.mp hm with hm | hm
    · exact absurd hm (data_incl hd t n)
    · exact List.mem_append_right _ (ih hm)

theorem fails_assembleFile (hs : AsciiSeg seg) (hN : NamedFiles fs) (ho : ∀ l, (order l).Perm l) (hl : LoadsFrames load)
    (hv : EvenFrames load) (hd : dir.abs = true) (hA : AllPlain seg fs dir (dir.join (Path.parse name)))
    (hc : CallsClosed fs dir (dir.join (Path.parse name))) (hu : Suffixes uuid)
    (hb : ∀ q, FilesMean m fs dir load darkBit uuid (dir.join (Path.parse name)) q → StaysBelow q ∧ MovesForward m q) {x}
    (h : FilesFail m fs dir load darkBit uuid (dir.join (Path.parse name)) x) :
    ∃ n, ∀ fuel ≥ n, ∀ macroFuel ≥ n,
      assembleFile m seg order load uuid fs fuel macroFuel (SourceFiles.new dir) name = .err x := by
  cases h with
  | files h =>
    obtain ⟨n, hn⟩ := Props.C80_assemble (m := m) (order := order) (load := load) (uuid := uuid) hs hd hA hN h
    exact ⟨n, fun fuel hf macroFuel _ => (hn fuel hf macroFuel).1⟩
  | @«syntax» id toks _ p h1 h2 h3 =>
    obtain ⟨n, hn⟩ := Located.readTokens_reads hs hN hd hA (Located.sourceTokens_reads h2)
    refine ⟨n, fun fuel hf macroFuel _ => ?_⟩
    obtain ⟨sf, ⟨toks', path⟩, e⟩ := hn fuel hf
    have hout := Located.readTokens_outcome hs hd hA fuel
    rw [e] at hout
    have ht := (Located.readTokens_tokens hs hd hA e).2 _ (Located.numbered_of hout.good.ok)
    obtain ⟨q, hq⟩ := Located.syntaxError_parse h3
    have hp := Located.erase_parse toks
    rw [hq] at hp
    have hp' := parse_renumbered h1 (Located.loadedAs_numbering _) (Located.sourceTokens_renumbered hs hA h2 ht) hp.symm
    have hr : readProgram seg fs fuel (SourceFiles.new dir) name = .err x := by
      rw [readProgram_run, e]
      show (parse toks' >>= fun p => Res.ok (p, path, sf)) = .err x
      rw [hp']; rfl
    unfold assembleFile readStatements
    rw [hr]; rfl
  | data h1 h2 h3 h4 =>
    obtain ⟨n, sf, hn⟩ := readProgram_complete hs hN hd hA h1
    refine ⟨n, fun fuel hf macroFuel _ => ?_⟩
    have := (Props.C79_first (m := m) (order := order) (seg := seg) (fuel := fuel) ho hl hv hd).mpr
      (.inr ⟨_, _, _, _, _, _, hn fuel hf, h2, h3, h4⟩)
    unfold assembleFile
    rw [this]; rfl
  | @macros p ss _ s program h1 h2 h3 h4 =>
    obtain ⟨n1, sf, hn1⟩ := readProgram_complete hs hN hd hA h1
    have hr := hn1 n1 (Nat.le_refl _)
    obtain ⟨-, hw⟩ := readProgram_dir hd hr
    subst hw
    obtain ⟨ss', k2⟩ := replaceData_complete (m := m) (order := order) ho hl hv (readProgram_icon hr)
      fun t n ht => ⟨darkBit, afterIncludes_all h2 t n ht⟩
    have k3 := replaceData_ok ho hl hv (readProgram_icon hr) k2
    obtain ⟨hsame, -⟩ := afterIncludes_same h2 k3
    have hrs : ∀ fuel ≥ n1, readStatements m seg order load fs fuel (SourceFiles.new sf.workingDir) name = .ok { p with stmts := ss' } := by
      intro fuel hf
      unfold readStatements
      rw [hn1 fuel hf, Res.ok_bind]
      dsimp only
      rw [k2, Res.ok_bind]
    have hwf : WellFormed p.macros := Props.readStatements_wellFormed (p := { p with stmts := ss' }) (hrs n1 (Nat.le_refl _))
    obtain ⟨N, hN⟩ := Located.fails_expandMacros (by rw [h3]; exact hwf) (by rw [h3]; exact after_calls h2 (hc _ h1)) h4
    refine ⟨n1 + N, fun fuel hf macroFuel hm => ?_⟩
    have he := Located.erase_expandMacros uuid macroFuel program
    rw [hN macroFuel (by omega), h3] at he
    have he' : expandStmts uuid p.macros macroFuel ss 0 = .err x := by
      unfold expandMacros at he
      rcases Res.bind_eq_err.mp he.symm with h | ⟨_, _, h⟩
      · exact h
      · cases h
    unfold assembleFile
    rw [hrs fuel (by omega), Res.ok_bind]
    unfold expandMacros
    dsimp only
    rw [expandStmts_same hsame he']
    rfl
  | @program stmts _ p h1 h2 =>
    obtain ⟨hbel, hfwd⟩ := hb _ h1
    obtain ⟨n, q', hn, k1, k2, k3, -, k5⟩ := means_assembleFile (seg := seg) (order := order) hs hN ho hl hv hd hA hc hu h1
    refine ⟨n, fun fuel hf macroFuel hm => ?_⟩
    rw [hn fuel hf macroFuel hm]
    have hx : Located.assemble m stmts = .err ⟨x, p⟩ := Located.wrong_assemble k2
      (fun before after ps eq hl => hbel (before.map _) (after.map _) ps (by
        show stmts.map _ = _
        rw [eq, List.map_append]) hl) hfwd h2
    have ha := Located.erase_assemble m stmts
    rw [hx] at ha
    refine sameData_errors k3 k2 hbel hfwd (fun t n hm => k5 t n (sameData_incl k3 hm)) ha.symm

end

end Verif
