import Verif.Lemmas.PrintLine
import Verif.Lemmas.Report
import Verif.Lemmas.SourcesMore
import Verif.Lemmas.Stderr
/-
What was read from source files can be printed; how `icon` ends.
-/
namespace Verif
open Verif.Spec

/-! Strings that are text -/

theorem escape_ascii : ∀ n < 128, ∃ src : Text, escapeBytes (utf8 [Char.ofNat n]) = utf8 src := by
  intro n hn
  have : ∀ n < 128, escapeBytes (utf8 [Char.ofNat n]) = utf8 ((escapeBytes (utf8 [Char.ofNat n])).map fun b => Char.ofNat b.toNat) := by
    decide +kernel
  exact ⟨_, this n hn⟩

theorem escape_char (c : Char) : ∃ src : Text, escapeBytes (utf8 [c]) = utf8 src := by
  by_cases hc : c.toNat < 128
  · have := escape_ascii c.toNat hc
    rwa [Char.ofNat_toNat] at this
  · refine ⟨[c], escapeBytes_high fun b hb => ?_⟩
    have : utf8 [c] = String.utf8EncodeChar c := by simp [utf8]
    rw [this] at hb
    by_cases hlt : b.toNat < 128
    · have := utf8Char_ascii hlt hb
      omega
    · omega

theorem escape_text (t : Text) : ∃ src : Text, escapeBytes (utf8 t) = utf8 src := by
  induction t with
  | nil => exact ⟨[], rfl⟩
  | cons c t ih =>
    obtain ⟨a, ha⟩ := escape_char c
    obtain ⟨b, hb⟩ := ih
    refine ⟨a ++ b, ?_⟩
    rw [show c :: t = [c] ++ t from rfl, show utf8 ([c] ++ t) = utf8 [c] ++ utf8 t by simp [utf8], escapeBytes_append, ha, hb]
    simp [utf8]

theorem escapeString_text (t : Text) : ∃ src, escapeString (utf8 t) = .ok src := by
  obtain ⟨src, h⟩ := escape_text t
  have := (decodeUtf8_iff (bs := escapeBytes (utf8 t)) (t := src)).mpr h.symm
  unfold decodeUtf8 at this
  unfold escapeString
  cases hx : String.fromUTF8? ⟨(escapeBytes (utf8 t)).toArray⟩ with
  | none => rw [hx] at this; cases this
  | some u => exact ⟨_, rfl⟩

/-! Statements that can be printed -/

/-- The statement can be printed. -/
def Prints (s : Stmt) : Prop := ∃ t, s.print = .ok t

theorem printBytes_fine : ∀ {vs : List ByteValue}, (∀ v ∈ vs, ∃ t, v.print = .ok t) → ∃ ts, printBytes vs = .ok ts := by
  intro vs
  induction vs with
  | nil => exact fun _ => ⟨_, rfl⟩
  | cons v vs ih =>
    intro h
    obtain ⟨t, ht⟩ := h v List.mem_cons_self
    obtain ⟨ts, hts⟩ := ih fun x hx => h x (List.mem_cons_of_mem _ hx)
    exact ⟨t :: ts, by rw [printBytes, ht, Res.ok_bind, hts]; rfl⟩

theorem prints_byte {vs : List ByteValue} (h : ∀ v ∈ vs, ∃ t, v.print = .ok t) : Prints (.dir (.byte vs)) := by
  obtain ⟨ts, hts⟩ := printBytes_fine h
  exact ⟨_, by rw [Stmt.print, Directive.print, hts]; rfl⟩

theorem byteSyntax_prints {w v} (h : ByteSyntax w v) : ∃ t, v.print = .ok t := by
  cases h with
  | str =>
    rename_i s
    obtain ⟨src, hs⟩ := escapeString_text s
    exact ⟨_, by rw [ByteValue.print, utf8_eq, hs]; rfl⟩
  | expr => exact ⟨_, rfl⟩

theorem dirSyntax_prints {w d} (h : DirSyntax w d) (hs : ∀ t ∈ w, SaneTok t) : Prints (.dir d) := by
  cases h with
  | byte h => exact prints_byte (listed_all (fun w a h _ => byteSyntax_prints h) h fun t ht => hs t (by simp [ht]))
  | @text v _ s | @string v _ s =>
    obtain ⟨src, hs⟩ := escapeString_text s
    exact ⟨_, by rw [Stmt.print, Directive.print, utf8_eq, hs]; rfl⟩
  | icon h1 h2 =>
    rename_i path w ps speed
    have hall := optListed_all (P := fun kv : Text × ByteValue => ∃ t, kv.2.print = .ok t) (fun w a h _ => by
      cases h with
      | mk h => exact byteSyntax_prints h) h1 fun t ht => hs t (by simp [ht])
    cases he : property ps "eyecatch" with
    | none => cases speed <;> exact ⟨_, rfl⟩
    | some v =>
      obtain ⟨k, hk⟩ := property_mem he
      obtain ⟨t, ht⟩ := hall _ hk
      dsimp only at ht
      cases speed <;> exact ⟨_, by rw [Stmt.print, Directive.print, printInclude, printIconOptions, ht]; rfl⟩
  | _ => exact ⟨_, rfl⟩

theorem prints_other {s : Stmt} (h : ∀ d, s ≠ .dir d) : Prints s := by
  cases s with
  | dir d => exact absurd rfl (h d)
  | comment t => exact comment_prints t
  | _ => exact ⟨_, rfl⟩

theorem lineSyntax_prints {w ss} (h : LineSyntax w ss) (hs : ∀ t ∈ w, SaneTok t) : ∀ s ∈ ss, Prints s := by
  intro s hm
  by_cases hd : ∃ d, s = .dir d
  · obtain ⟨d, rfl⟩ := hd
    cases h with
    | directive h =>
      simp only [List.mem_singleton] at hm
      cases hm
      exact dirSyntax_prints h hs
    | labelled h =>
      simp only [List.mem_cons, List.not_mem_nil, or_false, reduceCtorEq, false_or] at hm
      exact absurd hm.symm (instrSyntax_notDir h d)
    | instr h =>
      simp only [List.mem_singleton] at hm
      exact absurd hm.symm (instrSyntax_notDir h d)
    | _ => simp at hm
  · exact prints_other fun d e => hd ⟨d, e⟩

theorem programSyntax_prints {ms ls ss ms'} (h : ProgramSyntax ms ls ss ms') : (∀ l ∈ ls, ∀ t ∈ l, SaneTok t) →
    ∀ s ∈ ss, Prints s := by
  induction h with
  | nil => intro _ d hd; cases hd
  | line _ hl _ _ ih =>
    intro hs d hd
    rcases List.mem_append.mp hd with hd | hd
    · exact lineSyntax_prints hl (fun t ht => hs _ List.mem_cons_self t (by simp [ht])) d hd
    · exact ih (fun l hl => hs l (by simp [hl])) d hd
  | defn _ _ _ _ _ ih => exact fun hs => ih fun l hl => hs l (by simp [hl])
  | last => intro _ d hd; cases hd

theorem parse_prints {toks : List Token} {p : Program} (h : parse toks = .ok p) (hs : ∀ t ∈ toks, SaneTok t.tok) :
    ∀ s ∈ p.stmts, Prints s := by
  obtain ⟨ms, h1, h2⟩ := parseTokLines_iff.mp h
  exact programSyntax_prints h1 (fun l hl t ht => by
    obtain ⟨l', hl', rfl⟩ := List.mem_map.mp hl
    obtain ⟨t', ht', rfl⟩ := List.mem_map.mp ht
    exact hs t' (lines_mem hl' ht'))

theorem readProgram_prints {seg fs fuel sf name p path sf'} (h : readProgram seg fs fuel sf name = .ok (p, path, sf')) :
    ∀ s ∈ p.stmts, Prints s := by
  unfold readProgram at h
  obtain ⟨path', _, h2⟩ := Res.bind_eq_ok.mp h
  obtain ⟨⟨f, s1⟩, _, h3⟩ := Res.bind_eq_ok.mp h2
  obtain ⟨toks, ht, h4⟩ := Res.bind_eq_ok.mp h3
  obtain ⟨⟨o, s2⟩, hi, h5⟩ := Res.bind_eq_ok.mp h4
  obtain ⟨p', hp, h6⟩ := Res.bind_eq_ok.mp h5
  cases h6
  exact parse_prints hp (replaceIncludes_sane _ _ _ _ _ _ hi (lexLoop_sane _ _ _ ht))

theorem dataStmt_prints {s : Stmt} (h : DataStmt s) : Prints s := by
  rcases h with ⟨t, rfl⟩ | ⟨vs, rfl, h⟩ | ⟨es, rfl, h⟩
  · exact comment_prints t
  · refine prints_byte fun v hv => ?_
    obtain ⟨x, r, rfl, -⟩ := h v hv
    exact ⟨_, rfl⟩
  · exact ⟨_, rfl⟩

theorem includeData_prints {m order load fs file sf s ss} (h : includeData m order load fs file sf s = .ok ss)
    (hs : Prints s) : ∀ x ∈ ss, Prints x := by
  unfold includeData at h
  split at h
  · cases h
  · cases h
  · obtain ⟨path, _, h2⟩ := Res.bind_eq_ok.mp h
    obtain ⟨bytes, _, h3⟩ := Res.bind_eq_ok.mp h2
    cases h3
    intro x hx
    simp only [List.mem_singleton] at hx
    subst hx
    refine prints_byte fun v hv => ?_
    obtain ⟨b, _, rfl⟩ := List.mem_map.mp hv
    exact ⟨_, rfl⟩
  · obtain ⟨speed, hsp, h2⟩ := Res.bind_eq_ok.mp h
    obtain ⟨ey, _, h3⟩ := Res.bind_eq_ok.mp h2
    obtain ⟨path, _, h4⟩ := Res.bind_eq_ok.mp h3
    obtain ⟨ey', _, h5⟩ := Res.bind_eq_ok.mp h4
    refine fun x hx => dataStmt_prints (toIcon_data (fun v hv => ?_) h5 x hx)
    subst hv
    unfold evalSpeed at hsp
    split at hsp
    · cases hsp
    · obtain ⟨w, _, h6⟩ := Res.bind_eq_ok.mp hsp
      cases h6
      omega
  · obtain ⟨path, _, h2⟩ := Res.bind_eq_ok.mp h
    obtain ⟨img, _, h3⟩ := Res.bind_eq_ok.mp h2
    obtain ⟨_, _, h4⟩ := Res.bind_eq_ok.mp h3
    cases h4
    intro x hx
    rcases List.mem_cons.mp hx with rfl | hx
    · exact comment_prints _
    · obtain ⟨f, _, hx⟩ := List.mem_flatMap.mp hx
      exact dataStmt_prints (to1BitAsm_data x hx)
  · cases h
    intro x hx
    simp only [List.mem_singleton] at hx
    subst hx
    exact hs

theorem replaceData_prints {f : Stmt → Res (List Stmt)} (hf : ∀ s ss, f s = .ok ss → Prints s → ∀ x ∈ ss, Prints x) :
    ∀ {ss out}, replaceData f ss = .ok out → (∀ s ∈ ss, Prints s) → ∀ x ∈ out, Prints x := by
  intro ss
  induction ss with
  | nil => intro out h _; cases h; simp
  | cons s ss ih =>
    intro out h hs
    rw [replaceData] at h
    obtain ⟨a, ha, h2⟩ := Res.bind_eq_ok.mp h
    obtain ⟨b, hb, h3⟩ := Res.bind_eq_ok.mp h2
    cases h3
    intro x hx
    rcases List.mem_append.mp hx with hx | hx
    · exact hf _ _ ha (hs s (by simp)) x hx
    · exact ih hb (fun s hm => hs s (by simp [hm])) x hx

theorem readStatements_prints {m seg order load fs fuel sf name p}
    (h : readStatements m seg order load fs fuel sf name = .ok p) : ∀ s ∈ p.stmts, Prints s := by
  unfold readStatements at h
  obtain ⟨⟨q, path, sf'⟩, hq, h2⟩ := Res.bind_eq_ok.mp h
  obtain ⟨ss, hss, h3⟩ := Res.bind_eq_ok.mp h2
  cases h3
  exact replaceData_prints (fun _ _ => includeData_prints) hss (readProgram_prints hq)

theorem printEach_fine : ∀ {ss : List Stmt}, (∀ s ∈ ss, Prints s) → ∃ ts, printEach ss = .ok ts := by
  intro ss
  induction ss with
  | nil => exact fun _ => ⟨_, rfl⟩
  | cons s ss ih =>
    intro h
    obtain ⟨t, ht⟩ := h s List.mem_cons_self
    obtain ⟨ts, hts⟩ := ih fun x hx => h x (List.mem_cons_of_mem _ hx)
    exact ⟨t :: ts, by rw [printEach, ht, Res.ok_bind, hts]; rfl⟩

theorem printStatements_fine {ss : List Stmt} (h : ∀ s ∈ ss, Prints s) : ∃ t, printStatements ss = .ok t := by
  obtain ⟨ts, hts⟩ := printEach_fine h
  exact ⟨_, by rw [printStatements, hts]; rfl⟩

/-- What was read and expanded can be printed. -/
theorem expanded_prints {m seg order load fs fuel sf name uuid macroFuel p q}
    (h : readStatements m seg order load fs fuel sf name = .ok p) (hx : expandMacros uuid macroFuel p = .ok q) :
    ∃ t, printStatements q.stmts = .ok t := by
  refine printStatements_fine fun s hs => ?_
  rcases expandMacros_mem hx s hs with (⟨n, rfl⟩ | ⟨i, rfl⟩) | ⟨h1, -⟩
  · exact ⟨_, rfl⟩
  · exact ⟨_, rfl⟩
  · exact readStatements_prints h s h1

/-! Images -/

theorem imageText_fine (i : Image) (f : ImageFormat) : ∃ t, imageText i f = .ok t := by
  have h : ∀ masked, ∃ t, printStatements (i.to1BitAsm masked true) = .ok t := fun masked =>
    printStatements_fine fun s hs => by
      obtain ⟨f, _, hs⟩ := List.mem_flatMap.mp hs
      exact dataStmt_prints (to1BitAsm_data s hs)
  cases f with
  | json => exact ⟨_, rfl⟩
  | jsonPretty => exact ⟨_, rfl⟩
  | asm1Bit => exact h _
  | asm1BitMasked => exact h _

/-- The icon: all that can go wrong without an error. -/
theorem toIcon_stops {order : List Color → List Color} (ho : ∀ l, (order l).Perm l) {load : Text → Res Image}
    (hl : ∀ path, load path ≠ .loop ∧ load path ≠ .panic) (path : Text) (speed : Option Nat) (eyecatch : Option Text) :
    toIcon order load path speed eyecatch ≠ .loop ∧
    (toIcon order load path speed eyecatch = .panic ↔ ∃ i p j, load path = .ok i ∧ ColoursAtMost 16 (pixels i) ∧
      (∀ f ∈ i.frames, HasSize 32 32 f) ∧ eyecatch = some p ∧ load p = .ok j ∧ j.frames = []) := by
  by_cases hbad : ∃ p j, eyecatch = some p ∧ load p = .ok j ∧ j.frames = []
  · obtain ⟨p, j, rfl, hj, hf⟩ := hbad
    unfold toIcon
    cases hi : load path with
    | err e => exact ⟨nofun, nofun, fun ⟨i, p, j, h1, _⟩ => by cases h1⟩
    | panic => exact absurd hi (hl path).2
    | loop => exact absurd hi (hl path).1
    | ok i =>
      rw [Res.ok_bind]
      dsimp only
      have hp := palette_count i 16
      split
      · next h1 => exact ⟨nofun, nofun, fun ⟨i', p, j, h2, h3, _⟩ => by cases h2; have := hp.mpr h3; omega⟩
      · next h1 =>
        split
        · next h2 => exact ⟨nofun, nofun, fun ⟨i', p, j, h3, _, h4, _⟩ => by
            cases h3
            rw [(imageSize_iff i 32 32).mpr h4] at h2
            cases h2⟩
        · next h2 =>
          have e : loadEyecatch load (some p) = .panic := by
            rw [loadEyecatch, hj, Res.ok_bind, Image.asStill, hf]
            rfl
          rw [e]
          exact ⟨nofun, fun _ => ⟨i, p, j, rfl, hp.mp (by omega), (imageSize_iff i 32 32).mp (by simpa using h2), rfl, hj, hf⟩, fun _ => rfl⟩
  · have hfine := toIcon_fine_of ho hl path speed eyecatch fun p i h1 h2 h3 => hbad ⟨p, i, h1, h2, h3⟩
    exact ⟨hfine.1, fun h => absurd h hfine.2, fun ⟨i, p, j, _, _, _, h1, h2, h3⟩ => absurd ⟨p, j, h1, h2, h3⟩ hbad⟩

end Verif
