import Verif.Lemmas.Sources
import Verif.Lemmas.Pipeline
import Verif.Lemmas.IconFile
import Verif.Lemmas.AsmMore
/-
Helper lemmas for the properties of whole programs: chains of includes, and the includes of data.
-/
namespace Verif
open Spec

/-! ### Chains of includes -/

theorem finite_iff {fs : FS} {dir main : Path} : Finite fs dir main ↔ ¬ Endless fs dir main := by
  constructor
  · intro h
    induction h with
    | intro p _ ih =>
      rintro ⟨c, rfl, h⟩
      exact ih (c 1) (h 0) ⟨fun n => c (n + 1), rfl, fun n => h (n + 1)⟩
  · intro h
    refine Classical.byContradiction fun hn => h ?_
    have step : ∀ p : { p // ¬ Finite fs dir p }, ∃ q : { p // ¬ Finite fs dir p }, IncludesFile fs dir p.1 q.1 := by
      rintro ⟨p, hp⟩
      refine Classical.byContradiction fun hx => hp (Acc.intro p fun q hq => ?_)
      refine Classical.byContradiction fun hf => hx ⟨⟨q, hf⟩, hq⟩
    let next := fun p => Classical.choose (step p)
    let chain : Nat → { p // ¬ Finite fs dir p } := fun n => Nat.rec ⟨main, hn⟩ (fun _ p => next p) n
    exact ⟨fun n => (chain n).1, rfl, fun n => Classical.choose_spec (step (chain n))⟩

theorem endless_step {fs : FS} {dir main q : Path} (h : IncludesFile fs dir main q) (he : Endless fs dir q) : Endless fs dir main := by
  obtain ⟨c, rfl, h'⟩ := he
  refine ⟨fun n => match n with | 0 => main | n + 1 => c n, rfl, fun n => ?_⟩
  cases n with
  | zero => exact h
  | succ n => exact h' n

theorem endless_of_tree {fs : FS} {dir main q : Path} (ht : IncludeTree fs dir main q) : Endless fs dir q → Endless fs dir main := by
  induction ht with
  | main => exact id
  | step _ h ih => exact fun he => ih (endless_step h he)

theorem includeTree_front {fs : FS} {dir p q : Path} (ht : IncludeTree fs dir p q) :
    q = p ∨ ∃ r, IncludesFile fs dir p r ∧ IncludeTree fs dir r q := by
  induction ht with
  | main => exact .inl rfl
  | step _ h ih =>
    rcases ih with rfl | ⟨r, h1, h2⟩
    · exact .inr ⟨_, h, .main⟩
    · exact .inr ⟨r, h1, .step h2 h⟩

/-- A file that includes itself, by way of `q`. -/
theorem endless_of_cycle {fs : FS} {dir p q : Path} (h : IncludesFile fs dir p q) (ht : IncludeTree fs dir q p) : Endless fs dir p := by
  refine Classical.byContradiction fun hn => ?_
  have hf := finite_iff.mpr hn
  clear hn
  induction hf generalizing q with
  | intro p _ ih =>
    rcases includeTree_front ht with rfl | ⟨r, h1, h2⟩
    · exact ih p h h .main
    · exact ih q h h1 (.step h2 h)

/-- With finitely many files, an endless chain comes back to some file. -/
theorem endless_cycle {fs : FS} {dir main : Path} {files : List Path} (hf : ∀ p, fs.read p ≠ none → p ∈ files)
    (h : Endless fs dir main) : ∃ p q, IncludeTree fs dir main p ∧ IncludesFile fs dir p q ∧ IncludeTree fs dir q p := by
  obtain ⟨c, hc, hs⟩ := h
  have hm : ∀ n, c n ∈ files := fun n => by
    obtain ⟨l, name, ⟨t, ls, hr, _⟩, _⟩ := hs n
    exact hf _ (by rw [hr]; simp)
  have htree : ∀ n, IncludeTree fs dir main (c n) := fun n => by
    induction n with
    | zero => rw [hc]; exact .main
    | succ n ih => exact .step ih (hs n)
  have hgo : ∀ n k, IncludeTree fs dir (c (n + 1)) (c (n + 1 + k)) := fun n k => by
    induction k with
    | zero => exact .main
    | succ k ih => exact .step ih (hs _)
  by_cases hd : ((List.range (files.length + 1)).map c).Nodup
  · have := length_le_of_subset hd (l' := files) (fun a ha => by
      obtain ⟨n, _, rfl⟩ := List.mem_map.mp ha
      exact hm n)
    simp at this
    omega
  · rw [List.nodup_iff_pairwise_ne] at hd
    simp only [List.pairwise_map] at hd
    have : ∃ i j, i < j ∧ c i = c j := by
      refine Classical.byContradiction fun hx => hd ?_
      refine List.pairwise_lt_range.imp fun {a b} hab e => hx ⟨a, b, hab, e⟩
    obtain ⟨i, j, hij, e⟩ := this
    refine ⟨c i, c (i + 1), htree i, hs i, ?_⟩
    obtain ⟨k, rfl⟩ : ∃ k, j = i + 1 + k := ⟨j - i - 1, by omega⟩
    rw [e]
    exact hgo i k

/-! ### What the parser makes of an icon -/

/-- The speed of an icon has 32-bit literals; the eyecatch is text. -/
def IconText (d : Directive) : Prop :=
  ∀ speed eyecatch name, d = .incl (.icon speed eyecatch) name →
    (∀ e, speed = some e → Literals32 e) ∧ ∀ bs, eyecatch = some (.str bs) → ∃ t, utf8 t = bs

theorem property_mem {ps : List (Text × ByteValue)} {key : String} {v : ByteValue} (h : property ps key = some v) :
    ∃ k, (k, v) ∈ ps := by
  unfold property at h
  obtain ⟨⟨k, v'⟩, h1, h2⟩ := Option.map_eq_some_iff.mp h
  cases h2
  exact ⟨k, (List.mem_filter.mp (List.mem_of_getLast? h1)).1⟩

theorem dirSyntax_icon {w d} (h : DirSyntax w d) (hs : ∀ t ∈ w, SaneTok t) : IconText d := by
  intro speed eyecatch name e
  cases h with
  | icon h1 h2 =>
    cases e
    have hall := optListed_all (P := fun kv : Text × ByteValue => (∀ e, kv.2 = .expr e → Literals32 e) ∧
        ∀ bs, kv.2 = .str bs → ∃ t, utf8 t = bs) (fun w a h hs => by
      cases h with
      | mk h =>
        cases h with
        | str => exact ⟨nofun, fun bs e => by cases e; exact ⟨_, (utf8_eq _).symm⟩⟩
        | expr h =>
          refine ⟨fun e he => ?_, nofun⟩
          cases he
          exact (sentence_lits h fun t ht => hs t (by simp [ht])).literals32) h1 fun t ht => hs t (by simp [ht])
    refine ⟨fun e he => ?_, fun bs hb => ?_⟩
    · cases h2 with
      | none => cases he
      | some h2 =>
        cases he
        obtain ⟨k, hk⟩ := property_mem h2
        exact (hall _ hk).1 _ rfl
    · obtain ⟨k, hk⟩ := property_mem hb
      exact (hall _ hk).2 _ rfl
  | _ => cases e

theorem instrSyntax_notDir {w s} (h : InstrSyntax w s) (d) : s ≠ .dir d := by cases h <;> nofun

theorem lineSyntax_icon {w ss} (h : LineSyntax w ss) (hs : ∀ t ∈ w, SaneTok t) : ∀ d, .dir d ∈ ss → IconText d := by
  intro d hd
  cases h with
  | directive h =>
    simp only [List.mem_singleton] at hd
    cases hd
    exact dirSyntax_icon h hs
  | labelled h =>
    simp only [List.mem_cons, List.not_mem_nil, or_false, reduceCtorEq, false_or] at hd
    exact absurd hd.symm (instrSyntax_notDir h d)
  | instr h =>
    simp only [List.mem_singleton] at hd
    exact absurd hd.symm (instrSyntax_notDir h d)
  | _ => simp at hd

theorem programSyntax_icon {ms ls ss ms'} (h : ProgramSyntax ms ls ss ms') : (∀ l ∈ ls, ∀ t ∈ l, SaneTok t) →
    ∀ d, .dir d ∈ ss → IconText d := by
  induction h with
  | nil => intro _ d hd; cases hd
  | line _ hl _ _ ih =>
    intro hs d hd
    rcases List.mem_append.mp hd with hd | hd
    · exact lineSyntax_icon hl (fun t ht => hs _ List.mem_cons_self t (by simp [ht])) d hd
    · exact ih (fun l hl => hs l (by simp [hl])) d hd
  | defn _ _ _ _ _ ih => exact fun hs => ih fun l hl => hs l (by simp [hl])
  | last => intro _ d hd; cases hd

theorem parse_icon {toks : List Token} {p : Program} (h : parse toks = .ok p) (hs : ∀ t ∈ toks, SaneTok t.tok) :
    ∀ d, .dir d ∈ p.stmts → IconText d := by
  obtain ⟨ms, h1, h2⟩ := parseTokLines_iff.mp h
  exact programSyntax_icon h1 (fun l hl t ht => by
    obtain ⟨l', hl', rfl⟩ := List.mem_map.mp hl
    obtain ⟨t', ht', rfl⟩ := List.mem_map.mp ht
    exact hs t' (lines_mem hl' ht'))

theorem readProgram_icon {seg fs fuel sf name p path sf'} (h : readProgram seg fs fuel sf name = .ok (p, path, sf')) :
    ∀ d, .dir d ∈ p.stmts → IconText d := by
  unfold readProgram at h
  obtain ⟨path', _, h2⟩ := Res.bind_eq_ok.mp h
  obtain ⟨⟨f, s1⟩, _, h3⟩ := Res.bind_eq_ok.mp h2
  obtain ⟨toks, ht, h4⟩ := Res.bind_eq_ok.mp h3
  obtain ⟨⟨o, s2⟩, hi, h5⟩ := Res.bind_eq_ok.mp h4
  obtain ⟨p', hp, h6⟩ := Res.bind_eq_ok.mp h5
  cases h6
  exact parse_icon hp (replaceIncludes_sane _ _ _ _ _ _ hi (lexLoop_sane _ _ _ ht))

/-! ### The includes of data -/

theorem toIcon_fine_of {order : List Color → List Color} (ho : ∀ l, (order l).Perm l) {load : Text → Res Image}
    (hl : ∀ path, load path ≠ .loop ∧ load path ≠ .panic) (path : Text) (speed : Option Nat) (eyecatch : Option Text)
    (he : ∀ p i, eyecatch = some p → load p = .ok i → i.frames ≠ []) : Fine (toIcon order load path speed eyecatch) := by
  unfold toIcon
  refine .bind (hl path) fun i hi => ?_
  dsimp only
  split
  · exact .err _
  · next hp =>
    split
    · exact .err _
    · next hsz =>
      have hsz' : ∀ f ∈ i.frames, HasSize 32 32 f := (imageSize_iff i 32 32).mp (by simpa using hsz)
      refine .bind ?_ fun e he => .bind ?_ fun _ _ => .bind ?_ fun _ _ => .ok _
      · cases eyecatch with
        | none => exact .ok _
        | some p =>
          unfold loadEyecatch
          refine .bind (hl p) fun j hj => ?_
          have := he p j rfl hj
          unfold Image.asStill
          cases hf : j.frames with
          | nil => exact absurd hf this
          | cons f fs => exact .bind (.ok _) fun _ _ => .ok _
      · obtain ⟨s1, pal, px, e1, -⟩ := toIcon_16 ho hsz' path (by decide) (by omega)
        rw [e1]
        exact .ok _
      · cases eyecatch with
        | none => cases he; exact .ok _
        | some p =>
          unfold loadEyecatch at he
          obtain ⟨j, hj, he⟩ := Res.bind_eq_ok.mp he
          unfold Image.asStill at he
          cases hf : j.frames with
          | nil => rw [hf] at he; cases he
          | cons f fs =>
            rw [hf] at he
            simp only [Res.ok_bind, Res.ok.injEq] at he
            subst he
            by_cases hz : HasSize 72 56 f
            · obtain ⟨s, b, q1, -⟩ := eyecatch_part ho hz ((some p).getD [])
              rw [q1]
              exact .ok _
            · unfold eyecatchPart
              dsimp only
              rw [if_neg (by
                intro hb
                exact hz ((imageSize_iff ⟨[f]⟩ 72 56).mp hb f (by simp)))]
              exact .err _

theorem toIcon_fine {order : List Color → List Color} (ho : ∀ l, (order l).Perm l) {load : Text → Res Image}
    (hl : LoadsFrames load) (path : Text) (speed : Option Nat) (eyecatch : Option Text) :
    Fine (toIcon order load path speed eyecatch) :=
  toIcon_fine_of ho (fun p => ⟨(hl p).1, (hl p).2.1⟩) path speed eyecatch fun p i _ => (hl p).2.2 i

theorem checkSprite_fine {i : Image} (h : i.frames ≠ []) (header : Bool) : Fine (checkSprite i header) := by
  unfold checkSprite Image.width Image.height
  cases hf : i.frames with
  | nil => exact absurd hf h
  | cons f fs =>
    split
    · refine .bind (.ok _) fun w _ => ?_
      split
      · exact .err _
      · refine .bind (.ok _) fun h _ => ?_
        split
        · exact .err _
        · exact .ok _
    · exact .ok _

theorem includeData_end {m : Mode} {order : List Color → List Color} (ho : ∀ l, (order l).Perm l) {load : Text → Res Image}
    (hl : LoadsFrames load) {fs : FS} {file : Path} {sf : SourceFiles} {s : Stmt} (hi : ∀ d, s = .dir d → IconText d) :
    includeData m order load fs file sf s ≠ .loop ∧
    (includeData m order load fs file sf s = .panic → file.comps ≠ [] → LeftOver s ∨
      ∃ e eyecatch name, s = .dir (.incl (.icon (some e) eyecatch) name) ∧ Overflows m (mapEnv []) e) := by
  have hpath : ∀ q, sf.path fs (some file) q ≠ .loop := fun q => path_end.1
  unfold includeData
  split
  · exact ⟨nofun, fun _ _ => .inl ⟨_, .inl rfl⟩⟩
  · exact ⟨nofun, fun _ _ => .inl ⟨_, .inr rfl⟩⟩
  · have hb : ∀ p, Fine (loadBytes fs p) := fun p => by
      unfold loadBytes
      split
      · exact .ok _
      · exact .err _
    constructor
    · intro h
      rcases Res.bind_eq_loop.mp h with h | ⟨p, _, h⟩
      · exact hpath _ h
      · exact (Fine.bind (hb p) fun _ _ => .ok _).1 h
    · intro h hc
      rcases Res.bind_eq_panic.mp h with h | ⟨p, _, h⟩
      · exact absurd h (path_end.2 hc)
      · exact absurd h (Fine.bind (hb p) fun _ _ => .ok _).2
  · next speed eyecatch name =>
    obtain ⟨h1, h2⟩ := hi _ rfl speed eyecatch name rfl
    have hec : Fine (eyecatchPath eyecatch) := by
      unfold eyecatchPath
      split
      · exact .ok _
      · next bs =>
        obtain ⟨t, ht⟩ := h2 bs rfl
        rw [decodeUtf8_iff.mpr ht]
        exact .ok _
      · exact .err _
    have hfe : ∀ o, fixEyecatch fs sf file o ≠ .loop ∧ (file.comps ≠ [] → fixEyecatch fs sf file o ≠ .panic) := by
      intro o
      unfold fixEyecatch
      split
      · exact ⟨nofun, fun _ => nofun⟩
      · constructor
        · intro h
          rcases Res.bind_eq_loop.mp h with h | ⟨p, _, h⟩
          · exact hpath _ h
          · cases h
        · intro hc h
          rcases Res.bind_eq_panic.mp h with h | ⟨p, _, h⟩
          · exact path_end.2 hc h
          · cases h
    constructor
    · intro h
      rcases Res.bind_eq_loop.mp h with h | ⟨v, _, h⟩
      · unfold evalSpeed at h
        split at h
        · cases h
        · rcases Res.bind_eq_loop.mp h with h | ⟨v, _, h⟩
          · exact eval_ne_loop _ h
          · cases h
      · rcases Res.bind_eq_loop.mp h with h | ⟨v, _, h⟩
        · exact hec.1 h
        · rcases Res.bind_eq_loop.mp h with h | ⟨v, _, h⟩
          · exact hpath _ h
          · rcases Res.bind_eq_loop.mp h with h | ⟨v, _, h⟩
            · exact (hfe _).1 h
            · exact (toIcon_fine ho hl _ _ _).1 h
    · intro h hc
      rcases Res.bind_eq_panic.mp h with h | ⟨v, _, h⟩
      · unfold evalSpeed at h
        split at h
        · cases h
        · rename_i e _
          rcases Res.bind_eq_panic.mp h with h | ⟨v, _, h⟩
          · exact .inr ⟨e, eyecatch, name, rfl, overflows_of_eval (fun n v h => by simp [mapEnv] at h) e (h1 e rfl) h⟩
          · cases h
      · rcases Res.bind_eq_panic.mp h with h | ⟨v, _, h⟩
        · exact absurd h hec.2
        · rcases Res.bind_eq_panic.mp h with h | ⟨v, _, h⟩
          · exact absurd h (path_end.2 hc)
          · rcases Res.bind_eq_panic.mp h with h | ⟨v, _, h⟩
            · exact absurd h ((hfe _).2 hc)
            · exact absurd h (toIcon_fine ho hl _ _ _).2
  · constructor
    · intro h
      rcases Res.bind_eq_loop.mp h with h | ⟨p, _, h⟩
      · exact hpath _ h
      · rcases Res.bind_eq_loop.mp h with h | ⟨i, hi, h⟩
        · exact (hl _).1 h
        · exact (Fine.bind (checkSprite_fine ((hl _).2.2 i hi) _) fun _ _ => .ok _).1 h
    · intro h hc
      rcases Res.bind_eq_panic.mp h with h | ⟨p, _, h⟩
      · exact absurd h (path_end.2 hc)
      · rcases Res.bind_eq_panic.mp h with h | ⟨i, hi, h⟩
        · exact absurd h (hl _).2.1
        · exact absurd h (Fine.bind (checkSprite_fine ((hl _).2.2 i hi) _) fun _ _ => .ok _).2
  · exact ⟨nofun, nofun⟩

theorem replaceData_stop {f : Stmt → Res (List Stmt)} {r : Res (List Stmt)} (hr : r = .loop ∨ r = .panic) : ∀ {ss : List Stmt},
    replaceData f ss = r → ∃ s ∈ ss, f s = r
  | [], h => by rcases hr with rfl | rfl <;> cases h
  | s :: ss, h => by
    rw [replaceData] at h
    rcases hr with rfl | rfl
    · rcases Res.bind_eq_loop.mp h with h | ⟨a, _, h⟩
      · exact ⟨s, by simp, h⟩
      · rcases Res.bind_eq_loop.mp h with h | ⟨b, _, h⟩
        · obtain ⟨x, hx, e⟩ := replaceData_stop (.inl rfl) h
          exact ⟨x, by simp [hx], e⟩
        · cases h
    · rcases Res.bind_eq_panic.mp h with h | ⟨a, _, h⟩
      · exact ⟨s, by simp, h⟩
      · rcases Res.bind_eq_panic.mp h with h | ⟨b, _, h⟩
        · obtain ⟨x, hx, e⟩ := replaceData_stop (.inr rfl) h
          exact ⟨x, by simp [hx], e⟩
        · cases h

/-! ### Reading -/

theorem readProgram_ends {seg : Seg} (hs : AsciiSeg seg) {fs : FS} {dir : Path} (hd : dir.abs = true) {name : Text}
    (hA : AllPlain seg fs dir (dir.join (Path.parse name))) (hE : ¬ Endless fs dir (dir.join (Path.parse name))) :
    ∃ n r, r ≠ .loop ∧ ∀ fuel ≥ n, readProgram seg fs fuel (SourceFiles.new dir) name = r := by
  obtain ⟨main, rfl, h⟩ := readProgram_steps (seg := seg) (fs := fs) hd name
  rcases h with ⟨e, h⟩ | ⟨f, t, sf, hg, hr, h⟩
  · exact ⟨0, .err e, nofun, fun fuel _ => h fuel⟩
  · obtain ⟨n, hn⟩ := replace_ends hs (finite_iff.mpr hE) hA
    refine ⟨n, readProgram seg fs n (SourceFiles.new dir) name, ?_, fun fuel hf => ?_⟩
    · rw [h n]
      intro hl
      rcases Res.bind_eq_loop.mp hl with hl | ⟨toks, hlex, hl⟩
      · exact lexInput_not_loop (hA.1 _ t .main hr) hl
      · rcases Res.bind_eq_loop.mp hl with hl | ⟨⟨o, sf'⟩, _, hl⟩
        · exact hn n (Nat.le_refl _) sf f t toks hg hr hlex hl
        · exact (Fine.bind (parseTokLines_fine _) fun _ _ => .ok _).1 hl
    · rw [h fuel, h n]
      cases hlex : lexInput seg (Input.new f t) with
      | ok toks =>
        simp only [Res.ok_bind]
        rw [replace_mono (hn n (Nat.le_refl _) sf f t toks hg hr hlex) fuel hf]
      | _ => rfl

theorem readProgram_finite {seg : Seg} {fs : FS} {dir : Path} (hd : dir.abs = true) {name : Text}
    (hA : AllPlain seg fs dir (dir.join (Path.parse name))) {fuel : Nat} {x} (h : readProgram seg fs fuel (SourceFiles.new dir) name = .ok x) :
    ¬ Endless fs dir (dir.join (Path.parse name)) := by
  obtain ⟨main, rfl, h'⟩ := readProgram_steps (seg := seg) (fs := fs) hd name
  rcases h' with ⟨e, h'⟩ | ⟨f, t, sf, hg, hr, h'⟩
  · rw [h'] at h; cases h
  · rw [h'] at h
    obtain ⟨toks, h1, h⟩ := Res.bind_eq_ok.mp h
    obtain ⟨⟨o, sf'⟩, h2, h⟩ := Res.bind_eq_ok.mp h
    exact finite_iff.mp (replace_finite fuel hA hg hr h1 h2)

theorem readProgram_panic {seg : Seg} (hs : AsciiSeg seg) {fs : FS} (hnf : NamedFiles fs) {dir : Path} (hd : dir.abs = true) {name : Text}
    (hA : AllPlain seg fs dir (dir.join (Path.parse name))) {fuel : Nat} (h : readProgram seg fs fuel (SourceFiles.new dir) name = .panic) :
    HugeNumeral fs dir (dir.join (Path.parse name)) := by
  obtain ⟨main, rfl, h'⟩ := readProgram_steps (seg := seg) (fs := fs) hd name
  rcases h' with ⟨e, h'⟩ | ⟨f, t, sf, hg, hr, h'⟩
  · rw [h'] at h; cases h
  · rw [h'] at h
    rcases Res.bind_eq_panic.mp h with h | ⟨toks, hlex, h⟩
    · exact .inl ⟨_, t, .main, hr, (lexInput_panic_iff (hA.1 _ t .main hr)).mp h⟩
    · rcases Res.bind_eq_panic.mp h with h | ⟨⟨o, sf'⟩, _, h⟩
      · exact replace_panic hs hA hnf fuel .main hg hr hlex h
      · exact absurd h (Fine.bind (parseTokLines_fine _) fun _ _ => .ok _).2

/-- The main file of a program that was read. -/
theorem readProgram_path {seg : Seg} {fs : FS} {dir : Path} (hd : dir.abs = true) {name : Text} {fuel : Nat} {p path sf}
    (h : readProgram seg fs fuel (SourceFiles.new dir) name = .ok (p, path, sf)) :
    path = dir.join (Path.parse name) ∧ fs.read path ≠ none := by
  obtain ⟨main, rfl, h'⟩ := readProgram_steps (seg := seg) (fs := fs) hd name
  rcases h' with ⟨e, h'⟩ | ⟨f, t, sf, hg, hr, h'⟩
  · rw [h'] at h; cases h
  · rw [h'] at h
    obtain ⟨toks, h1, h⟩ := Res.bind_eq_ok.mp h
    obtain ⟨⟨o, sf'⟩, h2, h⟩ := Res.bind_eq_ok.mp h
    obtain ⟨p', h3, h⟩ := Res.bind_eq_ok.mp h
    cases h
    exact ⟨rfl, by rw [hr]; nofun⟩

end Verif
