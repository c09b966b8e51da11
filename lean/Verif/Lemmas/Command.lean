import Verif.Spec.Command
import Verif.Lemmas.ListingText
import Verif.Lemmas.Vmi
import Verif.Lemmas.Report
/-
What the commands do to the disk.
-/
namespace Verif
open Spec

theorem sameExcept_refl (p : Path) (fs : FS) : SameExcept p fs fs := ⟨rfl, fun _ _ => ⟨rfl, rfl⟩⟩

theorem Spec.SameExcept.trans {p : Path} {a b c : FS} (h1 : SameExcept p a b) (h2 : SameExcept p b c) : SameExcept p a c :=
  ⟨h2.1.trans h1.1, fun q hq => ⟨(h2.2 q hq).1.trans (h1.2 q hq).1, (h2.2 q hq).2.trans (h1.2 q hq).2⟩⟩

theorem create_same (fs : FS) (p : Path) : SameExcept p fs (fs.create p) := by
  refine ⟨rfl, fun q hq => ⟨?_, ?_⟩⟩
  · simp [FS.create, hq]
  · simp [FS.create, hq]

theorem append_same (fs : FS) (p : Path) (bs : List UInt8) : SameExcept p fs (fs.append p bs) := by
  refine ⟨rfl, fun q hq => ⟨rfl, ?_⟩⟩
  simp [FS.append, hq]

/-- The file `p`, which held `old`, now holds a beginning of `bs` more. -/
def Grown (p : Path) (fs : FS) (old bs : List UInt8) (d : FS) : Prop :=
  SameExcept p fs d ∧ d.isFile p = fs.isFile p ∧ ∃ pre, pre <+: bs ∧ d.read p = some (old ++ pre)

theorem writeAll_grows (os : OS) (p : Path) : ∀ (n : Nat) {fs : FS} {old bs : List UInt8}, bs.length ≤ n → fs.read p = some old →
    (∀ d ∈ (writeAll os p n fs bs).1, Grown p fs old bs d) ∧
    Grown p fs old bs ((writeAll os p n fs bs).1.getLastD fs) ∧
    ((writeAll os p n fs bs).2 = true → ((writeAll os p n fs bs).1.getLastD fs).read p = some (old ++ bs)) ∧
    (Willing os → (writeAll os p n fs bs).2 = true) := by
  intro n
  have nil : ∀ {n} {fs : FS} {old : List UInt8}, fs.read p = some old →
      (∀ d ∈ (writeAll os p n fs []).1, Grown p fs old [] d) ∧
      Grown p fs old [] ((writeAll os p n fs []).1.getLastD fs) ∧
      ((writeAll os p n fs []).2 = true → ((writeAll os p n fs []).1.getLastD fs).read p = some (old ++ [])) ∧
      (Willing os → (writeAll os p n fs []).2 = true) := by
    intro n fs old ho
    have e : writeAll os p n fs [] = ([], true) := by cases n <;> rfl
    rw [e]
    exact ⟨nofun, ⟨sameExcept_refl _ _, rfl, [], List.prefix_rfl, by simp [ho]⟩, fun _ => by simp [ho], fun _ => rfl⟩
  have stop : ∀ {fs : FS} {old bs : List UInt8}, fs.read p = some old → bs ≠ [] → ∀ {r : List FS × Bool}, r = ([], false) →
      (Willing os → False) →
      (∀ d ∈ r.1, Grown p fs old bs d) ∧ Grown p fs old bs (r.1.getLastD fs) ∧
      (r.2 = true → (r.1.getLastD fs).read p = some (old ++ bs)) ∧ (Willing os → r.2 = true) := by
    rintro fs old bs ho hb r rfl hw
    exact ⟨nofun, ⟨sameExcept_refl _ _, rfl, [], List.nil_prefix, by simp [ho]⟩, nofun, fun h => (hw h).elim⟩
  induction n with
  | zero =>
    intro fs old bs hn ho
    obtain rfl : bs = [] := List.eq_nil_of_length_eq_zero (by omega)
    exact nil ho
  | succ n ih =>
    intro fs old bs hn ho
    cases bs with
    | nil => exact nil ho
    | cons b bs =>
      cases ha : os.accepts fs p (b :: bs) with
      | none =>
        refine stop ho (by simp) (by rw [writeAll, ha]) fun hw => ?_
        obtain ⟨k, hk⟩ := hw.2 fs p (b :: bs) (by simp)
        rw [ha] at hk
        cases hk
      | some k =>
        cases k with
        | zero =>
          refine stop ho (by simp) (by rw [writeAll, ha]) fun hw => ?_
          obtain ⟨k, hk⟩ := hw.2 fs p (b :: bs) (by simp)
          rw [ha] at hk
          cases hk
        | succ k =>
          have hr : (fs.append p ((b :: bs).take (k + 1))).read p = some (old ++ (b :: bs).take (k + 1)) := by
            simp [FS.append, ho]
          have hl : ((b :: bs).drop (k + 1)).length ≤ n := by
            rw [List.length_drop]
            omega
          obtain ⟨h1, h2, h3, h4⟩ := ih hl hr
          have step : ∀ {d}, Grown p (fs.append p ((b :: bs).take (k + 1))) (old ++ (b :: bs).take (k + 1)) ((b :: bs).drop (k + 1)) d →
              Grown p fs old (b :: bs) d := by
            rintro d ⟨g1, g2, pre, g3, g4⟩
            refine ⟨(append_same fs p _).trans g1, g2, (b :: bs).take (k + 1) ++ pre, ?_, by rw [g4, List.append_assoc]⟩
            have := (List.prefix_append_right_inj ((b :: bs).take (k + 1))).mpr g3
            rwa [List.take_append_drop] at this
          have e : writeAll os p (n + 1) fs (b :: bs) =
              (fs.append p ((b :: bs).take (k + 1)) ::
                (writeAll os p n (fs.append p ((b :: bs).take (k + 1))) ((b :: bs).drop (k + 1))).1,
               (writeAll os p n (fs.append p ((b :: bs).take (k + 1))) ((b :: bs).drop (k + 1))).2) := by
            rw [writeAll, ha]
          rw [e]
          generalize writeAll os p n (fs.append p ((b :: bs).take (k + 1))) ((b :: bs).drop (k + 1)) = r at h1 h2 h3 h4 ⊢
          dsimp only
          rw [List.getLastD_cons]
          refine ⟨?_, step h2, fun h => ?_, h4⟩
          · intro d hd
            rcases List.mem_cons.mp hd with rfl | hd
            · exact ⟨append_same fs p _, rfl, _, List.take_prefix _ _, hr⟩
            · exact step (h1 d hd)
          · rw [h3 h, List.append_assoc, List.take_append_drop]

/-- A file that is being written: what the disk looks like from its creation on. -/
def Written (p : Path) (fs : FS) (bs : List UInt8) (d : FS) : Prop :=
  SameExcept p fs d ∧ d.isFile p = true ∧ ∃ pre, pre <+: bs ∧ d.read p = some pre

theorem grown_written {p : Path} {fs : FS} {bs : List UInt8} {d : FS} (h : Grown p (fs.create p) [] bs d) : Written p fs bs d := by
  obtain ⟨h1, h2, pre, h3, h4⟩ := h
  exact ⟨(create_same fs p).trans h1, by rw [h2]; simp [FS.create], pre, h3, by simpa using h4⟩

theorem create_read (fs : FS) (p : Path) : (fs.create p).read p = some [] := by simp [FS.create]

theorem create_written (p : Path) (fs : FS) (bs : List UInt8) : Written p fs bs (fs.create p) :=
  grown_written ⟨sameExcept_refl _ _, rfl, [], List.nil_prefix, create_read fs p⟩

/-- What is known of a run that writes `bs` to the file `p`. -/
structure Saves (os : OS) (fs : FS) (p : Path) (bs : List UInt8) (o : RunResult) : Prop where
  disks : ∀ d ∈ o.disks, Written p fs bs d
  exit : o.exit = .code 0 ∨ o.exit = .panic
  done : o.exit = .code 0 → ∃ d, o.disks.getLast? = some d ∧ d.read p = some bs
  willing : Willing os → o.exit = .code 0
  out : o.out = []

theorem getLastD_cons_some {α : Type} (a : α) (l : List α) : (a :: l).getLast? = some (l.getLastD a) := by
  rw [List.getLast?_cons, List.getLastD_eq_getLast?]

theorem save_saves (os : OS) (fs : FS) (p : Path) (bs : List UInt8) : Saves os fs p bs (save os fs p bs) := by
  obtain ⟨h1, -, h3, h4⟩ := writeAll_grows os p bs.length (fs := fs.create p) (bs := bs) (Nat.le_refl _) (create_read fs p)
  unfold save
  generalize writeAll os p bs.length (fs.create p) bs = r at h1 h3 h4 ⊢
  split
  next =>
    constructor
    · intro d hd
      rcases List.mem_cons.mp hd with rfl | hd
      · exact create_written p fs bs
      · exact grown_written (h1 d hd)
    · dsimp only
      split
      · exact .inl rfl
      · exact .inr rfl
    · dsimp only
      intro h
      split at h
      next h2 => exact ⟨_, getLastD_cons_some _ _, h3 h2⟩
      next => cases h
    · intro hw
      dsimp only
      rw [if_pos (h4 hw)]
    · rfl
  next hc =>
    exact ⟨nofun, .inr rfl, nofun, fun hw => absurd (hw.1 fs p) hc, rfl⟩

theorem writeLines_grows (os : OS) (p : Path) (positions : Bool) : ∀ (ds : List DStmt) {fs : FS} {old : List UInt8} {text : Text},
    printListing positions ds = .ok text → fs.read p = some old →
    (∀ d ∈ (writeLines os p positions fs ds).1, Grown p fs old (utf8 text) d) ∧
    ((writeLines os p positions fs ds).2 = .code 0 ∨ (writeLines os p positions fs ds).2 = .panic) ∧
    ((writeLines os p positions fs ds).2 = .code 0 → ((writeLines os p positions fs ds).1.getLastD fs).read p = some (old ++ utf8 text)) ∧
    (Willing os → (writeLines os p positions fs ds).2 = .code 0) := by
  intro ds
  induction ds with
  | nil =>
    intro fs old text ht ho
    cases ht
    exact ⟨nofun, .inl rfl, fun _ => by simp [writeLines, ho, utf8], fun _ => rfl⟩
  | cons x ds ih =>
    intro fs old text ht ho
    rw [printListing] at ht
    obtain ⟨t, h1, ht⟩ := Res.bind_eq_ok.mp ht
    obtain ⟨ts, h2, ht⟩ := Res.bind_eq_ok.mp ht
    cases ht
    obtain ⟨k1, k2, k3, k4⟩ := writeAll_grows os p (utf8 t).length (fs := fs) (bs := utf8 t) (Nat.le_refl _) ho
    rw [writeLines, h1]
    dsimp only
    generalize writeAll os p (utf8 t).length fs (utf8 t) = r at k1 k2 k3 k4 ⊢
    have hu : utf8 (t ++ ts) = utf8 t ++ utf8 ts := utf8_append t ts
    have mono : ∀ {d}, Grown p fs old (utf8 t) d → Grown p fs old (utf8 (t ++ ts)) d := by
      rintro d ⟨g1, g2, pre, g3, g4⟩
      exact ⟨g1, g2, pre, hu ▸ g3.trans (List.prefix_append _ _), g4⟩
    split
    next hr =>
      have hlast := k3 hr
      obtain ⟨m1, m2, m3, m4⟩ := ih h2 hlast
      have step : ∀ {d}, Grown p (r.1.getLastD fs) (old ++ utf8 t) (utf8 ts) d → Grown p fs old (utf8 (t ++ ts)) d := by
        rintro d ⟨g1, g2, pre, g3, g4⟩
        refine ⟨k2.1.trans g1, g2.trans k2.2.1, utf8 t ++ pre, ?_, by rw [g4, List.append_assoc]⟩
        rw [hu]
        exact (List.prefix_append_right_inj _).mpr g3
      refine ⟨?_, m2, fun h => ?_, m4⟩
      · intro d hd
        rcases List.mem_append.mp hd with hd | hd
        · exact mono (k1 d hd)
        · exact step (m1 d hd)
      · have := m3 h
        rw [hu, ← List.append_assoc, ← this]
        congr 1
        generalize (writeLines os p positions (r.1.getLastD fs) ds).1 = l
        cases l with
        | nil => simp
        | cons a l => simp [List.getLastD_eq_getLast?, List.getLast?_append, List.getLast?_cons]
    next hr =>
      exact ⟨fun d hd => mono (k1 d hd), .inr rfl, nofun, fun hw => absurd (k4 hw) hr⟩

theorem saveLines_saves (os : OS) (fs : FS) (p : Path) {positions : Bool} {ds : List DStmt} {text : Text}
    (ht : printListing positions ds = .ok text) : Saves os fs p (utf8 text) (saveLines os fs p positions ds) := by
  obtain ⟨h1, h2, h3, h4⟩ := writeLines_grows os p positions ds (fs := fs.create p) ht (create_read fs p)
  unfold saveLines
  generalize writeLines os p positions (fs.create p) ds = r at h1 h2 h3 h4 ⊢
  split
  next =>
    constructor
    · intro d hd
      rcases List.mem_cons.mp hd with rfl | hd
      · exact create_written p fs _
      · exact grown_written (h1 d hd)
    · exact h2
    · intro h
      exact ⟨_, getLastD_cons_some _ _, by simpa using h3 h⟩
    · exact h4
    · rfl
  next hc =>
    exact ⟨nofun, .inr rfl, nofun, fun hw => absurd (hw.1 fs p) hc, rfl⟩

theorem saveOnce_disks (os : OS) (fs : FS) (p : Path) (bs : List UInt8) : (∀ d ∈ (saveOnce os fs p bs).disks, Written p fs bs d) ∧
    ((saveOnce os fs p bs).exit = .code 0 ∨ (saveOnce os fs p bs).exit = .panic) ∧ (saveOnce os fs p bs).out = [] := by
  unfold saveOnce
  split
  · split
    · exact ⟨fun d hd => by rw [List.mem_singleton.mp hd]; exact create_written p fs bs, .inr rfl, rfl⟩
    next k _ =>
      refine ⟨fun d hd => ?_, .inl rfl, rfl⟩
      rcases List.mem_cons.mp hd with rfl | hd
      · exact create_written p fs bs
      · rw [List.mem_singleton.mp hd]
        exact grown_written ⟨append_same _ p _, rfl, bs.take k, List.take_prefix _ _, by
          simp only [FS.append, FS.create, if_true, Option.getD_some]⟩
  · exact ⟨nofun, .inr rfl, rfl⟩

/-! ### Listings can be printed -/

theorem byte_prints (bs : List UInt8) : ∃ ts, printBytes (bs.map fun b => .expr (.num b.toNat)) = .ok ts := by
  induction bs with
  | nil => exact ⟨[], rfl⟩
  | cons b bs ih =>
    obtain ⟨ts, h⟩ := ih
    exact ⟨_, by rw [List.map_cons, printBytes, h]; rfl⟩

/-- The statement can be printed. -/
def Prints1 (d : DStmt) : Prop := ∃ t, d.stmt.print = .ok t

theorem note_prints (t : Text) : Prints1 (.note t) := by
  unfold Prints1 DStmt.note Stmt.print
  dsimp only
  split
  · exact ⟨_, rfl⟩
  · split <;> exact ⟨_, rfl⟩

theorem emits_prints {flag entries bytes g names pos w out} (h : Emits flag entries bytes g names pos w out) :
    ∀ d ∈ out, Prints1 d := by
  have entry : ∀ pos, ∀ d ∈ entryPart entries pos, Prints1 d := by
    intro pos d hd
    unfold entryPart at hd
    split at hd
    · simp only [List.mem_cons, List.not_mem_nil, or_false] at hd
      rcases hd with rfl | rfl | rfl
      · exact note_prints _
      · exact note_prints _
      · exact ⟨_, rfl⟩
    · cases hd
  have after : ∀ pos w, ∀ d ∈ afterData entries g w pos, Prints1 d := by
    intro pos w d hd
    unfold afterData at hd
    split at hd
    · rcases List.mem_cons.mp hd with rfl | hd
      · exact note_prints _
      · split at hd
        · rw [List.mem_singleton.mp hd]; exact ⟨_, rfl⟩
        · cases hd
    · cases hd
  have label : ∀ pos, ∀ d ∈ labelPart names pos, Prints1 d := by
    intro pos d hd
    unfold labelPart at hd
    split at hd
    · rw [List.mem_singleton.mp hd]; exact ⟨_, rfl⟩
    · cases hd
  have overlap : ∀ pos, ∀ d ∈ overlapPart g pos, Prints1 d := by
    intro pos d hd
    unfold overlapPart at hd
    split at hd
    · cases hd
    · rw [List.mem_singleton.mp hd]; exact note_prints _
  have before : ∀ pos w, ∀ d ∈ beforeData g w pos, Prints1 d := by
    intro pos w d hd
    unfold beforeData at hd
    rcases List.mem_append.mp hd with hd | hd
    · split at hd
      · rw [List.mem_singleton.mp hd]; exact note_prints _
      · cases hd
    · split at hd
      · simp only [List.mem_cons, List.not_mem_nil, or_false] at hd
        rcases hd with rfl | rfl
        · exact note_prints _
        · exact ⟨_, rfl⟩
      · cases hd
  induction h with
  | done => exact nofun
  | instr _ _ _ _ ih =>
    intro d hd
    simp only [List.append_assoc, List.mem_append, List.mem_cons] at hd
    rcases hd with hd | hd | hd | hd | rfl | hd
    · exact entry _ d hd
    · exact after _ _ d hd
    · exact label _ d hd
    · exact overlap _ d hd
    · exact ⟨_, rfl⟩
    · exact ih d hd
  | bytes _ _ _ _ _ ih =>
    intro d hd
    simp only [List.append_assoc, List.mem_append, List.mem_cons] at hd
    rcases hd with hd | hd | rfl | hd
    · exact entry _ d hd
    · exact before _ _ d hd
    · obtain ⟨ts, h⟩ := byte_prints (chunkAt bytes g ‹Nat›)
      exact ⟨_, by simp only [DStmt.bytes, Stmt.print, Directive.print, h, Res.ok_bind]; rfl⟩
    · exact ih d hd
  | zeros _ _ _ _ _ ih =>
    intro d hd
    rcases List.mem_append.mp hd with hd | hd
    · exact entry _ d hd
    · exact ih d hd
  | inside _ _ _ _ ih =>
    intro d hd
    rcases List.mem_append.mp hd with hd | hd
    · exact entry _ d hd
    · exact ih d hd

theorem epilogue_prints {size : Nat} {names : DNames} : ∀ d ∈ epilogue size names, Prints1 d := by
  intro d hd
  simp only [epilogue, sortedNames_eq, List.mem_append, List.mem_cons, List.not_mem_nil, or_false, List.mem_map] at hd
  rcases hd with ((((rfl | rfl | rfl) | ⟨c, hc, rfl⟩) | rfl) | ⟨c, hc, rfl⟩)
  · exact note_prints _
  · exact ⟨_, rfl⟩
  · exact note_prints _
  · exact ⟨_, rfl⟩
  · exact note_prints _
  · exact ⟨_, rfl⟩

theorem listing_prints (positions : Bool) : ∀ {ds : List DStmt}, (∀ d ∈ ds, Prints1 d) → ∃ text, printListing positions ds = .ok text
  | [], _ => ⟨[], rfl⟩
  | d :: ds, h => by
    obtain ⟨ts, h2⟩ := listing_prints positions fun x hx => h x (List.mem_cons_of_mem d hx)
    obtain ⟨t, h1⟩ := h d List.mem_cons_self
    rw [printListing, printLine]
    simp only [h1, h2, Res.ok_bind]
    exact ⟨_, rfl⟩

/-- Every listing can be printed. -/
theorem disassemble_prints {flag entries bytes ds} (positions : Bool) (h : disassemble flag entries bytes = .ok ds) :
    ∃ text, printListing positions ds = .ok text := by
  obtain ⟨g, body, -, rfl, he⟩ := disassemble_ok h
  refine listing_prints positions fun d hd => ?_
  rcases List.mem_append.mp hd with hd | hd
  · exact emits_prints he d hd
  · exact epilogue_prints d hd

/-! ### Arguments -/

theorem fileType_iff {t : Option Text} {entries : List Nat} : FileType t entries ↔ entriesFor (t.getD "raw".toList) = some entries := by
  constructor
  · intro h
    cases h <;> rfl
  · intro h
    cases t with
    | none =>
      cases (Option.some.inj (show some gameEntries = some entries from h))
      exact .default
    | some t =>
      rw [Option.getD_some, entriesFor] at h
      split at h
      next hc =>
        cases h
        rcases hc with rfl | rfl | rfl
        · exact .game
        · exact .file
        · exact .raw
      next =>
        split at h
        next hc =>
          cases h
          subst hc
          exact .bios
        next => cases h

theorem vmiName_iff {input : Text} {output : Option Text} {name : Text} : VmiName input output name ↔ name = vmiOutput input output := by
  have base : ∃ b, BaseName input b := by
    rcases Classical.em (∃ b, input = b ++ ".vms".toList) with ⟨b, h⟩ | h
    · exact ⟨b, .inl h⟩
    · exact ⟨input, .inr ⟨rfl, h⟩⟩
  constructor
  · intro h
    cases h with
    | given => rfl
    | vms => rw [vmiOutput, vmsBasename_eq (.inl rfl)]
    | other h => rw [vmiOutput, vmsBasename_eq (.inr ⟨rfl, h⟩)]
  · rintro rfl
    cases output with
    | some o => exact .given
    | none =>
      obtain ⟨b, hb⟩ := base
      rw [vmiOutput, vmsBasename_eq hb]
      rcases hb with rfl | ⟨rfl, h⟩
      · exact .vms
      · exact .other h

theorem imageText_iff {i : Image} {format : Option Text} {text : Text} :
    ImageText i format text ↔ imageText i (imageFormat (format.getD [])) = .ok text := by
  constructor
  · intro h
    cases h with
    | json => rfl
    | pretty => rfl
    | masked h => exact h
    | plain h1 h2 =>
      have : imageFormat (format.getD []) = .asm1Bit := by
        cases format with
        | none => rfl
        | some n =>
          have := h1 n rfl
          simp only [List.mem_cons, List.not_mem_nil, or_false, not_or] at this
          rw [Option.getD_some, imageFormat, if_neg this.1, if_neg this.2.1, if_neg this.2.2]
          split <;> rfl
      rw [this]
      exact h2
  · intro h
    cases format with
    | none => exact .plain nofun h
    | some n =>
      rw [Option.getD_some, imageFormat] at h
      split at h
      next hn => cases h; subst hn; exact .json
      next h1 =>
        split at h
        next hn => cases h; subst hn; exact .pretty
        next h2 =>
          split at h
          next h3 =>
            subst h3
            refine .plain (fun n hn => ?_) h
            cases hn
            decide
          next h3 =>
            split at h
            next hn => subst hn; exact .masked h
            next h4 =>
              refine .plain (fun n hn => ?_) h
              cases hn
              simp only [List.mem_cons, List.not_mem_nil, or_false, not_or]
              exact ⟨h1, h2, h4⟩

theorem digitChar_decimal {d : Nat} (h : d < 10) : (Nat.digitChar d).isDigit = true ∧ (Nat.digitChar d).toNat - 48 = d := by
  revert h
  revert d
  decide

theorem decimal_digitChar {c : Char} (h : c.isDigit = true) : ∃ d, d < 10 ∧ c = Nat.digitChar d := by
  have h1 : 48 ≤ c.toNat ∧ c.toNat ≤ 57 := by
    simp only [Char.isDigit, Bool.and_eq_true, decide_eq_true_eq] at h
    exact h
  refine ⟨c.toNat - 48, by omega, ?_⟩
  have h2 : Char.ofNat c.toNat = c := Char.ofNat_toNat c
  have : ∀ n, n < 58 → 48 ≤ n → Char.ofNat n = Nat.digitChar (n - 48) := by decide
  rw [← this c.toNat (by omega) (by omega), h2]

theorem decimal_iff {ds : Text} {v : Nat} : Decimal ds v ↔
    ds ≠ [] ∧ ds.all (fun c => c.isDigit) = true ∧ ds.foldl (fun v c => v * 10 + (c.toNat - 48)) 0 = v := by
  constructor
  · intro h
    induction h with
    | one hd => exact ⟨by simp, by simp [(digitChar_decimal hd).1], by simp [(digitChar_decimal hd).2]⟩
    | more _ hd ih =>
      refine ⟨by simp, by simp [(digitChar_decimal hd).1]; simpa using ih.2.1, ?_⟩
      rw [List.foldl_append, ih.2.2]
      simp only [List.foldl_cons, List.foldl_nil, (digitChar_decimal hd).2]
      omega
  · rintro ⟨h1, h2, rfl⟩
    generalize hn : ds.length = n
    induction n generalizing ds with
    | zero => exact absurd (List.eq_nil_of_length_eq_zero hn) h1
    | succ n ih =>
      rcases List.eq_nil_or_concat ds with rfl | ⟨l, c, rfl⟩
      · exact absurd rfl h1
      · simp only [List.concat_eq_append] at *
        simp only [List.all_append, List.all_cons, List.all_nil, Bool.and_true, Bool.and_eq_true] at h2
        obtain ⟨d, hd, rfl⟩ := decimal_digitChar h2.2
        by_cases hl : l = []
        · subst hl
          have := Decimal.one hd
          simpa [(digitChar_decimal hd).2] using this
        · have := Decimal.more (ih hl h2.1 (by simpa using hn)) hd
          rw [List.foldl_append]
          simp only [List.foldl_cons, List.foldl_nil, (digitChar_decimal hd).2]
          rwa [Nat.mul_comm] at this

theorem decimal_noPlus {ds : Text} {v : Nat} (h : Decimal ds v) {r : Text} : ds ≠ '+' :: r := by
  rintro rfl
  have := (decimal_iff.mp h).2.1
  simp at this

theorem speedArg_iff {t : Option Text} {v : Option Nat} : SpeedArg t v ↔ parseSpeed t = .ok v := by
  have key : ∀ {ds : Text} {v : Nat}, (if ds ≠ [] ∧ ds.all (fun c => c.isDigit) = true then
      (if ds.foldl (fun v c => v * 10 + (c.toNat - 48)) 0 < 65536 then some (ds.foldl (fun v c => v * 10 + (c.toNat - 48)) 0) else none)
      else none) = some v ↔ Decimal ds v ∧ v < 65536 := by
    intro ds v
    rw [decimal_iff]
    constructor
    · intro h
      split at h
      next h1 =>
        split at h
        next h2 => cases h; exact ⟨⟨h1.1, h1.2, rfl⟩, h2⟩
        next => cases h
      next => cases h
    · rintro ⟨⟨h1, h2, rfl⟩, h3⟩
      rw [if_pos ⟨h1, h2⟩, if_pos h3]
  have parse : ∀ {t : Text} {v : Nat}, parseU16 t = some v ↔ SpeedArg (some t) (some v) := by
    intro t v
    unfold parseU16
    dsimp only
    split
    next ds =>
      rw [key]
      constructor
      · rintro ⟨h1, h2⟩
        exact .plus h1 h2
      · intro h
        cases h with
        | digits h1 h2 => exact absurd rfl (decimal_noPlus h1)
        | plus h1 h2 => exact ⟨h1, h2⟩
    next ds hn =>
      rw [key]
      constructor
      · rintro ⟨h1, h2⟩
        exact .digits h1 h2
      · intro h
        cases h with
        | digits h1 h2 => exact ⟨h1, h2⟩
        | plus h1 h2 => exact absurd rfl (hn _)
  cases t with
  | none =>
    constructor
    · intro h; cases h; rfl
    · intro h; cases h; exact .none
  | some t =>
    unfold parseSpeed
    dsimp only
    cases hp : parseU16 t with
    | some w =>
      dsimp only
      constructor
      · intro h
        have h' : ∃ u, v = some u := by cases h <;> exact ⟨_, rfl⟩
        obtain ⟨u, rfl⟩ := h'
        have := parse.mpr h
        rw [hp] at this
        cases this
        rfl
      · intro h
        cases h
        exact parse.mp hp
    | none =>
      dsimp only
      constructor
      · intro h
        have h' : ∃ u, v = some u := by cases h <;> exact ⟨_, rfl⟩
        obtain ⟨u, rfl⟩ := h'
        have := parse.mpr h
        rw [hp] at this
        cases this
      · intro h
        cases h

/-! ### The commands -/

theorem toWrite_saves {h : Host} {fs : FS} {c : Command} {p : Path} {bs : List UInt8} (hc : WritesAll c) (hw : ToWrite h fs c p bs) :
    Saves h.os fs p bs (run h fs c) := by
  cases hw with
  | assemble h1 =>
    simp only [run, h1, andThen]
    exact save_saves _ _ _ _
  | disassemble h1 h2 h3 h4 =>
    simp only [run, openFile, h1, andThen, fileType_iff.mp h2, h3]
    exact saveLines_saves _ _ _ h4
  | image => exact hc.elim
  | vmi h1 h2 h3 =>
    rw [vmiName_iff] at h3
    subst h3
    simp only [run, openFile, h1, Res.ok_bind, h2, andThen]
    exact save_saves _ _ _ _

theorem toWrite_once {h : Host} {fs : FS} {c : Command} {p : Path} {bs : List UInt8} (hc : ¬ WritesAll c) (hw : ToWrite h fs c p bs) :
    run h fs c = saveOnce h.os fs p bs := by
  cases hw with
  | image h1 h2 => simp only [run, h1, Res.ok_bind, imageText_iff.mp h2, unwrap, andThen]
  | _ => exact absurd trivial hc

theorem toIcon_cons {order load path speed eyecatch ss} (h : toIcon order load path speed eyecatch = .ok ss) :
    ∃ s ss', ss = s :: ss' := by
  unfold toIcon at h
  obtain ⟨img, _, h2⟩ := Res.bind_eq_ok.mp h
  dsimp only at h2
  split at h2
  · cases h2
  · split at h2
    · cases h2
    · obtain ⟨e, _, h3⟩ := Res.bind_eq_ok.mp h2
      obtain ⟨pixels, hp, h4⟩ := Res.bind_eq_ok.mp h3
      obtain ⟨rest, hr, h5⟩ := Res.bind_eq_ok.mp h4
      cases h5
      exact ⟨_, _, by rw [Image.toFrameCountAndSpeed]; rfl⟩

theorem print_comment (t : Text) : ∃ u, Stmt.print (.comment t) = .ok u := by
  unfold Stmt.print
  dsimp only
  split
  · exact ⟨_, rfl⟩
  · split <;> exact ⟨_, rfl⟩

theorem iconText_iff {args : List Text} {stmts : List Stmt} (hs : stmts ≠ []) {t : Text} : iconText args stmts = .ok t ↔
    ∃ text, printStatements (.comment "NOTE: This file was generated by the waterbear assembler:".toList ::
        .comment (joinWith " ".toList args) :: stmts) = .ok text ∧ t = text ++ "\n".toList := by
  obtain ⟨u, hu⟩ := print_comment "NOTE: This file was generated by the waterbear assembler:".toList
  obtain ⟨v, hv⟩ := print_comment (joinWith " ".toList args)
  simp only [iconText, printStatements, printEach, hu, hv, Res.ok_bind]
  cases stmts with
  | nil => exact absurd rfl hs
  | cons s ss =>
    rw [printEach]
    cases h1 : s.print with
    | ok x =>
      cases h2 : printEach ss with
      | ok xs =>
        simp only [Res.ok_bind, joinWith, Res.ok.injEq]
        constructor
        · rintro rfl
          exact ⟨_, rfl, by simp [List.append_assoc]⟩
        · rintro ⟨_, rfl, rfl⟩
          simp [List.append_assoc]
      | _ => exact ⟨nofun, fun ⟨_, h, _⟩ => by cases h⟩
    | _ => exact ⟨nofun, fun ⟨_, h, _⟩ => by cases h⟩

theorem toPrint_run {h : Host} {fs : FS} {c : Command} {t : Text} (hp : ToPrint h fs c t) : run h fs c = ⟨[], t, .code 0⟩ := by
  cases hp with
  | expand h1 => simp only [run, h1, andThen]
  | icon h1 h2 h3 =>
    obtain ⟨s, ss, rfl⟩ := toIcon_cons h2
    simp only [run, speedArg_iff.mp h1, Res.ok_bind, h2, (iconText_iff (by simp)).mpr ⟨_, h3, rfl⟩, andThen]
  | image h1 h2 => simp only [run, h1, Res.ok_bind, imageText_iff.mp h2, unwrap, andThen]

/-- A run that changes nothing and fails. -/
def Fails (o : RunResult) : Prop := o.disks = [] ∧ o.out = [] ∧ o.exit ∈ [.code 1, .panic, .endless]

theorem andThen_fails {α : Type} {r : Res α} {k : α → RunResult} (h : ∀ a, r = .ok a → Fails (k a)) : Fails (andThen r k) := by
  cases r with
  | ok a => exact h a rfl
  | _ => exact ⟨rfl, rfl, by simp [andThen]⟩

theorem openFile_ok {fs : FS} {p : Path} {bs : List UInt8} (h : openFile fs p = .ok bs) : fs.read p = some bs := by
  unfold openFile at h
  split at h
  next hr => cases h; exact hr
  next => cases h

theorem unwrap_ok {α : Type} {r : Res α} {a : α} (h : unwrap r = .ok a) : r = .ok a := by
  cases r with
  | err => cases h
  | _ => exact h

theorem run_fails {h : Host} {fs : FS} {c : Command} (hw : ∀ p bs, ¬ ToWrite h fs c p bs) (hp : ∀ t, ¬ ToPrint h fs c t) :
    Fails (run h fs c) := by
  cases c with
  | assemble =>
    rw [run]
    exact andThen_fails fun a h1 => absurd (.assemble h1) (hw _ _)
  | expand =>
    rw [run]
    exact andThen_fails fun a h1 => absurd (.expand h1) (hp _)
  | disassemble =>
    rw [run]
    refine andThen_fails fun a h1 => ?_
    split
    next => exact ⟨rfl, rfl, by simp⟩
    next entries h3 =>
      refine andThen_fails fun ds h4 => ?_
      obtain ⟨text, h6⟩ := disassemble_prints _ h4
      exact absurd (.disassemble (openFile_ok h1) (fileType_iff.mpr h3) h4 h6) (hw _ _)
  | icon =>
    rw [run]
    refine andThen_fails fun a h1 => ?_
    obtain ⟨v, h3, h1⟩ := Res.bind_eq_ok.mp h1
    obtain ⟨stmts, h4, h1⟩ := Res.bind_eq_ok.mp h1
    obtain ⟨s, ss, rfl⟩ := toIcon_cons h4
    obtain ⟨text, h5, -⟩ := (iconText_iff (by simp)).mp h1
    exact absurd (.icon (speedArg_iff.mpr h3) h4 h5) (hp _)
  | image input format output =>
    rw [run]
    refine andThen_fails fun a h1 => ?_
    obtain ⟨i, h3, h4⟩ := Res.bind_eq_ok.mp (unwrap_ok h1)
    cases output with
    | none => exact absurd (.image h3 (imageText_iff.mpr h4)) (hp _)
    | some o => exact absurd (.image h3 (imageText_iff.mpr h4)) (hw _ _)
  | vmi input output copyright game =>
    rw [run]
    refine andThen_fails fun a h1 => ?_
    obtain ⟨vms, h3, h4⟩ := Res.bind_eq_ok.mp h1
    exact absurd (.vmi (openFile_ok h3) h4 (vmiName_iff.mpr rfl)) (hw _ _)

end Verif
