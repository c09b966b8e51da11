import Verif.Spec.Files
import Verif.Lemmas.StringText
/-
Lemmas about loading source files.
-/
namespace Verif
open Spec

theorem loadFile_ok {fs : FS} {p : Path} {t : Text} : loadFile fs p = .ok t ↔ fs.read p = some (utf8 t) := by
  unfold loadFile loadBytes
  cases h : fs.read p with
  | none => constructor <;> intro h <;> cases h
  | some bs =>
    simp only [Res.ok_bind]
    cases hd : decodeUtf8 bs with
    | none =>
      constructor
      · intro h; cases h
      · intro h
        injection h with h
        rw [decodeUtf8_iff.mpr h.symm] at hd
        cases hd
    | some t' =>
      have ht := decodeUtf8_iff.mp hd
      constructor
      · intro h
        injection h with h
        rw [← h, ht]
      · intro h
        injection h with h
        rw [decodeUtf8_iff.mpr h.symm] at hd
        injection hd with hd
        rw [hd]

theorem path_iff {fs : FS} {sf : SourceFiles} {root filename p} :
    SourceFiles.path fs sf root filename = .ok p ↔ Resolves fs sf.workingDir root filename p := by
  unfold SourceFiles.path
  cases root with
  | none =>
    constructor
    · intro h; injection h with h; subst h; exact .main
    · intro h; cases h; rfl
  | some root =>
    dsimp only
    by_cases ha : filename.abs = true
    · rw [if_pos ha, Res.ok_bind]
      have e : (if fs.isFile filename || !fs.isFile filename then Res.ok filename else .ok filename) = .ok filename := by
        split <;> rfl
      rw [e]
      constructor
      · intro h; injection h with h; subst h; exact .absolute ha
      · intro h
        cases h with
        | absolute h => rfl
        | inDir h => rw [ha] at h; cases h
        | beside h => rw [ha] at h; cases h
        | fallbackDir h => rfl
        | fallback h => rfl
    · rw [if_neg ha]
      have ha : filename.abs = false := by simpa using ha
      by_cases hd : fs.isDir root = true
      · rw [if_pos hd, Res.ok_bind]
        constructor
        · intro h
          split at h
          · rename_i hc
            injection h with h; subst h
            simp only [Bool.or_eq_true, Bool.not_eq_eq_eq_not, Bool.not_true] at hc
            exact .inDir ha hd hc
          · rename_i hc
            injection h with h; subst h
            simp only [Bool.or_eq_true, Bool.not_eq_eq_eq_not, Bool.not_true, not_or, Bool.not_eq_true, Bool.not_eq_false] at hc
            exact .fallbackDir ha hd hc.1 hc.2
        · intro h
          cases h with
          | absolute h => rw [ha] at h; cases h
          | inDir _ _ h => rw [if_pos (by simpa using h)]
          | beside _ h => rw [hd] at h; cases h
          | fallbackDir _ _ h1 h2 => rw [if_neg (by simp [h1, h2])]
          | fallback _ h => rw [hd] at h; cases h
      · rw [if_neg hd]
        have hd : fs.isDir root = false := by simpa using hd
        cases hp : root.parent with
        | none =>
          constructor
          · intro h; cases h
          · intro h
            cases h with
            | absolute h => rw [ha] at h; cases h
            | inDir _ h => rw [hd] at h; cases h
            | beside _ _ h => rw [hp] at h; cases h
            | fallbackDir _ h => rw [hd] at h; cases h
            | fallback _ _ h => rw [hp] at h; cases h
        | some dir =>
          simp only [Res.ok_bind]
          constructor
          · intro h
            split at h
            · rename_i hc
              injection h with h; subst h
              simp only [Bool.or_eq_true, Bool.not_eq_eq_eq_not, Bool.not_true] at hc
              exact .beside ha hd hp hc
            · rename_i hc
              injection h with h; subst h
              simp only [Bool.or_eq_true, Bool.not_eq_eq_eq_not, Bool.not_true, not_or, Bool.not_eq_true, Bool.not_eq_false] at hc
              exact .fallback ha hd hp hc.1 hc.2
          · intro h
            cases h with
            | absolute h => rw [ha] at h; cases h
            | inDir _ h => rw [hd] at h; cases h
            | beside _ _ h1 h => rw [hp] at h1; cases h1; rw [if_pos (by simpa using h)]
            | fallbackDir _ h => rw [hd] at h; cases h
            | fallback _ _ h0 h1 h2 => rw [hp] at h0; cases h0; rw [if_neg (by simp [h1, h2])]

/-- The loaded files: numbered in order, under different names. -/
structure FilesOk (sf : SourceFiles) : Prop where
  ids : ∀ (k : Nat) f, sf.files[k]? = some f → f.id = k
  names : ∀ (j k : Nat) f g, sf.files[j]? = some f → sf.files[k]? = some g → f.name = g.name → j = k

theorem getId_iff {sf : SourceFiles} (h : FilesOk sf) {p : Path} {k : Nat} :
    sf.getId p = some k ↔ ∃ f, sf.files[k]? = some f ∧ f.name = p := by
  unfold SourceFiles.getId
  rw [List.findIdx?_eq_some_iff_getElem]
  constructor
  · rintro ⟨hk, h1, -⟩
    exact ⟨_, List.getElem?_eq_getElem hk, by simpa using h1⟩
  · rintro ⟨f, h1, h2⟩
    have hk : k < sf.files.length := by
      rcases Nat.lt_or_ge k sf.files.length with h | h
      · exact h
      · rw [List.getElem?_eq_none h] at h1; cases h1
    have hf : sf.files[k] = f := by rw [List.getElem?_eq_getElem hk] at h1; injection h1
    refine ⟨hk, by simp [hf, h2], ?_⟩
    intro j hj
    simp only [Bool.not_eq_true, decide_eq_false_iff_not]
    intro hn
    have := h.names j k _ _ (List.getElem?_eq_getElem (by omega)) h1 (by rw [hn, h2])
    omega

theorem getId_none {sf : SourceFiles} {p : Path} : sf.getId p = none ↔ ∀ f ∈ sf.files, f.name ≠ p := by
  unfold SourceFiles.getId
  rw [List.findIdx?_eq_none_iff]
  simp

theorem load_iff {fs : FS} {sf : SourceFiles} (h : FilesOk sf) {root filename file sf'} :
    SourceFiles.load fs sf root filename = .ok (file, sf') ↔ ∃ p, Resolves fs sf.workingDir root filename p ∧
      ((file ∈ sf.files ∧ file.name = p ∧ sf' = sf) ∨
       ((∀ f ∈ sf.files, f.name ≠ p) ∧ fs.read p = some (utf8 file.contents) ∧ file.name = p ∧
        file.id = sf.files.length ∧ sf' = ⟨sf.workingDir, sf.files ++ [file]⟩)) := by
  unfold SourceFiles.load
  constructor
  · intro hl
    obtain ⟨p, hp, hl⟩ := Res.bind_eq_ok.mp hl
    refine ⟨p, path_iff.mp hp, ?_⟩
    cases hg : sf.getId p with
    | some k =>
      rw [hg] at hl
      obtain ⟨f, h1, h2⟩ := (getId_iff h).mp hg
      simp only [h1] at hl
      cases hl
      exact .inl ⟨List.mem_of_getElem? h1, h2, rfl⟩
    | none =>
      rw [hg] at hl
      dsimp only at hl
      obtain ⟨t, ht, hl⟩ := Res.bind_eq_ok.mp hl
      cases hl
      exact .inr ⟨getId_none.mp hg, loadFile_ok.mp ht, rfl, rfl, rfl⟩
  · rintro ⟨p, hp, hl⟩
    rw [path_iff.mpr hp, Res.ok_bind]
    rcases hl with ⟨h1, h2, rfl⟩ | ⟨h1, h2, h3, h4, rfl⟩
    · obtain ⟨k, h1⟩ := List.mem_iff_getElem?.mp h1
      rw [(getId_iff h).mpr ⟨file, h1, h2⟩]
      simp only [h1]
    · rw [getId_none.mpr h1]
      dsimp only
      rw [loadFile_ok.mpr h2, Res.ok_bind]
      obtain ⟨i, n, c⟩ := file
      dsimp only at h3 h4
      subst h3 h4
      rfl

theorem FilesOk.load {fs : FS} {sf : SourceFiles} (h : FilesOk sf) {root filename file sf'}
    (hl : SourceFiles.load fs sf root filename = .ok (file, sf')) : FilesOk sf' ∧ sf'.workingDir = sf.workingDir ∧
      file ∈ sf'.files ∧ ∃ more, sf'.files = sf.files ++ more := by
  obtain ⟨p, -, ⟨h1, -, rfl⟩ | ⟨h1, -, h3, h4, rfl⟩⟩ := (load_iff h).mp hl
  · exact ⟨h, rfl, h1, [], by simp⟩
  · refine ⟨⟨?_, ?_⟩, rfl, by simp, _, rfl⟩
    · intro k f hk
      dsimp only at hk
      rcases Nat.lt_trichotomy k sf.files.length with hlt | heq | hgt
      · rw [List.getElem?_append_left hlt] at hk; exact h.ids k f hk
      · subst heq
        simp at hk
        subst hk
        exact h4
      · rw [List.getElem?_eq_none (by simp; omega)] at hk; cases hk
    · have key : ∀ (k : Nat) f, (sf.files ++ [file])[k]? = some f →
          (k < sf.files.length ∧ sf.files[k]? = some f) ∨ (k = sf.files.length ∧ f = file) := by
        intro k f hk
        rcases Nat.lt_trichotomy k sf.files.length with hlt | heq | hgt
        · rw [List.getElem?_append_left hlt] at hk; exact .inl ⟨hlt, hk⟩
        · subst heq
          simp at hk
          exact .inr ⟨rfl, hk.symm⟩
        · rw [List.getElem?_eq_none (by simp; omega)] at hk; cases hk
      intro j k f g hj hk hn
      dsimp only at hj hk
      rcases key j f hj with ⟨_, a⟩ | ⟨a1, a2⟩ <;> rcases key k g hk with ⟨_, b⟩ | ⟨b1, b2⟩
      · exact h.names j k f g a b hn
      · subst b2; exact absurd (hn.trans h3) (h1 f (List.mem_of_getElem? a))
      · subst a2; exact absurd (hn.symm.trans h3) (h1 g (List.mem_of_getElem? b))
      · omega

theorem Spec.History.files {dir es sf} (h : History dir es sf) : FilesOk sf ∧ sf.workingDir = dir ∧
    (∀ e ∈ es, e.file ∈ sf.files ∧ Resolves e.fs dir e.root e.filename e.file.name) ∧
    (∀ f ∈ sf.files, ∃ a e b, es = a ++ e :: b ∧ e.file = f ∧ (∀ e' ∈ a, e'.file.name ≠ f.name) ∧
      e.fs.read f.name = some (utf8 f.contents)) := by
  induction h with
  | start =>
    refine ⟨⟨?_, ?_⟩, rfl, by simp, ?_⟩
    · intro k f h; simp [SourceFiles.new] at h
    · intro j k f g h; simp [SourceFiles.new] at h
    · intro f h; simp [SourceFiles.new] at h
  | failed _ _ ih => exact ih
  | @ok es sf fs root filename file sf' _ hl ih =>
    obtain ⟨h1, h2, h3, h4⟩ := ih
    obtain ⟨g1, g2, g3, more, g4⟩ := h1.load hl
    obtain ⟨p, hp, hcase⟩ := (load_iff h1).mp hl
    refine ⟨g1, g2.trans h2, ?_, ?_⟩
    · intro e he
      rcases List.mem_append.mp he with he | he
      · exact ⟨by rw [g4]; exact List.mem_append.mpr (.inl (h3 e he).1), (h3 e he).2⟩
      · rw [List.mem_singleton] at he
        subst he
        refine ⟨g3, ?_⟩
        dsimp only
        rw [h2] at hp
        rcases hcase with ⟨-, e, -⟩ | ⟨-, -, e, -, -⟩ <;> (rw [e]; exact hp)
    · intro f hf
      have old : f ∈ sf.files → ∃ a e b, es ++ [⟨fs, root, filename, file⟩] = a ++ e :: b ∧ e.file = f ∧
          (∀ e' ∈ a, e'.file.name ≠ f.name) ∧ e.fs.read f.name = some (utf8 f.contents) := by
        intro hf
        obtain ⟨a, e, b, e1, e2, e3, e4⟩ := h4 f hf
        exact ⟨a, e, b ++ [⟨fs, root, filename, file⟩], by rw [e1]; simp, e2, e3, e4⟩
      rcases hcase with ⟨-, -, rfl⟩ | ⟨c1, c2, c3, c4, rfl⟩
      · exact old hf
      · rcases List.mem_append.mp hf with hf | hf
        · exact old hf
        · rw [List.mem_singleton] at hf
          subst hf
          refine ⟨es, _, [], rfl, rfl, ?_, by rw [c3]; exact c2⟩
          intro e' he' hn
          exact c1 _ (h3 e' he').1 (hn.trans c3)

end Verif
