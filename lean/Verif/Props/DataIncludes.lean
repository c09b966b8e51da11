import Verif.Lemmas.DataIncludes
import Verif.Props.Images
import Verif.Props.Sources
/-
C79: includes of data.
-/
namespace Verif.Props
open Spec

section
variable {m : Mode} {seg : Seg} {order : List Color → List Color} {load : Text → Res Image} {fs : FS} {dir : Path} {name : Text}
  {fuel : Nat}

/-- **C79**: every include of bytes, of an icon or of a sprite becomes lines with the bytes it stands for, and the other
statements stay.  The speed of an icon is a constant expression; paths start at the main file. -/
theorem C79_data : ∃ dark : Color → Bool, (∀ c, luma c < 12750 → dark c = true) ∧ (∀ c, 12750 < luma c → dark c = false) ∧
    ∀ {m : Mode} {seg : Seg} {order : List Color → List Color} (_ : ∀ l, (order l).Perm l) {load : Text → Res Image}
      (_ : LoadsFrames load) (_ : EvenFrames load) {fs : FS} {dir : Path} (_ : dir.abs = true) {name : Text} {fuel : Nat} {p : Program},
      readStatements m seg order load fs fuel (SourceFiles.new dir) name = .ok p →
        ∃ q sf, readProgram seg fs fuel (SourceFiles.new dir) name = .ok (q, dir.join (Path.parse name), sf) ∧
          p.macros = q.macros ∧ AfterIncludes m fs dir load dark (dir.join (Path.parse name)) q.stmts p.stmts := by
  refine ⟨darkBit, fun c h => decide_eq_true ((gray_dark c).1 h), fun c h => decide_eq_false ((gray_dark c).2 h), ?_⟩
  intro m seg order ho load hl hv fs dir hd name fuel p h
  unfold readStatements at h
  obtain ⟨⟨q, path, sf⟩, hr, h⟩ := Res.bind_eq_ok.mp h
  obtain ⟨ss, h1, h⟩ := Res.bind_eq_ok.mp h
  cases h
  obtain ⟨rfl, hw⟩ := readProgram_dir hd hr
  subst hw
  exact ⟨q, sf, hr, rfl, replaceData_ok ho hl hv (readProgram_icon hr) h1⟩

/-- **C79**: a program is read exactly if it can be parsed and all its includes of data stand for bytes. -/
theorem C79_accepted (ho : ∀ l, (order l).Perm l) (hl : LoadsFrames load) (hv : EvenFrames load) (hd : dir.abs = true) :
    (∃ p, readStatements m seg order load fs fuel (SourceFiles.new dir) name = .ok p) ↔
      ∃ q sf, readProgram seg fs fuel (SourceFiles.new dir) name = .ok (q, dir.join (Path.parse name), sf) ∧
        ∀ t n, .dir (.incl t n) ∈ q.stmts → ∃ dark bs, IncludedData m fs dir load dark (dir.join (Path.parse name)) t n bs := by
  constructor
  · rintro ⟨p, h⟩
    obtain ⟨dark, -, -, hc⟩ := C79_data
    obtain ⟨q, sf, h1, -, h2⟩ := hc ho hl hv hd h
    exact ⟨q, sf, h1, fun t n ht => ⟨dark, afterIncludes_all h2 t n ht⟩⟩
  · rintro ⟨q, sf, hr, h⟩
    obtain ⟨-, hw⟩ := readProgram_dir hd hr
    subst hw
    obtain ⟨out, ho⟩ := replaceData_complete ho hl hv (readProgram_icon hr) h
    exact ⟨{ q with stmts := out }, by rw [readStatements, hr, Res.ok_bind]; simp only; rw [ho, Res.ok_bind]⟩

/-- **C79**: otherwise the first include that stands for no bytes is at fault, and the first reason is reported. -/
theorem C79_first (ho : ∀ l, (order l).Perm l) (hl : LoadsFrames load) (hv : EvenFrames load) (hd : dir.abs = true) {x : Err} :
    readStatements m seg order load fs fuel (SourceFiles.new dir) name = .err x ↔
      readProgram seg fs fuel (SourceFiles.new dir) name = .err x ∨
      ∃ q sf before t n after, readProgram seg fs fuel (SourceFiles.new dir) name = .ok (q, dir.join (Path.parse name), sf) ∧
        q.stmts = before ++ .dir (.incl t n) :: after ∧
        (∀ t n, .dir (.incl t n) ∈ before → ∃ dark bs, IncludedData m fs dir load dark (dir.join (Path.parse name)) t n bs) ∧
        DataFault m fs dir load (dir.join (Path.parse name)) t n x := by
  unfold readStatements
  rw [Res.bind_eq_err]
  constructor
  · rintro (h | ⟨⟨q, path, sf⟩, hr, h⟩)
    · exact .inl h
    · obtain ⟨rfl, hw⟩ := readProgram_dir hd hr
      subst hw
      rcases Res.bind_eq_err.mp h with h | ⟨_, _, h⟩
      · obtain ⟨before, t, n, after, h1, h2, h3⟩ := (replaceData_err ho hl hv (readProgram_icon hr)).mp h
        exact .inr ⟨q, sf, before, t, n, after, hr, h1, h2, h3⟩
      · cases h
  · rintro (h | ⟨q, sf, before, t, n, after, hr, h1, h2, h3⟩)
    · exact .inl h
    · obtain ⟨-, hw⟩ := readProgram_dir hd hr
      subst hw
      exact .inr ⟨_, hr, Res.bind_eq_err.mpr (.inl ((replaceData_err ho hl hv (readProgram_icon hr)).mpr ⟨before, t, n, after, h1, h2, h3⟩))⟩

end

/-! Examples. -/

/-- A disk with three images: an icon, an eyecatch and a sprite that is too wide for a header. -/
def pictures (path : Text) : Res Image :=
  if path = "/w/i.png".toList then .ok (diagonal 32 32)
  else if path = "/w/e.png".toList then .ok (diagonal 72 56)
  else if path = "/w/s.png".toList then .ok ⟨[⟨(0, 0), [List.replicate 256 ⟨0, 0, 0, 255⟩]⟩]⟩
  else .err (.fileLoadFailure path)

theorem pictures_frames : LoadsFrames pictures ∧ EvenFrames pictures := by
  have key : ∀ path, (∃ f, pictures path = .ok ⟨[f]⟩) ∨ pictures path = .err (.fileLoadFailure path) := by
    intro path
    unfold pictures diagonal
    split
    · exact .inl ⟨_, rfl⟩
    · split
      · exact .inl ⟨_, rfl⟩
      · split
        · exact .inl ⟨_, rfl⟩
        · exact .inr rfl
  constructor
  · intro path
    rcases key path with ⟨f, e⟩ | e <;> rw [e]
    · exact ⟨nofun, nofun, fun i h => by cases h; nofun⟩
    · exact ⟨nofun, nofun, nofun⟩
  · intro path i h
    rcases key path with ⟨f, e⟩ | e <;> rw [e] at h <;> cases h
    refine ⟨by simp, fun a ha b hb => ?_⟩
    rw [List.mem_singleton] at ha hb
    subst ha hb
    exact ⟨rfl, rfl⟩

/-- The program of the examples. -/
def picture (line : String) : FS := folder [("main.s", line)]

/-- The speed is the low 16 bits of its value. -/
example : IconSpeed .checked (some (.plus (.number 65536 .decimal) (.number 7 .decimal))) 7 :=
  .given (v := 65543) (.plus .number .number ⟨by decide, by decide, by decide⟩) (by decide)

example : readProgram plainSeg (picture ".include icon \"i.png\" speed=65536+7, eyecatch=\"e.png\"\n") 2 (SourceFiles.new work) "main.s".toList =
    .ok (⟨[], [.dir (.incl (.icon (some (.plus (.number 65536 .decimal) (.number 7 .decimal))) (some (.str (utf8 "e.png".toList))))
      "/w/i.png".toList)]⟩, inWork "main.s", ⟨work, [⟨0, inWork "main.s",
        ".include icon \"i.png\" speed=65536+7, eyecatch=\"e.png\"\n".toList⟩]⟩) := by decide +kernel

/-- This icon stands for bytes. -/
example (fs : FS) : ∃ bs, IncludedData .checked fs work pictures darkBit (inWork "main.s")
    (.icon (some (.plus (.number 65536 .decimal) (.number 7 .decimal))) (some (.str (utf8 "/w/e.png".toList)))) "/w/i.png".toList bs := by
  have h1 : pictures "/w/i.png".toList = .ok (diagonal 32 32) := by unfold pictures; rw [if_pos rfl]
  have h2 : ∀ f ∈ (diagonal 32 32).frames, HasSize 32 32 f := by unfold HasSize; decide +kernel
  have h3 : ColoursAtMost 16 (pixels (diagonal 32 32)) := ⟨[0xFF00, 0xF00C], by decide, by decide +kernel⟩
  have h4 : EyecatchFrame pictures (some "/w/e.png".toList) (some ((diagonal 72 56).frames.head (by decide +kernel))) :=
    .some (i := diagonal 72 56) (rest := []) (by unfold pictures; rw [if_neg (by decide +kernel), if_pos rfl]) rfl
  have h5 : ∀ f, some ((diagonal 72 56).frames.head (by decide +kernel)) = some f → HasSize 72 56 f := by
    intro f hf
    cases hf
    unfold HasSize
    decide +kernel
  obtain ⟨_, bs, -, -, h6⟩ := icon_ok (order := id) (fun l => .rfl) h1 (by decide +kernel) (speed := some 7) (by decide) h2 h3 h4 h5
  exact ⟨bs, .icon (.given (v := 65543) (.plus .number .number ⟨by decide, by decide, by decide⟩) (by decide))
    (.some (t := "/w/e.png".toList) (.absolute (by decide +kernel))) (.absolute (by decide +kernel)) h1 h3 h2 h4 h5 h6⟩

/-- A sprite that is too wide for a header, and the same without header. -/
example : readStatements .checked plainSeg id pictures (picture ".include sprite \"s.png\" header=\"yes\"\n") 2
    (SourceFiles.new work) "main.s".toList = .err (.spriteTooWide 256 255) := by decide +kernel
example : (match readStatements .checked plainSeg id pictures (picture ".include sprite \"s.png\" header=\"no\"\n") 2
      (SourceFiles.new work) "main.s".toList with
      | .ok p => p.stmts.length
      | _ => 0) = 3 := by decide +kernel

end Verif.Props
