import Verif.Lemmas.LoadImage
/-
Properties of loading images: C75.
-/
namespace Verif.Props
open Verif.Spec

theorem gif_extension {path : Text} : (Path.parse path).extension = some "gif".toList ↔ HasExtension path "gif".toList :=
  extension_iff (by decide) (by decide)

theorem png_extension {path : Text} : (Path.parse path).extension = some "png".toList ↔ HasExtension path "png".toList :=
  extension_iff (by decide) (by decide)

/-- **C75**: an image is loaded exactly if the decoder for its kind of file reads it, and it then has the frames of the
file in order, each with its delay, its size and each pixel at its place. -/
theorem C75_loads (d : Decoders) (fs : FS) (cwd : Path) (path : Text) (i : Image) :
    loadImage d fs cwd path = .ok i ↔ ∃ pictures, Decodes d fs cwd path pictures ∧ EachLine Shows pictures i.frames := by
  obtain ⟨frames⟩ := i
  simp only [shows_all]
  have himg : ∀ {l : List Frame}, Res.ok (Image.mk l) = .ok ⟨frames⟩ ↔ frames = l := by
    intro l
    constructor
    · intro h; injection h with h; injection h with h; exact h.symm
    · rintro rfl; rfl
  have hstill : ∀ r : Raster, Res.ok (toImage r) = .ok ⟨frames⟩ ↔ frames = [toFrame (0, 0) r] := fun r => himg
  unfold loadImage Decodes
  dsimp only
  by_cases hp : HasExtension path "png".toList
  · have hg : ¬ HasExtension path "gif".toList := by
      rw [← gif_extension, png_extension.mpr hp]; decide
    rw [if_pos (png_extension.mpr hp)]
    simp only [hp, hg, true_and, false_and, false_or, not_true_eq_false, or_false, not_false_eq_true]
    unfold loadPng
    cases fs.read (cwd.join (Path.parse path)) with
    | none => simp
    | some bytes =>
      simp only [Option.some.injEq, exists_eq_left']
      cases e : d.png bytes with
      | none => simp
      | some f =>
        cases f with
        | animated o =>
          cases o with
          | none => simp
          | some fs => simp [himg]
        | still o =>
          cases o with
          | none => simp [Still]
          | some r => simp [hstill, Still]
  · rw [if_neg (fun h => hp (png_extension.mp h))]
    by_cases hg : HasExtension path "gif".toList
    · rw [if_pos (gif_extension.mpr hg)]
      simp only [hp, hg, true_and, false_and, false_or, not_true_eq_false, or_false]
      unfold loadGif
      cases fs.read (cwd.join (Path.parse path)) with
      | none => simp
      | some bytes =>
        simp only [Option.some.injEq, exists_eq_left']
        cases e : d.gif bytes with
        | none => simp
        | some fs => simp [himg]
    · rw [if_neg (fun h => hg (gif_extension.mp h))]
      simp only [hp, hg, false_and, false_or, not_false_eq_true, true_and]
      cases e : d.other path with
      | none => simp [Still]
      | some r => simp [hstill, Still]

/-- **C75**: a file that is not loaded gives an error: that it cannot be read, or that it is not an image of its kind. -/
theorem C75_fails (d : Decoders) (fs : FS) (cwd : Path) (path : Text) (h : ¬ ∃ pictures, Decodes d fs cwd path pictures) :
    ((HasExtension path "gif".toList ∨ HasExtension path "png".toList) ∧ fs.read (cwd.join (Path.parse path)) = none ∧
      loadImage d fs cwd path = .err (.fileLoadFailure path)) ∨
    (¬ ((HasExtension path "gif".toList ∨ HasExtension path "png".toList) ∧ fs.read (cwd.join (Path.parse path)) = none) ∧
      loadImage d fs cwd path = .err (.imageParseError path)) := by
  have hno : ∀ i, loadImage d fs cwd path ≠ .ok i := by
    intro i hi
    obtain ⟨ps, h1, _⟩ := (C75_loads d fs cwd path i).mp hi
    exact h ⟨ps, h1⟩
  revert hno
  unfold loadImage
  dsimp only
  by_cases hp : HasExtension path "png".toList
  · rw [if_pos (png_extension.mpr hp)]
    intro hno
    unfold loadPng at hno ⊢
    cases e : fs.read (cwd.join (Path.parse path)) with
    | none => exact .inl ⟨.inr hp, rfl, rfl⟩
    | some bytes =>
      rw [e] at hno
      refine .inr ⟨nofun, ?_⟩
      dsimp only at hno ⊢
      split
      · rfl
      · rfl
      · rfl
      next h1 => rw [h1] at hno; exact absurd rfl (hno _)
      next h1 => rw [h1] at hno; exact absurd rfl (hno _)
  · rw [if_neg (fun h => hp (png_extension.mp h))]
    by_cases hg : HasExtension path "gif".toList
    · rw [if_pos (gif_extension.mpr hg)]
      intro hno
      unfold loadGif at hno ⊢
      cases e : fs.read (cwd.join (Path.parse path)) with
      | none => exact .inl ⟨.inl hg, rfl, rfl⟩
      | some bytes =>
        rw [e] at hno
        refine .inr ⟨nofun, ?_⟩
        dsimp only at hno ⊢
        split
        · rfl
        next h1 => rw [h1] at hno; exact absurd rfl (hno _)
    · rw [if_neg (fun h => hg (gif_extension.mp h))]
      intro hno
      refine .inr ⟨fun h => h.1.elim hg hp, ?_⟩
      split
      · rfl
      next h1 => rw [h1] at hno; exact absurd rfl (hno _)

/-- Loaded images meet the hypothesis of C67, if the decoders always find a frame. -/
theorem C75_frames (d : Decoders) (fs : FS) (cwd : Path) (hg : ∀ bytes, d.gif bytes ≠ some [])
    (hp : ∀ bytes, d.png bytes ≠ some (.animated (some []))) : LoadsFrames (loadImage d fs cwd) := by
  intro path
  by_cases h : ∃ pictures, Decodes d fs cwd path pictures
  · obtain ⟨ps, h⟩ := h
    have hok := (C75_loads d fs cwd path ⟨ps.map fun p => toFrame p.1 p.2⟩).mpr ⟨ps, h, (shows_all _ _).mpr rfl⟩
    rw [hok]
    refine ⟨nofun, nofun, fun i hi => ?_⟩
    injection hi with hi
    subst hi
    have : ps ≠ [] := by
      rintro rfl
      rcases h with ⟨_, bytes, _, h⟩ | ⟨_, bytes, _, h | ⟨r, _, r', _, h⟩⟩ | ⟨_, _, r, _, h⟩
      · exact hg bytes h
      · exact hp bytes h
      · cases h
      · cases h
    simpa using this
  · rcases C75_fails d fs cwd path h with ⟨_, _, h⟩ | ⟨_, h⟩ <;> rw [h] <;> exact ⟨nofun, nofun, nofun⟩

/-- A picture of two pixels, in a file that a decoder reads as such -/
def twoPixels : Raster := ⟨2, 1, fun x _ => if x = 0 then ⟨255, 0, 0, 255⟩ else ⟨0, 0, 255, 255⟩⟩

/-- An animation of two frames in a GIF file, and the same path with another extension. -/
example (fs : FS) (cwd : Path) (h : fs.read (cwd.join (Path.parse "img/a.gif".toList)) = some []) :
    let d : Decoders := ⟨fun _ => some [((100, 1), twoPixels), ((0, 0), twoPixels)], fun _ => none, fun _ => none⟩
    loadImage d fs cwd "img/a.gif".toList = .ok ⟨[⟨(100, 1), [[⟨255, 0, 0, 255⟩, ⟨0, 0, 255, 255⟩]]⟩,
      ⟨(0, 0), [[⟨255, 0, 0, 255⟩, ⟨0, 0, 255, 255⟩]]⟩]⟩ ∧
    loadImage d fs cwd "img.gif/a".toList = .err (.imageParseError "img.gif/a".toList) ∧ loadImage d fs cwd ".gif".toList = .err (.imageParseError ".gif".toList) := by
  refine ⟨?_, by rfl, by rfl⟩
  have he : (Path.parse "img/a.gif".toList).extension = some "gif".toList := by decide
  unfold loadImage
  dsimp only
  rw [he, if_neg (by decide), if_pos rfl]
  unfold loadGif
  rw [h]
  rfl

end Verif.Props
