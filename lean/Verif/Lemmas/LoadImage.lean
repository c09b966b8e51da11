import Verif.Spec.LoadImage
import Verif.Spec.Sources
/-
Lemmas about loading images.
-/
namespace Verif
open Verif.Spec

theorem span_parts {p : Char → Bool} : ∀ (l : Text), l.takeWhile p ++ l.dropWhile p = l ∧ (∀ c ∈ l.takeWhile p, p c = true) ∧
    ∀ c s, l.dropWhile p = c :: s → p c = false := by
  intro l
  refine ⟨List.takeWhile_append_dropWhile, fun c hc => ?_, fun c s h => ?_⟩
  · exact List.all_eq_true.mp List.all_takeWhile c hc
  · have := List.head?_dropWhile_not p l
    rw [h] at this
    simpa using this

theorem splitLastDot_iff {t before after : Text} : splitLastDot t = some (before, after) ↔ t = before ++ '.' :: after ∧ '.' ∉ after := by
  have hp := span_parts (p := (· ≠ '.')) t.reverse
  unfold splitLastDot
  generalize t.reverse.takeWhile (fun c => decide (c ≠ '.')) = x at hp
  generalize t.reverse.dropWhile (fun c => decide (c ≠ '.')) = y at hp
  obtain ⟨h1, h2, h3⟩ := hp
  have hx : '.' ∉ x := fun h => by have := h2 '.' h; simp at this
  cases y with
  | nil =>
    dsimp only
    refine ⟨nofun, ?_⟩
    rintro ⟨rfl, _⟩
    refine absurd ?_ hx
    rw [show x = (before ++ '.' :: after).reverse by simpa using h1]
    simp
  | cons c y =>
    dsimp only
    have hc : c = '.' := by have := h3 c y rfl; simpa using this
    subst hc
    have ht : t = y.reverse ++ '.' :: x.reverse := by
      have := congrArg List.reverse h1
      simpa using this.symm
    constructor
    · intro h
      injection h with h
      injection h with e1 e2
      subst e1; subst e2
      exact ⟨ht, by simpa using hx⟩
    · rintro ⟨h4, h5⟩
      have key : ∀ (a b a' b' : Text), a ++ '.' :: b = a' ++ '.' :: b' → '.' ∉ a → '.' ∉ a' → a = a' ∧ b = b' := by
        intro a
        induction a with
        | nil =>
          intro b a' b' h _ ha'
          cases a' with
          | nil => injection h with _ h; exact ⟨rfl, h⟩
          | cons c a' => injection h with h _; subst h; exact absurd (List.mem_cons_self ..) ha'
        | cons c a ih =>
          intro b a' b' h ha ha'
          cases a' with
          | nil => injection h with h _; subst h; exact absurd (List.mem_cons_self ..) ha
          | cons c' a' =>
            injection h with e1 e2
            obtain ⟨e3, e4⟩ := ih b a' b' e2 (fun h => ha (List.mem_cons_of_mem _ h)) (fun h => ha' (List.mem_cons_of_mem _ h))
            exact ⟨by rw [e1, e3], e4⟩
      have := key x y after.reverse before.reverse (by rw [h1, h4]; simp) hx (by simpa using h5)
      rw [this.1, this.2]
      simp

theorem extension_iff {path ext : Text} (h : '.' ∉ ext) (hne : ext ≠ []) :
    (Path.parse path).extension = some ext ↔ HasExtension path ext := by
  unfold HasExtension Path.extension
  generalize (Path.parse path).comps = cs
  cases e : cs.getLast? with
  | none =>
    rw [List.getLast?_eq_none_iff] at e
    subst e
    refine ⟨nofun, ?_⟩
    rintro ⟨dirs, stem, h1, _⟩
    simp at h1
  | some name =>
    obtain ⟨dirs, rfl⟩ := List.getLast?_eq_some_iff.mp e
    have hdots : ∀ stem, name = stem ++ ".".toList ++ ext → stem ≠ [] → name ≠ "..".toList := by
      rintro stem rfl h1 h2
      have := congrArg List.length h2
      have h3 := List.length_pos_iff.mpr h1
      have h4 := List.length_pos_iff.mpr hne
      simp at this
      omega
    have hlast : ∀ dirs', dirs ++ [name] = dirs' ++ [name] → dirs = dirs' := fun _ h => List.append_cancel_right h
    have hname : (∃ dirs' stem, dirs ++ [name] = dirs' ++ [stem ++ ".".toList ++ ext] ∧ stem ≠ []) ↔
        ∃ stem, name = stem ++ ".".toList ++ ext ∧ stem ≠ [] := by
      constructor
      · rintro ⟨dirs', stem, h1, h2⟩
        have := congrArg List.getLast? h1
        rw [List.getLast?_concat, List.getLast?_concat] at this
        injection this with this
        exact ⟨stem, this, h2⟩
      · rintro ⟨stem, h1, h2⟩
        exact ⟨dirs, stem, by rw [h1], h2⟩
    rw [hname]
    dsimp only
    split
    next hd =>
      refine ⟨nofun, ?_⟩
      rintro ⟨stem, h1, h2⟩
      exact absurd hd (hdots stem h1 h2)
    next hd =>
      cases hs : splitLastDot name with
      | none =>
        refine ⟨nofun, ?_⟩
        rintro ⟨stem, h1, h2⟩
        have := splitLastDot_iff.mpr ⟨show name = stem ++ '.' :: ext by rw [h1]; simp, h⟩
        rw [hs] at this
        exact absurd this nofun
      | some p =>
        obtain ⟨before, after⟩ := p
        obtain ⟨h1, h2⟩ := splitLastDot_iff.mp hs
        dsimp only
        constructor
        · intro h3
          split at h3
          next => exact absurd h3 nofun
          next hb => injection h3 with h3; subst h3; exact ⟨before, by rw [h1]; simp, hb⟩
        · rintro ⟨stem, h3, h4⟩
          have h5 := splitLastDot_iff.mpr ⟨show name = stem ++ '.' :: ext by rw [h3]; simp, h⟩
          rw [hs] at h5
          injection h5 with h5
          injection h5 with e1 e2
          subst e1; subst e2
          rw [if_neg h4]

theorem shows_frame (p : (UInt32 × UInt32) × Raster) : Shows p (toFrame p.1 p.2) := by
  refine ⟨rfl, ⟨by simp [toFrame], ?_⟩, ?_⟩
  · intro row hrow
    obtain ⟨y, _, rfl⟩ := List.mem_map.mp hrow
    simp
  · intro x y hx hy
    simp [pixelAt, toFrame, hx, hy]

theorem shows_unique {p : (UInt32 × UInt32) × Raster} {f g : Frame} (hf : Shows p f) (hg : Shows p g) : f = g := by
  obtain ⟨f1, ⟨f2, f3⟩, f4⟩ := hf
  obtain ⟨g1, ⟨g2, g3⟩, g4⟩ := hg
  have hrows : f.rows = g.rows := by
    refine List.ext_getElem (by rw [f2, g2]) fun y h1 h2 => ?_
    refine List.ext_getElem (by rw [f3 _ (List.getElem_mem _), g3 _ (List.getElem_mem _)]) fun x h3 h4 => ?_
    have hx : x < p.2.width := by rw [← f3 _ (List.getElem_mem h1)]; exact h3
    have a := f4 x y hx (f2 ▸ h1)
    have b := g4 x y hx (f2 ▸ h1)
    rw [← b] at a
    unfold pixelAt at a
    rw [List.getElem?_eq_getElem h1, List.getElem?_eq_getElem h2] at a
    simp only [Option.bind_some] at a
    rw [List.getElem?_eq_getElem h3, List.getElem?_eq_getElem h4] at a
    injection a
  cases f; cases g
  simp_all

theorem shows_all : ∀ (ps : List ((UInt32 × UInt32) × Raster)) (fs : List Frame),
    EachLine Shows ps fs ↔ fs = ps.map fun p => toFrame p.1 p.2
  | [], fs => ⟨fun h => by cases h; rfl, fun h => by subst h; exact .nil⟩
  | p :: ps, fs => by
    constructor
    · intro h
      cases h with
      | cons h1 h2 => rw [(shows_all ps _).mp h2, List.map_cons, shows_unique h1 (shows_frame p)]
    · rintro rfl
      exact .cons (shows_frame p) ((shows_all ps _).mpr rfl)

end Verif
