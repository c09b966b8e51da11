import Verif.Lemmas.Files
/-
Properties of loading source files: C61.
-/
namespace Verif.Props
open Verif.Spec

/-- **C61**: files are looked for as `Resolves` says, and the answer to every successful load is about that file. -/
theorem C61_resolved {dir : Path} {es : List Loaded} {sf : SourceFiles} (h : History dir es sf) :
    ∀ e ∈ es, Resolves e.fs dir e.root e.filename e.file.name := fun e he => (h.files.2.2.1 e he).2

/-- **C61**: the first load of a path returns what is on disk at that time, and every later one returns the same
contents and id, whatever is on disk then. -/
theorem C61_first_contents {dir : Path} {es : List Loaded} {sf : SourceFiles} (h : History dir es sf) :
    ∀ e ∈ es, ∃ a e' b, es = a ++ e' :: b ∧ (∀ e'' ∈ a, e''.file.name ≠ e.file.name) ∧
      e'.fs.read e.file.name = some (utf8 e.file.contents) ∧ e'.file = e.file := by
  intro e he
  obtain ⟨h1, -, h3, h4⟩ := h.files
  obtain ⟨a, e', b, e1, e2, e3, e4⟩ := h4 _ (h3 e he).1
  exact ⟨a, e', b, e1, e3, e4, e2⟩

/-- **C61**: two loads get the same id exactly if they are of the same path, and then all they return is the same. -/
theorem C61_ids {dir : Path} {es : List Loaded} {sf : SourceFiles} (h : History dir es sf) :
    ∀ e ∈ es, ∀ e' ∈ es, (e.file.id = e'.file.id ↔ e.file.name = e'.file.name) ∧
      (e.file.name = e'.file.name → e.file = e'.file) := by
  obtain ⟨h1, -, h3, -⟩ := h.files
  intro e he e' he'
  obtain ⟨j, hj⟩ := List.mem_iff_getElem?.mp (h3 e he).1
  obtain ⟨k, hk⟩ := List.mem_iff_getElem?.mp (h3 e' he').1
  have i1 := h1.ids j _ hj
  have i2 := h1.ids k _ hk
  have key : e.file.name = e'.file.name → e.file = e'.file := by
    intro hn
    have := h1.names j k _ _ hj hk hn
    subst this
    rw [hj] at hk
    injection hk
  refine ⟨⟨?_, fun hn => by rw [key hn]⟩, key⟩
  intro hi
  rw [i1, i2] at hi
  subst hi
  rw [hj] at hk
  injection hk with hk
  rw [hk]

/-- **C61**: a path that was loaded before is answered from memory: it is not read again, even if it can no longer be
read. -/
theorem C61_again {dir : Path} {es : List Loaded} {sf : SourceFiles} (h : History dir es sf) {e : Loaded} (he : e ∈ es)
    {fs : FS} {root : Option Path} {filename : Path} (hp : Resolves fs dir root filename e.file.name) :
    SourceFiles.load fs sf root filename = .ok (e.file, sf) := by
  obtain ⟨h1, h2, h3, -⟩ := h.files
  refine (load_iff h1).mpr ⟨_, by rw [h2]; exact hp, .inl ⟨(h3 e he).1, rfl, rfl⟩⟩

/-- **C61**: the id finds the file, after any further loads. -/
theorem C61_for_id {dir : Path} {es : List Loaded} {sf : SourceFiles} (h : History dir es sf) :
    ∀ e ∈ es, sf.forId e.file.id = some e.file := by
  obtain ⟨h1, -, h3, -⟩ := h.files
  intro e he
  obtain ⟨j, hj⟩ := List.mem_iff_getElem?.mp (h3 e he).1
  rw [SourceFiles.forId, h1.ids j _ hj, hj]

/-- A path that was not loaded before and cannot be read, or is not UTF-8, is answered with an error. -/
theorem C61_error {dir : Path} {es : List Loaded} {sf : SourceFiles} (h : History dir es sf) {fs : FS}
    {root : Option Path} {filename p : Path} (hp : Resolves fs dir root filename p) (hn : ∀ e ∈ es, e.file.name ≠ p)
    (hr : ∀ t : Text, fs.read p ≠ some (utf8 t)) :
    SourceFiles.load fs sf root filename = .err (.fileLoadFailure p.render) ∨
      SourceFiles.load fs sf root filename = .err (.fileUtf8Error p.render) := by
  obtain ⟨h1, h2, -, h4⟩ := h.files
  have hg : sf.getId p = none := by
    rw [getId_none]
    intro f hf e
    obtain ⟨a, e', b, e1, e2, -, -⟩ := h4 f hf
    exact hn e' (by rw [e1]; simp) (by rw [e2]; exact e)
  unfold SourceFiles.load
  rw [path_iff.mpr (h2 ▸ hp), Res.ok_bind, hg]
  dsimp only
  unfold loadFile loadBytes
  cases hb : fs.read p with
  | none => exact .inl rfl
  | some bs =>
    simp only [Res.ok_bind]
    cases hd : decodeUtf8 bs with
    | none => exact .inr rfl
    | some t => exact absurd (decodeUtf8_iff.mp hd ▸ hb) (hr t)

/-- The disk of the example: one file `/w/a.s`, whose contents change. -/
def disk (contents : String) : FS :=
  ⟨fun p => p = ⟨true, ["w".toList, "a.s".toList]⟩, fun p => p = ⟨true, ["w".toList]⟩,
    fun p => if p = ⟨true, ["w".toList, "a.s".toList]⟩ then some (utf8 contents.toList) else none⟩

/-- Loading `a.s` from the command line and, after it has changed, `./a.s` from itself: the first contents come back. -/
example : ∃ es sf, History ⟨true, ["w".toList]⟩ es sf ∧ es.length = 2 ∧
    es.map (fun e => (e.file.id, e.file.contents)) = [(0, "nop".toList), (0, "nop".toList)] := by
  let a : Path := ⟨true, ["w".toList, "a.s".toList]⟩
  let f : SourceFile := ⟨0, a, "nop".toList⟩
  have h1 : SourceFiles.load (disk "nop") (.new ⟨true, ["w".toList]⟩) none (Path.parse "a.s".toList) =
      .ok (f, ⟨⟨true, ["w".toList]⟩, [f]⟩) := by decide +kernel
  have h2 : SourceFiles.load (disk "ret") ⟨⟨true, ["w".toList]⟩, [f]⟩ (some a) (Path.parse "./a.s".toList) =
      .ok (f, ⟨⟨true, ["w".toList]⟩, [f]⟩) := by decide +kernel
  exact ⟨_, _, .ok (.ok .start h1) h2, rfl, rfl⟩

end Verif.Props
