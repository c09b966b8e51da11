import Verif.Lemmas.ImageFile
import Verif.Spec.ImageFile
import Verif.Props.Command
import Verif.Props.Images
/-
C69: the output of `image` and `icon` is a source file with the data it stands for.
-/
namespace Verif.Props
open Verif Spec

theorem tidy_assembles {A : Prop} {h : Host} (hs : AsciiSeg h.seg) (hos : Willing h.os) (habs : h.cwd.abs = true) {ss : List Stmt} {bs : List UInt8}
    (hd : Data ss bs) (ht : ∀ s ∈ ss, Tidy A s) (hl : bs.length < 2147483647) {text : Text} (hp : printStatements ss = .ok text)
    {contents : Text} (hc : contents = text ∨ contents = text ++ "\n".toList)
    (hpl : A ∨ Plain h.seg contents) {fs : FS} {source : Text}
    (hr : fs.read (h.cwd.join (Path.parse source)) = some (utf8 contents)) (output : Text) : AssemblesTo h fs source output bs := by
  obtain ⟨t, h1, h3, h2⟩ := tidy_file hs hd ht hl
  rw [hp] at h1
  cases h1
  have hpl : Plain h.seg contents := by
    rcases hpl with hA | h
    · have ha := h3 hA
      refine plain_of_ascii hs ?_
      rcases hc with rfl | rfl
      · exact ha
      · intro c hc
        rcases List.mem_append.mp hc with hc | hc
        · exact ha c hc
        · rw [List.mem_singleton.mp hc]; decide
    · exact h
  obtain ⟨n, hn⟩ := h2 contents hc hpl fs h.cwd source habs hr h.mode h.order h.load
  refine ⟨n, fun fuel hf => ?_⟩
  have hw : ToWrite { h with fuel } fs (.assemble source output) (h.cwd.join (Path.parse output)) bs :=
    .assemble (hn fuel hf h.uuid h.macroFuel)
  obtain ⟨-, c1, c2⟩ := C70_writes { h with fuel } fs (.assemble source output) _ _ trivial hw
  obtain ⟨d, e1, e2, -, e3⟩ := c2 (c1 hos)
  exact ⟨c1 hos, d, e1, e2, e3⟩

theorem asmText {i : Image} {format : Option Text} {masked : Bool} (hf : AsmFormat format masked) {t : Text}
    (h : ImageText i format t) : printStatements (i.to1BitAsm masked true) = .ok t := by
  cases h with
  | json => exact absurd rfl hf.2.1
  | pretty => exact absurd rfl hf.2.2
  | masked h =>
    rw [hf.1.mpr rfl]
    exact h
  | plain h1 h2 =>
    cases masked with
    | false => exact h2
    | true =>
      have := h1 _ (hf.1.mp rfl)
      simp at this

theorem frames_bytes (masked : Bool) : ∀ fs : List Frame, EachLine (fun f part => ∃ size mask image, SpriteFrame darkBit masked true f size mask image ∧
    part = size ++ mask.flatten ++ image.flatten) fs (fs.map (frameBytes masked))
  | [] => .nil
  | f :: fs => .cons ⟨_, _, _, sprite_frame masked true f, rfl⟩ (frames_bytes masked fs)

/-- **C69**: what `image` prints, saved as a source file, assembles to the sprite. -/
theorem C69_image_printed : ∃ dark : Color → Bool, (∀ c, luma c < 12750 → dark c = true) ∧ (∀ c, 12750 < luma c → dark c = false) ∧
    ∀ (h : Host), AsciiSeg h.seg → Willing h.os → h.cwd.abs = true → ∀ (fs fs' : FS) (input : Text) (format : Option Text) (masked : Bool)
      (i : Image) (source output : Text), AsmFormat format masked → h.load input = .ok i → i.frames.length < 131072 →
      (∀ f ∈ i.frames, f.rows.length ≤ 255 ∧ ∀ row ∈ f.rows, 0 < row.length ∧ row.length ≤ 255) →
      (run h fs (.image input format none)).exit = .code 0 →
      fs'.read (h.cwd.join (Path.parse source)) = some (utf8 (run h fs (.image input format none)).out) →
      ∃ bytes, SpriteBytes dark masked i bytes ∧ AssemblesTo h fs' source output bytes := by
  refine ⟨darkBit, fun c h => decide_eq_true ((gray_dark c).1 h), fun c h => decide_eq_false ((gray_dark c).2 h), ?_⟩
  intro h hs hos habs fs fs' input format masked i source output hf hi hn hsm hx hr
  obtain ⟨h1, h2, h3⟩ := image_data (A := True) hsm masked hn
  refine ⟨_, ⟨_, List.flatMap_def, frames_bytes masked i.frames⟩, ?_⟩
  rcases C70_code_0 h fs _ hx with ⟨t, hp, -, ho⟩ | ⟨p, bs, d, hw, -⟩
  · rw [ho] at hr
    cases hp with
    | image g1 g2 =>
      rw [hi] at g1
      cases g1
      exact tidy_assembles hs hos habs h1 h2 h3 (asmText hf g2) (.inr rfl) (.inl trivial) hr output
  · cases hw

/-- **C69**: what `image -o` writes assembles to the sprite, if the system takes the text at once. -/
theorem C69_image_written : ∃ dark : Color → Bool, (∀ c, luma c < 12750 → dark c = true) ∧ (∀ c, 12750 < luma c → dark c = false) ∧
    ∀ (h : Host), AsciiSeg h.seg → Willing h.os → h.cwd.abs = true → ∀ (fs : FS) (input : Text) (format : Option Text) (masked : Bool)
      (i : Image) (source output : Text), AsmFormat format masked → h.load input = .ok i → i.frames.length < 131072 →
      (∀ f ∈ i.frames, f.rows.length ≤ 255 ∧ ∀ row ∈ f.rows, 0 < row.length ∧ row.length ≤ 255) →
      (∀ fs p bs, ∃ k ≥ bs.length, h.os.accepts fs p bs = some k) →
      (run h fs (.image input format (some source))).exit = .code 0 ∧
      ∃ d, (run h fs (.image input format (some source))).disks.getLast? = some d ∧
        ∃ bytes, SpriteBytes dark masked i bytes ∧ AssemblesTo h d source output bytes := by
  refine ⟨darkBit, fun c h => decide_eq_true ((gray_dark c).1 h), fun c h => decide_eq_false ((gray_dark c).2 h), ?_⟩
  intro h hs hos habs fs input format masked i source output hf hi hn hsm hacc
  obtain ⟨h1, h2, h3⟩ := image_data (A := True) hsm masked hn
  obtain ⟨t, ht, -⟩ := tidy_file hs h1 h2 h3
  have hit : ImageText i format t := by
    cases masked with
    | true =>
      rw [hf.1.mp rfl]
      exact .masked ht
    | false =>
      refine .plain (fun n e => ?_) ht
      subst e
      intro hm
      simp only [List.mem_cons, List.not_mem_nil, or_false] at hm
      rcases hm with rfl | rfl | rfl
      · exact hf.2.1 rfl
      · exact hf.2.2 rfl
      · exact absurd (hf.1.mpr rfl) (by decide)
  have hw : ToWrite h fs (.image input format (some source)) (h.cwd.join (Path.parse source)) (utf8 t) := .image hi hit
  obtain ⟨k, hk, ha⟩ := hacc (fs.create (h.cwd.join (Path.parse source))) (h.cwd.join (Path.parse source)) (utf8 t)
  obtain ⟨g1, d, g2, g3, -⟩ := C70_image h fs (.image input format (some source)) _ _ (fun h => h) hw (hos.1 _ _) k ha hk
  exact ⟨g1, d, g2, _, ⟨_, List.flatMap_def, frames_bytes masked i.frames⟩,
    tidy_assembles hs hos habs h1 h2 h3 ht (.inl rfl) (.inl trivial) g3 output⟩

/-- **C69**: what `icon` prints, saved as a source file, assembles to the icon.  The names of the files, which are part of
the text, have to be on one line, and in ASCII or at least without combining characters. -/
theorem C69_icon (h : Host) (hs : AsciiSeg h.seg) (hos : Willing h.os) (habs : h.cwd.abs = true) (horder : ∀ l, (h.order l).Perm l)
    (fs fs' : FS) (args : List Text) (input : Text) (speed eyecatch : Option Text) (i : Image) (source output : Text)
    (hi : h.load input = .ok i) (hn : i.frames.length < 65536) (hargs : ∀ a ∈ args, '\n' ∉ a) (hinput : '\n' ∉ input)
    (heye : ∀ p, eyecatch = some p → '\n' ∉ p) (hx : (run h fs (.icon args input speed eyecatch)).exit = .code 0)
    (hplain : ((∀ a ∈ args, Spec.Ascii a) ∧ Spec.Ascii input ∧ ∀ p, eyecatch = some p → Spec.Ascii p) ∨
      Spec.Plain h.seg (run h fs (.icon args input speed eyecatch)).out)
    (hr : fs'.read (h.cwd.join (Path.parse source)) = some (utf8 (run h fs (.icon args input speed eyecatch)).out)) :
    ∃ v e bytes, SpeedArg speed v ∧ EyecatchFrame h.load eyecatch e ∧ Icon bytes i.frames (v.getD 10) e ∧
      AssemblesTo h fs' source output bytes := by
  rcases C70_code_0 h fs _ hx with ⟨t, hp, -, ho⟩ | ⟨p, bs, d, hw, -⟩
  · rw [ho] at hr hplain
    cases hp with
    | @icon _ _ _ v _ stmts text g1 g2 g3 =>
      have hv : v.getD 10 < 65536 := by
        cases g1 with
        | none => decide
        | digits _ h => exact h
        | plus _ h => exact h
      obtain ⟨bs, e, k1, k2, k3⟩ := C57_icon horder hv hi hn g2
      refine ⟨v, e, bs, g1, k1, k3, ?_⟩
      refine tidy_assembles hs hos habs (.comment (.comment k2)) (fun s hs => ?_) (icon_length k3 hn) g3 (.inr rfl) hplain hr output
      rcases List.mem_cons.mp hs with rfl | hs
      · exact tidy_text (by decide) fun _ => by unfold Verif.Ascii; decide
      · rcases List.mem_cons.mp hs with rfl | hs
        · have := plain_join (A := (∀ a ∈ args, Spec.Ascii a) ∧ Spec.Ascii input ∧ ∀ p, eyecatch = some p → Spec.Ascii p) (ts := args) fun a ha => ⟨hargs a ha, fun h => h.1 a ha⟩
          exact tidy_text this.1 this.2
        · exact icon_tidy g2 ⟨hinput, fun h => h.2.1⟩ (fun p hp => ⟨heye p hp, fun h => h.2.2 p hp⟩) s hs
  · cases hw

/-! ### Examples -/

/-- A system that takes everything at once. -/
def atOnce : OS := ⟨fun _ _ => true, fun _ _ bs => some (bs.length + 1)⟩

/-- The example's `dot` meets the conditions of C69, and what comes out is its size and one dark pixel. -/
example : AsmFormat none false ∧ (host atOnce).load "dot.png".toList = .ok dot ∧ dot.frames.length < 131072 ∧
    (∀ f ∈ dot.frames, f.rows.length ≤ 255 ∧ ∀ row ∈ f.rows, 0 < row.length ∧ row.length ≤ 255) ∧ Willing atOnce := by
  refine ⟨⟨by decide, by decide, by decide⟩, rfl, by decide, ?_, fun _ _ => rfl, fun _ _ bs _ => ⟨bs.length, rfl⟩⟩
  decide

/-- The text printed for `dot`, and the bytes that its file assembles to. -/
def dotTrip : Text × Option (List UInt8) :=
  let t := (run (host atOnce) (folder []) (.image "dot.png".toList none none)).out
  let r := run (host atOnce) (folder [("dot.s", String.ofList t)]) (.assemble "dot.s".toList "dot.bin".toList)
  (t, r.disks.getLast?.bind fun d => d.read (inWork "dot.bin"))


/-- A grey icon, one frame. -/
def grey : Image := ⟨[⟨(0, 0), List.replicate 32 (List.replicate 32 ⟨128, 128, 128, 255⟩)⟩]⟩

/-- What `icon` does with it. -/
def greyRun : RunResult :=
  run { host atOnce with load := fun _ => .ok grey } (folder []) (.icon ["waterbear".toList, "icon".toList, "grey.png".toList] "grey.png".toList none none)

example : dotTrip = ("  ;; Width: 1, Height: 1
  .byte 1,1
  .byte %10000000
".toList, some [1, 1, 128]) := by decide +kernel
example : greyRun.exit = .code 0 := by decide +kernel

end Verif.Props
