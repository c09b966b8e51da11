import Verif.Lemmas.Annotations
import Verif.Props.ImageFile
/-
C87: the listings of images and icons say what the data is.
-/
namespace Verif.Props
open Verif.Spec Verif.Spec.Places Verif.Spec.Messages

/-- **C87**: what `image` prints in an assembly format: for each frame its size in a comment, then the data, a line for the
size and one for each row of the mask, if there is one, and of the picture. -/
theorem C87_image (h : Host) (fs : FS) (input : Text) (format : Option Text) (masked : Bool) (i : Image) (hf : AsmFormat format masked)
    (hi : h.load input = .ok i) (hx : (run h fs (.image input format none)).exit = .code 0) :
    ∃ text, (run h fs (.image input format none)).out = text ++ "\n".toList ∧ ShownAs (spriteOutline masked true i.frames) text := by
  rcases C70_code_0 h fs _ hx with ⟨t, hp, -, ho⟩ | ⟨p, bs, d, hw, -⟩
  · cases hp with
    | image g1 g2 =>
      rw [hi] at g1
      cases g1
      refine ⟨_, ho, ?_⟩
      rw [← sprite_outline]
      refine text_shown (fun s hs => ?_) (asmText hf g2)
      obtain ⟨f, _, hs⟩ := List.mem_flatMap.mp hs
      exact to1BitAsm_data s hs
  · cases hw

/-- **C87**: what `icon` prints: where it comes from, the number of frames and the speed, the kind of the eyecatch, the parts of
the header, the palette, the frames, numbered if there are several, and the eyecatch with its palette; and the data of each part
follows its comment. -/
theorem C87_icon (h : Host) (fs : FS) (args : List Text) (input : Text) (speed eyecatch : Option Text) (i : Image)
    (hi : h.load input = .ok i) (hx : (run h fs (.icon args input speed eyecatch)).exit = .code 0) :
    ∃ text v e o, (run h fs (.icon args input speed eyecatch)).out = text ++ "\n".toList ∧ SpeedArg speed v ∧
      EyecatchFrame h.load eyecatch e ∧ IconOutline input i.frames (v.getD 10) (eyecatch.getD []) e o ∧
      ShownAs (some "NOTE: This file was generated by the waterbear assembler:".toList :: some ([' '].intercalate args) :: o) text := by
  rcases C70_code_0 h fs _ hx with ⟨t, hp, -, ho⟩ | ⟨p, bs, d, hw, -⟩
  · cases hp with
    | @icon _ _ _ v _ stmts text g1 g2 g3 =>
      obtain ⟨j, e, k1, k2, k3⟩ := icon_outline g2
      rw [hi] at k1
      cases k1
      refine ⟨text, v, e, outline stmts, ho, g1, k2, k3, ?_⟩
      rw [← joinWith_intercalate]
      refine text_shown (ss := .comment _ :: .comment _ :: stmts) (fun s hs => ?_) g3
      rcases List.mem_cons.mp hs with rfl | hs
      · exact dataStmt_comment _
      · rcases List.mem_cons.mp hs with rfl | hs
        · exact dataStmt_comment _
        · refine toIcon_data (fun k hk => ?_) g2 s hs
          subst hk
          cases g1 with
          | digits _ h => exact h
          | plus _ h => exact h
  · cases hw

/-- **C87**: `assemble` and `expand` put such listings in the place of includes of data, in the expanded program that `expand`
prints. -/
theorem C87_includes {m : Mode} {seg : Seg} {order : List Color → List Color} {load : Text → Res Image} {fs : FS} {dir : Path}
    (hd : dir.abs = true) {name : Text} {fuel : Nat} {p : Program}
    (h : readStatements m seg order load fs fuel (SourceFiles.new dir) name = .ok p) :
    ∃ q sf, readProgram seg fs fuel (SourceFiles.new dir) name = .ok (q, dir.join (Path.parse name), sf) ∧
      p.macros = q.macros ∧ Annotated m fs dir load (dir.join (Path.parse name)) q.stmts p.stmts := by
  unfold readStatements at h
  obtain ⟨⟨q, path, sf⟩, hr, h⟩ := Res.bind_eq_ok.mp h
  obtain ⟨ss, h1, h⟩ := Res.bind_eq_ok.mp h
  cases h
  obtain ⟨rfl, hw⟩ := readProgram_dir hd hr
  subst hw
  exact ⟨q, sf, hr, rfl, replaceData_outline (readProgram_icon hr) h1⟩

/-- A file with a sprite -/
example : expandFile .checked plainSeg id (fun _ => .ok dot) (fun _ => []) (folder [("main.s", ".include sprite \"dot.png\" header=\"no\"\n")]) 3 3
    (SourceFiles.new work) "main.s".toList =
      .ok "\n  ;; Sprite \"/w/dot.png\" (simple, exclude header)\n  ;; Width: 1, Height: 1\n  .byte %10000000\n".toList := by decide +kernel

/-- **C87**: how number literals are written: in base ten without leading zeros, in base sixteen with at least two digits below
256 and at least four from there on, in base two with at least eight digits. -/
theorem C87_numbers {v : Int} (h : 0 ≤ v) (h' : v < 4294967296) :
    (Expr.number v .decimal).print = number v.toNat ∧
    (Expr.number v .hex).print = '$' :: (hex v.toNat).leftpad (if v.toNat < 256 then 2 else 4) '0' ∧
    (Expr.number v .binary).print = '%' :: (Nat.toDigits 2 v.toNat).leftpad 8 '0' := number_text h h'

example : (Expr.number 255 .hex).print = "$FF".toList ∧ (Expr.number 256 .hex).print = "$0100".toList ∧
    (Expr.number 5 .binary).print = "%00000101".toList ∧ (Expr.number 10 .decimal).print = "10".toList := by decide +kernel

/-- The conditions of C87 for `dot`, and its listing -/
example : AsmFormat none false ∧ (host atOnce).load "dot.png".toList = .ok dot ∧
    (run (host atOnce) ⟨fun _ => false, fun _ => false, fun _ => none⟩ (.image "dot.png".toList none none)).exit = .code 0 ∧
    (run (host atOnce) ⟨fun _ => false, fun _ => false, fun _ => none⟩ (.image "dot.png".toList none none)).out = "  ;; Width: 1, Height: 1\n  .byte 1,1\n  .byte %10000000\n".toList :=
  ⟨⟨by decide, by decide, by decide⟩, rfl, by decide +kernel, by decide +kernel⟩

/-- An icon with two empty frames -/
private def blankIcon : Image := ⟨List.replicate 2 ⟨(0, 0), List.replicate 32 (List.replicate 32 ⟨0, 0, 0, 0⟩)⟩⟩

set_option maxRecDepth 100000 in
/-- The conditions of C87 for an icon -/
example : (run { host atOnce with load := fun _ => .ok blankIcon } ⟨fun _ => false, fun _ => false, fun _ => none⟩ (.icon ["icon".toList] "i.gif".toList none none)).exit = .code 0 ∧
    some "\nFrame 2".toList ∈ framesOutline blankIcon.frames.length := by
  decide +kernel

end Verif.Props
