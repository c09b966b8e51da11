import Verif.Lemmas.IconFile
import Verif.Lemmas.Sane
import Verif.Lemmas.DataIncludes
import Verif.Lemmas.Located.Messages
import Verif.Spec.Annotations
/-
The comments in the listings of images and icons.
-/
namespace Verif
open Spec

theorem outline_append (a b : List Stmt) : outline (a ++ b) = outline a ++ outline b := List.map_append

theorem outline_comment (t : Text) (b : List Stmt) : outline (.comment t :: b) = some t :: outline b := rfl

theorem outline_data {ss : List Stmt} (h : ∀ s ∈ ss, ∃ d, s = .dir d) : outline ss = dataLines ss.length := by
  induction ss with
  | nil => rfl
  | cons s ss ih =>
    obtain ⟨d, rfl⟩ := h s List.mem_cons_self
    show none :: outline ss = none :: dataLines ss.length
    rw [ih fun s hs => h s (List.mem_cons_of_mem _ hs)]

theorem outline_map {α : Type} (g : α → Directive) (l : List α) : outline (l.map fun x => .dir (g x)) = dataLines l.length := by
  rw [outline_data, List.length_map]
  intro s hs
  obtain ⟨x, _, rfl⟩ := List.mem_map.mp hs
  exact ⟨_, rfl⟩

theorem data_append (a b : Nat) : dataLines a ++ dataLines b = dataLines (a + b) := List.replicate_append_replicate

theorem frame_width (f : Frame) : f.width = width f := by
  unfold Frame.width width
  cases f.rows <;> rfl

theorem sprite_outline (masked header : Bool) (i : Image) :
    outline (i.to1BitAsm masked header) = spriteOutline masked header i.frames := by
  obtain ⟨frames⟩ := i
  show outline (frames.flatMap _) = frames.flatMap _
  induction frames with
  | nil => rfl
  | cons f fs ih =>
    rw [List.flatMap_cons, List.flatMap_cons, outline_append, ih]
    congr 1
    unfold Frame.to1BitAsm spriteHead maskRow imageRow binaryBytes
    rw [outline_append, outline_append, outline_map, outline_comment, Located.digits_number, Located.digits_number, frame_width]
    unfold Frame.height
    cases header <;> cases masked <;> simp only [if_true, Bool.false_eq_true, if_false, outline_map, List.cons_append]
    · show some _ :: dataLines _ = _
      rw [Nat.zero_add]
    · show some _ :: (dataLines _ ++ dataLines _) = _
      rw [data_append, Nat.zero_add]
    · show some _ :: (dataLines 1 ++ dataLines _) = _
      rw [data_append]
    · show some _ :: ((dataLines 1 ++ dataLines _) ++ dataLines _) = _
      rw [data_append, data_append]

theorem packRows_outline {pack : List Color → Res (List ByteValue)} : ∀ {rows : List (List Color)} {ss : List Stmt},
    packRows pack rows = .ok ss → outline ss = dataLines rows.length
  | [], _, h => by cases h; rfl
  | row :: rows, ss, h => by
    unfold packRows at h
    obtain ⟨b, _, h⟩ := Res.bind_eq_ok.mp h
    obtain ⟨r, h2, h⟩ := Res.bind_eq_ok.mp h
    cases h
    show none :: outline r = none :: dataLines rows.length
    rw [packRows_outline h2]

theorem packFrames16_outline {map : Palette} {many : Bool} {k : Nat} : ∀ {fs : List Frame} {idx : Nat} {ss : List Stmt},
    (∀ f ∈ fs, f.rows.length = k) → packFrames16 map many idx fs = .ok ss →
    outline ss = (List.range' idx fs.length).flatMap fun j => outline (frameComment many j) ++ dataLines k
  | [], _, _, _, h => by cases h; rfl
  | f :: fs, idx, ss, hk, h => by
    unfold packFrames16 at h
    obtain ⟨b, h1, h⟩ := Res.bind_eq_ok.mp h
    obtain ⟨r, h2, h⟩ := Res.bind_eq_ok.mp h
    cases h
    rw [outline_append, outline_append, packRows_outline h1, hk f List.mem_cons_self,
      packFrames16_outline (fun f hf => hk f (List.mem_cons_of_mem _ hf)) h2]
    rw [List.length_cons, List.range'_succ, List.flatMap_cons]

theorem packFrames256_outline {map : Palette} {k : Nat} : ∀ {fs : List Frame} {ss : List Stmt},
    (∀ f ∈ fs, f.rows.length = k) → packFrames256 map fs = .ok ss → outline ss = dataLines (k * fs.length)
  | [], _, _, h => by cases h; rfl
  | f :: fs, ss, hk, h => by
    unfold packFrames256 at h
    obtain ⟨b, h1, h⟩ := Res.bind_eq_ok.mp h
    obtain ⟨r, h2, h⟩ := Res.bind_eq_ok.mp h
    cases h
    rw [outline_append, packRows_outline h1, hk f List.mem_cons_self,
      packFrames256_outline (fun f hf => hk f (List.mem_cons_of_mem _ hf)) h2]
    rw [data_append, List.length_cons, Nat.mul_succ, Nat.add_comm]

theorem fillPalette_length {map : Palette} : ∀ {ks v v' : List Color}, fillPalette map v ks = .ok v' → v'.length = v.length
  | [], v, v', h => by cases h; rfl
  | k :: ks, v, v', h => by
    unfold fillPalette at h
    obtain ⟨idx, _, h⟩ := Res.bind_eq_ok.mp h
    obtain ⟨w, h2, h⟩ := Res.bind_eq_ok.mp h
    rw [fillPalette_length h]
    unfold setColor at h2
    split at h2
    · cases h2; exact List.length_set
    · cases h2

theorem palette_outline (p : List Color) (n : Nat) : outline ((List.range n).map (paletteLine p)) = dataLines n := by
  unfold paletteLine
  rw [outline_map, List.length_range]

theorem frames_outline {map : Palette} {fs : List Frame} {ss : List Stmt} (hk : ∀ f ∈ fs, f.rows.length = 32)
    (h : packFrames16 map (decide (fs.length > 1)) 1 fs = .ok ss) : outline ss = framesOutline fs.length := by
  rw [packFrames16_outline hk h]
  unfold framesOutline
  by_cases h1 : fs.length = 1
  · rw [if_pos h1, h1]
    simp [frameComment, outline]
  · rw [if_neg h1]
    by_cases h0 : fs.length = 0
    · rw [h0]; rfl
    have h2 : fs.length > 1 := by omega
    have hr : List.range' 1 fs.length = (List.range fs.length).map (1 + ·) := by
      rw [List.range_eq_range', List.map_add_range']
    rw [decide_eq_true h2, hr, List.flatMap_map]
    congr 1
    funext j
    unfold frameComment
    rw [if_pos rfl, Located.digits_number]
    by_cases hj : j = 0
    · subst hj; rfl
    · rw [if_neg (by omega), if_neg hj, Nat.add_comm 1 j]; rfl

/-- A picture with at most 16 colours -/
theorem toIcon16_outline {order : List Color → List Color} {i : Image} {map : Palette} {name : Text} {ss : List Stmt}
    (hp : map.length ≤ 16) (h : i.toIcon order map name = .ok ss) :
    ∃ px, packFrames16 map (decide (i.frames.length > 1)) 1 i.frames = .ok px ∧
      outline ss = some ("\nPalette for \"".toList ++ name ++ "\"".toList) :: dataLines 2 ++
        some ("\nPixel data for \"".toList ++ name ++ "\"".toList) :: outline px := by
  unfold Image.toIcon at h
  have hs : paletteSize map = 16 := by unfold paletteSize; rw [if_pos hp]
  rw [hs, if_pos (by decide)] at h
  obtain ⟨pal, h1, h⟩ := Res.bind_eq_ok.mp h
  have hl := fillPalette_length h1
  rw [List.length_replicate] at hl
  rw [if_pos hl] at h
  obtain ⟨px, h2, h⟩ := Res.bind_eq_ok.mp h
  cases h
  refine ⟨px, h2, ?_⟩
  rw [List.cons_append, outline_comment, outline_append, outline_comment, palette_outline, hl]
  rfl

theorem toIcon256_outline {order : List Color → List Color} {i : Image} {map : Palette} {name : Text} {ss : List Stmt}
    (hp : 16 < map.length) (hp' : map.length ≤ 256) {k : Nat} (hk : ∀ f ∈ i.frames, f.rows.length = k)
    (h : i.toIcon order map name = .ok ss) :
    outline ss = some ("\nPalette for \"".toList ++ name ++ "\"".toList) :: dataLines 32 ++
        some ("\nPixel data for \"".toList ++ name ++ "\"".toList) :: dataLines (k * i.frames.length) := by
  unfold Image.toIcon at h
  have hs : paletteSize map = 256 := by unfold paletteSize; rw [if_neg (by omega), if_pos hp']
  rw [hs, if_pos (by decide)] at h
  obtain ⟨pal, h1, h⟩ := Res.bind_eq_ok.mp h
  have hl := fillPalette_length h1
  rw [List.length_replicate] at hl
  rw [if_neg (by omega)] at h
  obtain ⟨px, h2, h⟩ := Res.bind_eq_ok.mp h
  cases h
  rw [List.cons_append, outline_comment, outline_append, outline_comment, palette_outline, hl, packFrames256_outline hk h2]
  rfl

theorem toIconTrue_outline {order : List Color → List Color} {i : Image} {map : Palette} {name : Text} {ss : List Stmt}
    (hp : 256 < map.length) (h : i.toIcon order map name = .ok ss) :
    outline ss = i.frames.flatMap fun f => dataLines f.rows.length := by
  unfold Image.toIcon at h
  have hs : paletteSize map = 0 := by unfold paletteSize; rw [if_neg (by omega), if_neg (by omega)]
  rw [hs, if_neg (by decide)] at h
  cases h
  obtain ⟨frames⟩ := i
  show outline (frames.flatMap _) = frames.flatMap _
  clear hs hp
  induction frames with
  | nil => rfl
  | cons f fs ih =>
    rw [List.flatMap_cons, List.flatMap_cons, outline_append, ih]
    unfold packRowTrue
    rw [outline_map]

theorem eyecatch_outline {order : List Color → List Color} {f : Frame} {name : Text} {ss : List Stmt}
    (h : eyecatchPart order (some ((⟨[f]⟩ : Image).scaleChannels 15)) name = .ok ss) :
    EyecatchOutline name (some f) (eyecatchType (some ((⟨[f]⟩ : Image).scaleChannels 15).getPalette)) (outline ss) := by
  have hp := fun n => palette_count ⟨[f]⟩ n
  rw [pixels_still] at hp
  unfold eyecatchPart at h
  dsimp only at h
  split at h
  · next hsz =>
    have hk : ∀ g ∈ ((⟨[f]⟩ : Image).scaleChannels 15).frames, g.rows.length = 56 := fun g hg =>
      (scaled_sizes ((imageSize_iff ⟨[f]⟩ 72 56).mp hsz) g hg).1
    unfold eyecatchType
    dsimp only
    by_cases h16 : ((⟨[f]⟩ : Image).scaleChannels 15).getPalette.length ≤ 16
    · rw [if_pos h16]
      obtain ⟨px, h1, h2⟩ := toIcon16_outline h16 h
      rw [h2, packFrames16_outline hk h1]
      exact .palette16 ((hp 16).mp h16)
    · rw [if_neg h16]
      by_cases h256 : ((⟨[f]⟩ : Image).scaleChannels 15).getPalette.length ≤ 256
      · rw [if_pos h256, toIcon256_outline (by omega) h256 hk h]
        exact .palette256 (fun h => h16 ((hp 16).mpr h)) ((hp 256).mp h256)
      · rw [if_neg h256, toIconTrue_outline (by omega) h]
        have := hk _ List.mem_cons_self
        show EyecatchOutline _ _ _ (dataLines _ ++ [])
        rw [List.append_nil, this]
        exact .trueColour (fun h => h256 ((hp 256).mpr h))
  · cases h

theorem eyecatch_note (p : Option Palette) : eyecatchComment (eyecatchType p) = eyecatchNote (eyecatchType p) := by
  unfold eyecatchType
  cases p with
  | none => rfl
  | some p => dsimp only; repeat' split
              all_goals rfl

theorem icon_outline {order : List Color → List Color} {load : Text → Res Image} {path : Text} {speed : Option Nat}
    {epath : Option Text} {ss : List Stmt} (h : toIcon order load path speed epath = .ok ss) :
    ∃ i e, load path = .ok i ∧ EyecatchFrame load epath e ∧
      IconOutline path i.frames (speed.getD 10) (epath.getD []) e (outline ss) := by
  unfold toIcon at h
  obtain ⟨i, h1, h⟩ := Res.bind_eq_ok.mp h
  dsimp only at h
  split at h
  · cases h
  · next hp =>
    split at h
    · cases h
    · next hsz =>
      obtain ⟨ei, h2, h⟩ := Res.bind_eq_ok.mp h
      obtain ⟨s1, h3, h⟩ := Res.bind_eq_ok.mp h
      obtain ⟨s2, h4, h⟩ := Res.bind_eq_ok.mp h
      have hsz' : ∀ f ∈ i.frames, HasSize 32 32 f := (imageSize_iff i 32 32).mp (by simpa using hsz)
      have hlen : (i.scaleChannels 15).frames.length = i.frames.length := by rw [scaled_frames, List.length_map]
      obtain ⟨e, g1, g2⟩ : ∃ e, EyecatchFrame load epath e ∧
          EyecatchOutline (epath.getD []) e (eyecatchType (ei.map Image.getPalette)) (outline s2) := by
        cases epath with
        | none => cases h2; cases h4; exact ⟨none, .none, .none⟩
        | some p =>
          unfold loadEyecatch at h2
          obtain ⟨j, h5, h2⟩ := Res.bind_eq_ok.mp h2
          unfold Image.asStill at h2
          cases hj : j.frames with
          | nil => rw [hj] at h2; cases h2
          | cons f rest =>
            rw [hj] at h2
            cases h2
            exact ⟨some f, .some h5 hj, eyecatch_outline h4⟩
      refine ⟨i, e, h1, g1, ?_⟩
      obtain ⟨px, h5, h6⟩ := toIcon16_outline (by omega) h3
      cases h
      rw [outline_append, outline_append, outline_append, h6,
        frames_outline (fun f hf => (scaled_sizes hsz' f hf).1) h5, hlen]
      unfold Image.toFrameCountAndSpeed iconHead
      rw [eyecatch_note, hlen, Located.digits_number, Located.digits_number]
      have := IconOutline.icon (path := path) (frames := i.frames) (speed := speed.getD 10) g2
      simpa only [outline, commentOf, dataLines, List.map_cons, List.map_nil, List.cons_append, List.nil_append, List.append_assoc,
        List.replicate_succ, List.replicate_zero] using this

/-! ### Text -/

theorem joinWith_intercalate (sep : Text) : ∀ ts : List Text, joinWith sep ts = sep.intercalate ts
  | [] => rfl
  | [t] => by simp [joinWith, List.intercalate]
  | t :: u :: ts => by
    rw [joinWith, joinWith_intercalate sep (u :: ts)]
    simp [List.intercalate, List.intersperse]

theorem line_shown {s : Stmt} (hs : DataStmt s) {t : Text} (h : s.print = .ok t) :
    ShownLine (commentOf s) t := by
  rcases hs with ⟨u, rfl⟩ | ⟨vs, rfl, _⟩ | ⟨es, rfl, _⟩
  · unfold Stmt.print at h
    dsimp only at h
    split at h
    · next hsp =>
      cases h
      exact .blank (List.all_eq_true.mp hsp)
    · next hsp =>
      have : ∃ c ∈ u, isSpace c = false := by
        simpa using hsp
      split at h
      · cases h
        obtain ⟨c, hc, hf⟩ := this
        rcases List.mem_cons.mp hc with rfl | hc
        · exact absurd hf (by decide)
        · exact .apart ⟨c, hc, hf⟩
      · next hn =>
        cases h
        refine .comment (fun e => ?_) this
        cases u with
        | nil => cases e
        | cons c v => cases e; exact hn v rfl
  · unfold Stmt.print Directive.print at h
    obtain ⟨ts, _, h⟩ := Res.bind_eq_ok.mp h
    cases h
    exact .byte
  · cases h
    exact .word

theorem lines_shown : ∀ {ss : List Stmt} {ts : List Text}, (∀ s ∈ ss, DataStmt s) → printEach ss = .ok ts →
    EachLine ShownLine (outline ss) ts
  | [], _, _, h => by cases h; exact .nil
  | s :: ss, ts, hs, h => by
    unfold printEach at h
    obtain ⟨t, h1, h⟩ := Res.bind_eq_ok.mp h
    obtain ⟨r, h2, h⟩ := Res.bind_eq_ok.mp h
    cases h
    exact .cons (line_shown (hs s List.mem_cons_self) h1) (lines_shown (fun s h => hs s (List.mem_cons_of_mem _ h)) h2)

theorem text_shown {ss : List Stmt} {text : Text} (hs : ∀ s ∈ ss, DataStmt s) (h : printStatements ss = .ok text) :
    ShownAs (outline ss) text := by
  unfold printStatements at h
  obtain ⟨ts, h1, h⟩ := Res.bind_eq_ok.mp h
  cases h
  exact ⟨ts, joinWith_intercalate _ ts, lines_shown hs h1⟩

/-! ### Numbers -/

theorem number_text {v : Int} (hv : 0 ≤ v) (hv' : v < 4294967296) :
    (Expr.number v .decimal).print = Places.number v.toNat ∧
    (Expr.number v .hex).print = '$' :: (Messages.hex v.toNat).leftpad (if v.toNat < 256 then 2 else 4) '0' ∧
    (Expr.number v .binary).print = '%' :: (Nat.toDigits 2 v.toNat).leftpad 8 '0' := by
  have hu : toU32 v = v.toNat := by unfold toU32; omega
  refine ⟨?_, ?_, ?_⟩
  · show decimalText v = _
    unfold decimalText
    rw [if_neg (by omega), Located.digits_number]
  · show numberText v .hex = _
    unfold numberText
    rw [hu, Located.digits_hex, Located.zeroPad_leftpad, Located.zeroPad_leftpad]
    by_cases h : v ≤ 0xFF
    · rw [if_pos h, if_pos (by omega)]
    · rw [if_neg h, if_neg (by omega)]
  · show '%' :: zeroPad 8 (digitsOf 2 (toU32 v)) = _
    rw [hu, Located.digits_bits]
    rfl

/-! Includes of data -/

theorem spriteComment_simple (path : Text) (header : Bool) : spriteComment path .simple header =
    "\nSprite \"".toList ++ path ++ (if header then "\" (simple, include header)" else "\" (simple, exclude header)").toList := by
  unfold spriteComment
  simp only [List.append_assoc]
  cases header <;> exact congrArg (_ ++ ·) (congrArg (path ++ ·) (by decide))

theorem spriteComment_masked (path : Text) (header : Bool) : spriteComment path .masked header =
    "\nSprite \"".toList ++ path ++ (if header then "\" (masked, include header)" else "\" (masked, exclude header)").toList := by
  unfold spriteComment
  simp only [List.append_assoc]
  cases header <;> exact congrArg (_ ++ ·) (congrArg (path ++ ·) (by decide))

theorem includeData_outline {m : Mode} {order : List Color → List Color} {load : Text → Res Image} {fs : FS} {file : Path}
    {sf : SourceFiles} {t : IncludeType} {name : Text} (hi : IconText (.incl t name)) {ss : List Stmt}
    (h : includeData m order load fs file sf (.dir (.incl t name)) = .ok ss) :
    IncludeOutline m fs sf.workingDir load file t name (outline ss) := by
  cases t with
  | asm => cases h
  | cHeader => cases h
  | bytes =>
    obtain ⟨q, bs, h1, h2, rfl⟩ := includeData_bytes.mp h
    exact .bytes
  | icon speed eye =>
    unfold includeData at h
    dsimp only at h
    obtain ⟨v, k1, h⟩ := Res.bind_eq_ok.mp h
    obtain ⟨e, k2, h⟩ := Res.bind_eq_ok.mp h
    obtain ⟨q, k3, h⟩ := Res.bind_eq_ok.mp h
    obtain ⟨path, k4, h⟩ := Res.bind_eq_ok.mp h
    obtain ⟨i, f, g1, g2, g3⟩ := icon_outline h
    exact .icon ((evalSpeed_iff (hi speed eye name rfl).1).mp k1).2 (eyecatch_iff.mp ⟨e, k2, k4⟩) (path_iff.mp k3) g1 g2 g3
  | sprite t header =>
    unfold includeData at h
    dsimp only at h
    obtain ⟨q, k1, h⟩ := Res.bind_eq_ok.mp h
    obtain ⟨i, k2, h⟩ := Res.bind_eq_ok.mp h
    obtain ⟨u, k3, h⟩ := Res.bind_eq_ok.mp h
    cases h
    rw [outline_comment, sprite_outline]
    cases t with
    | simple =>
      rw [spriteComment_simple]
      exact .simple (path_iff.mp k1) k2
    | masked =>
      rw [spriteComment_masked]
      exact .masked (path_iff.mp k1) k2

theorem replaceData_outline {m : Mode} {order : List Color → List Color} {load : Text → Res Image} {fs : FS} {file : Path}
    {sf : SourceFiles} : ∀ {ss out : List Stmt}, (∀ d, .dir d ∈ ss → IconText d) →
      replaceData (includeData m order load fs file sf) ss = .ok out → Annotated m fs sf.workingDir load file ss out
  | [], _, _, h => by cases h; exact .nil
  | s :: ss, out, hi, h => by
    rw [replaceData] at h
    obtain ⟨a, h1, h⟩ := Res.bind_eq_ok.mp h
    obtain ⟨b, h2, h⟩ := Res.bind_eq_ok.mp h
    cases h
    have ih := replaceData_outline (fun d hd => hi d (List.mem_cons_of_mem _ hd)) h2
    by_cases hs : ∃ t name, s = .dir (.incl t name)
    · obtain ⟨t, name, rfl⟩ := hs
      exact .data (includeData_outline (hi _ List.mem_cons_self) h1) ih
    · have hn : ∀ t name, s ≠ .dir (.incl t name) := fun t name e => hs ⟨t, name, e⟩
      rw [includeData_none hn] at h1
      cases h1
      exact .other hn ih

end Verif
