import Verif.Lemmas.Located.PlacesParse
import Verif.Lemmas.Sane
/-
The numbers in the statements made for images fit, with few exceptions.
-/
namespace Verif
open Located (FitByte FitWord)

variable {load : Text → Res Image}

/-- A comment, or literal bytes or words. -/
def FitStmt (load : Text → Res Image) (s : Stmt) : Prop :=
  (∃ t, s = .comment t) ∨
  (∃ vs, s = .dir (.byte vs) ∧ ∀ v ∈ vs, ∃ x r, v = .expr (.number x r) ∧ FitByte load x) ∨
  (∃ es, s = .dir (.word es) ∧ ∀ e ∈ es, ∃ x r, e = .number x r ∧ FitWord load x)

theorem fitByte {n : Nat} (h : n < 256) : FitByte load n := .inl ⟨by omega, by omega⟩
theorem fitWord {n : Nat} (h : n < 65536) : FitWord load n := .inl ⟨by omega, by omega⟩

theorem frameCount_fit {path : Text} {i : Image} (h : load path = .ok i) :
    FitWord load (wrap32 (i.scaleChannels 15).frames.length) := by
  have e : (i.scaleChannels 15).frames.length = i.frames.length := by simp [Image.scaleChannels]
  rw [e]
  by_cases hl : 65536 ≤ i.frames.length
  · exact .inr ⟨path, i, h, hl, rfl⟩
  · left
    unfold wrap32
    omega

theorem fitStmt_comment (t : Text) : FitStmt load (.comment t) := .inl ⟨t, rfl⟩

theorem fitStmt_word {es : List Expr} (h : ∀ e ∈ es, ∃ x r, e = Expr.number x r ∧ FitWord load x) :
    FitStmt load (.dir (.word es)) := .inr (.inr ⟨es, rfl, h⟩)

theorem fitStmt_byte {vs : List ByteValue}
    (h : ∀ v ∈ vs, ∃ x r, v = .expr (.number x r) ∧ FitByte load x) :
    FitStmt load (.dir (.byte vs)) := .inr (.inl ⟨vs, rfl, h⟩)

theorem binaryBytes_fit (bs : List UInt8) : FitStmt load (binaryBytes bs) := by
  refine fitStmt_byte fun v hv => ?_
  obtain ⟨b, _, rfl⟩ := List.mem_map.mp hv
  exact ⟨_, _, rfl, fitByte b.toNat_lt⟩

theorem to1BitAsm_fit {f : Frame} {masked header : Bool}
    (h : header = true → FitByte load (wrap32 f.width) ∧ FitByte load (wrap32 f.height)) : ∀ s ∈ f.to1BitAsm masked header, FitStmt load s := by
  intro s hs
  simp only [Frame.to1BitAsm, List.mem_append] at hs
  rcases hs with (hs | hs) | hs
  · unfold spriteHead at hs
    rcases List.mem_cons.mp hs with rfl | hs
    · exact fitStmt_comment _
    · split at hs
      next hh =>
        simp only [List.mem_singleton] at hs
        subst hs
        refine fitStmt_byte fun v hv => ?_
        simp only [List.mem_cons, List.not_mem_nil, or_false] at hv
        rcases hv with rfl | rfl
        · exact ⟨_, _, rfl, (h hh).1⟩
        · exact ⟨_, _, rfl, (h hh).2⟩
      · cases hs
  · split at hs
    · obtain ⟨r, _, rfl⟩ := List.mem_map.mp hs
      exact binaryBytes_fit _
    · cases hs
  · obtain ⟨r, _, rfl⟩ := List.mem_map.mp hs
    exact binaryBytes_fit _

theorem packRow16_fit {map : Palette} : ∀ {row : List Color} {vs : List ByteValue}, packRow16 map row = .ok vs →
    ∀ v ∈ vs, ∃ x r, v = .expr (.number x r) ∧ FitByte load x
  | [], vs, h => by cases h; simp
  | [_], vs, h => by cases h
  | c1 :: c2 :: row, vs, h => by
    rw [packRow16] at h
    obtain ⟨i1, _, h2⟩ := Res.bind_eq_ok.mp h
    obtain ⟨i2, _, h3⟩ := Res.bind_eq_ok.mp h2
    obtain ⟨rest, hr, h4⟩ := Res.bind_eq_ok.mp h3
    cases h4
    intro v hv
    rcases List.mem_cons.mp hv with rfl | hv
    · refine ⟨_, _, rfl, fitByte ?_⟩
      have e1 : i1 &&& 0xF < 16 := by have := Nat.and_two_pow_sub_one_eq_mod i1 4; simp at this; omega
      have e2 : i2 &&& 0xF < 16 := by have := Nat.and_two_pow_sub_one_eq_mod i2 4; simp at this; omega
      have h1 : (i1 &&& 0xF) <<< 4 < 2 ^ 8 := by rw [Nat.shiftLeft_eq]; omega
      have h2 : i2 &&& 0xF < 2 ^ 8 := by omega
      exact Nat.or_lt_two_pow h1 h2
    · exact packRow16_fit hr v hv

theorem packRow256_fit {map : Palette} : ∀ {row : List Color} {vs : List ByteValue}, packRow256 map row = .ok vs →
    ∀ v ∈ vs, ∃ x r, v = .expr (.number x r) ∧ FitByte load x
  | [], vs, h => by cases h; simp
  | c :: row, vs, h => by
    rw [packRow256] at h
    obtain ⟨i, _, h2⟩ := Res.bind_eq_ok.mp h
    obtain ⟨rest, hr, h4⟩ := Res.bind_eq_ok.mp h2
    cases h4
    intro v hv
    rcases List.mem_cons.mp hv with rfl | hv
    · refine ⟨_, _, rfl, fitByte ?_⟩
      have := Nat.and_two_pow_sub_one_eq_mod i 8
      simp at this
      omega
    · exact packRow256_fit hr v hv

theorem packRows_fit {pack : List Color → Res (List ByteValue)}
    (hp : ∀ row vs, pack row = .ok vs → ∀ v ∈ vs, ∃ x r, v = .expr (.number x r) ∧ FitByte load x) :
    ∀ {rows ss}, packRows pack rows = .ok ss → ∀ s ∈ ss, FitStmt load s := by
  intro rows
  induction rows with
  | nil => intro ss h; cases h; simp
  | cons row rows ih =>
    intro ss h
    rw [packRows] at h
    obtain ⟨bytes, hb, h2⟩ := Res.bind_eq_ok.mp h
    obtain ⟨rest, hr, h3⟩ := Res.bind_eq_ok.mp h2
    cases h3
    intro s hs
    rcases List.mem_cons.mp hs with rfl | hs
    · exact fitStmt_byte (hp _ _ hb)
    · exact ih hr s hs

theorem frameComment_fit {many idx} : ∀ s ∈ frameComment many idx, FitStmt load s := by
  unfold frameComment
  intro s hs
  split at hs
  · simp only [List.mem_singleton] at hs
    subst hs
    exact fitStmt_comment _
  · cases hs

theorem packFrames16_fit {map : Palette} {many} : ∀ {fs idx ss}, packFrames16 map many idx fs = .ok ss →
    ∀ s ∈ ss, FitStmt load s := by
  intro fs
  induction fs with
  | nil => intro idx ss h; cases h; simp
  | cons f fs ih =>
    intro idx ss h
    rw [packFrames16] at h
    obtain ⟨rows, hb, h2⟩ := Res.bind_eq_ok.mp h
    obtain ⟨rest, hr, h3⟩ := Res.bind_eq_ok.mp h2
    cases h3
    intro s hs
    simp only [List.mem_append] at hs
    rcases hs with (hs | hs) | hs
    · exact frameComment_fit s hs
    · exact packRows_fit (fun _ _ => packRow16_fit) hb s hs
    · exact ih hr s hs

theorem packFrames256_fit {map : Palette} : ∀ {fs ss}, packFrames256 map fs = .ok ss →
    ∀ s ∈ ss, FitStmt load s := by
  intro fs
  induction fs with
  | nil => intro ss h; cases h; simp
  | cons f fs ih =>
    intro ss h
    rw [packFrames256] at h
    obtain ⟨rows, hb, h2⟩ := Res.bind_eq_ok.mp h
    obtain ⟨rest, hr, h3⟩ := Res.bind_eq_ok.mp h2
    cases h3
    intro s hs
    rcases List.mem_append.mp hs with hs | hs
    · exact packRows_fit (fun _ _ => packRow256_fit) hb s hs
    · exact ih hr s hs

theorem imageToIcon_fit {order i map name ss} (h : Image.toIcon order i map name = .ok ss) : ∀ s ∈ ss, FitStmt load s := by
  unfold Image.toIcon at h
  split at h
  · obtain ⟨palette, _, h2⟩ := Res.bind_eq_ok.mp h
    obtain ⟨pixels, hp, h3⟩ : ∃ pixels, (∀ s ∈ pixels, FitStmt load s) ∧
        .ok (.comment ("\nPalette for \"".toList ++ name ++ "\"".toList) ::
          (List.range (palette.length / 8)).map (paletteLine palette) ++
          .comment ("\nPixel data for \"".toList ++ name ++ "\"".toList) :: pixels) = Res.ok ss := by
      dsimp only at h2
      split at h2
      · obtain ⟨pixels, hp, h3⟩ := Res.bind_eq_ok.mp h2
        exact ⟨pixels, packFrames16_fit hp, h3⟩
      · obtain ⟨pixels, hp, h3⟩ := Res.bind_eq_ok.mp h2
        exact ⟨pixels, packFrames256_fit hp, h3⟩
    cases h3
    intro s hs
    simp only [List.cons_append, List.mem_cons, List.mem_append] at hs
    rcases hs with rfl | hs | rfl | hs
    · exact fitStmt_comment _
    · obtain ⟨y, _, rfl⟩ := List.mem_map.mp hs
      refine fitStmt_word fun e he => ?_
      obtain ⟨x, _, rfl⟩ := List.mem_map.mp he
      exact ⟨_, _, rfl, fitWord (toPaletteColor_lt _)⟩
    · exact fitStmt_comment _
    · exact hp s hs
  · cases h
    intro s hs
    obtain ⟨f, _, hs⟩ := List.mem_flatMap.mp hs
    obtain ⟨row, _, rfl⟩ := List.mem_map.mp hs
    refine fitStmt_word fun e he => ?_
    obtain ⟨c, _, rfl⟩ := List.mem_map.mp he
    exact ⟨_, _, rfl, fitWord (Nat.lt_of_le_of_lt Nat.and_le_left (toPaletteColor_lt c))⟩

theorem iconHead_fit {etype : Nat} (h : etype < 4) : ∀ s ∈ iconHead etype, FitStmt load s := by
  have hz : ∀ v ∈ List.replicate 10 (ByteValue.expr (.num 0)), ∃ x r, v = .expr (.number x r) ∧ FitByte load x := by
    intro v hv
    obtain ⟨_, rfl⟩ := List.mem_replicate.mp hv
    exact ⟨_, _, rfl, fitByte (n := 0) (by omega)⟩
  intro s hs
  simp only [iconHead, List.mem_cons, List.not_mem_nil, or_false] at hs
  rcases hs with rfl | rfl | rfl | rfl | rfl | rfl | rfl | rfl | rfl
  · exact fitStmt_comment _
  · refine fitStmt_word fun e he => ?_
    simp only [List.mem_singleton] at he
    exact ⟨_, _, he, fitWord (n := etype) (by omega)⟩
  · exact fitStmt_comment _
  · refine fitStmt_word fun e he => ?_
    simp only [List.mem_singleton] at he
    exact ⟨_, _, he, fitWord (n := 0) (by omega)⟩
  · exact fitStmt_comment _
  · refine fitStmt_word fun e he => ?_
    simp only [List.mem_cons, List.not_mem_nil, or_false, or_self] at he
    exact ⟨_, _, he, fitWord (n := 0) (by omega)⟩
  · exact fitStmt_comment _
  · exact fitStmt_byte hz
  · exact fitStmt_byte hz

theorem toIcon_fit {order path speed eyecatch ss} (hsp : ∀ v, speed = some v → v < 65536)
    (h : toIcon order load path speed eyecatch = .ok ss) : ∀ s ∈ ss, FitStmt load s := by
  unfold toIcon at h
  obtain ⟨img, himg, h2⟩ := Res.bind_eq_ok.mp h
  dsimp only at h2
  split at h2
  · cases h2
  · split at h2
    · cases h2
    · obtain ⟨e, _, h3⟩ := Res.bind_eq_ok.mp h2
      obtain ⟨pixels, hp, h4⟩ := Res.bind_eq_ok.mp h3
      obtain ⟨rest, hr, h5⟩ := Res.bind_eq_ok.mp h4
      cases h5
      intro s hs
      simp only [List.mem_append] at hs
      rcases hs with ((hs | hs) | hs) | hs
      · simp only [Image.toFrameCountAndSpeed, List.mem_cons, List.not_mem_nil, or_false] at hs
        rcases hs with rfl | rfl
        · exact fitStmt_comment _
        · refine fitStmt_word fun e he => ?_
          simp only [List.mem_cons, List.not_mem_nil, or_false] at he
          rcases he with rfl | rfl
          · exact ⟨_, _, rfl, frameCount_fit himg⟩
          · refine ⟨_, _, rfl, fitWord ?_⟩
            cases speed with
            | none => decide
            | some v => exact hsp v rfl
      · exact iconHead_fit (eyecatchType_lt _) s hs
      · exact imageToIcon_fit hp s hs
      · unfold eyecatchPart at hr
        split at hr
        · cases hr; cases hs
        · split at hr
          · exact imageToIcon_fit hr s hs
          · cases hr


end Verif
