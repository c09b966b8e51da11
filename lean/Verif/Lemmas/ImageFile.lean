import Verif.Lemmas.Chop
import Verif.Lemmas.ReadBack
import Verif.Lemmas.ListingText
import Verif.Lemmas.IconFile
import Verif.Lemmas.Sane
/-
Images and icons as source files.
-/
namespace Verif
open Spec

/-- Comments on one line (in ASCII if `A` holds), and literals. -/
inductive Tidy (A : Prop) : Stmt → Prop where
  | comment {t u} : '\n' ∉ u → (A → Ascii u) → t = u ∨ t = '\n' :: u → Tidy A (.comment t)
  | byte {vs} : vs ≠ [] → (∀ v ∈ vs, ∃ x r, v = .expr (.number x r) ∧ r ≠ .octal) → Tidy A (.dir (.byte vs))
  | word {es} : es ≠ [] → (∀ e ∈ es, ∃ x r, e = .number x r ∧ r ≠ .octal) → Tidy A (.dir (.word es))

variable {A : Prop}

theorem tidy_ascii {s : Stmt} (h : Tidy A s) (ha : A) : AsciiStmt s := by
  cases h with
  | comment _ h2 h3 =>
    intro c hc
    rcases h3 with rfl | rfl
    · exact h2 ha c hc
    · rcases List.mem_cons.mp hc with rfl | hc
      · decide
      · exact h2 ha c hc
  | byte _ h =>
    intro v hv
    obtain ⟨x, r, rfl, _⟩ := h v hv
    trivial
  | word => trivial

theorem tidy_lowers {s : Stmt} (h : Tidy A s) (hc : isCode s = true) : Lowers s s := by
  cases h with
  | comment => cases hc
  | @byte vs _ h =>
    have : vs.map lowerItem = vs := by
      rw [List.map_congr_left (g := id), List.map_id]
      intro v hv
      obtain ⟨x, r, rfl, _⟩ := h v hv
      rfl
    have h' := Lowers.byte (vs := vs)
    rwa [this] at h'
  | @word es _ h =>
    have : es.map lowerExpr = es := by
      rw [List.map_congr_left (g := id), List.map_id]
      intro v hv
      obtain ⟨x, r, rfl, _⟩ := h v hv
      rfl
    have h' := Lowers.word (es := es)
    rwa [this] at h'

theorem clean_literal {n : Nat} {r : Radix} (hr : r ≠ .octal) (hn : n < 2 ^ 31) : Clean (.number (n : Int) r) := by
  cases r with
  | octal => exact absurd rfl hr
  | decimal => exact ⟨⟨by omega, by omega⟩, by show (0 : Int) ≤ n; omega⟩
  | hex => exact ⟨⟨by omega, by omega⟩, by show (0 : Int) ≤ n; omega⟩
  | binary => exact ⟨⟨by omega, by omega⟩, by show (0 : Int) ≤ n; omega⟩

theorem tidy_clean {ss : List Stmt} {bs : List UInt8} (h : Data ss bs) (ht : ∀ s ∈ ss, Tidy A s) : ∀ s ∈ ss, CleanStmt s := by
  induction h with
  | nil => nofun
  | comment _ ih =>
    intro s hs
    rcases List.mem_cons.mp hs with rfl | hs
    · cases ht _ List.mem_cons_self with
      | comment h1 h2 h3 => exact .comment h1 h3
    · exact ih (fun s hs => ht s (List.mem_cons_of_mem _ hs)) s hs
  | @byte r xs bs b _ ih =>
    intro s hs
    rcases List.mem_cons.mp hs with rfl | hs
    · cases ht _ List.mem_cons_self with
      | byte h1 h2 =>
        refine .byte h1 fun v hv => ?_
        obtain ⟨x, r', e, hr⟩ := h2 v hv
        obtain ⟨y, _, rfl⟩ := List.mem_map.mp hv
        cases e
        have := y.toNat_lt
        exact .expr (clean_literal hr (by omega))
    · exact ih (fun s hs => ht s (List.mem_cons_of_mem _ hs)) s hs
  | str b _ ih =>
    intro s hs
    rcases List.mem_cons.mp hs with rfl | hs
    · cases ht _ List.mem_cons_self with
      | byte h1 h2 =>
        obtain ⟨x, r', e, hr⟩ := h2 _ (List.mem_singleton_self _)
        cases e
    · exact ih (fun s hs => ht s (List.mem_cons_of_mem _ hs)) s hs
  | @word r xs bs ws hw _ ih =>
    intro s hs
    rcases List.mem_cons.mp hs with rfl | hs
    · cases ht _ List.mem_cons_self with
      | word h1 h2 =>
        refine .word h1 fun v hv => ?_
        obtain ⟨x, r', e, hr⟩ := h2 v hv
        obtain ⟨y, hy, rfl⟩ := List.mem_map.mp hv
        cases e
        have := hw y hy
        exact clean_literal hr (by omega)
    · exact ih (fun s hs => ht s (List.mem_cons_of_mem _ hs)) s hs

/-- Lines of data alone give these data. -/
theorem assemble_data (m : Mode) {ss : List Stmt} {bs : List UInt8} (h : Data ss bs) (hlen : bs.length < 2147483647) :
    assemble m ss = .ok bs := by
  obtain ⟨qs, h1, h2, h3, h4, h5, h6, h7⟩ := data_placed h [] 0
  have hfit : Fits qs := fun q hq => by have := h3 q hq; omega
  have hsrc : SourceLabels ss := fun n hn => absurd hn ((data_source h).1 n)
  rcases assemble_spec m hsrc h1 hfit (.inr h6) with ⟨-, e⟩ | ⟨n, hd, -⟩
  · obtain ⟨ws, e1, e2⟩ := h7 m (fun s => namesGet [] [])
    have hr : reach qs = bs.length := by
      have h8 := stop_le_reach qs 0
      rcases reach_attained qs with h9 | ⟨q, hq, h9⟩
      · omega
      · have := h3 q hq; omega
    rw [e, h4, data_defs h]
    simp only [h5, List.reverse_nil, varsF, Res.ok_bind, e1, e2, hr]
    rw [setAll_eq (by simp)]
    simp
  · exfalso
    unfold DefinedTwice at hd
    simp [h4, h5] at hd

/-- A file with lines of data. -/
theorem tidy_file {seg : Seg} (hs : AsciiSeg seg) {ss : List Stmt} {bs : List UInt8} (h : Data ss bs) (ht : ∀ s ∈ ss, Tidy A s)
    (hlen : bs.length < 2147483647) :
    ∃ text, printStatements ss = .ok text ∧ (A → Ascii text) ∧
      ∀ contents, contents = text ∨ contents = text ++ "\n".toList → Plain seg contents → ∀ (fs : FS) (dir : Path)
      (name : Text), dir.abs = true → fs.read (dir.join (Path.parse name)) = some (utf8 contents) → ∀ m order load,
        ∃ n, ∀ fuel ≥ n, ∀ uuid macroFuel, assembleFile m seg order load uuid fs fuel macroFuel (SourceFiles.new dir) name = .ok bs := by
  have hc := tidy_clean h ht
  obtain ⟨t, K, sss, h1, h2, h3, h4, h5⟩ := printed_reads hc
  refine ⟨t, h1, fun ha => h2 fun s hs => tidy_ascii (ht s hs) ha, fun contents hco hpl fs dir name hd hr m order load => ?_⟩
  have h6 := reread_same h5 fun s hs => tidy_lowers (ht s hs)
  obtain ⟨g1, g2, g3⟩ := reread_plain h5 hc
  have key : ReadsAs contents K := by
    rcases hco with rfl | rfl
    · exact readsAs_chop h3
    · exact h3
  obtain ⟨n, hn⟩ := assemble_of_lines hs hd hr hpl key h4 g1 g2 g3 m order load
  refine ⟨n, fun fuel hf uuid mf => ?_⟩
  rw [hn fuel hf uuid mf, h6, assemble_comments, assemble_data m h hlen]

/-! ### The lines are tidy -/

theorem plain_lit {a : Text} (h : '\n' ∉ a ∧ Ascii a) : '\n' ∉ a ∧ (A → Ascii a) := ⟨h.1, fun _ => h.2⟩

theorem tidy_text {a : Text} (h1 : '\n' ∉ a) (h2 : A → Ascii a) : Tidy A (.comment a) := .comment h1 h2 (.inl rfl)

theorem plain_digits (n : Nat) : '\n' ∉ digitsOf 10 n ∧ (A → Ascii (digitsOf 10 n)) :=
  ⟨digits_no_newline digitsLoop_chars, fun _ => ascii_digits digitsLoop_chars⟩

theorem plain_append {a b : Text} (ha : '\n' ∉ a ∧ (A → Ascii a)) (hb : '\n' ∉ b ∧ (A → Ascii b)) : '\n' ∉ a ++ b ∧ (A → Ascii (a ++ b)) := by
  refine ⟨fun h => ?_, fun hA c hc => ?_⟩
  · rcases List.mem_append.mp h with h | h
    · exact ha.1 h
    · exact hb.1 h
  · rcases List.mem_append.mp hc with h | h
    · exact ha.2 hA c h
    · exact hb.2 hA c h

theorem tidy_binary {bs : List UInt8} (h : bs ≠ []) : Tidy A (binaryBytes bs) := by
  refine .byte (by simpa using h) fun v hv => ?_
  obtain ⟨b, _, rfl⟩ := List.mem_map.mp hv
  exact ⟨_, _, rfl, by decide⟩

theorem packed_ne {bits : List Bool} {pad : Bool} {bs : List UInt8} (h : PackedBits bits pad bs) (hb : bits ≠ []) : bs ≠ [] := by
  have h1 := h.length
  have h2 : 0 < bits.length := List.length_pos_iff.mpr hb
  rintro rfl
  simp at h1
  omega

theorem sprite_tidy {f : Frame} {masked header : Bool} (h : ∀ row ∈ f.rows, row ≠ []) : ∀ s ∈ f.to1BitAsm masked header, Tidy A s := by
  intro s hs
  simp only [Frame.to1BitAsm, List.mem_append] at hs
  rcases hs with (hs | hs) | hs
  · unfold spriteHead at hs
    rcases List.mem_cons.mp hs with rfl | hs
    · have : '\n' ∉ "Width: ".toList ++ digitsOf 10 f.width ++ ", Height: ".toList ++ digitsOf 10 f.height ∧
          (A → Ascii ("Width: ".toList ++ digitsOf 10 f.width ++ ", Height: ".toList ++ digitsOf 10 f.height)) :=
        plain_append (plain_append (plain_append (plain_lit (by unfold Ascii; decide)) (plain_digits _)) (plain_lit (by unfold Ascii; decide))) (plain_digits _)
      exact tidy_text this.1 this.2
    · split at hs
      · simp only [List.mem_singleton] at hs
        subst hs
        refine .byte (by simp) fun v hv => ?_
        simp only [List.mem_cons, List.not_mem_nil, or_false] at hv
        rcases hv with rfl | rfl
        · exact ⟨_, _, rfl, by decide⟩
        · exact ⟨_, _, rfl, by decide⟩
      · cases hs
  · split at hs
    · obtain ⟨r, hr, rfl⟩ := List.mem_map.mp hs
      exact tidy_binary (packed_ne (maskRow_packed r) (by simpa using h r hr))
    · cases hs
  · obtain ⟨r, hr, rfl⟩ := List.mem_map.mp hs
    exact tidy_binary (packed_ne (imageRow_packed r) (by simpa using h r hr))

theorem packRow16_tidy {map : Palette} {row : List Color} {vs : List ByteValue} (h : packRow16 map row = .ok vs) (hr : row ≠ []) :
    vs ≠ [] ∧ ∀ v ∈ vs, ∃ x r, v = .expr (.number x r) ∧ r ≠ .octal := by
  have key : ∀ {row vs}, packRow16 map row = .ok vs → ∀ v ∈ vs, ∃ x r, v = .expr (.number x r) ∧ r ≠ .octal := by
    intro row
    fun_induction packRow16 map row with
    | case1 => intro vs h; cases h; nofun
    | case2 => intro vs h; cases h
    | case3 c1 c2 row ih =>
      intro vs h
      obtain ⟨i1, _, h2⟩ := Res.bind_eq_ok.mp h
      obtain ⟨i2, _, h3⟩ := Res.bind_eq_ok.mp h2
      obtain ⟨rest, hr, h4⟩ := Res.bind_eq_ok.mp h3
      cases h4
      intro v hv
      rcases List.mem_cons.mp hv with rfl | hv
      · exact ⟨_, _, rfl, by decide⟩
      · exact ih hr v hv
  refine ⟨?_, key h⟩
  rintro rfl
  match row, hr, h with
  | c1 :: c2 :: row, _, h =>
    rw [packRow16] at h
    obtain ⟨i1, _, h2⟩ := Res.bind_eq_ok.mp h
    obtain ⟨i2, _, h3⟩ := Res.bind_eq_ok.mp h2
    obtain ⟨rest, hr, h4⟩ := Res.bind_eq_ok.mp h3
    cases h4
  | [_], _, h => cases h

theorem packRow256_tidy {map : Palette} {row : List Color} {vs : List ByteValue} (h : packRow256 map row = .ok vs) (hr : row ≠ []) :
    vs ≠ [] ∧ ∀ v ∈ vs, ∃ x r, v = .expr (.number x r) ∧ r ≠ .octal := by
  have key : ∀ {row vs}, packRow256 map row = .ok vs → ∀ v ∈ vs, ∃ x r, v = .expr (.number x r) ∧ r ≠ .octal := by
    intro row
    induction row with
    | nil => intro vs h; cases h; nofun
    | cons c row ih =>
      intro vs h
      rw [packRow256] at h
      obtain ⟨i1, _, h2⟩ := Res.bind_eq_ok.mp h
      obtain ⟨rest, hr, h4⟩ := Res.bind_eq_ok.mp h2
      cases h4
      intro v hv
      rcases List.mem_cons.mp hv with rfl | hv
      · exact ⟨_, _, rfl, by decide⟩
      · exact ih hr v hv
  refine ⟨?_, key h⟩
  rintro rfl
  match row, hr, h with
  | c1 :: row, _, h =>
    rw [packRow256] at h
    obtain ⟨i1, _, h2⟩ := Res.bind_eq_ok.mp h
    obtain ⟨rest, hr, h4⟩ := Res.bind_eq_ok.mp h2
    cases h4

theorem packRows_tidy {pack : List Color → Res (List ByteValue)}
    (hp : ∀ row vs, pack row = .ok vs → row ≠ [] → vs ≠ [] ∧ ∀ v ∈ vs, ∃ x r, v = .expr (.number x r) ∧ r ≠ .octal) :
    ∀ {rows ss}, packRows pack rows = .ok ss → (∀ row ∈ rows, row ≠ []) → ∀ s ∈ ss, Tidy A s := by
  intro rows
  induction rows with
  | nil => intro ss h; cases h; simp
  | cons row rows ih =>
    intro ss h hne
    rw [packRows] at h
    obtain ⟨bytes, hb, h2⟩ := Res.bind_eq_ok.mp h
    obtain ⟨rest, hr, h3⟩ := Res.bind_eq_ok.mp h2
    cases h3
    intro s hs
    rcases List.mem_cons.mp hs with rfl | hs
    · obtain ⟨h4, h5⟩ := hp _ _ hb (hne _ List.mem_cons_self)
      exact .byte h4 h5
    · exact ih hr (fun r hr => hne r (List.mem_cons_of_mem _ hr)) s hs

theorem frameComment_tidy {many : Bool} {idx : Nat} : ∀ s ∈ frameComment many idx, Tidy A s := by
  unfold frameComment
  intro s hs
  split at hs
  · simp only [List.mem_singleton] at hs
    subst hs
    have := plain_append (A := A) (a := "Frame ".toList) (plain_lit (by unfold Ascii; decide)) (plain_digits idx)
    refine .comment this.1 this.2 ?_
    split
    · exact .inl rfl
    · exact .inr rfl
  · cases hs

theorem packFrames16_tidy {map : Palette} {many : Bool} : ∀ {fs : List Frame} {idx ss}, packFrames16 map many idx fs = .ok ss →
    (∀ f ∈ fs, ∀ row ∈ f.rows, row ≠ []) → ∀ s ∈ ss, Tidy A s := by
  intro fs
  induction fs with
  | nil => intro idx ss h; cases h; simp
  | cons f fs ih =>
    intro idx ss h hne
    rw [packFrames16] at h
    obtain ⟨rows, hb, h2⟩ := Res.bind_eq_ok.mp h
    obtain ⟨rest, hr, h3⟩ := Res.bind_eq_ok.mp h2
    cases h3
    intro s hs
    simp only [List.mem_append] at hs
    rcases hs with (hs | hs) | hs
    · exact frameComment_tidy s hs
    · exact packRows_tidy (fun _ _ => packRow16_tidy) hb (hne _ List.mem_cons_self) s hs
    · exact ih hr (fun f hf => hne f (List.mem_cons_of_mem _ hf)) s hs

theorem packFrames256_tidy {map : Palette} : ∀ {fs : List Frame} {ss}, packFrames256 map fs = .ok ss →
    (∀ f ∈ fs, ∀ row ∈ f.rows, row ≠ []) → ∀ s ∈ ss, Tidy A s := by
  intro fs
  induction fs with
  | nil => intro ss h; cases h; simp
  | cons f fs ih =>
    intro ss h hne
    rw [packFrames256] at h
    obtain ⟨rows, hb, h2⟩ := Res.bind_eq_ok.mp h
    obtain ⟨rest, hr, h3⟩ := Res.bind_eq_ok.mp h2
    cases h3
    intro s hs
    rcases List.mem_append.mp hs with hs | hs
    · exact packRows_tidy (fun _ _ => packRow256_tidy) hb (hne _ List.mem_cons_self) s hs
    · exact ih hr (fun f hf => hne f (List.mem_cons_of_mem _ hf)) s hs

theorem tidy_words {α : Type} {l : List α} {g : α → Int} (h : l ≠ []) : Tidy A (.dir (.word (l.map fun a => .num (g a)))) := by
  refine .word (by simpa using h) fun e he => ?_
  obtain ⟨a, _, rfl⟩ := List.mem_map.mp he
  exact ⟨_, _, rfl, by decide⟩

theorem imageIcon_tidy {order : List Color → List Color} {i : Image} {map : Palette} {name : Text} {ss : List Stmt}
    (h : Image.toIcon order i map name = .ok ss) (hn : '\n' ∉ name ∧ (A → Ascii name)) (hne : ∀ f ∈ i.frames, ∀ row ∈ f.rows, row ≠ []) :
    ∀ s ∈ ss, Tidy A s := by
  unfold Image.toIcon at h
  split at h
  · obtain ⟨palette, _, h2⟩ := Res.bind_eq_ok.mp h
    have named : ∀ a b : Text, '\n' ∉ a ∧ (A → Ascii a) → '\n' ∉ b ∧ (A → Ascii b) → Tidy A (.comment ('\n' :: (a ++ name ++ b))) := by
      intro a b ha hb
      have := plain_append (plain_append ha hn) hb
      exact .comment this.1 this.2 (.inr rfl)
    obtain ⟨pixels, hp, h3⟩ : ∃ pixels, (∀ s ∈ pixels, Tidy A s) ∧
        .ok (.comment ("\nPalette for \"".toList ++ name ++ "\"".toList) ::
          (List.range (palette.length / 8)).map (paletteLine palette) ++
          .comment ("\nPixel data for \"".toList ++ name ++ "\"".toList) :: pixels) = Res.ok ss := by
      dsimp only at h2
      split at h2
      · obtain ⟨pixels, h4, h5⟩ := Res.bind_eq_ok.mp h2
        exact ⟨pixels, packFrames16_tidy h4 hne, h5⟩
      · obtain ⟨pixels, h4, h5⟩ := Res.bind_eq_ok.mp h2
        exact ⟨pixels, packFrames256_tidy h4 hne, h5⟩
    cases h3
    intro s hs
    rcases List.mem_append.mp hs with hs | hs
    · rcases List.mem_cons.mp hs with rfl | hs
      · exact named "Palette for \"".toList "\"".toList (plain_lit (by unfold Ascii; decide)) (plain_lit (by unfold Ascii; decide))
      · obtain ⟨y, _, rfl⟩ := List.mem_map.mp hs
        exact tidy_words (by decide)
    · rcases List.mem_cons.mp hs with rfl | hs
      · exact named "Pixel data for \"".toList "\"".toList (plain_lit (by unfold Ascii; decide)) (plain_lit (by unfold Ascii; decide))
      · exact hp s hs
  · cases h
    intro s hs
    obtain ⟨f, hf, hs⟩ := List.mem_flatMap.mp hs
    obtain ⟨row, hr, rfl⟩ := List.mem_map.mp hs
    exact tidy_words (hne f hf row hr)

theorem iconHead_tidy (e : Nat) : ∀ s ∈ iconHead e, Tidy A s := by
  have zeros : Tidy A (.dir (.byte (List.replicate 10 (.expr (.num 0))))) := by
    refine .byte (by decide) fun v hv => ?_
    rw [(List.mem_replicate.mp hv).2]
    exact ⟨_, _, rfl, by decide⟩
  have lead : ∀ u : Text, '\n' ∉ u ∧ (A → Ascii u) → Tidy A (.comment ('\n' :: u)) := fun u h => .comment h.1 h.2 (.inr rfl)
  intro s hs
  simp only [iconHead, List.mem_cons, List.not_mem_nil, or_false] at hs
  rcases hs with rfl | rfl | rfl | rfl | rfl | rfl | rfl | rfl | rfl
  · unfold eyecatchComment
    split
    · exact lead "Eyecatch type is 0: there is no eyecatch image.".toList (plain_lit (by unfold Ascii; decide))
    · exact lead "Eyecatch type is 1: the eyecatch is stored as a 16-bit true color image.".toList (plain_lit (by unfold Ascii; decide))
    · exact lead "Eyecatch type is 2: the eyecatch image has a 256-color palette.".toList (plain_lit (by unfold Ascii; decide))
    · exact lead "Eyecatch type is 3: the eyecatch image has a 16-color palette.".toList (plain_lit (by unfold Ascii; decide))
  · exact tidy_words (l := [()]) (g := fun _ => e) (by decide)
  · exact lead "Placeholder for CRC checksum.".toList (plain_lit (by unfold Ascii; decide))
  · exact tidy_words (l := [()]) (g := fun _ => 0) (by decide)
  · exact lead "Placeholder for file data size.".toList (plain_lit (by unfold Ascii; decide))
  · exact tidy_words (l := [(), ()]) (g := fun _ => 0) (by decide)
  · exact lead "Reserved bytes.".toList (plain_lit (by unfold Ascii; decide))
  · exact zeros
  · exact zeros

theorem icon_tidy {order : List Color → List Color} {load : Text → Res Image} {path : Text} {speed : Option Nat} {eyecatch : Option Text}
    {ss : List Stmt} (h : toIcon order load path speed eyecatch = .ok ss) (hp : '\n' ∉ path ∧ (A → Ascii path))
    (he : ∀ p, eyecatch = some p → '\n' ∉ p ∧ (A → Ascii p)) : ∀ s ∈ ss, Tidy A s := by
  have sized : ∀ {w h : Nat} {i : Image}, 0 < w → i.isSize w h = true → ∀ f ∈ i.frames, ∀ row ∈ f.rows, row ≠ [] := by
    intro w h i hw hi f hf row hr
    have := ((isSize_iff f w h).mp (List.all_eq_true.mp hi f hf)).2 row hr
    rintro rfl
    simp at this
    omega
  unfold toIcon at h
  obtain ⟨img, _, h2⟩ := Res.bind_eq_ok.mp h
  dsimp only at h2
  split at h2
  · cases h2
  · split at h2
    · cases h2
    next hsz =>
      obtain ⟨e, _, h3⟩ := Res.bind_eq_ok.mp h2
      obtain ⟨pixels, hpx, h4⟩ := Res.bind_eq_ok.mp h3
      obtain ⟨rest, hr, h5⟩ := Res.bind_eq_ok.mp h4
      cases h5
      intro s hs
      simp only [List.mem_append] at hs
      rcases hs with ((hs | hs) | hs) | hs
      · simp only [Image.toFrameCountAndSpeed, List.mem_cons, List.not_mem_nil, or_false] at hs
        rcases hs with rfl | rfl
        · have := plain_append (A := A) (plain_append (plain_append (plain_append (plain_append (a := "\"".toList) (plain_lit (by unfold Ascii; decide)) hp)
            (b := "\" Frames: ".toList) (plain_lit (by unfold Ascii; decide))) (plain_digits (img.scaleChannels 15).frames.length))
            (b := ", Speed: ".toList) (plain_lit (by unfold Ascii; decide))) (plain_digits (speed.getD 10))
          exact .comment this.1 this.2 (.inr rfl)
        · refine .word (by simp) fun e he => ?_
          simp only [List.mem_cons, List.not_mem_nil, or_false] at he
          rcases he with rfl | rfl
          · exact ⟨_, _, rfl, by decide⟩
          · exact ⟨_, _, rfl, by decide⟩
      · exact iconHead_tidy _ s hs
      · exact imageIcon_tidy hpx hp (sized (w := 32) (h := 32) (by decide) (by simpa using hsz)) s hs
      · unfold eyecatchPart at hr
        split at hr
        · cases hr; cases hs
        · split at hr
          next hz =>
            refine imageIcon_tidy hr ?_ (sized (by decide) hz) s hs
            cases eyecatch with
            | none => exact ⟨by simp, nofun⟩
            | some p => exact he p rfl
          · cases hr

/-! ### Sizes -/

theorem icon_length {bs : List UInt8} {fs : List Frame} {speed : Nat} {e : Option Frame} (h : Icon bs fs speed e)
    (hn : fs.length < 65536) : bs.length < 2147483647 := by
  obtain ⟨t, _, h1⟩ := h.eyecatch
  cases h1 <;> omega

/-- Rows of at least one and at most 255 pixels, and at most 255 of them. -/
def Small (f : Frame) : Prop := f.rows.length ≤ 255 ∧ ∀ row ∈ f.rows, 0 < row.length ∧ row.length ≤ 255

theorem small_width {f : Frame} (h : Small f) : f.width ≤ 255 := by
  rw [width_eq]
  unfold width
  cases e : f.rows with
  | nil => simp
  | cons r rs => exact (h.2 r (by rw [e]; exact List.mem_cons_self)).2

theorem flatten_length_le {α : Type} {n : Nat} : ∀ {ls : List (List α)}, (∀ l ∈ ls, l.length ≤ n) → ls.flatten.length ≤ ls.length * n := by
  intro ls
  induction ls with
  | nil => simp
  | cons l ls ih =>
    intro h
    have h1 := h l List.mem_cons_self
    have h2 := ih fun l hl => h l (List.mem_cons_of_mem _ hl)
    rw [List.flatten_cons, List.length_append, List.length_cons, Nat.succ_mul]
    omega

theorem rows_length {f : Frame} (h : Small f) {g : List Color → List UInt8} (hg : ∀ row, (g row).length = (row.length + 7) / 8) :
    (f.rows.map g).flatten.length ≤ 255 * 32 := by
  have h1 := flatten_length_le (n := 32) (ls := f.rows.map g) (by
    intro l hl
    obtain ⟨row, hr, rfl⟩ := List.mem_map.mp hl
    have := (h.2 row hr).2
    rw [hg]
    omega)
  rw [List.length_map] at h1
  have := Nat.mul_le_mul_right 32 h.1
  omega

/-- The bytes of a frame of a sprite. -/
def frameBytes (masked : Bool) (f : Frame) : List UInt8 :=
  [UInt8.ofNat f.width, UInt8.ofNat f.height] ++ (if masked then f.rows.map maskRowBytes else []).flatten ++ (f.rows.map imageRowBytes).flatten

theorem frameBytes_data {f : Frame} (h : Small f) (masked : Bool) :
    Data (f.to1BitAsm masked true) (frameBytes masked f) ∧ (frameBytes masked f).length ≤ 16322 := by
  constructor
  · have := sprite_data f masked true fun _ => ⟨small_width h, h.1⟩
    unfold frameBytes
    cases masked <;> exact this
  · have h1 := rows_length h (g := maskRowBytes) fun row => by rw [(maskRow_packed row).length, List.length_map]
    have h2 := rows_length h (g := imageRowBytes) fun row => by rw [(imageRow_packed row).length, List.length_map]
    unfold frameBytes
    rw [List.length_append, List.length_append]
    cases masked
    · simp only [List.length_cons, List.length_nil, Bool.false_eq_true, if_false, List.flatten_nil]
      omega
    · simp only [List.length_cons, List.length_nil, if_true]
      omega

theorem image_data {i : Image} (h : ∀ f ∈ i.frames, Small f) (masked : Bool) (hn : i.frames.length < 131072) :
    Data (i.to1BitAsm masked true) (i.frames.flatMap (frameBytes masked)) ∧ (∀ s ∈ i.to1BitAsm masked true, Tidy A s) ∧
      (i.frames.flatMap (frameBytes masked)).length < 2147483647 := by
  refine ⟨Data.flatMap fun f hf => (frameBytes_data (h f hf) masked).1, fun s hs => ?_, ?_⟩
  · obtain ⟨f, hf, hs⟩ := List.mem_flatMap.mp hs
    refine sprite_tidy (fun row hr => ?_) s hs
    have := (h f hf).2 row hr
    rintro rfl
    simp at this
  · have h1 := flatten_length_le (n := 16322) (ls := i.frames.map (frameBytes masked)) (by
      intro l hl
      obtain ⟨f, hf, rfl⟩ := List.mem_map.mp hl
      exact (frameBytes_data (h f hf) masked).2)
    rw [List.length_map] at h1
    rw [List.flatMap_def]
    omega

theorem plain_join : ∀ {ts : List Text}, (∀ t ∈ ts, '\n' ∉ t ∧ (A → Ascii t)) → '\n' ∉ joinWith " ".toList ts ∧ (A → Ascii (joinWith " ".toList ts))
  | [], _ => ⟨by simp [joinWith], fun _ => by unfold joinWith; nofun⟩
  | [t], h => h t List.mem_cons_self
  | t :: u :: ts, h => by
    rw [joinWith]
    exact plain_append (plain_append (h t List.mem_cons_self) (plain_lit (by unfold Ascii; decide)))
      (plain_join fun t ht => h t (List.mem_cons_of_mem _ ht))

end Verif
