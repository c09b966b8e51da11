import Verif.Spec.DataIncludes
import Verif.Lemmas.SourcesMore
import Verif.Lemmas.IncludeData
import Verif.Lemmas.ReadBack
/-
Lemmas about the includes of data.
-/
namespace Verif
open Spec

theorem noNames32 : Env32 (mapEnv []) := fun n v h => by simp [mapEnv] at h

theorem noNames_eq : mapEnv [] = fun _ => none := by funext x; simp [mapEnv]

theorem evalSpeed_iff {m : Mode} {speed : Option Expr} (h : ∀ e, speed = some e → Literals32 e) {v : Option Nat} :
    evalSpeed m speed = .ok v ↔ (speed = none ↔ v = none) ∧ IconSpeed m speed (v.getD 10) := by
  unfold evalSpeed
  cases speed with
  | none =>
    constructor
    · intro e; cases e; exact ⟨by simp, .default⟩
    · rintro ⟨e, -⟩; rw [e.mp rfl]
  | some e =>
    dsimp only
    rw [Res.bind_eq_ok]
    constructor
    · rintro ⟨x, h1, h2⟩
      cases h2
      refine ⟨by simp, .given (v := x) ?_ ?_⟩
      · rw [← noNames_eq]; exact value_of_eval noNames32 (h e rfl) h1
      · simp only [Option.getD_some]; omega
    · rintro ⟨h1, h2⟩
      generalize hk : v.getD 10 = k at h2
      cases h2 with
      | @given _ x _ h3 h4 =>
        rw [← noNames_eq] at h3
        refine ⟨x, eval_of_value noNames32 (h e rfl) h3, ?_⟩
        cases v with
        | none => simp at h1
        | some v =>
          simp only [Option.getD_some] at hk
          subst hk
          rw [← h4]
          simp

theorem evalSpeed_err {m : Mode} {speed : Option Expr} (h : ∀ e, speed = some e → Literals32 e) {x : Err} :
    evalSpeed m speed = .err x ↔ ∃ e, speed = some e ∧ Fails m (fun _ => none) e x := by
  unfold evalSpeed
  cases speed with
  | none => simp
  | some e =>
    dsimp only
    rw [Res.bind_eq_err]
    constructor
    · rintro (h1 | ⟨_, _, h1⟩)
      · exact ⟨e, rfl, by rw [← noNames_eq]; exact fails_of_eval noNames32 e (h e rfl) h1⟩
      · cases h1
    · rintro ⟨e', h1, h2⟩
      cases h1
      rw [← noNames_eq] at h2
      exact .inl (eval_of_fails noNames32 (h e rfl) h2)

theorem iconSpeed_evaluates {m : Mode} {speed : Option Expr} {k : Nat} (h : IconSpeed m speed k) (hl : ∀ e, speed = some e → Literals32 e) :
    ∃ v, evalSpeed m speed = .ok v ∧ v.getD 10 = k := by
  cases speed with
  | none => cases h; exact ⟨none, rfl, rfl⟩
  | some e => exact ⟨some k, (evalSpeed_iff hl).mpr ⟨by simp, h⟩, rfl⟩

/-- The eyecatch of an icon: looking up both paths. -/
theorem eyecatch_iff {fs : FS} {sf : SourceFiles} {file : Path} {eye : Option ByteValue} {path : Option Text} :
    (∃ t, eyecatchPath eye = .ok t ∧ fixEyecatch fs sf file t = .ok path) ↔ EyecatchPath fs sf.workingDir file eye path := by
  constructor
  · rintro ⟨t, h1, h2⟩
    unfold eyecatchPath at h1
    split at h1
    · cases h1
      cases h2
      exact .none
    · next bs =>
      split at h1
      · next t' ht =>
        cases h1
        obtain ⟨q, h3, h4⟩ := Res.bind_eq_ok.mp h2
        cases h4
        rw [← decodeUtf8_iff.mp ht]
        exact .some (path_iff.mp h3)
      · cases h1
    · cases h1
  · intro h
    cases h with
    | none => exact ⟨none, rfl, rfl⟩
    | @some t q h =>
      refine ⟨some t, ?_, ?_⟩
      · unfold eyecatchPath
        dsimp only
        rw [decodeUtf8_iff.mpr rfl]
      · unfold fixEyecatch
        dsimp only
        rw [path_iff.mpr h]
        rfl

theorem eyecatchPath_err {eye : Option ByteValue} {x : Err} : eyecatchPath eye = .err x ↔ ∃ e, x = .invalidPath e.print ∧ eye = some (.expr e) := by
  unfold eyecatchPath
  split
  · simp
  · split <;> simp
  · simp [eq_comm]

theorem path_not_err {fs : FS} {sf : SourceFiles} {root q : Path} {x : Err} : sf.path fs (some root) q ≠ .err x := by
  intro h
  unfold SourceFiles.path at h
  dsimp only at h
  split at h
  · rw [Res.ok_bind] at h; split at h <;> cases h
  · split at h
    · rw [Res.ok_bind] at h; split at h <;> cases h
    · split at h
      · rw [Res.ok_bind] at h; split at h <;> cases h
      · cases h

theorem fixEyecatch_not_err {fs : FS} {sf : SourceFiles} {file : Path} {t : Option Text} {x : Err} :
    fixEyecatch fs sf file t ≠ .err x := by
  intro h
  unfold fixEyecatch at h
  split at h
  · cases h
  · rcases Res.bind_eq_err.mp h with h | ⟨_, _, h⟩
    · exact path_not_err h
    · cases h

/-- The steps of an include of an icon. -/
theorem includeIcon_eq {m : Mode} {order : List Color → List Color} {load : Text → Res Image} {fs : FS} {file : Path}
    {sf : SourceFiles} {speed : Option Expr} {eye : Option ByteValue} {name : Text} (hl : ∀ e, speed = some e → Literals32 e)
    {k : Nat} {path : Option Text} {q : Path} (hs : IconSpeed m speed k) (he : EyecatchPath fs sf.workingDir file eye path)
    (hq : Resolves fs sf.workingDir (some file) (Path.parse name) q) :
    ∃ v, v.getD 10 = k ∧
      includeData m order load fs file sf (.dir (.incl (.icon speed eye) name)) = toIcon order load q.render v path := by
  obtain ⟨v, h1, h2⟩ := iconSpeed_evaluates hs hl
  obtain ⟨t, h3, h4⟩ := eyecatch_iff.mpr he
  refine ⟨v, h2, ?_⟩
  unfold includeData
  dsimp only
  rw [h1, Res.ok_bind, h3, Res.ok_bind, path_iff.mpr hq, Res.ok_bind, h4, Res.ok_bind]

theorem iconSpeed_small {m : Mode} {speed : Option Expr} {k : Nat} (h : IconSpeed m speed k) : k < 65536 := by
  cases h with
  | default => decide
  | given _ h => omega

theorem toIcon_err {order : List Color → List Color} (ho : ∀ l, (order l).Perm l) {load : Text → Res Image} {path : Text}
    {speed : Option Nat} {epath : Option Text} {x : Err} (h : toIcon order load path speed epath = .err x) :
    load path = .err x ∨ ∃ i, load path = .ok i ∧
      ((∃ n, ColourCount n (pixels i) ∧ 16 < n ∧ x = .invalidPaletteSize path n 16) ∨ ColoursAtMost 16 (pixels i) ∧
        ((¬ (∀ f ∈ i.frames, HasSize 32 32 f) ∧ x = .invalidIconSize path 32 32) ∨ (∀ f ∈ i.frames, HasSize 32 32 f) ∧
          ((∃ p, epath = some p ∧ load p = .err x) ∨
            ∃ p f, epath = some p ∧ EyecatchFrame load epath (some f) ∧ ¬ HasSize 72 56 f ∧ x = .invalidIconSize p 72 56))) := by
  unfold toIcon at h
  rcases Res.bind_eq_err.mp h with h | ⟨i, hi, h⟩
  · exact .inl h
  · refine .inr ⟨i, hi, ?_⟩
    dsimp only at h
    split at h
    · next hn =>
      cases h
      exact .inl ⟨_, ⟨(palette_count i _).mp (Nat.le_refl _), fun k hk => (palette_count i k).mpr hk⟩, hn, rfl⟩
    · next hn =>
      have hc := (palette_count i 16).mp (by omega)
      refine .inr ⟨hc, ?_⟩
      split at h
      · next hz =>
        cases h
        refine .inl ⟨fun h => ?_, rfl⟩
        have h' : (i.scaleChannels 15).isSize 32 32 = true := (imageSize_iff i 32 32).mpr h
        rw [h'] at hz
        cases hz
      · next hz =>
        have hsz : ∀ f ∈ i.frames, HasSize 32 32 f := (imageSize_iff i 32 32).mp (by simpa using hz)
        refine .inr ⟨hsz, ?_⟩
        rcases Res.bind_eq_err.mp h with h | ⟨e, he, h⟩
        · cases epath with
          | none => cases h
          | some p =>
            unfold loadEyecatch at h
            rcases Res.bind_eq_err.mp h with h | ⟨j, _, h⟩
            · exact .inl ⟨p, rfl, h⟩
            · unfold Image.asStill at h
              split at h <;> cases h
        · obtain ⟨s1, pal, px, e1, -⟩ := toIcon_16 ho hsz path (by decide) (by omega)
          rw [e1, Res.ok_bind] at h
          rcases Res.bind_eq_err.mp h with h | ⟨_, _, h⟩
          · cases epath with
            | none => cases he; cases h
            | some p =>
              unfold loadEyecatch at he
              obtain ⟨j, hj, he⟩ := Res.bind_eq_ok.mp he
              unfold Image.asStill at he
              cases hf : j.frames with
              | nil => rw [hf] at he; cases he
              | cons f fs =>
                rw [hf] at he
                simp only [Res.ok_bind, Res.ok.injEq] at he
                subst he
                by_cases hz : HasSize 72 56 f
                · obtain ⟨s, b, q1, -⟩ := eyecatch_part ho hz ((some p).getD [])
                  rw [q1] at h
                  cases h
                · unfold eyecatchPart at h
                  dsimp only at h
                  split at h
                  · next hb => exact absurd ((imageSize_iff ⟨[f]⟩ 72 56).mp hb f (by simp)) hz
                  · cases h
                    exact .inr ⟨p, f, rfl, .some hj hf, hz, rfl⟩
          · cases h

theorem spriteBytes {masked header : Bool} : ∀ {fs : List Frame},
    (header = true → ∀ f ∈ fs, width f ≤ 255 ∧ f.rows.length ≤ 255) →
    ∃ bs, FramesBytes darkBit masked header fs bs ∧ Data (fs.flatMap fun f => f.to1BitAsm masked header) bs
  | [], _ => ⟨[], .nil, .nil⟩
  | f :: fs, h => by
    obtain ⟨bs, h1, h2⟩ := spriteBytes (masked := masked) (header := header) (fs := fs)
      fun e g hg => h e g (List.mem_cons_of_mem _ hg)
    have hd := sprite_data f masked header (by rw [width_eq]; exact fun e => h e f List.mem_cons_self)
    refine ⟨_, .cons (sprite_frame masked header f) h1, ?_⟩
    rw [List.flatMap_cons]
    refine Spec.Data.append ?_ h2
    cases masked <;> exact hd

theorem includeSprite_eq {m : Mode} {order : List Color → List Color} {load : Text → Res Image} {fs : FS} {file : Path}
    {sf : SourceFiles} {t : SpriteType} {header : Bool} {name : Text} {q : Path}
    (hq : Resolves fs sf.workingDir (some file) (Path.parse name) q) :
    includeData m order load fs file sf (.dir (.incl (.sprite t header) name)) = (do
      let image ← load q.render
      let _ ← checkSprite image header
      .ok (.comment (spriteComment q.render t header) :: image.to1BitAsm (t = .masked) header)) := by
  unfold includeData
  dsimp only
  rw [path_iff.mpr hq, Res.ok_bind]

theorem checkSprite_eq {i : Image} {f : Frame} {rest : List Frame} (hf : i.frames = f :: rest) (header : Bool) :
    checkSprite i header = if header = true then (if 255 < width f then .err (.spriteTooWide (width f) 255)
      else if 255 < f.rows.length then .err (.spriteTooTall f.rows.length 255) else .ok ()) else .ok () := by
  unfold checkSprite Image.width Image.height
  rw [hf]
  simp only [Res.ok_bind, width_eq, Frame.height, GT.gt]

/-- What an include of data stands for. -/
theorem includeData_ok {m : Mode} {order : List Color → List Color} (ho : ∀ l, (order l).Perm l) {load : Text → Res Image}
    (hl : LoadsFrames load) (hv : EvenFrames load) {fs : FS} {file : Path} {sf : SourceFiles} {t : IncludeType} {name : Text}
    (hi : IconText (.incl t name)) {stmts : List Stmt}
    (h : includeData m order load fs file sf (.dir (.incl t name)) = .ok stmts) :
    ∃ bs, IncludedData m fs sf.workingDir load darkBit file t name bs ∧ Data stmts bs := by
  cases t with
  | asm => cases h
  | cHeader => cases h
  | bytes =>
    obtain ⟨q, bs, h1, h2, rfl⟩ := includeData_bytes.mp h
    refine ⟨bs, .bytes h1 h2, ?_⟩
    have := Data.byte (r := .hex) bs Data.nil
    rw [List.append_nil] at this
    exact this
  | icon speed eye =>
    obtain ⟨h1, h2⟩ := hi speed eye name rfl
    have h0 := h
    unfold includeData at h
    dsimp only at h
    obtain ⟨v, k1, h⟩ := Res.bind_eq_ok.mp h
    obtain ⟨e, k2, h⟩ := Res.bind_eq_ok.mp h
    obtain ⟨q, k3, h⟩ := Res.bind_eq_ok.mp h
    obtain ⟨path, k4, h⟩ := Res.bind_eq_ok.mp h
    obtain ⟨i, f, g1, g2, g3, g4, g5⟩ := icon_only h
    have hs := ((evalSpeed_iff h1).mp k1).2
    obtain ⟨s, bs, c1, c2, c3⟩ := icon_ok ho g1 (hv _ i g1).1 (iconSpeed_small hs) g2 g3 g4 g5
    have := h.symm.trans c1
    cases this
    exact ⟨bs, .icon hs (eyecatch_iff.mp ⟨e, k2, k4⟩) (path_iff.mp k3) g1 g3 g2 g4 g5 c3, c2⟩
  | sprite t header =>
    unfold includeData at h
    dsimp only at h
    obtain ⟨q, k1, h⟩ := Res.bind_eq_ok.mp h
    obtain ⟨i, k2, h⟩ := Res.bind_eq_ok.mp h
    obtain ⟨u, k3, h⟩ := Res.bind_eq_ok.mp h
    cases h
    have hne := (hl _).2.2 i k2
    obtain ⟨f, rest, hf⟩ : ∃ f rest, i.frames = f :: rest := by
      cases hf : i.frames with
      | nil => exact absurd hf hne
      | cons f rest => exact ⟨f, rest, rfl⟩
    rw [checkSprite_eq hf] at k3
    have hfit : header = true → ∀ f ∈ i.frames, width f ≤ 255 ∧ f.rows.length ≤ 255 := by
      intro hh g hg
      rw [if_pos hh] at k3
      split at k3
      · cases k3
      · split at k3
        · cases k3
        · obtain ⟨a, b⟩ := (hv _ i k2).2 g hg f (by rw [hf]; simp)
          omega
    obtain ⟨bs, b1, b2⟩ := spriteBytes (masked := decide (t = .masked)) hfit
    exact ⟨bs, .sprite (path_iff.mp k1) k2 hfit b1, .comment b2⟩

theorem includeData_complete {m : Mode} {order : List Color → List Color} (ho : ∀ l, (order l).Perm l) {load : Text → Res Image}
    (hl : LoadsFrames load) (hv : EvenFrames load) {fs : FS} {file : Path} {sf : SourceFiles} {t : IncludeType} {name : Text}
    (hi : IconText (.incl t name)) {dark : Color → Bool} {bs : List UInt8}
    (h : IncludedData m fs sf.workingDir load dark file t name bs) :
    ∃ stmts, includeData m order load fs file sf (.dir (.incl t name)) = .ok stmts := by
  cases h with
  | bytes h1 h2 => exact ⟨_, includeData_bytes.mpr ⟨_, _, h1, h2, rfl⟩⟩
  | icon h1 h2 h3 h4 h5 h6 h7 h8 h9 =>
    obtain ⟨v, rfl, e⟩ := includeIcon_eq (order := order) (load := load) (hi _ _ _ rfl).1 h1 h2 h3
    obtain ⟨s, _, c1, -⟩ := icon_ok ho h4 (hv _ _ h4).1 (iconSpeed_small h1) h6 h5 h7 h8
    exact ⟨s, e.trans c1⟩
  | @sprite t header _ q i _ h1 h2 h3 h4 =>
    obtain ⟨f, rest, hf⟩ : ∃ f rest, i.frames = f :: rest := by
      cases hf : i.frames with
      | nil => exact absurd hf ((hl _).2.2 i h2)
      | cons f rest => exact ⟨f, rest, rfl⟩
    have hc : checkSprite i header = .ok () := by
      rw [checkSprite_eq hf]
      cases header with
      | false => rfl
      | true =>
        obtain ⟨a, b⟩ := h3 rfl f (by rw [hf]; simp)
        rw [if_pos rfl, if_neg (by omega), if_neg (by omega)]
    refine ⟨.comment (spriteComment q.render t header) :: i.to1BitAsm (t = .masked) header, ?_⟩
    rw [includeSprite_eq h1, h2, Res.ok_bind, hc, Res.ok_bind]

/-- What is wrong with an include of data. -/
theorem includeData_err {m : Mode} {order : List Color → List Color} (ho : ∀ l, (order l).Perm l) {load : Text → Res Image}
    (hl : LoadsFrames load) {fs : FS} {file : Path} {sf : SourceFiles} {t : IncludeType} {name : Text}
    (hi : IconText (.incl t name)) {x : Err} :
    includeData m order load fs file sf (.dir (.incl t name)) = .err x ↔ DataFault m fs sf.workingDir load file t name x := by
  constructor
  · intro h
    cases t with
    | asm => cases h
    | cHeader => cases h
    | bytes =>
      unfold includeData at h
      dsimp only at h
      rcases Res.bind_eq_err.mp h with h | ⟨q, h1, h⟩
      · exact absurd h path_not_err
      · rcases Res.bind_eq_err.mp h with h | ⟨_, _, h⟩
        · unfold loadBytes at h
          split at h
          · cases h
          · next hr => cases h; exact .bytes (path_iff.mp h1) hr
        · cases h
    | icon speed eye =>
      obtain ⟨h1, h2⟩ := hi speed eye name rfl
      unfold includeData at h
      dsimp only at h
      rcases Res.bind_eq_err.mp h with h | ⟨v, k1, h⟩
      · obtain ⟨e, rfl, hf⟩ := (evalSpeed_err h1).mp h
        exact .speed hf
      have hs := ((evalSpeed_iff h1).mp k1).2
      rcases Res.bind_eq_err.mp h with h | ⟨e, k2, h⟩
      · obtain ⟨e, rfl, rfl⟩ := eyecatchPath_err.mp h
        exact .eyecatch hs
      rcases Res.bind_eq_err.mp h with h | ⟨q, k3, h⟩
      · exact absurd h path_not_err
      rcases Res.bind_eq_err.mp h with h | ⟨path, k4, h⟩
      · exact absurd h fixEyecatch_not_err
      have he := eyecatch_iff.mp ⟨e, k2, k4⟩
      have hq := path_iff.mp k3
      rcases toIcon_err ho h with h | ⟨i, h3, ⟨n, h4, h5, rfl⟩ | ⟨h4, ⟨h5, rfl⟩ | ⟨h5, ⟨p, rfl, h6⟩ | ⟨p, f, rfl, h6, h7, rfl⟩⟩⟩⟩
      · exact .icon hs he hq h
      · exact .colours hs he hq h3 h4 h5
      · exact .size hs he hq h3 h4 h5
      · exact .eyecatchFile hs he hq h3 h4 h5 h6
      · exact .eyecatchSize hs he hq h3 h4 h5 h6 h7
    | sprite t header =>
      unfold includeData at h
      dsimp only at h
      rcases Res.bind_eq_err.mp h with h | ⟨q, k1, h⟩
      · exact absurd h path_not_err
      rcases Res.bind_eq_err.mp h with h | ⟨i, k2, h⟩
      · exact .sprite (path_iff.mp k1) h
      rcases Res.bind_eq_err.mp h with h' | ⟨_, _, h⟩
      · obtain ⟨f, rest, hf⟩ : ∃ f rest, i.frames = f :: rest := by
          cases hf : i.frames with
          | nil => exact absurd hf ((hl _).2.2 i k2)
          | cons f rest => exact ⟨f, rest, rfl⟩
        rw [checkSprite_eq hf] at h'
        split at h'
        · next hh =>
          subst hh
          split at h'
          · next hw => cases h'; exact .wide (path_iff.mp k1) k2 hf hw
          · split at h'
            · next hw ht => cases h'; exact .tall (path_iff.mp k1) k2 hf (by omega) ht
            · cases h'
        · cases h'
      · cases h
  · intro h
    cases h with
    | bytes h1 h2 =>
      unfold includeData
      dsimp only
      rw [path_iff.mpr h1, Res.ok_bind, loadBytes, h2]
      rfl
    | speed h1 =>
      unfold includeData
      dsimp only
      rw [(evalSpeed_err (hi _ _ _ rfl).1).mpr ⟨_, rfl, h1⟩]
      rfl
    | eyecatch h1 =>
      obtain ⟨v, h2, -⟩ := iconSpeed_evaluates h1 (hi _ _ _ rfl).1
      unfold includeData
      dsimp only
      rw [h2, Res.ok_bind]
      rfl
    | icon h1 h2 h3 h4 =>
      obtain ⟨v, -, e⟩ := includeIcon_eq (order := order) (load := load) (hi _ _ _ rfl).1 h1 h2 h3
      rw [e, toIcon, h4]
      rfl
    | colours h1 h2 h3 h4 h5 h6 =>
      obtain ⟨v, -, e⟩ := includeIcon_eq (order := order) (load := load) (hi _ _ _ rfl).1 h1 h2 h3
      obtain ⟨n, c1, c2, c3⟩ := (icon_errors ho h4 v _).1 fun h' => by have := h5.2 _ h'; omega
      rw [e, c3]
      have a := h5.2 n c1
      have : n = _ := Nat.le_antisymm (Nat.le_of_not_lt fun hlt => c2 ?_) a
      · rw [this]
      · obtain ⟨⟨l, l1, l2⟩, -⟩ := h5
        exact ⟨l, by omega, l2⟩
    | size h1 h2 h3 h4 h5 h6 =>
      obtain ⟨v, -, e⟩ := includeIcon_eq (order := order) (load := load) (hi _ _ _ rfl).1 h1 h2 h3
      rw [e, (icon_errors ho h4 v _).2.1 h5 h6]
    | @eyecatchFile _ _ _ _ _ _ i _ h1 h2 h3 h4 h5 h6 h7 =>
      obtain ⟨v, -, e⟩ := includeIcon_eq (order := order) (load := load) (hi _ _ _ rfl).1 h1 h2 h3
      have hp := (palette_count i 16).mpr h5
      rw [e, toIcon, h4, Res.ok_bind]
      dsimp only
      rw [if_neg (by omega), if_neg (by rw [(imageSize_iff i 32 32).mpr h6]; decide), loadEyecatch]
      rw [h7]
      rfl
    | eyecatchSize h1 h2 h3 h4 h5 h6 h7 h8 =>
      obtain ⟨v, -, e⟩ := includeIcon_eq (order := order) (load := load) (hi _ _ _ rfl).1 h1 h2 h3
      obtain ⟨p, hp, h9⟩ := (icon_errors ho h4 v _).2.2 _ h5 h6 h7 h8
      cases hp
      rw [e, h9]
    | sprite h1 h2 =>
      rw [includeSprite_eq h1, h2]
      rfl
    | wide h1 h2 h3 h4 =>
      rw [includeSprite_eq h1, h2, Res.ok_bind, checkSprite_eq h3, if_pos rfl, if_pos h4]
      rfl
    | tall h1 h2 h3 h4 h5 =>
      rw [includeSprite_eq h1, h2, Res.ok_bind, checkSprite_eq h3, if_pos rfl, if_neg (by omega), if_pos h5]
      rfl

/-- The main file and the working directory of a program that was read. -/
theorem readProgram_dir {seg : Seg} {fs : FS} {dir : Path} (hd : dir.abs = true) {name : Text} {fuel : Nat} {p path sf}
    (h : readProgram seg fs fuel (SourceFiles.new dir) name = .ok (p, path, sf)) :
    path = dir.join (Path.parse name) ∧ sf.workingDir = dir := by
  obtain ⟨main, rfl, h'⟩ := readProgram_steps (seg := seg) (fs := fs) hd name
  rcases h' with ⟨e, h'⟩ | ⟨f, t, sf, hg, hr, h'⟩
  · rw [h'] at h; cases h
  · rw [h'] at h
    obtain ⟨toks, h1, h⟩ := Res.bind_eq_ok.mp h
    obtain ⟨⟨o, sf'⟩, h2, h⟩ := Res.bind_eq_ok.mp h
    obtain ⟨p', h3, h⟩ := Res.bind_eq_ok.mp h
    cases h
    exact ⟨rfl, (replace_good hg h2).dir⟩

section
variable {m : Mode} {order : List Color → List Color} {load : Text → Res Image} {fs : FS} {file : Path} {sf : SourceFiles}

theorem replaceData_ok (ho : ∀ l, (order l).Perm l) (hl : LoadsFrames load) (hv : EvenFrames load) :
    ∀ {ss out : List Stmt}, (∀ d, .dir d ∈ ss → IconText d) → replaceData (includeData m order load fs file sf) ss = .ok out →
      AfterIncludes m fs sf.workingDir load darkBit file ss out
  | [], _, _, h => by cases h; exact .nil
  | s :: ss, out, hi, h => by
    rw [replaceData] at h
    obtain ⟨a, h1, h⟩ := Res.bind_eq_ok.mp h
    obtain ⟨b, h2, h⟩ := Res.bind_eq_ok.mp h
    cases h
    have ih := replaceData_ok ho hl hv (fun d hd => hi d (List.mem_cons_of_mem _ hd)) h2
    by_cases hs : ∃ t name, s = .dir (.incl t name)
    · obtain ⟨t, name, rfl⟩ := hs
      obtain ⟨bs, h3, h4⟩ := includeData_ok ho hl hv (hi _ List.mem_cons_self) h1
      exact .data h3 h4 ih
    · have hn : ∀ t name, s ≠ .dir (.incl t name) := fun t name e => hs ⟨t, name, e⟩
      rw [includeData_none hn] at h1
      cases h1
      exact .other hn ih

theorem replaceData_complete (ho : ∀ l, (order l).Perm l) (hl : LoadsFrames load) (hv : EvenFrames load) :
    ∀ {ss : List Stmt}, (∀ d, .dir d ∈ ss → IconText d) →
      (∀ t name, .dir (.incl t name) ∈ ss → ∃ dark bs, IncludedData m fs sf.workingDir load dark file t name bs) →
      ∃ out, replaceData (includeData m order load fs file sf) ss = .ok out
  | [], _, _ => ⟨[], rfl⟩
  | s :: ss, hi, h => by
    obtain ⟨b, hb⟩ := replaceData_complete ho hl hv (fun d hd => hi d (List.mem_cons_of_mem _ hd))
      fun t name ht => h t name (List.mem_cons_of_mem _ ht)
    by_cases hs : ∃ t name, s = .dir (.incl t name)
    · obtain ⟨t, name, rfl⟩ := hs
      obtain ⟨dark, bs, h1⟩ := h t name List.mem_cons_self
      obtain ⟨a, ha⟩ := includeData_complete (order := order) ho hl hv (hi _ List.mem_cons_self) h1
      exact ⟨a ++ b, by rw [replaceData, ha, Res.ok_bind, hb, Res.ok_bind]⟩
    · exact ⟨[s] ++ b, by rw [replaceData, includeData_none fun t name e => hs ⟨t, name, e⟩, Res.ok_bind, hb, Res.ok_bind]⟩

theorem afterIncludes_all {dir : Path} {dark : Color → Bool} {ss out : List Stmt} (h : AfterIncludes m fs dir load dark file ss out) :
    ∀ t name, .dir (.incl t name) ∈ ss → ∃ bs, IncludedData m fs dir load dark file t name bs := by
  induction h with
  | nil => nofun
  | other hn _ ih =>
    intro t name ht
    rcases List.mem_cons.mp ht with e | ht
    · exact absurd e.symm (hn t name)
    · exact ih t name ht
  | data h1 _ _ ih =>
    intro t name ht
    rcases List.mem_cons.mp ht with e | ht
    · cases e; exact ⟨_, h1⟩
    · exact ih t name ht

theorem replaceData_err (ho : ∀ l, (order l).Perm l) (hl : LoadsFrames load) (hv : EvenFrames load) {x : Err} :
    ∀ {ss : List Stmt}, (∀ d, .dir d ∈ ss → IconText d) →
      (replaceData (includeData m order load fs file sf) ss = .err x ↔ ∃ before t name after,
        ss = before ++ .dir (.incl t name) :: after ∧
        (∀ t name, .dir (.incl t name) ∈ before → ∃ dark bs, IncludedData m fs sf.workingDir load dark file t name bs) ∧
        DataFault m fs sf.workingDir load file t name x)
  | [], _ => by simp [replaceData]
  | s :: ss, hi => by
    have hi' : ∀ d, .dir d ∈ ss → IconText d := fun d hd => hi d (List.mem_cons_of_mem _ hd)
    have ih := replaceData_err ho hl hv (x := x) hi'
    rw [replaceData]
    constructor
    · intro h
      rcases Res.bind_eq_err.mp h with h | ⟨a, h1, h⟩
      · by_cases hs : ∃ t name, s = .dir (.incl t name)
        · obtain ⟨t, name, rfl⟩ := hs
          exact ⟨[], t, name, ss, rfl, nofun, (includeData_err ho hl (hi _ List.mem_cons_self)).mp h⟩
        · rw [includeData_none fun t name e => hs ⟨t, name, e⟩] at h
          cases h
      · rcases Res.bind_eq_err.mp h with h | ⟨_, _, h⟩
        · obtain ⟨before, t, name, after, rfl, h2, h3⟩ := ih.mp h
          refine ⟨s :: before, t, name, after, rfl, fun t' name' ht => ?_, h3⟩
          rcases List.mem_cons.mp ht with rfl | ht
          · obtain ⟨bs, h4, -⟩ := includeData_ok ho hl hv (hi _ List.mem_cons_self) h1
            exact ⟨_, bs, h4⟩
          · exact h2 t' name' ht
        · cases h
    · rintro ⟨before, t, name, after, e, h2, h3⟩
      cases before with
      | nil =>
        cases e
        rw [(includeData_err ho hl (hi _ List.mem_cons_self)).mpr h3]
        rfl
      | cons s' before =>
        cases e
        obtain ⟨a, ha⟩ : ∃ a, includeData m order load fs file sf s = .ok a := by
          by_cases hs : ∃ t name, s = .dir (.incl t name)
          · obtain ⟨t', name', rfl⟩ := hs
            obtain ⟨dark, bs, h4⟩ := h2 t' name' List.mem_cons_self
            exact includeData_complete ho hl hv (hi _ List.mem_cons_self) h4
          · exact ⟨_, includeData_none fun t name e => hs ⟨t, name, e⟩⟩
        rw [ha, Res.ok_bind, ih.mpr ⟨before, t, name, after, rfl, fun t n ht => h2 t n (List.mem_cons_of_mem _ ht), h3⟩]
        rfl

end

end Verif
