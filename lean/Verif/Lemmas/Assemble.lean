import Verif.Lemmas.GenPass
import Verif.Lemmas.ExprEval
/-
Helper lemmas: the whole assembler against the specification.
-/
namespace Verif
open Spec

theorem namesGet_eq (g l : List (Text × Int)) : namesGet g l = meaning g l := by
  funext n
  unfold namesGet meaning
  have : (n.head? = some '.') ↔ dotted n = true := by
    rw [← isDotted_eq]; simp [isDotted]
  by_cases h : dotted n = true
  · rw [if_pos (this.mpr h), if_pos h]
  · rw [if_neg (fun h' => h (this.mp h')), if_neg h]

theorem namesGet_reverse {g l : List (Text × Int)} (hg : (g.map (·.1)).Nodup) (hl : (l.map (·.1)).Nodup) :
    namesGet g.reverse l.reverse = meaning g l := by
  rw [namesGet_eq]
  funext n
  unfold meaning
  rw [lookup_reverse hg, lookup_reverse hl]

/-- assemble as: labels, then variables, then bytes. -/
theorem assemble_spec (m : Mode) {stmts : List Stmt} {ps : List Placed} (hsrc : SourceLabels stmts)
    (hl : layout stmts = some ps) (hfit : Fits ps) (hc : m = .wrapping ∨ CnopForward ps) :
    (LabelsDistinct ps ∧
      assemble m stmts = (varsF m (globalLabels ps).reverse (definitions stmts) >>= fun g =>
        emitAllF m (fun s => namesGet g (localLabels s ps).reverse) ps >>= fun ws =>
          .ok (image (List.replicate (reach ps) 0) ws))) ∨
    (∃ n, DefinedTwice ps n ∧ assemble m stmts = .err (.nameAlreadyExists n)) := by
  rcases computeNames_spec m hsrc hl hfit with ⟨hd, locals, hlk, h⟩ | ⟨n, h1, h2⟩
  · left
    refine ⟨hd, ?_⟩
    unfold assemble
    rw [h]
    cases varsF m (globalLabels ps).reverse (definitions stmts) with
    | ok g =>
      simp only [Res.ok_bind]
      rw [if_neg (by omega)]
      have hlen : ∀ q ∈ ps, q.end_ ≤ (List.replicate ((reach ps : Int) + 1 - 1).toNat (0 : UInt8)).length := by
        rw [List.length_replicate, show ((reach ps : Int) + 1 - 1).toNat = reach ps by omega]
        clear hlk h hd hl hfit hc
        intro q hq
        induction ps with
        | nil => cases hq
        | cons q' qs ih =>
          simp only [reach]
          rcases List.mem_cons.mp hq with rfl | hq
          · omega
          · have := ih hq; omega
      obtain ⟨sc', h⟩ := gen_run m ⟨g, locals⟩ (fun s => (localLabels s ps).reverse) stmts 0 [] ps _ hsrc hl
        (by omega) hfit hlk hlen hc
      rw [h, show ((reach ps : Int) + 1 - 1).toNat = reach ps by omega]
      cases emitAllF m (fun s => namesGet g (localLabels s ps).reverse) ps with
      | ok ws => simp only [Res.ok_bind]
      | err e => simp only [Res.err_bind]
      | panic => simp only [Res.panic_bind]
      | loop => simp only [Res.loop_bind]
    | err e => simp only [Res.err_bind]
    | panic => simp only [Res.panic_bind]
    | loop => simp only [Res.loop_bind]
  · right
    refine ⟨n, h1, ?_⟩
    unfold assemble
    rw [h2, Res.err_bind]

theorem lowByte_toNat {v : Int} (h : inI32 v) : ((lowByte v).toNat : Int) = v % 256 := by
  unfold lowByte
  rw [lower_eq h]
  simp only [UInt8.toNat_ofNat']
  omega

theorem intBit_mod65536 (x : Int) (i : Nat) : intBit (x % 65536) i = (intBit x i && intBit 0xFFFF i) := by
  by_cases hi : i < 16
  · have h1 : intBit 0xFFFF i = true := by
      have : ∀ i, i < 16 → intBit 0xFFFF i = true := by decide
      exact this i hi
    rw [h1, Bool.and_true]
    unfold intBit
    have hc : i = 0 ∨ i = 1 ∨ i = 2 ∨ i = 3 ∨ i = 4 ∨ i = 5 ∨ i = 6 ∨ i = 7 ∨
      i = 8 ∨ i = 9 ∨ i = 10 ∨ i = 11 ∨ i = 12 ∨ i = 13 ∨ i = 14 ∨ i = 15 := by omega
    congr 1
    apply propext
    rcases hc with rfl | rfl | rfl | rfl | rfl | rfl | rfl | rfl | rfl | rfl | rfl | rfl | rfl | rfl | rfl | rfl <;>
      simp only [Int.reducePow] <;> omega
  · have hp : (65536 : Int) ≤ 2 ^ i := by
      have h2 : ((2 ^ 16 : Nat) : Int) ≤ ((2 ^ i : Nat) : Int) :=
        Int.ofNat_le.mpr (Nat.pow_le_pow_right (by omega) (by omega))
      rw [Int.natCast_pow] at h2
      rw [Int.natCast_pow] at h2
      exact h2
    have h1 : intBit 0xFFFF i = false := by
      unfold intBit
      rw [Int.ediv_eq_zero_of_lt (by omega) (by omega)]; rfl
    rw [h1, Bool.and_false]
    unfold intBit
    rw [Int.ediv_eq_zero_of_lt (by omega) (by omega)]; rfl

theorem lowWord_eq {a : Int} (h : inI32 a) : i32and a 0xFFFF = a % 65536 := by
  apply bitwise_unique (i32and_spec (b := 65535) h (by decide))
  intro i
  exact intBit_mod65536 a i

theorem word_bytes {v : Int} (h : inI32 v) :
    ((UInt8.ofNat ((i32and v 0xFFFF).toNat &&& 0xFF)).toNat : Int) +
      256 * (UInt8.ofNat (((i32and v 0xFFFF).toNat >>> 8) &&& 0xFF)).toNat = v % 65536 := by
  rw [lowWord_eq h]
  have e1 : ∀ w : Nat, w &&& 0xFF = w % 256 := fun w => Nat.and_two_pow_sub_one_eq_mod w 8
  rw [e1, e1, Nat.shiftRight_eq_div_pow]
  simp only [UInt8.toNat_ofNat']
  omega

theorem u8_ext {a b : UInt8} (h : a.toNat = b.toNat) : a = b := UInt8.toNat_inj.mp h

theorem byteItemsF_ok (m : Mode) (env : Env) : ∀ (vs : List ByteValue) (bs : List UInt8),
    byteItemsF m env vs = .ok bs ↔ ByteItems m env vs bs
  | [], bs => by
    simp only [byteItemsF, Res.ok.injEq]
    constructor
    · rintro rfl; exact .nil
    · intro h; cases h; rfl
  | .expr e :: vs, bs => by
    simp only [byteItemsF, Res.bind_eq_ok]
    constructor
    · rintro ⟨v, hv, h⟩
      split at h
      · cases h
      · rename_i hr
        obtain ⟨bs', h1, h2⟩ := Res.bind_eq_ok.mp h
        cases h2
        exact .expr hv (by omega) (by omega) (lowByte_toNat (by unfold inI32; omega))
          ((byteItemsF_ok m env vs bs').mp h1)
    · intro h
      cases h with
      | expr hv h1 h2 hb hrest =>
        rename_i v b bs'
        refine ⟨v, hv, ?_⟩
        rw [if_neg (by omega), (byteItemsF_ok m env vs bs').mpr hrest, Res.ok_bind]
        have := lowByte_toNat (v := v) (by unfold inI32; omega)
        rw [show lowByte v = b from u8_ext (by omega)]
  | .str s :: vs, bs => by
    simp only [byteItemsF, Res.bind_eq_ok]
    constructor
    · rintro ⟨bs', h1, h2⟩
      cases h2
      exact .str ((byteItemsF_ok m env vs bs').mp h1)
    · intro h
      cases h with
      | str hrest => exact ⟨_, (byteItemsF_ok m env vs _).mpr hrest, rfl⟩

theorem wordItemsF_ok (m : Mode) (env : Env) : ∀ (es : List Expr) (bs : List UInt8),
    wordItemsF m env es = .ok bs ↔ WordItems m env es bs
  | [], bs => by
    simp only [wordItemsF, Res.ok.injEq]
    constructor
    · rintro rfl; exact .nil
    · intro h; cases h; rfl
  | e :: es, bs => by
    simp only [wordItemsF, Res.bind_eq_ok]
    constructor
    · rintro ⟨v, hv, h⟩
      split at h
      · cases h
      · rename_i hr
        obtain ⟨bs', h1, h2⟩ := Res.bind_eq_ok.mp h
        cases h2
        exact .cons hv (by omega) (by omega) (word_bytes (by unfold inI32; omega))
          ((wordItemsF_ok m env es bs').mp h1)
    · intro h
      cases h with
      | cons hv h1 h2 hb hrest =>
        rename_i v lo hi bs'
        refine ⟨v, hv, ?_⟩
        rw [if_neg (by omega), (wordItemsF_ok m env es bs').mpr hrest, Res.ok_bind]
        have hw := word_bytes (v := v) (by unfold inI32; omega)
        rw [← hb] at hw
        generalize UInt8.ofNat ((i32and v 0xFFFF).toNat &&& 0xFF) = x at *
        generalize UInt8.ofNat (((i32and v 0xFFFF).toNat >>> 8) &&& 0xFF) = y at *
        have := x.toNat_lt
        have := y.toNat_lt
        have := lo.toNat_lt
        have := hi.toNat_lt
        rw [show x = lo from u8_ext (by omega), show y = hi from u8_ext (by omega)]

theorem emitF_ok (m : Mode) (env : Env) (p : Nat) (x : Stmt) (bs : List UInt8) :
    emitF m env p x = .ok bs ↔ Emits m env p x bs := by
  cases x with
  | dir d =>
    cases d with
    | byte vs =>
      simp only [emitF, byteItemsF_ok]
      exact ⟨.byte, fun h => by cases h; assumption⟩
    | word es =>
      simp only [emitF, wordItemsF_ok]
      exact ⟨.word, fun h => by cases h; assumption⟩
    | text n s =>
      simp only [emitF]
      constructor
      · intro h
        split at h
        · cases h
        · cases h; exact .text (by omega)
      · intro h
        cases h
        rw [if_neg (by omega)]
    | string n s =>
      simp only [emitF]
      constructor
      · intro h
        split at h
        · cases h
        · cases h; exact .string (by omega)
      · intro h
        cases h
        rw [if_neg (by omega)]
    | org n =>
      simp only [emitF]
      constructor
      · intro h
        split at h
        · cases h
        · cases h; exact .org (by omega)
      · intro h
        cases h
        rw [if_neg (by omega)]
    | incl t path => simp only [emitF]; exact ⟨fun h => (by cases h), fun h => (by cases h)⟩
    | cnop a k =>
      simp only [emitF, Res.ok.injEq]
      exact ⟨fun h => by subst h; exact .cnop, fun h => by cases h; rfl⟩
  | instr i =>
    simp only [emitF, Res.bind_eq_ok, ← instr_size]
    constructor
    · rintro ⟨j, h1, h2⟩; cases h2; exact .instr h1
    · intro h
      cases h with
      | instr h => exact ⟨_, h, rfl⟩
  | label n => simp only [emitF, Res.ok.injEq]; exact ⟨fun h => by subst h; exact .label, fun h => by cases h; rfl⟩
  | «variable» n e =>
    simp only [emitF, Res.ok.injEq]; exact ⟨fun h => by subst h; exact .variable, fun h => by cases h; rfl⟩
  | alias n e => simp only [emitF, Res.ok.injEq]; exact ⟨fun h => by subst h; exact .alias, fun h => by cases h; rfl⟩
  | comment n =>
    simp only [emitF, Res.ok.injEq]; exact ⟨fun h => by subst h; exact .comment, fun h => by cases h; rfl⟩
  | macroCall n args => simp only [emitF]; exact ⟨fun h => (by cases h), fun h => (by cases h)⟩

theorem emitAllF_ok (m : Mode) {globals : List (Text × Int)} {all : List Placed} {env : Text → Env}
    (henv : ∀ s, env s = meaning globals (localLabels s all)) :
    ∀ (qs : List Placed) (ws : List (Nat × List UInt8)),
    emitAllF m env qs = .ok ws ↔ EmitsAll m globals all qs ws
  | [], ws => by
    simp only [emitAllF, Res.ok.injEq]
    exact ⟨fun h => by subst h; exact .nil, fun h => by cases h; rfl⟩
  | q :: qs, ws => by
    simp only [emitAllF, Res.bind_eq_ok]
    constructor
    · rintro ⟨bs, h1, ws', h2, h3⟩
      cases h3
      rw [henv] at h1
      exact .cons ((emitF_ok _ _ _ _ _).mp h1) ((emitAllF_ok m henv qs ws').mp h2)
    · intro h
      cases h with
      | cons h1 h2 =>
        refine ⟨_, ?_, _, (emitAllF_ok m henv qs _).mpr h2, rfl⟩
        rw [henv]
        exact (emitF_ok _ _ _ _ _).mpr h1

@[simp] theorem image_length : ∀ (ws : List (Nat × List UInt8)) (out : List UInt8),
    (image out ws).length = out.length
  | [], _ => rfl
  | w :: ws, out => by
    show (image (setAll out w.1 w.2) ws).length = _
    rw [image_length ws, setAll_length]

theorem image_uncovered : ∀ (ws : List (Nat × List UInt8)) (out : List UInt8) (j : Nat), j < out.length →
    (∀ w ∈ ws, ¬ covers w j) → (image out ws)[j]? = out[j]?
  | [], _, _, _, _ => rfl
  | w :: ws, out, j, hj, h => by
    show (image (setAll out w.1 w.2) ws)[j]? = _
    rw [image_uncovered ws _ j (by simpa using hj) (fun w' hw => h w' (by simp [hw])), setAll_get _ _ _ _ hj]
    have := h w (by simp)
    unfold covers at this
    rw [if_neg this]

theorem image_spec (out : List UInt8) (ws : List (Nat × List UInt8)) (j : Nat) (b : UInt8)
    (h0 : out[j]? = some 0) (h : ImageByte ws j b) : (image out ws)[j]? = some b := by
  have hj : j < out.length := by
    rcases Nat.lt_or_ge j out.length with h | h
    · exact h
    · rw [List.getElem?_eq_none h] at h0; cases h0
  rcases h with ⟨before, w, after, rfl, hc, hn, hb⟩ | ⟨hn, rfl⟩
  · unfold image
    rw [List.foldl_append, List.foldl_cons]
    show (image (setAll (image out before) w.1 w.2) after)[j]? = _
    rw [image_uncovered _ _ _ (by simpa using hj) hn, setAll_get _ _ _ _ (by simpa using hj)]
    unfold covers at hc
    rw [if_pos hc, hb]
  · rw [image_uncovered _ _ _ hj hn, h0]

theorem imageByte_total : ∀ (ws : List (Nat × List UInt8)) (j : Nat), ∃ b, ImageByte ws j b
  | [], j => ⟨0, .inr ⟨by simp, rfl⟩⟩
  | w :: ws, j => by
    obtain ⟨b, h⟩ := imageByte_total ws j
    rcases h with ⟨before, w', after, rfl, hc, hn, hb⟩ | ⟨hn, rfl⟩
    · exact ⟨b, .inl ⟨w :: before, w', after, rfl, hc, hn, hb⟩⟩
    · by_cases hc : covers w j
      · have hlt : j - w.1 < w.2.length := by unfold covers at hc; omega
        exact ⟨w.2[j - w.1], .inl ⟨[], w, ws, rfl, hc, hn, List.getElem?_eq_getElem hlt⟩⟩
      · refine ⟨0, .inr ⟨?_, rfl⟩⟩
        intro w' hw'
        rcases List.mem_cons.mp hw' with rfl | hw'
        · exact hc
        · exact hn w' hw'

theorem image_byte {n : Nat} {ws : List (Nat × List UInt8)} {j : Nat} {b : UInt8}
    (h : (image (List.replicate n 0) ws)[j]? = some b) : ImageByte ws j b := by
  have hj : j < n := by
    rcases Nat.lt_or_ge j n with h' | h'
    · exact h'
    · rw [List.getElem?_eq_none (by simpa using h')] at h; cases h
  obtain ⟨b', hb'⟩ := imageByte_total ws j
  have := image_spec (List.replicate n 0) ws j b' (by simp [hj]) hb'
  rw [h] at this
  cases this
  exact hb'

/-- The image is determined by its length and bytes. -/
theorem image_unique {n : Nat} {ws : List (Nat × List UInt8)} {out : List UInt8} (hlen : out.length = n)
    (h : ∀ j b, out[j]? = some b → ImageByte ws j b) : out = image (List.replicate n 0) ws := by
  apply List.ext_getElem?
  intro j
  rcases Nat.lt_or_ge j n with hj | hj
  · have h1 : out[j]? = some (out[j]'(by omega)) := List.getElem?_eq_getElem _
    rw [h1]
    exact (image_spec _ _ _ _ (by simp [hj]) (h _ _ h1)).symm
  · rw [List.getElem?_eq_none (by omega), List.getElem?_eq_none (by simpa using hj)]

theorem varsF_env {m : Mode} {ps : List Placed} {ds : List (Text × Expr)} {g : List (Text × Int)}
    (hd : LabelsDistinct ps) :
    varsF m (globalLabels ps).reverse ds = .ok g ↔
      ∃ vals, Vars m (globalLabels ps) ds vals ∧ ((globalLabels ps ++ vals).map (·.1)).Nodup ∧
        g = (globalLabels ps ++ vals).reverse :=
  varsF_ok m ds (globalLabels ps) g hd.1

/-- assemble succeeds exactly with the specified image. -/
theorem assemble_iff (m : Mode) {stmts : List Stmt} {ps : List Placed} (hsrc : SourceLabels stmts)
    (hl : layout stmts = some ps) (hfit : Fits ps) (hc : m = .wrapping ∨ CnopForward ps) (out : List UInt8) :
    assemble m stmts = .ok out ↔ Assembles m stmts out := by
  rcases assemble_spec m hsrc hl hfit hc with ⟨hd, h⟩ | ⟨n, h1, h2⟩
  · rw [h]
    simp only [Res.bind_eq_ok, varsF_env hd]
    constructor
    · rintro ⟨g, ⟨vals, hv, hn, rfl⟩, ws, hw, ho⟩
      have henv : ∀ s, namesGet (globalLabels ps ++ vals).reverse (localLabels s ps).reverse =
        meaning (globalLabels ps ++ vals) (localLabels s ps) := fun s => namesGet_reverse hn (hd.2 s)
      cases ho
      exact ⟨ps, vals, ws, hl, hd, hv, hn, (emitAllF_ok m henv _ _).mp hw, by simp, fun j b hj => image_byte hj⟩
    · rintro ⟨ps', vals, ws, hl', hd', hv, hn, hw, hlen, hb⟩
      rw [hl] at hl'
      cases hl'
      have henv : ∀ s, namesGet (globalLabels ps ++ vals).reverse (localLabels s ps).reverse =
        meaning (globalLabels ps ++ vals) (localLabels s ps) := fun s => namesGet_reverse hn (hd.2 s)
      refine ⟨_, ⟨vals, hv, hn, rfl⟩, ws, (emitAllF_ok m henv _ _).mpr hw, ?_⟩
      rw [← image_unique hlen hb]
  · rw [h2]
    constructor
    · intro h; cases h
    · rintro ⟨ps', vals, ws, hl', hd', _⟩
      rw [hl] at hl'
      cases hl'
      exact (not_distinct h1 hd').elim

end Verif
