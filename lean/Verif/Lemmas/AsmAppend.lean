import Verif.Lemmas.AsmErr
/-
Helper lemmas: assembling a program with one more data statement at the end.
-/
namespace Verif
open Spec

/-- Statements that emit all the bytes they reserve. -/
def isData : Stmt → Bool
  | .dir (.byte _) | .dir (.word _) | .dir (.text _ _) | .dir (.string _ _) | .instr _ => true
  | _ => false

theorem emitF_length {m : Mode} {env : Env} {p p' : Nat} {x : Stmt} {bs : List UInt8} (hx : isData x = true)
    (ha : advance p x = some p') (h : emitF m env p x = .ok bs) : p' = p + bs.length := by
  cases x with
  | dir d =>
    cases d with
    | byte vs =>
      simp only [advance, Option.some.injEq] at ha; subst ha
      rw [byteItemsF_length m env vs bs h]
    | word es =>
      simp only [advance, Option.some.injEq] at ha; subst ha
      rw [wordItemsF_length m env es bs h]
    | text n t =>
      simp only [advance, Option.some.injEq] at ha; subst ha
      simp only [emitF] at h
      split at h
      · cases h
      · cases h; simp; omega
    | string n t =>
      simp only [advance, Option.some.injEq] at ha; subst ha
      simp only [emitF] at h
      split at h
      · cases h
      · cases h; simp; omega
    | _ => simp [isData] at hx
  | instr i =>
    simp only [advance, Option.some.injEq, instr_size] at ha; subst ha
    simp only [emitF] at h
    obtain ⟨j, hj, h⟩ := Res.bind_eq_ok.mp h
    cases h
    rw [size_eq, ← (evalIn_ok hj).2, ← encode_length]
  | _ => simp [isData] at hx

theorem setAll_eq {out : List UInt8} {p : Nat} {bs : List UInt8} (h : p + bs.length ≤ out.length) :
    setAll out p bs = out.take p ++ bs ++ out.drop (p + bs.length) := by
  apply List.ext_getElem?
  intro j
  rcases Nat.lt_or_ge j out.length with hj | hj
  · rw [setAll_get _ _ _ _ hj]
    split
    · rename_i hc
      rw [List.append_assoc, List.getElem?_append_right (by simp; omega), List.getElem?_append_left (by simp; omega)]
      simp [Nat.min_eq_left (show p ≤ out.length by omega)]
    · rename_i hc
      by_cases hp : j < p
      · rw [List.append_assoc, List.getElem?_append_left (by simp; omega), List.getElem?_take, if_pos hp]
      · rw [List.getElem?_append_right (by simp; omega), List.getElem?_drop]
        congr 1
        simp; omega
  · rw [List.getElem?_eq_none (by simpa using hj), List.getElem?_eq_none (by simp; omega)]

theorem setAll_extend (z : List UInt8) : ∀ (bs out : List UInt8) (p : Nat), p + bs.length ≤ out.length →
    setAll (out ++ z) p bs = setAll out p bs ++ z
  | [], _, _, _ => rfl
  | b :: bs, out, p, h => by
    simp only [List.length_cons] at h
    simp only [setAll]
    rw [List.set_append_left _ _ (by omega), setAll_extend z bs _ _ (by simp; omega)]

theorem image_extend (z : List UInt8) : ∀ (ws : List (Nat × List UInt8)) (out : List UInt8),
    (∀ w ∈ ws, w.2 = [] ∨ w.1 + w.2.length ≤ out.length) → image (out ++ z) ws = image out ws ++ z
  | [], _, _ => rfl
  | w :: ws, out, h => by
    show image (setAll (out ++ z) w.1 w.2) ws = image (setAll out w.1 w.2) ws ++ z
    have hw : setAll (out ++ z) w.1 w.2 = setAll out w.1 w.2 ++ z := by
      rcases h w (by simp) with h' | h'
      · rw [h']; rfl
      · exact setAll_extend z _ _ _ h'
    rw [hw]
    exact image_extend z ws _ (fun w' hw' => by simpa using h w' (by simp [hw']))

theorem emitAllF_bounds {m : Mode} {env : Text → Env} : ∀ {qs : List Placed} {ws : List (Nat × List UInt8)},
    (∀ q ∈ qs, advance q.addr q.stmt = some q.end_) → emitAllF m env qs = .ok ws →
    ∀ w ∈ ws, w.2 = [] ∨ w.1 + w.2.length ≤ reach qs
  | [], ws, _, h => by cases h; simp
  | q :: qs, ws, ha, h => by
    simp only [emitAllF] at h
    obtain ⟨bs, h1, h⟩ := Res.bind_eq_ok.mp h
    obtain ⟨ws', h2, h⟩ := Res.bind_eq_ok.mp h
    cases h
    intro w hw
    rcases List.mem_cons.mp hw with rfl | hw
    · by_cases hd : isData q.stmt = true
      · right
        have := emitF_length hd (ha q (by simp)) h1
        simp only [reach]
        omega
      · left
        have hd' : isData q.stmt = false := by simpa using hd
        revert h1 hd'
        generalize q.stmt = y
        intro h1 hd'
        show bs = []
        cases y with
        | dir d =>
          cases d <;> simp only [isData, Bool.true_eq_false] at hd' <;> simp only [emitF] at h1
          · split at h1
            · cases h1
            · cases h1; rfl
          · cases h1
          · cases h1; rfl
        | instr i => simp [isData] at hd'
        | macroCall n args => cases h1
        | _ => cases h1; rfl
    · rcases emitAllF_bounds (fun q hq => ha q (by simp [hq])) h2 w hw with h | h
      · exact .inl h
      · right; simp only [reach]; omega

theorem emitAllF_append (m : Mode) (env : Text → Env) : ∀ (qs rs : List Placed),
    emitAllF m env (qs ++ rs) = (emitAllF m env qs >>= fun ws => emitAllF m env rs >>= fun us => .ok (ws ++ us))
  | [], rs => by
    simp only [List.nil_append, emitAllF, Res.ok_bind]
    cases emitAllF m env rs <;> rfl
  | q :: qs, rs => by
    simp only [List.cons_append, emitAllF, emitAllF_append m env qs rs, Res.bind_assoc, Res.ok_bind]

theorem reach_append : ∀ (qs rs : List Placed), reach (qs ++ rs) = max (reach qs) (reach rs)
  | [], rs => by simp [reach]
  | q :: qs, rs => by simp only [List.cons_append, reach, reach_append qs rs]; omega

theorem stop_le_reach : ∀ (ps : List Placed) (p : Nat), stop p ps ≤ max p (reach ps)
  | [], p => by simp [stop, reach]
  | q :: qs, p => by
    have := stop_le_reach qs q.end_
    simp only [stop, reach]; omega

theorem definitions_append : ∀ (a b : List Stmt), definitions (a ++ b) = definitions a ++ definitions b
  | [], _ => rfl
  | x :: a, b => by
    cases x <;> simp [definitions, definitions_append a b]

theorem source_prefix {pre post : List Stmt} (h : Source (pre ++ post)) : Source pre :=
  ⟨fun n hn => h.1 n (by simp [hn]), fun a k hk => h.2 a k (by simp [hk])⟩

/-- Appending a data statement to an assembling program. -/
theorem append_data {m : Mode} {pre : List Stmt} {x : Stmt} {ps : List Placed} {out0 : List UInt8}
    (hL : Laid m (pre ++ [x]) ps) (hx : isData x = true) (h0 : assemble m pre = .ok out0) :
    ∃ p env, AtEnd m pre p env ∧
      assemble m (pre ++ [x]) = (emitF m env p x >>= fun bs => .ok (overlay out0 p bs)) := by
  obtain ⟨ps0, ps1, sc, hl0, hl1, rfl, hsc⟩ := place_append hL.layout
  have hl0' : layout pre = some ps0 := hl0
  obtain ⟨p', rest, ha, hr, rfl⟩ := place_cons hl1
  simp only [place, Option.some.injEq] at hr
  subst hr
  have hnl : ∀ n, x ≠ .label n := by intro n hn; subst hn; simp [isData] at hx
  have hG : globalLabels (ps0 ++ [⟨stop 0 ps0, sc, x⟩]) = globalLabels ps0 := by
    rw [globalLabels_append, globalLabels_single _ _ _ (fun n hn => (hnl n hn).elim), List.append_nil]
  have hLo : ∀ t, localLabels t (ps0 ++ [⟨stop 0 ps0, sc, x⟩]) = localLabels t ps0 := by
    intro t
    rw [localLabels_append, localLabels_single _ _ _ _ (fun n hn => (hnl n hn).elim), List.append_nil]
  have hD : definitions (pre ++ [x]) = definitions pre := by
    rw [definitions_append]
    cases x <;> simp [definitions, isData] at hx ⊢
  have hfit0 : Fits ps0 := fun q hq => hL.fits q (by simp [hq])
  have hc0 : m = .wrapping ∨ CnopForward ps0 := hL.forward.imp id fun h q hq => h q (by simp [hq])
  have hs0 := source_prefix hL.source
  rcases assemble_spec m hs0.1 hl0' hfit0 hc0 with ⟨hd, he⟩ | ⟨n, hn, he⟩
  · rw [he] at h0
    obtain ⟨g, hg, h0⟩ := Res.bind_eq_ok.mp h0
    obtain ⟨ws, hws, h0⟩ := Res.bind_eq_ok.mp h0
    cases h0
    have hd' : LabelsDistinct (ps0 ++ [⟨stop 0 ps0, sc, x⟩]) := by
      unfold LabelsDistinct
      rw [hG]
      exact ⟨hd.1, fun t => by rw [hLo]; exact hd.2 t⟩
    obtain ⟨vals, hv, hnd, rfl⟩ := (varsF_env hd).mp hg
    refine ⟨stop 0 ps0, meaning (globalLabels ps0 ++ vals) (localLabels sc ps0),
      ⟨ps0, vals, hl0', rfl, hv, by rw [hsc]⟩, ?_⟩
    rcases assemble_spec m hL.source.1 hL.layout hL.fits hL.forward with ⟨_, he'⟩ | ⟨n, hn, _⟩
    · rw [he', hG, hD, hg, Res.ok_bind]
      simp only [hLo]
      rw [emitAllF_append, hws, Res.ok_bind]
      simp only [emitAllF, Res.bind_assoc, Res.ok_bind]
      have henv : namesGet (globalLabels ps0 ++ vals).reverse (localLabels sc ps0).reverse =
          meaning (globalLabels ps0 ++ vals) (localLabels sc ps0) := by
        exact namesGet_reverse hnd (hd.2 sc)
      rw [henv]
      cases hem : emitF m (meaning (globalLabels ps0 ++ vals) (localLabels sc ps0)) (stop 0 ps0) x with
      | ok bs =>
        simp only [Res.ok_bind]
        congr 1
        have hlen := emitF_length hx ha hem
        have hend : (⟨stop 0 ps0, sc, x⟩ : Placed).end_ = stop 0 ps0 + bs.length := by
          rw [end_eq ha, hlen]
        have hstop := stop_le_reach ps0 0
        have hR : reach (ps0 ++ [⟨stop 0 ps0, sc, x⟩]) = reach ps0 + (stop 0 ps0 + bs.length - reach ps0) := by
          rw [reach_append]
          simp only [reach, hend]
          omega
        have hb := emitAllF_bounds (m := m) (fun q hq => (place_mem hl0 q hq).2) hws
        have hout : (image (List.replicate (reach ps0) 0) ws).length = reach ps0 := by
          rw [image_length]; simp
        have hpad : image (List.replicate (reach (ps0 ++ [⟨stop 0 ps0, sc, x⟩])) 0) ws =
            image (List.replicate (reach ps0) 0) ws ++ List.replicate (stop 0 ps0 + bs.length - reach ps0) 0 := by
          rw [hR, ← List.replicate_append_replicate]
          exact image_extend _ _ _ (by simpa using hb)
        have himg : ∀ out : List UInt8, image out (ws ++ [(stop 0 ps0, bs)]) = setAll (image out ws) (stop 0 ps0) bs := by
          intro out; unfold image; rw [List.foldl_append]; rfl
        rw [himg, hpad, setAll_eq (by simp; omega)]
        unfold overlay
        rw [hout]
      | err e => rfl
      | panic => rfl
      | loop => rfl
    · exact (not_distinct hn hd').elim
  · rw [he] at h0; cases h0

/-- The layout of an assembled program. -/
theorem laid_of_ok {m : Mode} {stmts : List Stmt} {out : List UInt8} (hs : Source stmts)
    (hb : m = .checked ∨ Below2GiB stmts) (h : assemble m stmts = .ok out) : ∃ ps, Laid m stmts ps := by
  obtain ⟨ps, h1, h2, h3⟩ := ok_layout hs hb h
  exact ⟨ps, hs, h1, h2, h3⟩

/-- Names of an assembled program. -/
theorem names_of_ok {m : Mode} {stmts : List Stmt} {ps : List Placed} {out : List UInt8} (hL : Laid m stmts ps)
    (h : assemble m stmts = .ok out) :
    ∃ mx names vals, computeNames m stmts = .ok (mx, names) ∧ LabelsDistinct ps ∧
      Vars m (globalLabels ps) (definitions stmts) vals ∧ ((globalLabels ps ++ vals).map (·.1)).Nodup ∧
      (names.globals = (globalLabels ps ++ vals).reverse) ∧
      ∀ q ∈ ps, names.asEnv q.scope = .ok (meaning (globalLabels ps ++ vals) (localLabels q.scope ps)) := by
  rcases computeNames_spec m hL.source.1 hL.layout hL.fits with ⟨hd, locals, hlk, he⟩ | ⟨n, _, he⟩
  · unfold assemble at h
    rw [he] at h
    obtain ⟨⟨mx, names⟩, h1, _⟩ := Res.bind_eq_ok.mp h
    obtain ⟨g, hg, h1⟩ := Res.bind_eq_ok.mp h1
    cases h1
    obtain ⟨vals, hv, hnd, rfl⟩ := (varsF_env hd).mp hg
    refine ⟨_, ⟨(globalLabels ps ++ vals).reverse, locals⟩, vals, by rw [he, hg]; rfl, hd, hv, hnd, rfl, ?_⟩
    intro q hq
    unfold Names.asEnv
    simp only [hlk q hq]
    rw [namesGet_reverse hnd (hd.2 _)]
  · unfold assemble at h
    rw [he] at h; cases h

theorem toLower_dot (c : Char) : c.toLower = '.' ↔ c = '.' := by
  unfold Char.toLower
  split
  · rename_i h
    constructor
    · intro hc
      have := congrArg (fun d : Char => d.val.toNat) hc
      have h1 := UInt32.le_iff_toNat_le.mp h.1
      have h2 := UInt32.le_iff_toNat_le.mp h.2
      simp [UInt32.toNat_add] at this h1 h2
      omega
    · rintro rfl
      exact absurd h (by decide)
  · rfl

theorem dotted_lower (n : Text) : dotted (lower n) = dotted n := by
  cases n with
  | nil => rfl
  | cons c cs =>
    by_cases hc : c = '.'
    · subst hc; rfl
    · have h1 : c.toLower ≠ '.' := fun h => hc ((toLower_dot c).mp h)
      simp only [lower, List.map_cons]
      unfold dotted
      split
      · rename_i heq
        simp only [List.cons.injEq] at heq
        exact (h1 heq.1).elim
      · split
        · rename_i heq
          simp only [List.cons.injEq] at heq
          exact (hc heq.1).elim
        · rfl

theorem Spec.Vars.names {m : Mode} {known : List (Text × Int)} {ds : List (Text × Expr)} {vals : List (Text × Int)}
    (h : Vars m known ds vals) : vals.map (·.1) = ds.map (·.1) := by
  induction h with
  | nil => rfl
  | cons _ _ ih => simp [ih]

theorem reach_attained : ∀ ps : List Placed, reach ps = 0 ∨ ∃ q ∈ ps, reach ps = q.end_
  | [] => .inl rfl
  | q :: qs => by
    simp only [reach]
    rcases reach_attained qs with h | ⟨q', hq', h⟩
    · right; exact ⟨q, List.mem_cons_self, by omega⟩
    · rcases Nat.le_total q.end_ (reach qs) with hle | hle
      · right; exact ⟨q', List.mem_cons_of_mem _ hq', by omega⟩
      · right; exact ⟨q, List.mem_cons_self, by omega⟩

theorem byteItemsF_range {m : Mode} {env : Env} {e : Expr} {v : Int} {after : List ByteValue}
    (he : e.eval m env = .ok v) (hv : v < -128 ∨ 255 < v) : ∀ {before : List ByteValue} {bs : List UInt8},
    byteItemsF m env before = .ok bs → byteItemsF m env (before ++ .expr e :: after) = .err (.byteOutOfRange v)
  | [], bs, _ => by
    simp only [List.nil_append, byteItemsF, he, Res.ok_bind]
    rw [if_pos hv]
  | .expr d :: before, bs, h => by
    simp only [byteItemsF] at h
    obtain ⟨w, hw, h⟩ := Res.bind_eq_ok.mp h
    split at h
    · cases h
    · rename_i hr
      obtain ⟨bs', h1, h⟩ := Res.bind_eq_ok.mp h
      simp only [List.cons_append, byteItemsF, hw, Res.ok_bind]
      rw [if_neg hr, byteItemsF_range he hv h1, Res.err_bind]
  | .str s :: before, bs, h => by
    simp only [byteItemsF] at h
    obtain ⟨bs', h1, h⟩ := Res.bind_eq_ok.mp h
    simp only [List.cons_append, byteItemsF]
    rw [byteItemsF_range he hv h1, Res.err_bind]

theorem wordItemsF_range {m : Mode} {env : Env} {e : Expr} {v : Int} {after : List Expr}
    (he : e.eval m env = .ok v) (hv : v < -32768 ∨ 65535 < v) : ∀ {before : List Expr} {bs : List UInt8},
    wordItemsF m env before = .ok bs → wordItemsF m env (before ++ e :: after) = .err (.wordOutOfRange v)
  | [], bs, _ => by
    simp only [List.nil_append, wordItemsF, he, Res.ok_bind]
    rw [if_pos hv]
  | d :: before, bs, h => by
    simp only [wordItemsF] at h
    obtain ⟨w, hw, h⟩ := Res.bind_eq_ok.mp h
    split at h
    · cases h
    · rename_i hr
      obtain ⟨bs', h1, h⟩ := Res.bind_eq_ok.mp h
      simp only [List.cons_append, wordItemsF, hw, Res.ok_bind]
      rw [if_neg hr, wordItemsF_range he hv h1, Res.err_bind]

theorem Spec.Vars.split {m : Mode} {known : List (Text × Int)} {d1 d2 : List (Text × Expr)} {vals : List (Text × Int)}
    (h : Vars m known (d1 ++ d2) vals) :
    ∃ v1 v2, vals = v1 ++ v2 ∧ Vars m known d1 v1 ∧ Vars m (known ++ v1) d2 v2 := by
  induction d1 generalizing known vals with
  | nil => exact ⟨[], vals, rfl, .nil, by simpa using h⟩
  | cons d d1 ih =>
    cases h with
    | cons he hr =>
      obtain ⟨v1, v2, rfl, h1, h2⟩ := ih hr
      exact ⟨_ :: v1, v2, rfl, .cons he h1, by simpa using h2⟩

end Verif
