import Verif.Lemmas.Assemble
/-
Helper lemmas: what a successful run of the assembler tells about the layout.
-/
namespace Verif
open Spec

theorem runSteps_append {σ : Type} (step : σ → Stmt → Res σ) : ∀ (xs ys : List Stmt) (s : σ),
    runSteps step (xs ++ ys) s = (runSteps step xs s >>= fun s' => runSteps step ys s')
  | [], _, _ => rfl
  | x :: xs, ys, s => by
    simp only [List.cons_append, runSteps]
    cases step s x with
    | ok s' => simp only [Res.ok_bind]; exact runSteps_append step xs ys s'
    | err e => rfl
    | panic => rfl
    | loop => rfl

theorem runSteps_mem {σ : Type} {step : σ → Stmt → Res σ} : ∀ {xs : List Stmt} {s s' : σ} {x : Stmt},
    runSteps step xs s = .ok s' → x ∈ xs → ∃ s1 s2, step s1 x = .ok s2
  | y :: ys, s, s', x, h, hx => by
    simp only [runSteps] at h
    obtain ⟨s1, h1, h2⟩ := Res.bind_eq_ok.mp h
    rcases List.mem_cons.mp hx with rfl | hx
    · exact ⟨s, s1, h1⟩
    · exact runSteps_mem h2 hx

theorem place_some : ∀ (xs : List Stmt) (p : Nat) (sc : Text),
    (∀ x ∈ xs, ∀ p, ∃ p', advance p x = some p') → ∃ ps, place p sc xs = some ps
  | [], p, sc, _ => ⟨[], rfl⟩
  | x :: xs, p, sc, h => by
    obtain ⟨p', h1⟩ := h x (by simp) p
    obtain ⟨ps, h2⟩ := place_some xs p' (nextScope sc x) (fun y hy => h y (by simp [hy]))
    exact ⟨⟨p, sc, x⟩ :: ps, by simp only [place, h1, h2]⟩

/-- The passes of a successful assembly. -/
theorem assemble_runs {m : Mode} {stmts : List Stmt} {out : List UInt8} (h : assemble m stmts = .ok out) :
    ∃ l1 l2 sl sn sg, runSteps (labelStep m) stmts ⟨[], [], [], [], 0⟩ = .ok sl ∧
      runSteps (nameStep m) stmts ⟨l1, 0, 0⟩ = .ok sn ∧
      (∃ mx, m.norm (sn.maxPos + 1) = .ok mx ∧ 1 ≤ mx ∧
      runSteps (genStep m ⟨sn.globals, l2⟩) stmts ⟨0, [], List.replicate (mx - 1).toNat 0⟩ = .ok sg) := by
  unfold assemble at h
  obtain ⟨⟨mx, names⟩, h1, h⟩ := Res.bind_eq_ok.mp h
  unfold computeNames at h1
  obtain ⟨⟨l1, l2⟩, h2, h1⟩ := Res.bind_eq_ok.mp h1
  obtain ⟨sn, h3, h1⟩ := Res.bind_eq_ok.mp h1
  obtain ⟨mx', h4, h1⟩ := Res.bind_eq_ok.mp h1
  simp only [Res.ok.injEq, Prod.mk.injEq] at h1
  obtain ⟨rfl, rfl⟩ := h1
  unfold computeLabels at h2
  obtain ⟨sl, h5, _⟩ := Res.bind_eq_ok.mp h2
  simp only at h
  split at h
  · cases h
  · rename_i hmx
    obtain ⟨sg, h6, _⟩ := Res.bind_eq_ok.mp h
    exact ⟨l1, l2, sl, sn, sg, h5, h3, mx', h4, by omega, h6⟩

theorem evalCnop_literals {m : Mode} {p : Int} {a k : Expr} {v : Int} (h : evalCnop m p a k = .ok v) :
    ∃ x rx y ry, a = .number x rx ∧ k = .number y ry := by
  unfold evalCnop at h
  obtain ⟨x, h1, h⟩ := Res.bind_eq_ok.mp h
  obtain ⟨y, h2, h⟩ := Res.bind_eq_ok.mp h
  cases a <;> simp only [evalCnopExpr, reduceCtorEq] at h1
  cases k <;> simp only [evalCnopExpr, reduceCtorEq] at h2
  exact ⟨_, _, _, _, rfl, rfl⟩

/-- Whatever assembles can be laid out. -/
theorem layout_of_ok {m : Mode} {stmts : List Stmt} {out : List UInt8} (hs : SourceCnop stmts)
    (h : assemble m stmts = .ok out) : ∃ ps, layout stmts = some ps := by
  obtain ⟨l1, l2, sl, sn, sg, h1, h2, mx, _, _, h3⟩ := assemble_runs h
  apply place_some
  intro x hx p
  cases x with
  | dir d =>
    cases d with
    | incl t path =>
      obtain ⟨s1, s2, h⟩ := runSteps_mem h3 hx
      simp only [genStep, reduceCtorEq] at h
    | cnop a k =>
      obtain ⟨s1, s2, h⟩ := runSteps_mem h1 hx
      simp only [labelStep, Directive.size] at h
      obtain ⟨d, hd, _⟩ := Res.bind_eq_ok.mp h
      obtain ⟨v, hv, _⟩ := Res.bind_eq_ok.mp hd
      obtain ⟨x, rx, y, ry, rfl, rfl⟩ := evalCnop_literals hv
      have hn := hs _ _ hx
      have h1 := hn.1 x rx rfl
      have h2 := hn.2 y ry rfl
      simp only [advance]
      rw [if_neg (by omega)]
      split
      · exact ⟨_, rfl⟩
      · exact ⟨_, rfl⟩
    | _ => exact ⟨_, rfl⟩
  | macroCall n args =>
    obtain ⟨s1, s2, h⟩ := runSteps_mem h1 hx
    simp only [labelStep, reduceCtorEq] at h
  | _ => exact ⟨_, rfl⟩

theorem writeBytes_ok : ∀ {bs out out' : List UInt8} {p p' : Nat}, writeBytes out p bs = .ok (out', p') →
    p' = p + bs.length ∧ out'.length = out.length ∧ (p' = p ∨ p' ≤ out.length)
  | [], out, out', p, p', h => by cases h; simp
  | b :: bs, out, out', p, p', h => by
    simp only [writeBytes, writeByte] at h
    split at h
    · rw [Res.ok_bind] at h
      obtain ⟨h1, h2, h3⟩ := writeBytes_ok h
      simp only [List.length_set] at h2 h3
      simp only [List.length_cons]
      refine ⟨by omega, h2, by omega⟩
    · cases h

theorem writeByteValues_ok {m : Mode} {env : Env} : ∀ {vs : List ByteValue} {out out' : List UInt8} {p p' : Nat},
    writeByteValues m env out p vs = .ok (out', p') →
    p' = p + byteCount vs ∧ out'.length = out.length ∧ (p' = p ∨ p' ≤ out.length)
  | [], out, out', p, p', h => by cases h; simp [byteCount]
  | .expr e :: vs, out, out', p, p', h => by
    simp only [writeByteValues, writeByte] at h
    obtain ⟨v, _, h⟩ := Res.bind_eq_ok.mp h
    split at h
    · cases h
    · split at h
      · rw [Res.ok_bind] at h
        obtain ⟨h1, h2, h3⟩ := writeByteValues_ok h
        simp only [List.length_set] at h2 h3
        simp only [byteCount]
        refine ⟨by omega, h2, by omega⟩
      · cases h
  | .str s :: vs, out, out', p, p', h => by
    simp only [writeByteValues] at h
    obtain ⟨⟨o1, p1⟩, h0, h⟩ := Res.bind_eq_ok.mp h
    obtain ⟨a1, a2, a3⟩ := writeBytes_ok h0
    obtain ⟨h1, h2, h3⟩ := writeByteValues_ok h
    simp only [byteCount]
    rw [a2] at h2 h3
    refine ⟨by omega, h2, by omega⟩

theorem writeWords_ok {m : Mode} {env : Env} : ∀ {es : List Expr} {out out' : List UInt8} {p p' : Nat},
    writeWords m env out p es = .ok (out', p') →
    p' = p + 2 * es.length ∧ out'.length = out.length ∧ (p' = p ∨ p' ≤ out.length)
  | [], out, out', p, p', h => by cases h; simp
  | e :: es, out, out', p, p', h => by
    simp only [writeWords, writeByte] at h
    obtain ⟨v, _, h⟩ := Res.bind_eq_ok.mp h
    split at h
    · cases h
    · split at h
      · rw [Res.ok_bind] at h
        simp only [List.length_set] at h
        split at h
        · rw [Res.ok_bind] at h
          obtain ⟨h1, h2, h3⟩ := writeWords_ok h
          simp only [List.length_set] at h2 h3
          simp only [List.length_cons]
          refine ⟨by omega, h2, by omega⟩
        · cases h
      · cases h

theorem writePadded_ok {s s' : GenState} {n : Nat} {bs : List UInt8} {pad : UInt8}
    (h : writePadded s n bs pad = .ok s') :
    s'.pos = s.pos + n ∧ s'.out.length = s.out.length ∧ (s'.pos = s.pos ∨ s'.pos ≤ s.out.length) := by
  unfold writePadded at h
  split at h
  · cases h
  · obtain ⟨⟨o1, p1⟩, h0, h⟩ := Res.bind_eq_ok.mp h
    obtain ⟨a1, a2, a3⟩ := writeBytes_ok h0
    obtain ⟨⟨o2, p2⟩, h1, h⟩ := Res.bind_eq_ok.mp h
    obtain ⟨b1, b2, b3⟩ := writeBytes_ok h1
    cases h
    simp only [List.length_replicate] at b1
    simp only
    rw [a2] at b2 b3
    refine ⟨by omega, b2, by omega⟩

theorem nameStep_max {m : Mode} {s s' : NameState} {x : Stmt} (h : nameStep m s x = .ok s') :
    s.maxPos ≤ s'.maxPos ∧ s'.pos ≤ s'.maxPos := by
  have key : ∀ (t : NameState) (p : Int), t.maxPos ≤ (t.moveTo p).maxPos ∧ (t.moveTo p).pos ≤ (t.moveTo p).maxPos := by
    intro t p; rw [moveTo_eq]; simp only; omega
  cases x with
  | dir d =>
    simp only [nameStep] at h
    obtain ⟨_, _, h⟩ := Res.bind_eq_ok.mp h
    obtain ⟨_, _, h⟩ := Res.bind_eq_ok.mp h
    cases h; exact key _ _
  | instr d =>
    simp only [nameStep] at h
    obtain ⟨_, _, h⟩ := Res.bind_eq_ok.mp h
    cases h; exact key _ _
  | label n => cases h; exact key _ _
  | comment n => cases h; exact key _ _
  | «variable» n e =>
    simp only [nameStep] at h
    obtain ⟨_, _, h⟩ := Res.bind_eq_ok.mp h
    obtain ⟨_, _, h⟩ := Res.bind_eq_ok.mp h
    cases h; exact key { s with globals := _ } _
  | alias n e =>
    simp only [nameStep] at h
    obtain ⟨_, _, h⟩ := Res.bind_eq_ok.mp h
    obtain ⟨_, _, h⟩ := Res.bind_eq_ok.mp h
    cases h; exact key { s with globals := _ } _
  | macroCall n args => cases h

theorem nameRun_max {m : Mode} : ∀ {xs : List Stmt} {s s' : NameState}, runSteps (nameStep m) xs s = .ok s' →
    s.maxPos ≤ s'.maxPos
  | [], s, s', h => by cases h; omega
  | x :: xs, s, s', h => by
    simp only [runSteps] at h
    obtain ⟨s1, h1, h2⟩ := Res.bind_eq_ok.mp h
    have := nameRun_max h2
    have := (nameStep_max h1).1
    omega

theorem checked_norm {v w : Int} (h : Mode.checked.norm v = .ok w) : w = v ∧ -2147483648 ≤ v ∧ v ≤ 2147483647 := by
  unfold Mode.norm at h
  split at h
  · rename_i hi
    cases h
    exact ⟨rfl, hi⟩
  · cases h

theorem cnopLoop_ok {k p : Nat} (hk : 0 < k) : ∀ (fuel t : Nat) (r : Int), k * t ≤ leastMultiple k p →
    k * t ≤ 2147483647 → cnopLoop .checked p k fuel ((k * t : Nat) : Int) = .ok r →
    r = leastMultiple k p ∧ r ≤ 2147483647 := by
  intro fuel
  induction fuel with
  | zero => intro t r _ _ h; cases h
  | succ fuel ih =>
    intro t r h1 h2 h
    unfold cnopLoop at h
    split at h
    · rename_i hle
      cases h
      have := leastMultiple_le (t := t) hk (by omega : p ≤ k * t)
      omega
    · rename_i hle
      obtain ⟨next, hn, h⟩ := Res.bind_eq_ok.mp h
      obtain ⟨rfl, hn1, hn2⟩ := checked_norm hn
      have e : ((k * t : Nat) : Int) + (k : Int) = ((k * (t + 1) : Nat) : Int) := by
        rw [Nat.mul_add]; omega
      rw [e] at h hn2
      obtain ⟨u, hu⟩ := leastMultiple_dvd hk p
      have hp := le_leastMultiple k p
      have hlt : t < u := by
        apply Nat.lt_of_not_le
        intro hle'
        have := Nat.mul_le_mul_left k hle'
        omega
      have := Nat.mul_le_mul_left k (show t + 1 ≤ u from hlt)
      exact ih (t + 1) r (by omega) (by omega) h

theorem evalCnop_ok {p p' : Nat} {a k : Expr} {v : Int} (ha : advance p (.dir (.cnop a k)) = some p')
    (hx : ∀ v r, a = .number v r → v ≤ 2147483647)
    (h : evalCnop .checked p a k = .ok v) : v = p' ∧ p' ≤ 2147483647 := by
  obtain ⟨x, y, rx, ry, rfl, rfl, hx0, hy, rfl⟩ := cnop_shape ha
  unfold evalCnop at h
  simp only [evalCnopExpr, Res.ok_bind] at h
  split at h
  · rename_i hz
    cases h
    rw [if_pos hz]
    have := hx _ rx rfl
    omega
  · rename_i hz
    rw [if_neg hz]
    obtain ⟨mult, h1, h⟩ := Res.bind_eq_ok.mp h
    have hy' : y = (y.toNat : Int) := by omega
    rw [hy'] at h1
    have := cnopLoop_ok (k := y.toNat) (p := p) (by omega) _ 0 mult (by omega) (by omega) h1
    obtain ⟨rfl, h2, h3⟩ := checked_norm h
    omega

/-- In a build with overflow checks, a successful run keeps the layout below 2 GiB and never moves
backwards by `.cnop`. -/
theorem fits_of_run (names : Names) : ∀ (stmts : List Stmt) (p : Nat) (sc : Text) (ps : List Placed)
    (sn sn' : NameState) (sg sg' : GenState),
    SourceCnop stmts → place p sc stmts = some ps → p < 2147483647 → sn.pos = p → sg.pos = p →
    runSteps (nameStep .checked) stmts sn = .ok sn' → sn'.maxPos < 2147483647 →
    runSteps (genStep .checked names) stmts sg = .ok sg' → sg.out.length < 2147483647 →
    Fits ps ∧ CnopForward ps
  | [], p, sc, ps, sn, sn', sg, sg', _, hpl, _, _, _, _, _, _, _ => by
    simp only [place, Option.some.injEq] at hpl
    subst hpl
    exact ⟨(by intro q hq; cases hq), (by intro q hq; cases hq)⟩
  | x :: xs, p, sc, ps, sn, sn', sg, sg', hs, hpl, hp, hsn, hsg, hn, hmax, hg, hout => by
    obtain ⟨p', rest, ha, hr, rfl⟩ := place_cons hpl
    simp only [runSteps] at hn hg
    obtain ⟨sn1, hn1, hn⟩ := Res.bind_eq_ok.mp hn
    obtain ⟨sg1, hg1, hg⟩ := Res.bind_eq_ok.mp hg
    have hmx : sn1.pos < 2147483647 := by
      have := (nameStep_max hn1).2
      have := nameRun_max hn
      omega
    have hend : (⟨p, sc, x⟩ : Placed).end_ = p' := end_eq ha
    have hs' : SourceCnop xs := fun a k h => hs a k (by simp [h])
    -- what remains to be shown of the step
    have fin : p' < 2147483647 → sn1.pos = p' → sg1.pos = p' → sg1.out.length = sg.out.length →
        (∀ a k, x = .dir (.cnop a k) → p ≤ p') →
        Fits (⟨p, sc, x⟩ :: rest) ∧ CnopForward (⟨p, sc, x⟩ :: rest) := by
      intro h1 h2 h3 h4 h5
      obtain ⟨f1, f2⟩ := fits_of_run names xs p' _ rest sn1 sn' sg1 sg' hs' hr h1 h2 h3 hn hmax hg (by omega)
      constructor
      · intro q hq
        rcases List.mem_cons.mp hq with rfl | hq
        · rw [hend]; exact h1
        · exact f1 q hq
      · intro q hq a k hx
        rcases List.mem_cons.mp hq with rfl | hq
        · rw [hend]; exact h5 a k hx
        · exact f2 q hq a k hx
    have dirpos : ∀ d, x = .dir d → p' < 2147483647 → sn1.pos = p' := by
      rintro d rfl hp'
      simp only [nameStep, hsn] at hn1
      rw [dir_pos .checked ha (by omega) (by omega) (fun pos => .ok (sn.moveTo pos))] at hn1
      cases hn1
      rw [moveTo_eq]
    cases x with
    | dir d =>
      cases d with
      | byte vs =>
        simp only [advance, Option.some.injEq] at ha
        simp only [genStep] at hg1
        obtain ⟨env, _, hg1⟩ := Res.bind_eq_ok.mp hg1
        obtain ⟨⟨o, q⟩, hw, hg1⟩ := Res.bind_eq_ok.mp hg1
        cases hg1
        obtain ⟨a1, a2, a3⟩ := writeByteValues_ok hw
        rw [hsg] at a1 a3
        have hp' : p' < 2147483647 := by omega
        exact fin hp' (dirpos _ rfl hp') (by show q = p'; omega) a2 (by simp)
      | org n =>
        simp only [advance, Option.some.injEq] at ha
        simp only [genStep] at hg1
        split at hg1
        · cases hg1
        · cases hg1
          have hp' : p' < 2147483647 := by omega
          exact fin hp' (dirpos _ rfl hp') ha rfl (by simp)
      | word es =>
        simp only [advance, Option.some.injEq] at ha
        simp only [genStep] at hg1
        obtain ⟨env, _, hg1⟩ := Res.bind_eq_ok.mp hg1
        obtain ⟨⟨o, q⟩, hw, hg1⟩ := Res.bind_eq_ok.mp hg1
        cases hg1
        obtain ⟨a1, a2, a3⟩ := writeWords_ok hw
        rw [hsg] at a1 a3
        have hp' : p' < 2147483647 := by omega
        exact fin hp' (dirpos _ rfl hp') (by show q = p'; omega) a2 (by simp)
      | text n bs =>
        simp only [advance, Option.some.injEq] at ha
        simp only [genStep] at hg1
        obtain ⟨a1, a2, a3⟩ := writePadded_ok hg1
        rw [hsg] at a1 a3
        have hp' : p' < 2147483647 := by omega
        exact fin hp' (dirpos _ rfl hp') (by omega) a2 (by simp)
      | string n bs =>
        simp only [advance, Option.some.injEq] at ha
        simp only [genStep] at hg1
        obtain ⟨a1, a2, a3⟩ := writePadded_ok hg1
        rw [hsg] at a1 a3
        have hp' : p' < 2147483647 := by omega
        exact fin hp' (dirpos _ rfl hp') (by omega) a2 (by simp)
      | incl t path => simp [advance] at ha
      | cnop a k =>
        have hp' : p' < 2147483647 := by
          simp only [nameStep, hsn, Directive.size] at hn1
          obtain ⟨d, hd, hn1⟩ := Res.bind_eq_ok.mp hn1
          obtain ⟨v, hv, hd⟩ := Res.bind_eq_ok.mp hd
          obtain ⟨rfl, h2⟩ := evalCnop_ok ha (fun v r h => ((hs a k (by simp)).1 v r h).2) hv
          obtain ⟨rfl, _⟩ := checked_norm hd
          obtain ⟨w, hw, hn1⟩ := Res.bind_eq_ok.mp hn1
          obtain ⟨rfl, _⟩ := checked_norm hw
          cases hn1
          rw [moveTo_eq] at hmx
          simp only at hmx
          omega
        simp only [genStep, hsg] at hg1
        rw [wrap32_nat (by omega), dir_size .checked ha (by omega) (by omega), Res.ok_bind] at hg1
        obtain ⟨q, hq, hg1⟩ := Res.bind_eq_ok.mp hg1
        cases hg1
        unfold addUsize at hq
        simp only at hq
        split at hq
        · rename_i hlt
          have hle : p ≤ p' := by
            apply Nat.le_of_not_lt
            intro hlt'
            have e : ((p' : Int) - p) % 18446744073709551616 = ((18446744073709551616 + p' - p : Nat) : Int) := by
              omega
            rw [e] at hlt
            simp only [Int.toNat_natCast] at hlt
            omega
          have e : ((p' : Int) - p) % 18446744073709551616 = ((p' - p : Nat) : Int) := by omega
          rw [e] at hq
          simp only [Int.toNat_natCast, Res.ok.injEq] at hq
          exact fin hp' (dirpos _ rfl hp') (by show q = p'; omega) rfl (fun _ _ _ => hle)
        · cases hq
    | instr i =>
      have ha' : p + i.size = p' := by simpa only [advance, Option.some.injEq, instr_size] using ha
      simp only [nameStep, hsn] at hn1
      obtain ⟨w, hw, hn1⟩ := Res.bind_eq_ok.mp hn1
      obtain ⟨rfl, _⟩ := checked_norm hw
      cases hn1
      rw [moveTo_eq] at hmx
      simp only at hmx
      simp only [genStep, hsg] at hg1
      obtain ⟨nx, _, hg1⟩ := Res.bind_eq_ok.mp hg1
      obtain ⟨j, hj, hg1⟩ := Res.bind_eq_ok.mp hg1
      obtain ⟨⟨o, q⟩, hw, hg1⟩ := Res.bind_eq_ok.mp hg1
      cases hg1
      obtain ⟨a1, a2, a3⟩ := writeBytes_ok hw
      have hlen : j.encode.length = i.size := by
        unfold Instr.eval at hj
        obtain ⟨env, _, hj⟩ := Res.bind_eq_ok.mp hj
        rw [size_eq, ← (evalIn_ok hj).2, ← encode_length]
      exact fin (by omega) (by rw [moveTo_eq]; simp only; omega) (by show q = p'; omega) a2 (by simp)
    | label n =>
      simp only [advance, Option.some.injEq] at ha; subst ha
      cases hn1
      simp only [genStep] at hg1
      split at hg1
      · cases hg1; exact fin hp (by rw [moveTo_eq]; exact hsn) hsg rfl (by simp)
      · cases hg1; exact fin hp (by rw [moveTo_eq]; exact hsn) hsg rfl (by simp)
    | comment t =>
      simp only [advance, Option.some.injEq] at ha; subst ha
      cases hn1; cases hg1
      exact fin hp (by rw [moveTo_eq]; exact hsn) hsg rfl (by simp)
    | «variable» n e =>
      simp only [advance, Option.some.injEq] at ha; subst ha
      simp only [nameStep] at hn1
      obtain ⟨_, _, hn1⟩ := Res.bind_eq_ok.mp hn1
      obtain ⟨_, _, hn1⟩ := Res.bind_eq_ok.mp hn1
      cases hn1; cases hg1
      exact fin hp (by rw [moveTo_eq]; exact hsn) hsg rfl (by simp)
    | alias n e =>
      simp only [advance, Option.some.injEq] at ha; subst ha
      simp only [nameStep] at hn1
      obtain ⟨_, _, hn1⟩ := Res.bind_eq_ok.mp hn1
      obtain ⟨_, _, hn1⟩ := Res.bind_eq_ok.mp hn1
      cases hn1; cases hg1
      exact fin hp (by rw [moveTo_eq]; exact hsn) hsg rfl (by simp)
    | macroCall n args => simp [advance] at ha

/-- A successful assembly has a layout with all the properties needed for the refinement. -/
theorem ok_layout {m : Mode} {stmts : List Stmt} {out : List UInt8} (hs : Source stmts)
    (hb : m = .checked ∨ Below2GiB stmts) (h : assemble m stmts = .ok out) :
    ∃ ps, layout stmts = some ps ∧ Fits ps ∧ (m = .wrapping ∨ CnopForward ps) := by
  obtain ⟨ps, hl⟩ := layout_of_ok hs.2 h
  cases m with
  | wrapping =>
    exact ⟨ps, hl, (hb.resolve_left (by simp)) ps hl, .inl rfl⟩
  | checked =>
    obtain ⟨l1, l2, sl, sn, sg, h1, h2, mx, h4, h5, h3⟩ := assemble_runs h
    obtain ⟨rfl, h6, h7⟩ := checked_norm h4
    obtain ⟨f1, f2⟩ := fits_of_run _ stmts 0 [] ps _ _ _ _ hs.2 hl (by omega) rfl rfl h2 (by omega) h3
      (by rw [List.length_replicate]; omega)
    exact ⟨ps, hl, f1, .inr f2⟩

/-- Soundness: what the assembler outputs is the specified image. -/
theorem assemble_sound {m : Mode} {stmts : List Stmt} {out : List UInt8} (hs : Source stmts)
    (hb : m = .checked ∨ Below2GiB stmts) (h : assemble m stmts = .ok out) : Assembles m stmts out := by
  obtain ⟨ps, hl, hf, hc⟩ := ok_layout hs hb h
  exact (assemble_iff m hs.1 hl hf hc out).mp h

end Verif
