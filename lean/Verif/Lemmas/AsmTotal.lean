import Verif.Lemmas.AsmOutcome
/-
Helper lemmas: panics and termination of the assembler, dependence on the environment.
-/
namespace Verif
open Spec Derive

/-- Emitting an instruction: evaluate the operands, encode. -/
theorem emit_instr (m : Mode) (env : Env) (next : Nat) (i : Instr Expr IM) :
    (i.evalIn m env next >>= fun j => .ok j.encode) =
      (evalFields m env next (kinds i.form) (operands i) >>= fun xs =>
        .ok (encodeRanges (operandEnv xs) i.form.tbl)) := by
  have h := evalIn_eq m env next i
  cases hj : i.evalIn m env next with
  | ok j =>
    rw [(evalIn_ok hj).1, Res.ok_bind, Res.ok_bind, encode_eq, (evalIn_ok hj).2]
  | err e =>
    rw [hj, Res.err_bind] at h
    rcases Res.bind_eq_err.mp h.symm with h1 | ⟨xs, h1, h2⟩
    · rw [h1]; rfl
    · cases h2
  | panic =>
    rw [hj, Res.panic_bind] at h
    rcases Res.bind_eq_panic.mp h.symm with h1 | ⟨xs, h1, h2⟩
    · rw [h1]; rfl
    · cases h2
  | loop =>
    rw [hj, Res.loop_bind] at h
    rcases Res.bind_eq_loop.mp h.symm with h1 | ⟨xs, h1, h2⟩
    · rw [h1]; rfl
    · cases h2

theorem norm_ne_loop (m : Mode) (v : Int) : m.norm v ≠ .loop := by
  unfold Mode.norm
  split
  · simp
  · cases m <;> simp

theorem evalBits_ne_loop (m : Mode) (env : Env) (b : Nat) (e : Expr) : evalBits m env b e ≠ .loop := by
  unfold evalBits
  intro h
  rcases Res.bind_eq_loop.mp h with h | ⟨v, _, h⟩
  · exact eval_ne_loop e h
  · split at h <;> cases h

theorem evalField_ne_loop (m : Mode) (env : Env) (next : Nat) (k : Kind) (o : Sum Expr IM) :
    evalField m env next k o ≠ .loop := by
  intro h
  unfold evalField at h
  split at h
  · exact evalBits_ne_loop _ _ _ _ h
  · exact evalBits_ne_loop _ _ _ _ h
  · exact evalBits_ne_loop _ _ _ _ h
  · unfold evalRel8 at h
    rcases Res.bind_eq_loop.mp h with h | ⟨v, _, h⟩
    · exact eval_ne_loop _ h
    · split at h
      · rcases Res.bind_eq_loop.mp h with h | ⟨v, _, h⟩
        · exact norm_ne_loop _ _ h
        · split at h <;> cases h
      · cases h
  · unfold evalAbs12 at h
    rcases Res.bind_eq_loop.mp h with h | ⟨v, _, h⟩
    · exact evalBits_ne_loop _ _ _ _ h
    · simp only at h
      split at h <;> cases h
  · exact evalBits_ne_loop _ _ _ _ h
  · unfold evalRel16 at h
    rcases Res.bind_eq_loop.mp h with h | ⟨v, _, h⟩
    · exact eval_ne_loop _ h
    · split at h
      · rcases Res.bind_eq_loop.mp h with h | ⟨v, _, h⟩
        · exact norm_ne_loop _ _ h
        · rcases Res.bind_eq_loop.mp h with h | ⟨v, _, h⟩
          · exact norm_ne_loop _ _ h
          · split at h <;> cases h
      · cases h
  · cases h
  · cases h

theorem evalFields_ne_loop (m : Mode) (env : Env) (next : Nat) : ∀ (ks : List Kind) (os : List (Sum Expr IM)),
    evalFields m env next ks os ≠ .loop
  | [], _ => by simp [evalFields]
  | _ :: _, [] => by simp [evalFields]
  | k :: ks, o :: os => by
    intro h
    simp only [evalFields] at h
    rcases Res.bind_eq_loop.mp h with h | ⟨v, _, h⟩
    · exact evalField_ne_loop _ _ _ _ _ h
    · rcases Res.bind_eq_loop.mp h with h | ⟨v, _, h⟩
      · exact evalFields_ne_loop m env next ks os h
      · cases h

theorem evalIn_ne_loop (m : Mode) (env : Env) (next : Nat) (i : Instr Expr IM) : i.evalIn m env next ≠ .loop := by
  intro h
  have := emit_instr m env next i
  rw [h, Res.loop_bind] at this
  rcases Res.bind_eq_loop.mp this.symm with h | ⟨v, _, h⟩
  · exact evalFields_ne_loop _ _ _ _ _ h
  · cases h

theorem byteItemsF_ne_loop (m : Mode) (env : Env) : ∀ vs : List ByteValue, byteItemsF m env vs ≠ .loop
  | [] => by simp [byteItemsF]
  | .expr e :: vs => by
    intro h
    simp only [byteItemsF] at h
    rcases Res.bind_eq_loop.mp h with h | ⟨v, _, h⟩
    · exact eval_ne_loop _ h
    · split at h
      · cases h
      · rcases Res.bind_eq_loop.mp h with h | ⟨v, _, h⟩
        · exact byteItemsF_ne_loop m env vs h
        · cases h
  | .str s :: vs => by
    intro h
    simp only [byteItemsF] at h
    rcases Res.bind_eq_loop.mp h with h | ⟨v, _, h⟩
    · exact byteItemsF_ne_loop m env vs h
    · cases h

theorem wordItemsF_ne_loop (m : Mode) (env : Env) : ∀ es : List Expr, wordItemsF m env es ≠ .loop
  | [] => by simp [wordItemsF]
  | e :: es => by
    intro h
    simp only [wordItemsF] at h
    rcases Res.bind_eq_loop.mp h with h | ⟨v, _, h⟩
    · exact eval_ne_loop _ h
    · split at h
      · cases h
      · rcases Res.bind_eq_loop.mp h with h | ⟨v, _, h⟩
        · exact wordItemsF_ne_loop m env es h
        · cases h

theorem emitF_ne_loop (m : Mode) (env : Env) (p : Nat) (x : Stmt) : emitF m env p x ≠ .loop := by
  intro h
  unfold emitF at h
  split at h
  · exact byteItemsF_ne_loop _ _ _ h
  · split at h <;> cases h
  · split at h <;> cases h
  · split at h <;> cases h
  · exact wordItemsF_ne_loop _ _ _ h
  · cases h
  · cases h
  · cases h
  · rcases Res.bind_eq_loop.mp h with h | ⟨v, _, h⟩
    · exact evalIn_ne_loop _ _ _ _ h
    · cases h
  · cases h
  · cases h
  · cases h
  · cases h

theorem emitAllF_ne_loop (m : Mode) (env : Text → Env) : ∀ qs : List Placed, emitAllF m env qs ≠ .loop
  | [] => by simp [emitAllF]
  | q :: qs => by
    intro h
    simp only [emitAllF] at h
    rcases Res.bind_eq_loop.mp h with h | ⟨v, _, h⟩
    · exact emitF_ne_loop _ _ _ _ h
    · rcases Res.bind_eq_loop.mp h with h | ⟨v, _, h⟩
      · exact emitAllF_ne_loop m env qs h
      · cases h

theorem addName_ne_loop (n : Text) (v : Int) (l : List (Text × Int)) : addName n v l ≠ .loop := by
  rw [addName_eq]; split <;> simp

theorem addName_ne_panic (n : Text) (v : Int) (l : List (Text × Int)) : addName n v l ≠ .panic := by
  rw [addName_eq]; split <;> simp

theorem varsF_ne_loop (m : Mode) : ∀ (ds : List (Text × Expr)) (g : List (Text × Int)), varsF m g ds ≠ .loop
  | [], g => by simp [varsF]
  | (n, e) :: ds, g => by
    intro h
    simp only [varsF] at h
    rcases Res.bind_eq_loop.mp h with h | ⟨v, _, h⟩
    · exact eval_ne_loop _ h
    · rcases Res.bind_eq_loop.mp h with h | ⟨v, _, h⟩
      · exact addName_ne_loop _ _ _ h
      · exact varsF_ne_loop m ds _ h

/-- With a layout below 2 GiB the assembler ends. -/
theorem assemble_ne_loop {m : Mode} {stmts : List Stmt} {ps : List Placed} (hsrc : SourceLabels stmts)
    (hl : layout stmts = some ps) (hfit : Fits ps) (hc : m = .wrapping ∨ CnopForward ps) :
    assemble m stmts ≠ .loop := by
  intro h
  rcases assemble_spec m hsrc hl hfit hc with ⟨_, h1⟩ | ⟨n, _, h1⟩
  · rw [h1] at h
    rcases Res.bind_eq_loop.mp h with h | ⟨v, _, h⟩
    · exact varsF_ne_loop _ _ _ h
    · rcases Res.bind_eq_loop.mp h with h | ⟨v, _, h⟩
      · exact emitAllF_ne_loop _ _ _ h
      · cases h
  · rw [h1] at h; cases h

/-- The checked `.cnop` loop ends within its fuel. -/
theorem cnopLoop_ne_loop {k : Int} (hk : 0 < k) (p : Int) : ∀ (fuel : Nat) (mult : Int), mult ≤ 2147483647 →
    2147483647 < mult + fuel → cnopLoop .checked p k fuel mult ≠ .loop
  | 0, mult, h0, h1 => by omega
  | fuel + 1, mult, h0, h1 => by
    intro h
    unfold cnopLoop at h
    split at h
    · cases h
    · rcases Res.bind_eq_loop.mp h with h | ⟨next, hn, h⟩
      · exact norm_ne_loop _ _ h
      · obtain ⟨rfl, h2, h3⟩ := checked_norm hn
        exact cnopLoop_ne_loop hk p fuel _ (by omega) (by omega) h

theorem place_mem : ∀ {stmts : List Stmt} {p : Nat} {sc : Text} {ps : List Placed}, place p sc stmts = some ps →
    ∀ q ∈ ps, q.stmt ∈ stmts ∧ advance q.addr q.stmt = some q.end_
  | [], p, sc, ps, h, q, hq => by
    simp only [place, Option.some.injEq] at h
    subst h; cases hq
  | x :: xs, p, sc, ps, h, q, hq => by
    obtain ⟨p', rest, ha, hr, rfl⟩ := place_cons h
    rcases List.mem_cons.mp hq with rfl | hq
    · exact ⟨by simp, by rw [end_eq ha]; exact ha⟩
    · have := place_mem hr q hq
      exact ⟨by simp [this.1], this.2⟩

theorem evalBits_panic {m : Mode} {env : Env} {b : Nat} {e : Expr} (h : evalBits m env b e = .panic) :
    e.eval m env = .panic := by
  unfold evalBits at h
  rcases Res.bind_eq_panic.mp h with h | ⟨v, _, h⟩
  · exact h
  · split at h <;> cases h

theorem evalField_panic {m : Mode} {env : Env} {next : Nat} (hn : next < 2147483648) {k : Kind} {o : Sum Expr IM}
    (hs : shapeOk k o = true) (h : evalField m env next k o = .panic) :
    ∃ e, o = .inl e ∧ e.eval m env = .panic := by
  unfold evalField at h
  split at h
  · exact ⟨_, rfl, evalBits_panic h⟩
  · exact ⟨_, rfl, evalBits_panic h⟩
  · exact ⟨_, rfl, evalBits_panic h⟩
  · unfold evalRel8 at h
    rcases Res.bind_eq_panic.mp h with h | ⟨v, _, h⟩
    · exact ⟨_, rfl, h⟩
    · split at h
      · rw [wrap32_nat hn, norm_int m (by omega) (by omega), Res.ok_bind] at h
        split at h <;> cases h
      · cases h
  · unfold evalAbs12 at h
    rcases Res.bind_eq_panic.mp h with h | ⟨v, _, h⟩
    · exact ⟨_, rfl, evalBits_panic h⟩
    · simp only at h
      split at h <;> cases h
  · exact ⟨_, rfl, evalBits_panic h⟩
  · unfold evalRel16 at h
    rcases Res.bind_eq_panic.mp h with h | ⟨v, _, h⟩
    · exact ⟨_, rfl, h⟩
    · split at h
      · rw [wrap32_nat hn, norm_int m (by omega) (by omega), Res.ok_bind,
          norm_int m (by omega) (by omega), Res.ok_bind] at h
        split at h <;> cases h
      · cases h
  · cases h
  · rename_i h1 h2 h3 h4 h5 h6 h7 h8
    cases k <;> cases o <;> simp_all [shapeOk]

theorem evalFields_panic {m : Mode} {env : Env} {next : Nat} (hn : next < 2147483648) :
    ∀ {ks : List Kind} {os : List (Sum Expr IM)}, shapesOk ks os = true →
    evalFields m env next ks os = .panic → ∃ e, Sum.inl e ∈ os ∧ e.eval m env = .panic
  | [], _, _, h => by simp [evalFields] at h
  | _ :: _, [], _, h => by simp [evalFields] at h
  | k :: ks, o :: os, hs, h => by
    simp only [shapesOk, Bool.and_eq_true] at hs
    simp only [evalFields] at h
    rcases Res.bind_eq_panic.mp h with h | ⟨v, _, h⟩
    · obtain ⟨e, rfl, h'⟩ := evalField_panic hn hs.1 h
      exact ⟨e, by simp, h'⟩
    · rcases Res.bind_eq_panic.mp h with h | ⟨v, _, h⟩
      · obtain ⟨e, h1, h2⟩ := evalFields_panic hn hs.2 h
        exact ⟨e, by simp [h1], h2⟩
      · cases h

theorem byteItemsF_panic {m : Mode} {env : Env} : ∀ {vs : List ByteValue}, byteItemsF m env vs = .panic →
    ∃ e, ByteValue.expr e ∈ vs ∧ e.eval m env = .panic
  | [], h => by simp [byteItemsF] at h
  | .expr e :: vs, h => by
    simp only [byteItemsF] at h
    rcases Res.bind_eq_panic.mp h with h | ⟨v, _, h⟩
    · exact ⟨e, by simp, h⟩
    · split at h
      · cases h
      · rcases Res.bind_eq_panic.mp h with h | ⟨v, _, h⟩
        · obtain ⟨e', h1, h2⟩ := byteItemsF_panic h
          exact ⟨e', by simp [h1], h2⟩
        · cases h
  | .str s :: vs, h => by
    simp only [byteItemsF] at h
    rcases Res.bind_eq_panic.mp h with h | ⟨v, _, h⟩
    · obtain ⟨e', h1, h2⟩ := byteItemsF_panic h
      exact ⟨e', by simp [h1], h2⟩
    · cases h

theorem wordItemsF_panic {m : Mode} {env : Env} : ∀ {es : List Expr}, wordItemsF m env es = .panic →
    ∃ e ∈ es, e.eval m env = .panic
  | [], h => by simp [wordItemsF] at h
  | e :: es, h => by
    simp only [wordItemsF] at h
    rcases Res.bind_eq_panic.mp h with h | ⟨v, _, h⟩
    · exact ⟨e, by simp, h⟩
    · split at h
      · cases h
      · rcases Res.bind_eq_panic.mp h with h | ⟨v, _, h⟩
        · obtain ⟨e', h1, h2⟩ := wordItemsF_panic h
          exact ⟨e', by simp [h1], h2⟩
        · cases h

theorem emitF_panic {m : Mode} {env : Env} {p p' : Nat} {x : Stmt} (ha : advance p x = some p')
    (hp' : p' < 2147483648) (h : emitF m env p x = .panic) : ∃ e ∈ exprsOf x, e.eval m env = .panic := by
  unfold emitF at h
  split at h
  · obtain ⟨e, h1, h2⟩ := byteItemsF_panic h
    refine ⟨e, ?_, h2⟩
    simp only [exprsOf, List.mem_filterMap]
    exact ⟨_, h1, rfl⟩
  · split at h <;> cases h
  · split at h <;> cases h
  · split at h <;> cases h
  · obtain ⟨e, h1, h2⟩ := wordItemsF_panic h
    exact ⟨e, h1, h2⟩
  · simp [advance] at ha
  · cases h
  · cases h
  · rename_i i
    rw [emit_instr] at h
    simp only [advance, Option.some.injEq, instr_size] at ha
    rcases Res.bind_eq_panic.mp h with h | ⟨v, _, h⟩
    · obtain ⟨e, h1, h2⟩ := evalFields_panic (by omega) (shapes i) h
      refine ⟨e, ?_, h2⟩
      simp only [exprsOf, List.mem_filterMap]
      exact ⟨_, h1, rfl⟩
    · cases h
  · cases h
  · cases h
  · cases h
  · simp [advance] at ha

theorem emitAllF_panic {m : Mode} {env : Text → Env} : ∀ {qs : List Placed},
    (∀ q ∈ qs, advance q.addr q.stmt = some q.end_) → Fits qs → emitAllF m env qs = .panic →
    ∃ q ∈ qs, ∃ e ∈ exprsOf q.stmt, e.eval m (env q.scope) = .panic
  | [], _, _, h => by simp [emitAllF] at h
  | q :: qs, ha, hf, h => by
    simp only [emitAllF] at h
    rcases Res.bind_eq_panic.mp h with h | ⟨v, _, h⟩
    · have hf' := hf q (by simp)
      obtain ⟨e, h1, h2⟩ := emitF_panic (ha q (by simp)) (by omega) h
      exact ⟨q, by simp, e, h1, h2⟩
    · rcases Res.bind_eq_panic.mp h with h | ⟨v, _, h⟩
      · obtain ⟨q', h1, h2⟩ := emitAllF_panic (fun q hq => ha q (by simp [hq])) (fun q hq => hf q (by simp [hq])) h
        exact ⟨q', by simp [h1], h2⟩
      · cases h

theorem definitions_mem : ∀ {stmts : List Stmt} {n : Text} {e : Expr}, (n, e) ∈ definitions stmts →
    ∃ x ∈ stmts, e ∈ exprsOf x
  | x :: xs, n, e, h => by
    have rec_ : (n, e) ∈ definitions xs → ∃ y ∈ x :: xs, e ∈ exprsOf y := fun h => by
      obtain ⟨y, hy, he⟩ := definitions_mem h
      exact ⟨y, by simp [hy], he⟩
    cases x with
    | «variable» n' e' =>
      simp only [definitions] at h
      rcases List.mem_cons.mp h with h | h
      · cases h; exact ⟨_, List.mem_cons_self, by simp [exprsOf]⟩
      · exact rec_ h
    | alias n' e' =>
      simp only [definitions] at h
      rcases List.mem_cons.mp h with h | h
      · cases h; exact ⟨_, List.mem_cons_self, by simp [exprsOf]⟩
      · exact rec_ h
    | _ => exact rec_ h

/-- All values of a list of bindings are 32-bit numbers. -/
def Bound32 (l : List (Text × Int)) : Prop := ∀ x ∈ l, -2147483648 ≤ x.2 ∧ x.2 ≤ 2147483647

theorem Bound32.env {l : List (Text × Int)} (h : Bound32 l) : Env32 (fun n => l.lookup n) := by
  intro n v hv
  exact h _ (lookup_some_mem hv)

theorem Bound32.names {g l : List (Text × Int)} (hg : Bound32 g) (hl : Bound32 l) : Env32 (namesGet g l) := by
  intro n v hv
  unfold namesGet at hv
  split at hv
  · exact hl _ (lookup_some_mem hv)
  · exact hg _ (lookup_some_mem hv)

theorem label_addr {qs : List Placed} (ha : ∀ q ∈ qs, advance q.addr q.stmt = some q.end_) (hf : Fits qs)
    {q : Placed} (hq : q ∈ qs) {n : Text} (hn : q.stmt = .label n) : q.addr < 2147483647 := by
  have h1 := ha q hq
  have h2 := hf q hq
  rw [hn] at h1
  simp only [advance, Option.some.injEq] at h1
  omega

theorem globalLabels_mem : ∀ {qs : List Placed} {n : Text} {v : Int}, (n, v) ∈ globalLabels qs ↔
    ∃ q ∈ qs, ∃ n', q.stmt = .label n' ∧ dotted n' = false ∧ n = lower n' ∧ v = q.addr
  | [], n, v => by simp [globalLabels]
  | ⟨p, s, x⟩ :: qs, n, v => by
    have ih := globalLabels_mem (qs := qs) (n := n) (v := v)
    cases x with
    | label n' =>
      simp only [globalLabels]
      split
      · rename_i hd
        rw [ih]
        constructor
        · rintro ⟨q, hq, h⟩; exact ⟨q, by simp [hq], h⟩
        · rintro ⟨q, hq, n'', h1, h2, h3⟩
          rcases List.mem_cons.mp hq with rfl | hq
          · cases h1; rw [hd] at h2; cases h2
          · exact ⟨q, hq, n'', h1, h2, h3⟩
      · rename_i hd
        simp only [List.mem_cons, ih]
        constructor
        · rintro (h | ⟨q, hq, h⟩)
          · cases h
            exact ⟨⟨p, s, .label n'⟩, by simp, n', rfl, by simpa using hd, rfl, rfl⟩
          · exact ⟨q, by simp [hq], h⟩
        · rintro ⟨q, rfl | hq, n'', h1, h2, h3, h4⟩
          · cases h1; left; rw [h3, h4]
          · exact .inr ⟨q, hq, n'', h1, h2, h3, h4⟩
    | _ =>
      simp only [globalLabels, ih]
      constructor
      · rintro ⟨q, hq, h⟩; exact ⟨q, by simp [hq], h⟩
      · rintro ⟨q, hq, n'', h1, h2, h3⟩
        rcases List.mem_cons.mp hq with rfl | hq
        · cases h1
        · exact ⟨q, hq, n'', h1, h2, h3⟩

theorem localLabels_mem {t : Text} : ∀ {qs : List Placed} {n : Text} {v : Int}, (n, v) ∈ localLabels t qs ↔
    ∃ q ∈ qs, ∃ n', q.stmt = .label n' ∧ dotted n' = true ∧ q.scope = t ∧ n = lower n' ∧ v = q.addr
  | [], n, v => by simp [localLabels]
  | ⟨p, s, x⟩ :: qs, n, v => by
    have ih := localLabels_mem (t := t) (qs := qs) (n := n) (v := v)
    cases x with
    | label n' =>
      simp only [localLabels]
      split
      · rename_i hd
        simp only [List.mem_cons, ih]
        constructor
        · rintro (h | ⟨q, hq, h⟩)
          · cases h
            exact ⟨⟨p, s, .label n'⟩, by simp, n', rfl, hd.1, hd.2, rfl, rfl⟩
          · exact ⟨q, by simp [hq], h⟩
        · rintro ⟨q, rfl | hq, n'', h1, h2, h3, h4, h5⟩
          · cases h1; left; rw [h4, h5]
          · exact .inr ⟨q, hq, n'', h1, h2, h3, h4, h5⟩
      · rename_i hd
        rw [ih]
        constructor
        · rintro ⟨q, hq, h⟩; exact ⟨q, by simp [hq], h⟩
        · rintro ⟨q, hq, n'', h1, h2, h3⟩
          rcases List.mem_cons.mp hq with rfl | hq
          · cases h1; exact (hd ⟨h2, h3.1⟩).elim
          · exact ⟨q, hq, n'', h1, h2, h3⟩
    | _ =>
      simp only [localLabels, ih]
      constructor
      · rintro ⟨q, hq, h⟩; exact ⟨q, by simp [hq], h⟩
      · rintro ⟨q, hq, n'', h1, h2, h3⟩
        rcases List.mem_cons.mp hq with rfl | hq
        · cases h1
        · exact ⟨q, hq, n'', h1, h2, h3⟩

theorem varsF_panic {m : Mode} : ∀ {ds : List (Text × Expr)} {g : List (Text × Int)}, Bound32 g →
    (∀ x ∈ ds, Literals32 x.2) → varsF m g ds = .panic →
    ∃ x ∈ ds, ∃ env, Env32 env ∧ x.2.eval m env = .panic
  | [], g, _, _, h => by simp [varsF] at h
  | (n, e) :: ds, g, hb, hl, h => by
    simp only [varsF] at h
    rcases Res.bind_eq_panic.mp h with h | ⟨v, hv, h⟩
    · exact ⟨(n, e), by simp, _, hb.env, h⟩
    · rcases Res.bind_eq_panic.mp h with h | ⟨g', hg', h⟩
      · exact (addName_ne_panic _ _ _ h).elim
      · have hv32 := eval_inI32 hb.env (hl (n, e) (by simp)) hv
        rw [addName_eq] at hg'
        split at hg'
        · cases hg'
        · cases hg'
          have hb' : Bound32 ((n, v) :: g) := by
            intro x hx
            rcases List.mem_cons.mp hx with rfl | hx
            · exact hv32
            · exact hb x hx
          obtain ⟨x, hx, h⟩ := varsF_panic hb' (fun x hx => hl x (by simp [hx])) h
          exact ⟨x, by simp [hx], h⟩

theorem varsF_bound {m : Mode} : ∀ {ds : List (Text × Expr)} {g g' : List (Text × Int)}, Bound32 g →
    (∀ x ∈ ds, Literals32 x.2) → varsF m g ds = .ok g' → Bound32 g'
  | [], g, g', hb, _, h => by cases h; exact hb
  | (n, e) :: ds, g, g', hb, hl, h => by
    simp only [varsF] at h
    obtain ⟨v, hv, h⟩ := Res.bind_eq_ok.mp h
    obtain ⟨g1, hg1, h⟩ := Res.bind_eq_ok.mp h
    have hv32 := eval_inI32 hb.env (hl (n, e) (by simp)) hv
    rw [addName_eq] at hg1
    split at hg1
    · cases hg1
    · cases hg1
      refine varsF_bound ?_ (fun x hx => hl x (by simp [hx])) h
      intro x hx
      rcases List.mem_cons.mp hx with rfl | hx
      · exact hv32
      · exact hb x hx

theorem labels_bound {qs : List Placed} (ha : ∀ q ∈ qs, advance q.addr q.stmt = some q.end_) (hf : Fits qs) :
    Bound32 (globalLabels qs) ∧ ∀ t, Bound32 (localLabels t qs) := by
  constructor
  · rintro ⟨n, v⟩ hx
    obtain ⟨q, hq, n', h1, _, _, rfl⟩ := globalLabels_mem.mp hx
    have := label_addr ha hf hq h1
    simp only; omega
  · rintro t ⟨n, v⟩ hx
    obtain ⟨q, hq, n', h1, _, _, _, rfl⟩ := localLabels_mem.mp hx
    have := label_addr ha hf hq h1
    simp only; omega

/-- The assembler panics only if an expression of the program overflows. -/
theorem assemble_panic {m : Mode} {stmts : List Stmt} {ps : List Placed} (hsrc : SourceLabels stmts)
    (hl : layout stmts = some ps) (hfit : Fits ps) (hc : m = .wrapping ∨ CnopForward ps)
    (hlit : ∀ x ∈ stmts, ∀ e ∈ exprsOf x, Literals32 e) (h : assemble m stmts = .panic) :
    ∃ x ∈ stmts, ∃ e ∈ exprsOf x, ∃ env, Env32 env ∧ Overflows m env e := by
  have ha := place_mem hl
  obtain ⟨hb1, hb2⟩ := labels_bound (fun q hq => (ha q hq).2) hfit
  have rev32 : ∀ {l}, Bound32 l → Bound32 l.reverse := fun hb x hx => hb x (by simpa using hx)
  have hld : ∀ x ∈ definitions stmts, Literals32 x.2 := by
    rintro ⟨n, e⟩ hx
    obtain ⟨y, hy, he⟩ := definitions_mem hx
    exact hlit y hy e he
  rcases assemble_spec m hsrc hl hfit hc with ⟨_, h1⟩ | ⟨n, _, h1⟩
  · rw [h1] at h
    rcases Res.bind_eq_panic.mp h with h | ⟨g, hg, h⟩
    · obtain ⟨⟨n, e⟩, hx, env, h2, h3⟩ := varsF_panic (rev32 hb1) hld h
      obtain ⟨y, hy, he⟩ := definitions_mem hx
      exact ⟨y, hy, e, he, env, h2, overflows_of_eval h2 e (hlit y hy e he) h3⟩
    · rcases Res.bind_eq_panic.mp h with h | ⟨v, _, h⟩
      · obtain ⟨q, hq, e, he, h2⟩ := emitAllF_panic (fun q hq => (ha q hq).2) hfit h
        have hy := (ha q hq).1
        have hE := Bound32.names (varsF_bound (rev32 hb1) hld hg) (rev32 (hb2 q.scope))
        exact ⟨q.stmt, hy, e, he, _, hE, overflows_of_eval hE e (hlit _ hy e he) h2⟩
      · cases h
  · rw [h1] at h; cases h

end Verif
