import Verif.Lemmas.AsmTotal
/-
Helper lemmas: termination with overflow checks, map order, comments, positions of prefixes.
-/
namespace Verif
open Spec

theorem evalCnop_ne_loop {p : Int} {a k : Expr} (hk : ∀ v r, k = .number v r → 0 ≤ v) :
    evalCnop .checked p a k ≠ .loop := by
  intro h
  unfold evalCnop at h
  rcases Res.bind_eq_loop.mp h with h | ⟨x, hx, h⟩
  · cases a <;> cases h
  · rcases Res.bind_eq_loop.mp h with h | ⟨y, hy, h⟩
    · cases k <;> cases h
    · cases k <;> simp only [evalCnopExpr, reduceCtorEq, Res.ok.injEq] at hy
      subst hy
      have := hk _ _ rfl
      split at h
      · cases h
      · rcases Res.bind_eq_loop.mp h with h | ⟨z, hz, h⟩
        · exact cnopLoop_ne_loop (by omega) p _ _ (by omega) (by unfold cnopFuel; omega) h
        · exact norm_ne_loop _ _ h

theorem size_ne_loop {p : Int} {d : Directive} (hk : ∀ a v r, d = .cnop a (.number v r) → 0 ≤ v) :
    d.size .checked p ≠ .loop := by
  cases d with
  | cnop a k =>
    intro h
    simp only [Directive.size] at h
    rcases Res.bind_eq_loop.mp h with h | ⟨x, hx, h⟩
    · exact evalCnop_ne_loop (fun v r hk' => hk a v r (by rw [hk'])) h
    · exact norm_ne_loop _ _ h
  | org n => simp only [Directive.size]; exact norm_ne_loop _ _
  | _ => simp only [Directive.size, ne_eq, reduceCtorEq, not_false_eq_true]

theorem runSteps_ne_loop {σ : Type} {step : σ → Stmt → Res σ} : ∀ {xs : List Stmt},
    (∀ s, ∀ x ∈ xs, step s x ≠ .loop) → ∀ s, runSteps step xs s ≠ .loop
  | [], _, s => by simp [runSteps]
  | x :: xs, h, s => by
    intro h'
    simp only [runSteps] at h'
    rcases Res.bind_eq_loop.mp h' with h' | ⟨s1, _, h'⟩
    · exact h s x (by simp) h'
    · exact runSteps_ne_loop (fun s y hy => h s y (by simp [hy])) s1 h'

theorem labelStep_ne_loop {x : Stmt} (hk : ∀ a v r, x = .dir (.cnop a (.number v r)) → 0 ≤ v) (s : LabelState) :
    labelStep .checked s x ≠ .loop := by
  intro h
  cases x with
  | dir d =>
    simp only [labelStep] at h
    rcases Res.bind_eq_loop.mp h with h | ⟨z, hz, h⟩
    · exact size_ne_loop (fun a v r hd => hk a v r (by rw [hd])) h
    · rcases Res.bind_eq_loop.mp h with h | ⟨z, hz, h⟩
      · exact norm_ne_loop _ _ h
      · cases h
  | label n =>
    simp only [labelStep] at h
    split at h
    · rcases Res.bind_eq_loop.mp h with h | ⟨z, hz, h⟩
      · exact addName_ne_loop _ _ _ h
      · cases h
    · rcases Res.bind_eq_loop.mp h with h | ⟨z, hz, h⟩
      · exact addName_ne_loop _ _ _ h
      · cases h
  | instr i =>
    simp only [labelStep] at h
    rcases Res.bind_eq_loop.mp h with h | ⟨z, hz, h⟩
    · exact norm_ne_loop _ _ h
    · cases h
  | _ => cases h

theorem nameStep_ne_loop {x : Stmt} (hk : ∀ a v r, x = .dir (.cnop a (.number v r)) → 0 ≤ v) (s : NameState) :
    nameStep .checked s x ≠ .loop := by
  intro h
  cases x with
  | dir d =>
    simp only [nameStep] at h
    rcases Res.bind_eq_loop.mp h with h | ⟨z, hz, h⟩
    · exact size_ne_loop (fun a v r hd => hk a v r (by rw [hd])) h
    · rcases Res.bind_eq_loop.mp h with h | ⟨z, hz, h⟩
      · exact norm_ne_loop _ _ h
      · cases h
  | instr i =>
    simp only [nameStep] at h
    rcases Res.bind_eq_loop.mp h with h | ⟨z, hz, h⟩
    · exact norm_ne_loop _ _ h
    · cases h
  | «variable» n e =>
    simp only [nameStep] at h
    rcases Res.bind_eq_loop.mp h with h | ⟨z, hz, h⟩
    · exact eval_ne_loop _ h
    · rcases Res.bind_eq_loop.mp h with h | ⟨z, hz, h⟩
      · exact addName_ne_loop _ _ _ h
      · cases h
  | alias n e =>
    simp only [nameStep] at h
    rcases Res.bind_eq_loop.mp h with h | ⟨z, hz, h⟩
    · exact eval_ne_loop _ h
    · rcases Res.bind_eq_loop.mp h with h | ⟨z, hz, h⟩
      · exact addName_ne_loop _ _ _ h
      · cases h
  | _ => cases h

theorem writeByte_ne_loop (out : List UInt8) (p : Nat) (b : UInt8) : writeByte out p b ≠ .loop := by
  unfold writeByte; split <;> simp

theorem writeBytes_ne_loop : ∀ (bs out : List UInt8) (p : Nat), writeBytes out p bs ≠ .loop
  | [], _, _ => by simp [writeBytes]
  | b :: bs, out, p => by
    intro h
    simp only [writeBytes] at h
    rcases Res.bind_eq_loop.mp h with h | ⟨z, hz, h⟩
    · exact writeByte_ne_loop _ _ _ h
    · exact writeBytes_ne_loop bs _ _ h

theorem writeByteValues_ne_loop (m : Mode) (env : Env) : ∀ (vs : List ByteValue) (out : List UInt8) (p : Nat),
    writeByteValues m env out p vs ≠ .loop
  | [], _, _ => by simp [writeByteValues]
  | .expr e :: vs, out, p => by
    intro h
    simp only [writeByteValues] at h
    rcases Res.bind_eq_loop.mp h with h | ⟨z, hz, h⟩
    · exact eval_ne_loop _ h
    · split at h
      · cases h
      · rcases Res.bind_eq_loop.mp h with h | ⟨z, hz, h⟩
        · exact writeByte_ne_loop _ _ _ h
        · exact writeByteValues_ne_loop m env vs _ _ h
  | .str s :: vs, out, p => by
    intro h
    simp only [writeByteValues] at h
    rcases Res.bind_eq_loop.mp h with h | ⟨z, hz, h⟩
    · exact writeBytes_ne_loop _ _ _ h
    · exact writeByteValues_ne_loop m env vs _ _ h

theorem writeWords_ne_loop (m : Mode) (env : Env) : ∀ (es : List Expr) (out : List UInt8) (p : Nat),
    writeWords m env out p es ≠ .loop
  | [], _, _ => by simp [writeWords]
  | e :: es, out, p => by
    intro h
    simp only [writeWords] at h
    rcases Res.bind_eq_loop.mp h with h | ⟨z, hz, h⟩
    · exact eval_ne_loop _ h
    · split at h
      · cases h
      · rcases Res.bind_eq_loop.mp h with h | ⟨z, hz, h⟩
        · exact writeByte_ne_loop _ _ _ h
        · rcases Res.bind_eq_loop.mp h with h | ⟨z, hz, h⟩
          · exact writeByte_ne_loop _ _ _ h
          · exact writeWords_ne_loop m env es _ _ h

theorem writePadded_ne_loop (s : GenState) (n : Nat) (bs : List UInt8) (pad : UInt8) :
    writePadded s n bs pad ≠ .loop := by
  intro h
  unfold writePadded at h
  split at h
  · cases h
  · rcases Res.bind_eq_loop.mp h with h | ⟨z, hz, h⟩
    · exact writeBytes_ne_loop _ _ _ h
    · rcases Res.bind_eq_loop.mp h with h | ⟨z, hz, h⟩
      · exact writeBytes_ne_loop _ _ _ h
      · cases h

theorem asEnv_ne_loop (names : Names) (sc : Text) : names.asEnv sc ≠ .loop := by
  unfold Names.asEnv; split <;> simp

theorem addUsize_ne_loop (m : Mode) (p : Nat) (d : Int) : addUsize m p d ≠ .loop := by
  unfold addUsize
  simp only
  split
  · simp
  · cases m <;> simp

theorem genStep_ne_loop {names : Names} {x : Stmt} (hk : ∀ a v r, x = .dir (.cnop a (.number v r)) → 0 ≤ v)
    (s : GenState) : genStep .checked names s x ≠ .loop := by
  intro h
  cases x with
  | dir d =>
    cases d with
    | byte vs =>
      simp only [genStep] at h
      rcases Res.bind_eq_loop.mp h with h | ⟨z, hz, h⟩
      · exact asEnv_ne_loop _ _ h
      · rcases Res.bind_eq_loop.mp h with h | ⟨z, hz, h⟩
        · exact writeByteValues_ne_loop _ _ _ _ _ h
        · cases h
    | word vs =>
      simp only [genStep] at h
      rcases Res.bind_eq_loop.mp h with h | ⟨z, hz, h⟩
      · exact asEnv_ne_loop _ _ h
      · rcases Res.bind_eq_loop.mp h with h | ⟨z, hz, h⟩
        · exact writeWords_ne_loop _ _ _ _ _ h
        · cases h
    | text n bs => exact writePadded_ne_loop _ _ _ _ h
    | string n bs => exact writePadded_ne_loop _ _ _ _ h
    | org n =>
      simp only [genStep] at h
      split at h <;> cases h
    | incl t path => cases h
    | cnop a k =>
      simp only [genStep] at h
      rcases Res.bind_eq_loop.mp h with h | ⟨z, hz, h⟩
      · exact size_ne_loop (fun a v r hd => hk a v r (by rw [hd])) h
      · rcases Res.bind_eq_loop.mp h with h | ⟨z, hz, h⟩
        · exact addUsize_ne_loop _ _ _ h
        · cases h
  | label n =>
    simp only [genStep] at h
    split at h <;> cases h
  | instr i =>
    simp only [genStep] at h
    rcases Res.bind_eq_loop.mp h with h | ⟨z, hz, h⟩
    · exact addUsize_ne_loop _ _ _ h
    · rcases Res.bind_eq_loop.mp h with h | ⟨z, hz, h⟩
      · unfold Instr.eval at h
        rcases Res.bind_eq_loop.mp h with h | ⟨z, hz, h⟩
        · exact asEnv_ne_loop _ _ h
        · exact evalIn_ne_loop _ _ _ _ h
      · rcases Res.bind_eq_loop.mp h with h | ⟨z, hz, h⟩
        · exact writeBytes_ne_loop _ _ _ h
        · cases h
  | _ => cases h

/-- With overflow checks the assembler always ends. -/
theorem assemble_checked_ne_loop {stmts : List Stmt} (hs : SourceCnop stmts) : assemble .checked stmts ≠ .loop := by
  intro h
  have hk : ∀ x ∈ stmts, ∀ a v r, x = .dir (.cnop a (.number v r)) → 0 ≤ v := by
    rintro x hx a v r rfl
    exact ((hs _ _ hx).2 v r rfl).1
  unfold assemble at h
  rcases Res.bind_eq_loop.mp h with h | ⟨⟨mx, names⟩, hz, h⟩
  · unfold computeNames at h
    rcases Res.bind_eq_loop.mp h with h | ⟨z, hz, h⟩
    · unfold computeLabels at h
      rcases Res.bind_eq_loop.mp h with h | ⟨z, hz, h⟩
      · exact runSteps_ne_loop (fun s x hx => labelStep_ne_loop (hk x hx) s) _ h
      · split at h <;> cases h
    · rcases Res.bind_eq_loop.mp h with h | ⟨z, hz, h⟩
      · exact runSteps_ne_loop (fun s x hx => nameStep_ne_loop (hk x hx) s) _ h
      · rcases Res.bind_eq_loop.mp h with h | ⟨z, hz, h⟩
        · exact norm_ne_loop _ _ h
        · cases h
  · simp only at h
    split at h
    · cases h
    · rcases Res.bind_eq_loop.mp h with h | ⟨z, hz, h⟩
      · exact runSteps_ne_loop (fun s x hx => genStep_ne_loop (hk x hx) s) _ h
      · cases h

/-- Multiples of four never reach 2^31 - 1. -/
theorem cnopLoop_hang : ∀ (fuel : Nat) (mult : Int), mult % 4 = 0 → inI32 mult →
    cnopLoop .wrapping 2147483647 4 fuel mult = .loop
  | 0, _, _, _ => rfl
  | fuel + 1, mult, h1, h2 => by
    unfold inI32 at h2
    unfold cnopLoop
    rw [if_neg (by omega)]
    have hn : Mode.wrapping.norm (mult + 4) = .ok (wrap32 (mult + 4)) := by
      unfold Mode.norm
      split
      · rename_i hi
        unfold inI32 at hi
        rw [show wrap32 (mult + 4) = mult + 4 by unfold wrap32; omega]
      · rfl
    rw [hn, Res.ok_bind]
    exact cnopLoop_hang fuel _ (by unfold wrap32; omega) (inI32_wrap32 _)

theorem lookup_mapInsert {β : Type} (k : Text) (v : β) (l : List (Text × β)) (x : Text) :
    (mapInsert k v l).lookup x = if x = k then some v else l.lookup x := by
  unfold mapInsert
  rw [List.lookup_cons]
  by_cases h : x = k
  · subst h; simp
  · have : (x == k) = false := by simpa using h
    rw [this, if_neg h]
    show (l.filter (fun x => x.1 != k)).lookup x = l.lookup x
    induction l with
    | nil => rfl
    | cons y ys ih =>
      obtain ⟨a, b⟩ := y
      rw [List.filter_cons]
      by_cases ha : a = k
      · subst ha
        simp only [bne_self_eq_false, Bool.false_eq_true, if_false]
        rw [ih, List.lookup_cons, this]
      · rw [if_pos (by simpa using ha), List.lookup_cons, List.lookup_cons, ih]

theorem lookup_copy {β γ : Type} (f : Text → γ) (l : List (Text × β)) (x : Text) : ∀ (ks : List Text) (acc : List (Text × γ)),
    (ks.foldl (fun acc k => mapInsert k (f k) acc) acc).lookup x = if x ∈ ks then some (f x) else acc.lookup x
  | [], acc => by simp
  | k :: ks, acc => by
    rw [List.foldl_cons, lookup_copy f l x ks, lookup_mapInsert]
    by_cases h : x ∈ ks
    · rw [if_pos h, if_pos (by simp [h])]
    · rw [if_neg h]
      by_cases hk : x = k
      · subst hk; rw [if_pos rfl, if_pos (by simp)]
      · rw [if_neg hk, if_neg (by simp [hk, h])]

/-- Any order that visits exactly the keys. -/
def Visits (order : List Text → List Text) : Prop := ∀ ks x, x ∈ order ks ↔ x ∈ ks

theorem lookup_copyMap {order : List Text → List Text} (ho : Visits order) (l : List (Text × Int)) (x : Text) :
    (copyMap order l).lookup x = l.lookup x := by
  unfold copyMap
  rw [lookup_copy _ l]
  by_cases h : x ∈ l.map (·.1)
  · rw [if_pos ((ho _ _).mpr h)]
    cases hl : l.lookup x with
    | some v => rfl
    | none => exact (lookup_none_iff.mp hl h).elim
  · rw [if_neg (fun h' => h ((ho _ _).mp h')), lookup_none_iff.mpr h]
    rfl

theorem asEnv_copy {order : List Text → List Text} (ho : Visits order) (g : List (Text × Int))
    (l : List (Text × List (Text × Int))) (sc : Text) :
    (⟨copyMap order g, copyLocals order l⟩ : Names).asEnv sc = (⟨g, l⟩ : Names).asEnv sc := by
  have key : (copyLocals order l).lookup sc = (l.lookup sc).map (copyMap order) := by
    unfold copyLocals
    rw [lookup_copy _ l]
    by_cases h : sc ∈ l.map (·.1)
    · rw [if_pos ((ho _ _).mpr h)]
      cases hl : l.lookup sc with
      | some v => rfl
      | none => exact (lookup_none_iff.mp hl h).elim
    · rw [if_neg (fun h' => h ((ho _ _).mp h')), lookup_none_iff.mpr h]
      rfl
  unfold Names.asEnv
  simp only [key]
  cases l.lookup sc with
  | none => rfl
  | some v =>
    simp only [Option.map_some]
    congr 1
    funext n
    unfold namesGet
    rw [lookup_copyMap ho, lookup_copyMap ho]

theorem genStep_copy {order : List Text → List Text} (ho : Visits order) (m : Mode) (g : List (Text × Int))
    (l : List (Text × List (Text × Int))) (s : GenState) (x : Stmt) :
    genStep m ⟨copyMap order g, copyLocals order l⟩ s x = genStep m ⟨g, l⟩ s x := by
  cases x with
  | dir d =>
    cases d with
    | byte vs => simp only [genStep, asEnv_copy ho]
    | word vs => simp only [genStep, asEnv_copy ho]
    | _ => rfl
  | instr i => simp only [genStep, Instr.eval, asEnv_copy ho]
  | _ => rfl

theorem assembleIn_eq {order : List Text → List Text} (ho : Visits order) (m : Mode) (stmts : List Stmt) :
    assembleIn order m stmts = assemble m stmts := by
  unfold assembleIn assemble computeNamesIn computeNames
  cases computeLabels m stmts with
  | ok labels =>
    simp only [Res.ok_bind]
    cases runSteps (nameStep m) stmts ⟨labels.1, 0, 0⟩ with
    | ok s =>
      simp only [Res.ok_bind]
      cases m.norm (s.maxPos + 1) with
      | ok mx =>
        simp only [Res.ok_bind]
        rw [show genStep m ⟨copyMap order s.globals, copyLocals order labels.2⟩ = genStep m ⟨s.globals, labels.2⟩ from
          funext fun s => funext fun x => genStep_copy ho m _ _ s x]
      | err e => simp only [Res.err_bind]
      | panic => simp only [Res.panic_bind]
      | loop => simp only [Res.loop_bind]
    | err e => simp only [Res.err_bind]
    | panic => simp only [Res.panic_bind]
    | loop => simp only [Res.loop_bind]
  | err e => simp only [Res.err_bind]
  | panic => simp only [Res.panic_bind]
  | loop => simp only [Res.loop_bind]

theorem nameRun_pos {m : Mode} : ∀ {xs : List Stmt} {s s' : NameState}, s.pos ≤ s.maxPos →
    runSteps (nameStep m) xs s = .ok s' → s'.pos ≤ s'.maxPos
  | [], s, s', h0, h => by cases h; exact h0
  | x :: xs, s, s', _, h => by
    simp only [runSteps] at h
    obtain ⟨s1, h1, h2⟩ := Res.bind_eq_ok.mp h
    exact nameRun_pos (nameStep_max h1).2 h2

/-- A statement on which all three passes do nothing can be dropped. -/
theorem assemble_drop (m : Mode) {x : Stmt} (h1 : ∀ s, labelStep m s x = .ok s)
    (h2 : ∀ s, nameStep m s x = .ok (s.moveTo s.pos)) (h3 : ∀ names s, genStep m names s x = .ok s)
    (pre post : List Stmt) : assemble m (pre ++ x :: post) = assemble m (pre ++ post) := by
  have e1 : ∀ s, runSteps (labelStep m) (pre ++ x :: post) s = runSteps (labelStep m) (pre ++ post) s := by
    intro s
    rw [runSteps_append, runSteps_append]
    congr 1; funext s'
    simp only [runSteps, h1, Res.ok_bind]
  have e2 : ∀ s, s.pos ≤ s.maxPos →
      runSteps (nameStep m) (pre ++ x :: post) s = runSteps (nameStep m) (pre ++ post) s := by
    intro s hs
    rw [runSteps_append, runSteps_append]
    cases h : runSteps (nameStep m) pre s with
    | ok s' =>
      simp only [Res.ok_bind, runSteps, h2]
      have : s'.moveTo s'.pos = s' := by
        have := nameRun_pos hs h
        unfold NameState.moveTo
        rw [if_neg (by omega)]
      rw [this]
    | err e => rfl
    | panic => rfl
    | loop => rfl
  have e3 : ∀ names s, runSteps (genStep m names) (pre ++ x :: post) s = runSteps (genStep m names) (pre ++ post) s := by
    intro names s
    rw [runSteps_append, runSteps_append]
    congr 1; funext s'
    simp only [runSteps, h3, Res.ok_bind]
  unfold assemble computeNames computeLabels
  simp only [e1, e3]
  congr 1
  congr 1
  funext l
  rw [e2 _ (by show (0 : Int) ≤ 0; omega)]

theorem place_append : ∀ {pre post : List Stmt} {p : Nat} {sc : Text} {ps : List Placed},
    place p sc (pre ++ post) = some ps → ∃ ps1 ps2 sc', place p sc pre = some ps1 ∧
      place (stop p ps1) sc' post = some ps2 ∧ ps = ps1 ++ ps2 ∧ sc' = pre.foldl nextScope sc
  | [], post, p, sc, ps, h => ⟨[], ps, sc, rfl, h, rfl, rfl⟩
  | x :: xs, post, p, sc, ps, h => by
    obtain ⟨p', rest, ha, hr, rfl⟩ := place_cons (x := x) (xs := xs ++ post) h
    obtain ⟨ps1, ps2, sc', h1, h2, rfl, h4⟩ := place_append hr
    refine ⟨⟨p, sc, x⟩ :: ps1, ps2, sc', ?_, ?_, rfl, h4⟩
    · simp only [place, ha, h1]
    · simp only [stop]; rw [end_eq ha]; exact h2

theorem sourceLabels_prefix {pre post : List Stmt} (h : SourceLabels (pre ++ post)) : SourceLabels pre :=
  fun n hn hd => h n (by simp [hn]) hd

/-- Both passes are at the specified address after any prefix of the program. -/
theorem positions {m : Mode} {pre post : List Stmt} {ps : List Placed} {out : List UInt8}
    (hsrc : SourceLabels (pre ++ post)) (hl : layout (pre ++ post) = some ps) (hfit : Fits ps)
    (hc : m = .wrapping ∨ CnopForward ps) (h : assemble m (pre ++ post) = .ok out) :
    ∃ ps1 ps2 mx names sl sg, ps = ps1 ++ ps2 ∧ layout pre = some ps1 ∧
      computeNames m (pre ++ post) = .ok (mx, names) ∧
      runSteps (labelStep m) pre ⟨[], [], [], [], 0⟩ = .ok sl ∧ sl.pos = (stop 0 ps1 : Int) ∧
      runSteps (genStep m names) pre ⟨0, [], List.replicate (mx - 1).toNat 0⟩ = .ok sg ∧ sg.pos = stop 0 ps1 := by
  obtain ⟨ps1, ps2, sc', h1, h2, rfl, _⟩ := place_append hl
  have hf1 : Fits ps1 := fun q hq => hfit q (by simp [hq])
  unfold assemble at h
  obtain ⟨⟨mx, names⟩, hn, h⟩ := Res.bind_eq_ok.mp h
  simp only at h
  split at h
  · cases h
  · obtain ⟨sg', hg, _⟩ := Res.bind_eq_ok.mp h
    rw [runSteps_append] at hg
    obtain ⟨sg, hg1, _⟩ := Res.bind_eq_ok.mp hg
    have hlab : ∃ sl, runSteps (labelStep m) pre ⟨[], [], [], [], 0⟩ = .ok sl := by
      have hn' := hn
      unfold computeNames computeLabels at hn'
      obtain ⟨l, hl', _⟩ := Res.bind_eq_ok.mp hn'
      obtain ⟨s, hs, _⟩ := Res.bind_eq_ok.mp hl'
      rw [runSteps_append] at hs
      obtain ⟨sl, hsl, _⟩ := Res.bind_eq_ok.mp hs
      exact ⟨sl, hsl⟩
    obtain ⟨sl, hsl⟩ := hlab
    have hslp : sl.pos = (stop 0 ps1 : Int) := by
      rcases label_run m pre 0 [] [] ps1 _ LInv.init (sourceLabels_prefix hsrc) h1 (by omega) hf1 with ⟨s', _, h3, h4⟩ | ⟨n, _, h3⟩
      · rw [hsl] at h3; cases h3; exact h4.pos
      · rw [hsl] at h3; cases h3
    have hsgp : sg.pos = stop 0 ps1 := by
      rcases computeNames_spec m hsrc hl hfit with ⟨_, locals, hlk, hcn⟩ | ⟨n, _, hcn⟩
      · rw [hn] at hcn
        obtain ⟨g, _, hg'⟩ := Res.bind_eq_ok.mp hcn.symm
        cases hg'
        have hlen : ∀ q ∈ ps1, q.end_ ≤ (List.replicate ((reach (ps1 ++ ps2) : Int) + 1 - 1).toNat (0 : UInt8)).length := by
          rw [List.length_replicate, show ((reach (ps1 ++ ps2) : Int) + 1 - 1).toNat = reach (ps1 ++ ps2) by omega]
          intro q hq
          have hq' : q ∈ ps1 ++ ps2 := by simp [hq]
          exact le_reach hq'
        obtain ⟨sc2, hr⟩ := gen_run m ⟨g, locals⟩ (fun s => (localLabels s (ps1 ++ ps2)).reverse) pre 0 [] ps1 _
          (sourceLabels_prefix hsrc) h1 (by omega) hf1 (fun q hq => hlk q (by simp [hq])) hlen
          (hc.imp id fun h q hq => h q (by simp [hq]))
        rw [hg1] at hr
        obtain ⟨ws, _, hr'⟩ := Res.bind_eq_ok.mp hr.symm
        cases hr'
        rfl
      · rw [hn] at hcn; cases hcn
    exact ⟨ps1, ps2, mx, names, sl, sg, rfl, h1, hn, hsl, hslp, hg1, hsgp⟩

end Verif
