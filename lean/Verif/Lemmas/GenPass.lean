import Verif.Lemmas.NamePass
import Verif.Lemmas.InstrEval
/-
Helper lemmas: byte generation (generate_bytes) against the specification of emitted bytes.
-/
namespace Verif
open Spec

/-- Overwrites `out` from `pos` on. -/
def setAll : List UInt8 → Nat → List UInt8 → List UInt8
  | out, _, [] => out
  | out, pos, b :: bs => setAll (out.set pos b) (pos + 1) bs

@[simp] theorem setAll_length : ∀ (out : List UInt8) (pos : Nat) (bs : List UInt8),
    (setAll out pos bs).length = out.length
  | _, _, [] => rfl
  | out, pos, b :: bs => by simp [setAll, setAll_length]

theorem setAll_append : ∀ (a : List UInt8) (out : List UInt8) (pos : Nat) (b : List UInt8),
    setAll (setAll out pos a) (pos + a.length) b = setAll out pos (a ++ b)
  | [], _, _, _ => rfl
  | x :: a, out, pos, b => by
    simp only [setAll, List.cons_append, List.length_cons]
    rw [show pos + (a.length + 1) = pos + 1 + a.length by omega]
    exact setAll_append a _ _ b

theorem setAll_get : ∀ (bs : List UInt8) (out : List UInt8) (pos j : Nat), j < out.length →
    (setAll out pos bs)[j]? = if pos ≤ j ∧ j < pos + bs.length then bs[j - pos]? else out[j]?
  | [], out, pos, j, hj => by simp [setAll]; omega
  | b :: bs, out, pos, j, hj => by
    simp only [setAll]
    rw [setAll_get bs _ _ j (by simpa using hj)]
    simp only [List.length_cons]
    by_cases h1 : j = pos
    · subst h1
      rw [if_neg (by omega), if_pos (by omega)]
      simp [hj]
    · by_cases h2 : pos + 1 ≤ j ∧ j < pos + 1 + bs.length
      · rw [if_pos h2, if_pos (by omega)]
        rw [show j - pos = (j - (pos + 1)) + 1 by omega]
        simp
      · rw [if_neg h2, if_neg (by omega)]
        rw [List.getElem?_set_ne (by omega)]

theorem writeBytes_eq : ∀ (bs out : List UInt8) (pos : Nat), pos + bs.length ≤ out.length →
    writeBytes out pos bs = .ok (setAll out pos bs, pos + bs.length)
  | [], _, _, _ => rfl
  | b :: bs, out, pos, h => by
    simp only [List.length_cons] at h
    simp only [writeBytes, writeByte]
    rw [if_pos (by omega), Res.ok_bind]
    show writeBytes (out.set pos b) (pos + 1) bs = _
    rw [writeBytes_eq bs _ _ (by simp; omega)]
    simp only [setAll, List.length_cons, Res.ok.injEq, Prod.mk.injEq, true_and]
    omega

/-- The bytes of a `.byte` list. -/
def byteItemsF (m : Mode) (env : Env) : List ByteValue → Res (List UInt8)
  | [] => .ok []
  | .expr e :: vs => do
    let v ← e.eval m env
    if v < -128 ∨ v > 255 then .err (.byteOutOfRange v)
    else do
      let bs ← byteItemsF m env vs
      .ok (lowByte v :: bs)
  | .str s :: vs => do
    let bs ← byteItemsF m env vs
    .ok (s ++ bs)

theorem byteItemsF_length (m : Mode) (env : Env) : ∀ (vs : List ByteValue) (bs : List UInt8),
    byteItemsF m env vs = .ok bs → bs.length = byteCount vs
  | [], bs, h => by cases h; rfl
  | .expr e :: vs, bs, h => by
    simp only [byteItemsF] at h
    obtain ⟨v, _, h⟩ := Res.bind_eq_ok.mp h
    split at h
    · cases h
    · obtain ⟨bs', h1, h2⟩ := Res.bind_eq_ok.mp h
      cases h2
      simp [byteCount, byteItemsF_length m env vs bs' h1]; omega
  | .str s :: vs, bs, h => by
    simp only [byteItemsF] at h
    obtain ⟨bs', h1, h2⟩ := Res.bind_eq_ok.mp h
    cases h2
    simp [byteCount, byteItemsF_length m env vs bs' h1]

theorem writeByteValues_eq (m : Mode) (env : Env) : ∀ (vs : List ByteValue) (out : List UInt8) (pos : Nat),
    pos + byteCount vs ≤ out.length →
    writeByteValues m env out pos vs =
      (byteItemsF m env vs >>= fun bs => .ok (setAll out pos bs, pos + byteCount vs))
  | [], _, _, _ => rfl
  | .expr e :: vs, out, pos, h => by
    simp only [byteCount] at h
    simp only [writeByteValues, byteItemsF]
    cases e.eval m env with
    | ok v =>
      simp only [Res.ok_bind]
      split
      · rfl
      · rw [writeByte, if_pos (by omega), Res.ok_bind]
        show writeByteValues m env (out.set pos (lowByte v)) (pos + 1) vs = _
        rw [writeByteValues_eq m env vs _ _ (by simp; omega)]
        cases byteItemsF m env vs with
        | ok bs => simp only [Res.ok_bind, setAll, byteCount, Res.ok.injEq, Prod.mk.injEq, true_and]; omega
        | err e => rfl
        | panic => rfl
        | loop => rfl
    | err e => rfl
    | panic => rfl
    | loop => rfl
  | .str s :: vs, out, pos, h => by
    simp only [byteCount] at h
    simp only [writeByteValues, byteItemsF]
    rw [writeBytes_eq _ _ _ (by omega), Res.ok_bind]
    show writeByteValues m env (setAll out pos s) (pos + s.length) vs = _
    rw [writeByteValues_eq m env vs _ _ (by simp; omega)]
    cases byteItemsF m env vs with
    | ok bs =>
      simp only [Res.ok_bind, byteCount, Res.ok.injEq, Prod.mk.injEq, setAll_append, true_and]; omega
    | err e => rfl
    | panic => rfl
    | loop => rfl

/-- The bytes of a `.word` list. -/
def wordItemsF (m : Mode) (env : Env) : List Expr → Res (List UInt8)
  | [] => .ok []
  | e :: es => do
    let v ← e.eval m env
    if v < -32768 ∨ v > 65535 then .err (.wordOutOfRange v)
    else do
      let bs ← wordItemsF m env es
      .ok (UInt8.ofNat ((i32and v 0xFFFF).toNat &&& 0xFF) ::
        UInt8.ofNat (((i32and v 0xFFFF).toNat >>> 8) &&& 0xFF) :: bs)

theorem wordItemsF_length (m : Mode) (env : Env) : ∀ (es : List Expr) (bs : List UInt8),
    wordItemsF m env es = .ok bs → bs.length = 2 * es.length
  | [], bs, h => by cases h; rfl
  | e :: es, bs, h => by
    simp only [wordItemsF] at h
    obtain ⟨v, _, h⟩ := Res.bind_eq_ok.mp h
    split at h
    · cases h
    · obtain ⟨bs', h1, h2⟩ := Res.bind_eq_ok.mp h
      cases h2
      simp [wordItemsF_length m env es bs' h1]; omega

theorem writeWords_eq (m : Mode) (env : Env) : ∀ (es : List Expr) (out : List UInt8) (pos : Nat),
    pos + 2 * es.length ≤ out.length →
    writeWords m env out pos es =
      (wordItemsF m env es >>= fun bs => .ok (setAll out pos bs, pos + 2 * es.length))
  | [], _, _, _ => rfl
  | e :: es, out, pos, h => by
    simp only [List.length_cons] at h
    simp only [writeWords, wordItemsF]
    cases e.eval m env with
    | ok v =>
      simp only [Res.ok_bind]
      split
      · rfl
      · rw [writeByte, if_pos (by omega), Res.ok_bind]
        simp only []
        rw [writeByte, if_pos (by simp; omega), Res.ok_bind]
        simp only []
        rw [writeWords_eq m env es _ _ (by simp; omega)]
        cases wordItemsF m env es with
        | ok bs =>
          simp only [Res.ok_bind, setAll, List.length_cons, Res.ok.injEq, Prod.mk.injEq, true_and]; omega
        | err e => rfl
        | panic => rfl
        | loop => rfl
    | err e => rfl
    | panic => rfl
    | loop => rfl

/-- The bytes of one statement at address `p`. -/
def emitF (m : Mode) (env : Env) (p : Nat) : Stmt → Res (List UInt8)
  | .dir (.byte vs) => byteItemsF m env vs
  | .dir (.text n bs) =>
    if bs.length > n then .err (.bytesLongerThanLength n bs.length) else .ok (bs ++ List.replicate (n - bs.length) 32)
  | .dir (.string n bs) =>
    if bs.length > n then .err (.bytesLongerThanLength n bs.length) else .ok (bs ++ List.replicate (n - bs.length) 0)
  | .dir (.org n) => if n > 0xFFFF then .err (.invalidCodeLocation (wrap32 n)) else .ok []
  | .dir (.word es) => wordItemsF m env es
  | .dir (.incl _ _) => .panic
  | .dir (.cnop _ _) => .ok []
  | .label _ => .ok []
  | .instr i => do
    let j ← i.evalIn m env (p + i.size)
    .ok j.encode
  | .variable _ _ => .ok []
  | .alias _ _ => .ok []
  | .comment _ => .ok []
  | .macroCall _ _ => .panic

/-- The writes of the placed statements, in order. -/
def emitAllF (m : Mode) (env : Text → Env) : List Placed → Res (List (Nat × List UInt8))
  | [] => .ok []
  | q :: qs => do
    let bs ← emitF m (env q.scope) q.addr q.stmt
    let ws ← emitAllF m env qs
    .ok ((q.addr, bs) :: ws)

/-- Performs the writes. -/
def image (out : List UInt8) (ws : List (Nat × List UInt8)) : List UInt8 :=
  ws.foldl (fun o w => setAll o w.1 w.2) out

theorem writePadded_eq (s : GenState) {n : Nat} {bs : List UInt8} {pad : UInt8}
    (h : s.pos + n ≤ s.out.length) :
    writePadded s n bs pad =
      if bs.length > n then .err (.bytesLongerThanLength n bs.length)
      else .ok { s with out := setAll s.out s.pos (bs ++ List.replicate (n - bs.length) pad), pos := s.pos + n } := by
  unfold writePadded
  split
  · rfl
  · rw [writeBytes_eq _ _ _ (by omega), Res.ok_bind]
    simp only []
    rw [writeBytes_eq _ _ _ (by simp; omega), Res.ok_bind]
    simp only [Res.ok.injEq, GenState.mk.injEq, setAll_append, List.length_replicate, and_true]
    omega

/-- One step of generate_bytes. -/
theorem gen_step (m : Mode) (names : Names) (locals : List (Text × Int)) {p p' : Nat} {sc : Text} {x : Stmt}
    (out : List UInt8) (ha : advance p x = some p') (hp : p < 2147483648) (hp' : p' < 2147483648)
    (hlow : ∀ n, x = .label n → dotted n = false → lower n = n)
    (hlk : names.locals.lookup sc = some locals)
    (hout : p' ≤ out.length)
    (hc : m = .wrapping ∨ (∀ a k, x = .dir (.cnop a k) → p ≤ p')) :
    genStep m names ⟨p, sc, out⟩ x =
      (emitF m (namesGet names.globals locals) p x >>= fun bs =>
        .ok ⟨p', nextScope sc x, setAll out p bs⟩) := by
  have henv : names.asEnv sc = .ok (namesGet names.globals locals) := by
    unfold Names.asEnv; rw [hlk]
  cases x with
  | dir d =>
    cases d with
    | byte vs =>
      simp only [advance, Option.some.injEq] at ha; subst ha
      simp only [genStep, emitF, henv, Res.ok_bind, nextScope]
      rw [writeByteValues_eq m _ vs out p hout]
      cases byteItemsF m _ vs <;> rfl
    | org n =>
      simp only [advance, Option.some.injEq] at ha; subst ha
      simp only [genStep, emitF, nextScope]
      split <;> rfl
    | word es =>
      simp only [advance, Option.some.injEq] at ha; subst ha
      simp only [genStep, emitF, henv, Res.ok_bind, nextScope]
      rw [writeWords_eq m _ es out p hout]
      cases wordItemsF m _ es <;> rfl
    | text n bs =>
      simp only [advance, Option.some.injEq] at ha; subst ha
      simp only [genStep, emitF, nextScope]
      rw [writePadded_eq ⟨p, sc, out⟩ hout]
      split <;> rfl
    | string n bs =>
      simp only [advance, Option.some.injEq] at ha; subst ha
      simp only [genStep, emitF, nextScope]
      rw [writePadded_eq ⟨p, sc, out⟩ hout]
      split <;> rfl
    | incl t path => simp [advance] at ha
    | cnop a k =>
      simp only [genStep, emitF, nextScope, Res.ok_bind, setAll]
      rw [wrap32_nat hp, dir_size m ha hp hp', Res.ok_bind]
      have : addUsize m p ((p' : Int) - p) = .ok p' := by
        unfold addUsize
        by_cases hle : p ≤ p'
        · have e : ((p' : Int) - p) % 18446744073709551616 = ((p' - p : Nat) : Int) := by omega
          rw [e]
          simp only [Int.toNat_natCast]
          rw [if_pos (by omega), show p + (p' - p) = p' by omega]
        · rcases hc with rfl | hc
          · have e : ((p' : Int) - p) % 18446744073709551616 = ((18446744073709551616 + p' - p : Nat) : Int) := by
              omega
            rw [e]
            simp only [Int.toNat_natCast]
            rw [if_neg (by omega), show p + (18446744073709551616 + p' - p) - 18446744073709551616 = p' by omega]
          · exact (hle (hc a k rfl)).elim
      rw [this, Res.ok_bind]
  | label n =>
    simp only [advance, Option.some.injEq] at ha; subst ha
    simp only [genStep, emitF, nextScope, Res.ok_bind, setAll, isDotted_eq]
    by_cases hd : dotted n = true
    · rw [if_pos hd, if_pos hd]
    · rw [if_neg hd, if_neg hd, hlow n rfl (by simpa using hd)]
  | instr i =>
    simp only [advance, Option.some.injEq, instr_size] at ha; subst ha
    simp only [genStep, emitF, nextScope]
    have : addUsize m p (i.size : Int) = .ok (p + i.size) := by
      unfold addUsize
      have e : ((i.size : Nat) : Int) % 18446744073709551616 = ((i.size : Nat) : Int) := by omega
      rw [e]
      simp only [Int.toNat_natCast]
      rw [if_pos (by omega)]
    rw [this, Res.ok_bind, Instr.eval, henv, Res.ok_bind]
    cases hj : i.evalIn m (namesGet names.globals locals) (p + i.size) with
    | ok j =>
      simp only [Res.ok_bind]
      have hlen : j.encode.length = i.size := by
        rw [size_eq, ← (evalIn_ok hj).2, ← encode_length]
      rw [writeBytes_eq _ _ _ (by rw [hlen]; exact hout), Res.ok_bind, hlen]
    | err e => rfl
    | panic => rfl
    | loop => rfl
  | «variable» n e => simp only [advance, Option.some.injEq] at ha; subst ha; rfl
  | alias n e => simp only [advance, Option.some.injEq] at ha; subst ha; rfl
  | comment n => simp only [advance, Option.some.injEq] at ha; subst ha; rfl
  | macroCall n args => simp [advance] at ha

theorem gen_run (m : Mode) (names : Names) (L : Text → List (Text × Int)) :
    ∀ (stmts : List Stmt) (p : Nat) (sc : Text) (ps : List Placed) (out : List UInt8),
    SourceLabels stmts → place p sc stmts = some ps → p < 2147483648 → Fits ps →
    (∀ q ∈ ps, names.locals.lookup q.scope = some (L q.scope)) →
    (∀ q ∈ ps, q.end_ ≤ out.length) → (m = .wrapping ∨ CnopForward ps) →
    ∃ sc', runSteps (genStep m names) stmts ⟨p, sc, out⟩ =
      (emitAllF m (fun s => namesGet names.globals (L s)) ps >>= fun ws => .ok ⟨stop p ps, sc', image out ws⟩)
  | [], p, sc, ps, out, _, hpl, _, _, _, _, _ => by
    simp only [place, Option.some.injEq] at hpl
    subst hpl
    exact ⟨sc, rfl⟩
  | x :: xs, p, sc, ps, out, hsrc, hpl, hp, hfit, hlk, hout, hc => by
    obtain ⟨p', rest, ha, hr, rfl⟩ := place_cons hpl
    have hend : (⟨p, sc, x⟩ : Placed).end_ = p' := end_eq ha
    have hp' : p' < 2147483648 := by
      have := hfit ⟨p, sc, x⟩ (by simp)
      rw [hend] at this
      omega
    have hstep := gen_step m names (L sc) out ha hp hp'
      (fun n hn hd => (hsrc n (by simp [hn]) hd).1)
      (hlk ⟨p, sc, x⟩ (by simp))
      (by have := hout ⟨p, sc, x⟩ (by simp); rwa [hend] at this)
      (hc.imp id fun h a k hx => by
        have := h ⟨p, sc, x⟩ (by simp) a k hx
        rwa [hend] at this)
    simp only [runSteps, hstep, emitAllF]
    cases emitF m (namesGet names.globals (L sc)) p x with
    | ok bs =>
      simp only [Res.ok_bind]
      obtain ⟨se, h⟩ := gen_run m names L xs p' (nextScope sc x) rest (setAll out p bs)
        (fun n hn hd => hsrc n (by simp [hn]) hd) hr hp' (fun q hq => hfit q (by simp [hq]))
        (fun q hq => hlk q (by simp [hq])) (fun q hq => by simpa using hout q (by simp [hq]))
        (hc.imp id fun h q hq => h q (by simp [hq]))
      refine ⟨se, ?_⟩
      rw [h, show stop p (⟨p, sc, x⟩ :: rest) = stop p' rest by simp only [stop]; rw [hend]]
      cases emitAllF m (fun s => namesGet names.globals (L s)) rest <;> rfl
    | err e => exact ⟨[], rfl⟩
    | panic => exact ⟨[], rfl⟩
    | loop => exact ⟨[], rfl⟩

end Verif
