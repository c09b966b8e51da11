import Verif.Lemmas.Assemble
/-
Helper lemmas: the state of generate_bytes after some of the statements.
-/
namespace Verif
open Spec

theorem addUsize_back {p p' q : Nat} (hp : p < 2147483648) (h : addUsize .checked p ((p' : Int) - p) = .ok q) : p ≤ p' := by
  apply Nat.le_of_not_lt
  intro hlt
  have e : ((p' : Int) - p) % 18446744073709551616 = ((18446744073709551616 + p' - p : Nat) : Int) := by omega
  unfold addUsize at h
  rw [e] at h
  simp only [Int.toNat_natCast] at h
  rw [if_neg (by omega)] at h
  cases h

/-- A checked build has not moved backwards. -/
theorem forward_of_ok {m : Mode} {names : Names} {p p' : Nat} {sc : Text} {x : Stmt} {out : List UInt8} {s' : GenState}
    (ha : advance p x = some p') (hp : p < 2147483648) (hp' : p' < 2147483648)
    (h : genStep m names ⟨p, sc, out⟩ x = .ok s') : m = .wrapping ∨ ∀ a k, x = .dir (.cnop a k) → p ≤ p' := by
  cases m with
  | wrapping => exact .inl rfl
  | checked =>
    refine .inr fun a k hx => ?_
    subst hx
    simp only [genStep] at h
    rw [wrap32_nat hp, dir_size .checked ha hp hp', Res.ok_bind] at h
    obtain ⟨q, hq, _⟩ := Res.bind_eq_ok.mp h
    exact addUsize_back hp hq

/-- The state after some statements. -/
theorem gen_run_ok (m : Mode) (names : Names) (L : Text → List (Text × Int)) :
    ∀ (stmts : List Stmt) (p : Nat) (sc : Text) (ps : List Placed) (out : List UInt8) (s' : GenState),
    SourceLabels stmts → place p sc stmts = some ps → p < 2147483648 → Fits ps →
    (∀ q ∈ ps, names.locals.lookup q.scope = some (L q.scope)) →
    (∀ q ∈ ps, q.end_ ≤ out.length) → runSteps (genStep m names) stmts ⟨p, sc, out⟩ = .ok s' →
    ∃ ws, emitAllF m (fun s => namesGet names.globals (L s)) ps = .ok ws ∧
      s' = ⟨stop p ps, stmts.foldl nextScope sc, image out ws⟩ ∧ stop p ps < 2147483648
  | [], p, sc, ps, out, s', _, hpl, hp, _, _, _, h => by
    simp only [place, Option.some.injEq] at hpl
    subst hpl
    cases h
    exact ⟨[], rfl, rfl, hp⟩
  | x :: xs, p, sc, ps, out, s', hsrc, hpl, hp, hfit, hlk, hout, h => by
    obtain ⟨p', rest, ha, hr, rfl⟩ := place_cons hpl
    have hend : (⟨p, sc, x⟩ : Placed).end_ = p' := end_eq ha
    have hp' : p' < 2147483648 := by
      have := hfit ⟨p, sc, x⟩ (by simp)
      rw [hend] at this
      omega
    simp only [runSteps] at h
    obtain ⟨s1, h1, h⟩ := Res.bind_eq_ok.mp h
    have hstep := gen_step m names (L sc) out ha hp hp'
      (fun n hn hd => (hsrc n (by simp [hn]) hd).1)
      (hlk ⟨p, sc, x⟩ (by simp))
      (by have := hout ⟨p, sc, x⟩ (by simp); rwa [hend] at this) (forward_of_ok ha hp hp' h1)
    rw [hstep] at h1
    obtain ⟨bs, hb, h1⟩ := Res.bind_eq_ok.mp h1
    cases h1
    obtain ⟨ws, hw, rfl, hs⟩ := gen_run_ok m names L xs p' (nextScope sc x) rest (setAll out p bs) s'
      (fun n hn hd => hsrc n (by simp [hn]) hd) hr hp' (fun q hq => hfit q (by simp [hq]))
      (fun q hq => hlk q (by simp [hq])) (fun q hq => by simpa using hout q (by simp [hq])) h
    have e : stop p (⟨p, sc, x⟩ :: rest) = stop p' rest := by simp only [stop]; rw [hend]
    rw [e]
    refine ⟨(p, bs) :: ws, ?_, rfl, hs⟩
    simp only [emitAllF, hb, hw, Res.ok_bind]

theorem place_stmts : ∀ {xs : List Stmt} {p : Nat} {sc : Text} {ps : List Placed}, place p sc xs = some ps →
    ps.map (·.stmt) = xs
  | [], p, sc, ps, h => by
    simp only [place, Option.some.injEq] at h
    subst h; rfl
  | x :: xs, p, sc, ps, h => by
    obtain ⟨p', rest, ha, hr, rfl⟩ := place_cons h
    simp [place_stmts hr]

end Verif
