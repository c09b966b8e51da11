import Verif.Model.Include
import Verif.Spec.Include
import Verif.Lemmas.Data
import Verif.Lemmas.AsmOutcome
import Verif.Lemmas.Files
/-
Includes of binary files: where their bytes go.
-/
namespace Verif
open Spec

theorem includeData_bytes {m order load fs file sf name stmts} :
    includeData m order load fs file sf (.dir (.incl .bytes name)) = .ok stmts ↔
      ∃ p bs, Resolves fs sf.workingDir (some file) (Path.parse name) p ∧ fs.read p = some bs ∧
        stmts = [.dir (.byte (bs.map fun b => .expr (.number b.toNat .hex)))] := by
  unfold includeData
  rw [Res.bind_eq_ok]
  constructor
  · rintro ⟨p, h1, h⟩
    obtain ⟨bs, h2, h⟩ := Res.bind_eq_ok.mp h
    cases h
    refine ⟨p, bs, path_iff.mp h1, ?_, rfl⟩
    unfold loadBytes at h2
    split at h2
    · rename_i hr; cases h2; exact hr
    · cases h2
  · rintro ⟨p, bs, h1, h2, rfl⟩
    refine ⟨p, path_iff.mpr h1, ?_⟩
    rw [loadBytes, h2]
    rfl

theorem replaceData_append {f : Stmt → Res (List Stmt)} : ∀ {a b : List Stmt} {out : List Stmt},
    replaceData f (a ++ b) = .ok out ↔ ∃ x y, replaceData f a = .ok x ∧ replaceData f b = .ok y ∧ out = x ++ y
  | [], b, out => by simp [replaceData]
  | s :: a, b, out => by
    rw [List.cons_append, replaceData, replaceData]
    constructor
    · intro h
      obtain ⟨x, h1, h⟩ := Res.bind_eq_ok.mp h
      obtain ⟨y, h2, h⟩ := Res.bind_eq_ok.mp h
      cases h
      obtain ⟨u, v, h3, h4, rfl⟩ := replaceData_append.mp h2
      exact ⟨x ++ u, v, by rw [h1, Res.ok_bind, h3]; rfl, h4, by simp⟩
    · rintro ⟨x, y, h1, h2, rfl⟩
      obtain ⟨u, h3, h1⟩ := Res.bind_eq_ok.mp h1
      obtain ⟨v, h4, h1⟩ := Res.bind_eq_ok.mp h1
      cases h1
      rw [h3, Res.ok_bind, replaceData_append.mpr ⟨v, y, h4, h2, rfl⟩]
      simp [Res.ok_bind]

theorem replaceData_one {f : Stmt → Res (List Stmt)} {s : Stmt} {out : List Stmt} :
    replaceData f [s] = .ok out ↔ f s = .ok out := by
  rw [replaceData, Res.bind_eq_ok]
  constructor
  · rintro ⟨x, h1, h⟩
    cases h
    rw [h1, List.append_nil]
  · intro h
    refine ⟨out, h, ?_⟩
    simp [replaceData, Res.ok_bind]

theorem emitsAll_split {m : Mode} {g : List (Text × Int)} {all : List Placed} : ∀ {a b : List Placed} {ws : List (Nat × List UInt8)},
    EmitsAll m g all (a ++ b) ws → ∃ wa wb, ws = wa ++ wb ∧ EmitsAll m g all a wa ∧ EmitsAll m g all b wb
  | [], _, ws, h => ⟨[], ws, rfl, .nil, h⟩
  | q :: a, b, _, h => by
    cases h with
    | cons h1 h2 =>
      obtain ⟨wa, wb, rfl, h3, h4⟩ := emitsAll_split h2
      exact ⟨_ :: wa, wb, rfl, .cons h1 h3, h4⟩

theorem emitsAll_addr {m : Mode} {g : List (Text × Int)} {all ps : List Placed} {ws : List (Nat × List UInt8)}
    (h : EmitsAll m g all ps ws) : ∀ w ∈ ws, ∃ q ∈ ps, w.1 = q.addr := by
  induction h with
  | nil => nofun
  | @cons q qs bs ws _ _ ih =>
    intro w hw
    rcases List.mem_cons.mp hw with rfl | hw
    · exact ⟨q, List.mem_cons_self, rfl⟩
    · obtain ⟨q', h1, h2⟩ := ih w hw
      exact ⟨q', List.mem_cons_of_mem _ h1, h2⟩

/-- A line of literal bytes puts them at its position, if what comes later is placed after it. -/
theorem literal_bytes {m : Mode} {pre post : List Stmt} {bs : List UInt8} {out : List UInt8}
    (hs : Source (pre ++ [.dir (.byte (bs.map fun b => .expr (.number b.toNat .hex)))] ++ post))
    (hb : m = .checked ∨ Below2GiB (pre ++ [.dir (.byte (bs.map fun b => .expr (.number b.toNat .hex)))] ++ post))
    (h : assemble m (pre ++ [.dir (.byte (bs.map fun b => .expr (.number b.toNat .hex)))] ++ post) = .ok out) :
    ∃ ps1 ps2, layout pre = some ps1 ∧
      place (stop 0 ps1 + bs.length) (pre.foldl nextScope []) post = some ps2 ∧ stop 0 ps1 + bs.length ≤ out.length ∧
      ((∀ q ∈ ps2, stop 0 ps1 + bs.length ≤ q.addr) → (out.drop (stop 0 ps1)).take bs.length = bs) := by
  obtain ⟨ps, vars, ws, h1, _, h3, _, h5, h6, h7⟩ := assemble_sound hs hb h
  obtain ⟨ps12, ps2, sc, hl12, hl2, rfl, hsc⟩ := place_append h1
  obtain ⟨ps1, qs, sc1, hl1, hlq, rfl, hsc1⟩ := place_append hl12
  obtain ⟨p', rest, ha, hr, rfl⟩ := place_cons hlq
  have hadv : advance (stop 0 ps1) (.dir (.byte (bs.map fun b => .expr (.number b.toNat .hex)))) = some (stop 0 ps1 + bs.length) := by
    simp only [advance, byteCount_literals]
  rw [hadv] at ha
  cases ha
  simp only [place, Option.some.injEq] at hr
  subst hr
  have hstop : stop 0 (ps1 ++ [⟨stop 0 ps1, sc1, .dir (.byte (bs.map fun b => .expr (.number b.toNat .hex)))⟩]) = stop 0 ps1 + bs.length := by
    rw [stop_append]
    simp only [stop, end_eq hadv]
  rw [hstop] at hl2
  have hsc' : sc = pre.foldl nextScope [] := by
    rw [List.foldl_append] at hsc
    rw [hsc]
    rfl
  have hreach : stop 0 ps1 + bs.length ≤ out.length := by
    rw [h6]
    refine Nat.le_trans ?_ (le_reach (q := ⟨stop 0 ps1, sc1, .dir (.byte (bs.map fun b => .expr (.number b.toNat .hex)))⟩) (by simp))
    rw [end_eq hadv]
    exact Nat.le_refl _
  refine ⟨ps1, ps2, hl1, by rw [← hsc']; exact hl2, hreach, fun hafter => ?_⟩
  obtain ⟨w12, w2, rfl, e12, e2⟩ := emitsAll_split h5
  obtain ⟨w1, wq, rfl, e1, eq⟩ := emitsAll_split e12
  cases eq with
  | @cons _ _ b _ hq hn =>
    cases hn
    have hb' : b = bs := by
      cases hq with
      | byte hi =>
        have := (byteItemsF_ok m _ _ _).mpr hi
        rw [byteItemsF_literals] at this
        exact (Res.ok.inj this).symm
    subst hb'
    apply List.ext_getElem?
    intro j
    by_cases hj : j < b.length
    · rw [List.getElem?_take_of_lt hj, List.getElem?_drop]
      have hlen : stop 0 ps1 + j < out.length := by omega
      have hget := List.getElem?_eq_getElem hlen
      have him := h7 _ _ hget
      rw [hget]
      rcases him with ⟨wa, w, wb, e, hc, hnc, hv⟩ | ⟨hno, -⟩
      · have hw2 : ∀ w ∈ w2, ¬ covers w (stop 0 ps1 + j) := by
          intro w hw hcov
          obtain ⟨q, hq, e⟩ := emitsAll_addr e2 w hw
          have := hafter q hq
          unfold covers at hcov
          omega
        have hcov : covers (stop 0 ps1, b) (stop 0 ps1 + j) := ⟨by simp, by simp; omega⟩
        -- the last write that covers the position is ours
        have : w = (stop 0 ps1, b) := by
          rw [List.append_assoc, List.append_eq_append_iff] at e
          rcases e with ⟨x, ex1, ex2⟩ | ⟨x, ex1, ex2⟩
          · cases x with
            | nil =>
              rw [List.nil_append] at ex2
              exact (List.cons.inj ex2).1.symm
            | cons y x =>
              rw [List.singleton_append, List.cons_append] at ex2
              have ex2 := (List.cons.inj ex2).2
              exact absurd hc (hw2 w (by rw [ex2]; simp))
          · cases x with
            | nil =>
              rw [List.nil_append, List.singleton_append] at ex2
              exact (List.cons.inj ex2).1
            | cons y x =>
              rw [List.cons_append] at ex2
              have ex2 := (List.cons.inj ex2).2
              exact absurd hcov (hnc (stop 0 ps1, b) (by rw [ex2]; simp))
        subst this
        rw [← hv]
        simp
      · exact absurd ⟨by simp, by simp; omega⟩ (hno (stop 0 ps1, b) (by simp))
    · rw [List.getElem?_eq_none (by rw [List.length_take]; omega), List.getElem?_eq_none (by omega)]

end Verif
