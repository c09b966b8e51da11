import Verif.Spec.Data
import Verif.Lemmas.AsmAppend
/-
Lines of known data in a program.
-/
namespace Verif
open Verif.Spec

theorem Spec.Data.append {a b : List Stmt} {x y : List UInt8} (ha : Data a x) (hb : Data b y) : Data (a ++ b) (x ++ y) := by
  induction ha with
  | nil => exact hb
  | comment _ ih => exact .comment ih
  | byte c _ ih => rw [List.append_assoc]; exact .byte c ih
  | str c _ ih => rw [List.append_assoc]; exact .str c ih
  | word ws hw _ ih => rw [List.append_assoc]; exact .word ws hw ih

/-- Data lines determine their bytes. -/
theorem Spec.Data.flatMap {α : Type} {f : α → List Stmt} {g : α → List UInt8} :
    ∀ {l : List α}, (∀ a ∈ l, Data (f a) (g a)) → Data (l.flatMap f) (l.flatMap g)
  | [], _ => .nil
  | a :: l, h => by
    rw [List.flatMap_cons, List.flatMap_cons]
    exact (h a List.mem_cons_self).append (flatMap fun b hb => h b (List.mem_cons_of_mem _ hb))

theorem byteItemsF_literals (m : Mode) (env : Env) (r : Radix) : ∀ b : List UInt8,
    byteItemsF m env (b.map fun x => .expr (.number x.toNat r)) = .ok b
  | [] => rfl
  | x :: b => by
    have hx := x.toNat_lt
    simp only [List.map_cons, byteItemsF, Expr.eval, Res.ok_bind]
    rw [if_neg (by omega), byteItemsF_literals m env r b, Res.ok_bind]
    congr 2
    apply UInt8.toNat_inj.mp
    have := lowByte_toNat (v := x.toNat) (by unfold inI32; omega)
    omega

theorem byteCount_literals (r : Radix) : ∀ b : List UInt8,
    byteCount (b.map fun x => .expr (.number x.toNat r)) = b.length
  | [] => rfl
  | x :: b => by simp only [List.map_cons, byteCount, byteCount_literals r b, List.length_cons]; omega

theorem le16_length (w : Nat) : (le16 w).length = 2 := rfl

theorem flatMap_le16_length : ∀ ws : List Nat, (ws.flatMap le16).length = 2 * ws.length
  | [] => rfl
  | w :: ws => by rw [List.flatMap_cons, List.length_append, flatMap_le16_length ws, le16_length, List.length_cons]; omega

theorem wordItemsF_literals (m : Mode) (env : Env) (r : Radix) : ∀ ws : List Nat, (∀ w ∈ ws, w < 65536) →
    wordItemsF m env (ws.map fun w : Nat => .number (w : Int) r) = .ok (ws.flatMap le16) := by
  intro ws hw
  rw [wordItemsF_ok]
  induction ws with
  | nil => exact .nil
  | cons w ws ih =>
    have := hw w List.mem_cons_self
    refine .cons (v := w) rfl (by omega) (by omega) ?_ (ih fun x hx => hw x (List.mem_cons_of_mem _ hx))
    rw [UInt8.toNat_ofNat', UInt8.toNat_ofNat']
    omega

/-- How data lines are laid out and what they emit. -/
theorem data_placed {b : List Stmt} {bs : List UInt8} (h : Data b bs) (sc : Text) : ∀ p : Nat,
    ∃ qs, place p sc b = some qs ∧ stop p qs = p + bs.length ∧ (∀ q ∈ qs, q.end_ ≤ p + bs.length) ∧
      globalLabels qs = [] ∧ (∀ t, localLabels t qs = []) ∧ CnopForward qs ∧
      ∀ m env, ∃ ws, emitAllF m env qs = .ok ws ∧ ∀ out, image out ws = setAll out p bs := by
  induction h with
  | nil =>
    intro p
    exact ⟨[], rfl, rfl, nofun, rfl, fun _ => rfl, nofun, fun m env => ⟨[], rfl, fun _ => rfl⟩⟩
  | @comment t xs bs _ ih =>
    intro p
    obtain ⟨qs, h1, h2, h3, h4, h5, h6, h7⟩ := ih p
    refine ⟨⟨p, sc, .comment t⟩ :: qs, by simp only [place, advance, nextScope, h1], h2, ?_, h4, h5, ?_, fun m env => ?_⟩
    · intro q hq
      rcases List.mem_cons.mp hq with rfl | hq
      · simp [Placed.end_, advance]
      · exact h3 q hq
    · intro q hq a k hk
      rcases List.mem_cons.mp hq with rfl | hq
      · cases hk
      · exact h6 q hq a k hk
    · obtain ⟨ws, h8, h9⟩ := h7 m env
      exact ⟨(p, []) :: ws, by simp only [emitAllF, emitF, Res.ok_bind, h8], h9⟩
  | @byte r xs bs b _ ih =>
    intro p
    obtain ⟨qs, h1, h2, h3, h4, h5, h6, h7⟩ := ih (p + b.length)
    have ha : advance p (.dir (.byte (b.map fun x => .expr (.number x.toNat r)))) = some (p + b.length) := by
      simp only [advance, byteCount_literals]
    refine ⟨⟨p, sc, .dir (.byte (b.map fun x => .expr (.number x.toNat r)))⟩ :: qs, by simp only [place, ha, nextScope, h1], ?_, ?_, h4, h5, ?_, fun m env => ?_⟩
    · simp only [stop, end_eq ha, h2, List.length_append]; omega
    · intro q hq
      rw [List.length_append]
      rcases List.mem_cons.mp hq with rfl | hq
      · rw [end_eq ha]; omega
      · have := h3 q hq; omega
    · intro q hq a k hk
      rcases List.mem_cons.mp hq with rfl | hq
      · cases hk
      · exact h6 q hq a k hk
    · obtain ⟨ws, h8, h9⟩ := h7 m env
      refine ⟨(p, b) :: ws, by simp only [emitAllF, emitF, byteItemsF_literals, Res.ok_bind, h8], fun out => ?_⟩
      rw [← setAll_append]
      exact h9 _
  | @str xs bs b _ ih =>
    intro p
    obtain ⟨qs, h1, h2, h3, h4, h5, h6, h7⟩ := ih (p + b.length)
    have ha : advance p (.dir (.byte [.str b])) = some (p + b.length) := by
      simp only [advance, byteCount]; rfl
    refine ⟨⟨p, sc, .dir (.byte [.str b])⟩ :: qs, by simp only [place, ha, nextScope, h1], ?_, ?_, h4, h5, ?_, fun m env => ?_⟩
    · simp only [stop, end_eq ha, h2, List.length_append]; omega
    · intro q hq
      rw [List.length_append]
      rcases List.mem_cons.mp hq with rfl | hq
      · rw [end_eq ha]; omega
      · have := h3 q hq; omega
    · intro q hq a k hk
      rcases List.mem_cons.mp hq with rfl | hq
      · cases hk
      · exact h6 q hq a k hk
    · obtain ⟨ws, h8, h9⟩ := h7 m env
      refine ⟨(p, b) :: ws, by simp only [emitAllF, emitF, byteItemsF, List.append_nil, Res.ok_bind, h8], fun out => ?_⟩
      rw [← setAll_append]
      exact h9 _
  | @word r xs bs us hw _ ih =>
    intro p
    have hl := flatMap_le16_length us
    obtain ⟨qs, h1, h2, h3, h4, h5, h6, h7⟩ := ih (p + (us.flatMap le16).length)
    have ha : advance p (.dir (.word (us.map fun w : Nat => .number (w : Int) r))) = some (p + (us.flatMap le16).length) := by
      simp only [advance, List.length_map, hl]
    refine ⟨⟨p, sc, .dir (.word (us.map fun w : Nat => .number (w : Int) r))⟩ :: qs, by simp only [place, ha, nextScope, h1], ?_, ?_, h4, h5, ?_, fun m env => ?_⟩
    · simp only [stop, end_eq ha, h2, List.length_append]; omega
    · intro q hq
      rw [List.length_append]
      rcases List.mem_cons.mp hq with rfl | hq
      · rw [end_eq ha]; omega
      · have := h3 q hq; omega
    · intro q hq a k hk
      rcases List.mem_cons.mp hq with rfl | hq
      · cases hk
      · exact h6 q hq a k hk
    · obtain ⟨ws, h8, h9⟩ := h7 m env
      refine ⟨(p, us.flatMap le16) :: ws, by simp only [emitAllF, emitF, wordItemsF_literals m _ r us hw, Res.ok_bind, h8],
        fun out => ?_⟩
      rw [← setAll_append]
      exact h9 _

theorem data_defs {b : List Stmt} {bs : List UInt8} (h : Data b bs) : definitions b = [] := by
  induction h <;> simp_all [definitions]

theorem data_scope {b : List Stmt} {bs : List UInt8} (h : Data b bs) (sc : Text) : b.foldl nextScope sc = sc := by
  induction h <;> simp_all [nextScope]

theorem data_source {b : List Stmt} {bs : List UInt8} (h : Data b bs) :
    (∀ n, Stmt.label n ∉ b) ∧ ∀ a k, Stmt.dir (.cnop a k) ∉ b := by
  induction h <;> simp_all

theorem place_join : ∀ {pre post : List Stmt} {p : Nat} {sc : Text} {ps1 ps2 : List Placed},
    place p sc pre = some ps1 → place (stop p ps1) (pre.foldl nextScope sc) post = some ps2 →
    place p sc (pre ++ post) = some (ps1 ++ ps2)
  | [], post, p, sc, ps1, ps2, h1, h2 => by
    simp only [place, Option.some.injEq] at h1
    subst h1
    exact h2
  | x :: pre, post, p, sc, ps1, ps2, h1, h2 => by
    obtain ⟨p', rest, ha, hr, rfl⟩ := place_cons h1
    simp only [stop, end_eq ha, List.foldl_cons] at h2
    have := place_join hr h2
    simp only [List.cons_append, place, ha, this]

theorem stop_append (p : Nat) : ∀ (qs rs : List Placed), stop p (qs ++ rs) = stop (stop p qs) rs := by
  intro qs
  induction qs generalizing p with
  | nil => intro rs; rfl
  | cons q qs ih => intro rs; simp only [List.cons_append, stop, ih]

theorem image_append (out : List UInt8) (a b : List (Nat × List UInt8)) : image out (a ++ b) = image (image out a) b := by
  unfold image; rw [List.foldl_append]

/-- Other data of the same length -/
theorem data_swap {m : Mode} {pre a b post : List Stmt} {bs bs' : List UInt8} {ps : List Placed} (ha : Data a bs)
    (hb : Data b bs') (hlen : bs'.length = bs.length) (hL : Laid m (pre ++ a ++ post) ps) :
    (∃ ps', Laid m (pre ++ b ++ post) ps') ∧
    ((∃ out, assemble m (pre ++ a ++ post) = .ok out) → ∃ out, assemble m (pre ++ b ++ post) = .ok out) ∧
    (bs' = bs → ∀ out, assemble m (pre ++ a ++ post) = .ok out ↔ assemble m (pre ++ b ++ post) = .ok out) ∧
    (LabelsDistinct ps → ∃ ps', Laid m (pre ++ b ++ post) ps' ∧ LabelsDistinct ps' ∧
      ∀ x, assemble m (pre ++ a ++ post) = .err x → assemble m (pre ++ b ++ post) = .err x) := by
  obtain ⟨ps12, ps3, sc, hl12, hl3, rfl, hsc⟩ := place_append (pre := pre ++ a) hL.layout
  obtain ⟨ps1, ps2, sc1, hl1, hl2, rfl, hsc1⟩ := place_append hl12
  obtain ⟨qs, a1, a2, a3, a4, a5, a6, a7⟩ := data_placed ha sc1 (stop 0 ps1)
  obtain ⟨rs, b1, b2, b3, b4, b5, b6, b7⟩ := data_placed hb sc1 (stop 0 ps1)
  rw [hlen] at b2 b3
  rw [hl2] at a1
  cases a1
  rw [List.foldl_append, ← hsc1, data_scope ha] at hsc
  subst hsc
  have hpb : place 0 [] (pre ++ b) = some (ps1 ++ rs) := place_join hl1 (by rw [← hsc1]; exact b1)
  have hlay : layout (pre ++ b ++ post) = some (ps1 ++ rs ++ ps3) := by
    refine place_join hpb ?_
    rw [stop_append, b2, ← a2, ← stop_append, List.foldl_append, ← hsc1, data_scope hb]
    exact hl3
  have hstop := stop_le_reach ps1 0
  have hmax1 : max (reach ps1) (reach ps2) = max (reach ps1) (stop 0 ps1 + bs.length) := by
    have h1 := stop_le_reach ps2 (stop 0 ps1)
    rcases reach_attained ps2 with h | ⟨q, hq, h⟩
    · omega
    · have := a3 q hq; omega
  have hmax2 : max (reach ps1) (reach rs) = max (reach ps1) (stop 0 ps1 + bs.length) := by
    have h1 := stop_le_reach rs (stop 0 ps1)
    rcases reach_attained rs with h | ⟨q, hq, h⟩
    · omega
    · have := b3 q hq; omega
  have hfit : Fits (ps1 ++ rs ++ ps3) := by
    intro q hq
    rcases List.mem_append.mp hq with hq | hq
    · rcases List.mem_append.mp hq with hq | hq
      · exact hL.fits q (by simp [hq])
      · have h1 := b3 q hq
        have h2 : max (reach ps1) (reach ps2) < 2147483647 := by
          rw [← reach_append]
          rcases reach_attained (ps1 ++ ps2) with h | ⟨q, hq, h⟩
          · omega
          · have := hL.fits q (List.mem_append_left _ hq); omega
        omega
    · exact hL.fits q (by simp [hq])
  have hfwd : m = .wrapping ∨ CnopForward (ps1 ++ rs ++ ps3) := by
    refine hL.forward.imp id fun h q hq => ?_
    rcases List.mem_append.mp hq with hq | hq
    · rcases List.mem_append.mp hq with hq | hq
      · exact h q (by simp [hq])
      · exact b6 q hq
    · exact h q (by simp [hq])
  have hsrc : Source (pre ++ b ++ post) := by
    obtain ⟨s1, s2⟩ := data_source hb
    constructor
    · intro n hn hd
      refine hL.source.1 n ?_ hd
      rcases List.mem_append.mp hn with hn | hn
      · rcases List.mem_append.mp hn with hn | hn
        · simp [hn]
        · exact absurd hn (s1 n)
      · simp [hn]
    · intro x k hk
      refine hL.source.2 x k ?_
      rcases List.mem_append.mp hk with hk | hk
      · rcases List.mem_append.mp hk with hk | hk
        · simp [hk]
        · exact absurd hk (s2 x k)
      · simp [hk]
  have hG : globalLabels (ps1 ++ ps2 ++ ps3) = globalLabels (ps1 ++ rs ++ ps3) := by
    simp only [globalLabels_append, a4, b4]
  have hLo : ∀ t, localLabels t (ps1 ++ ps2 ++ ps3) = localLabels t (ps1 ++ rs ++ ps3) := by
    intro t; simp only [localLabels_append, a5, b5]
  have hD : definitions (pre ++ a ++ post) = definitions (pre ++ b ++ post) := by
    simp only [definitions_append, data_defs ha, data_defs hb]
  have hR : reach (ps1 ++ ps2 ++ ps3) = reach (ps1 ++ rs ++ ps3) := by
    simp only [reach_append]; rw [hmax1, hmax2]
  have hdist : LabelsDistinct (ps1 ++ ps2 ++ ps3) ↔ LabelsDistinct (ps1 ++ rs ++ ps3) := by
    unfold LabelsDistinct; simp only [hG, hLo]
  rcases assemble_spec m hL.source.1 hL.layout hL.fits hL.forward with ⟨d1, e1⟩ | ⟨n1, d1, e1⟩ <;>
    rcases assemble_spec m hsrc.1 hlay hfit hfwd with ⟨d2, e2⟩ | ⟨n2, d2, e2⟩
  · refine ⟨⟨_, hsrc, hlay, hfit, hfwd⟩, ?_, fun heq out => ?_, fun _ => ⟨_, ⟨hsrc, hlay, hfit, hfwd⟩, d2, fun x => ?_⟩⟩
    · rw [e1, e2, hG, hD, hR]
      simp only [hLo]
      rintro ⟨out, h⟩
      obtain ⟨g, hv, h⟩ := Res.bind_eq_ok.mp h
      obtain ⟨ws, hw, -⟩ := Res.bind_eq_ok.mp h
      rw [hv, Res.ok_bind]
      obtain ⟨u2, v2, -⟩ := b7 m (fun s => namesGet g (localLabels s (ps1 ++ rs ++ ps3)).reverse)
      rw [emitAllF_append] at hw
      obtain ⟨w12, h12, hw⟩ := Res.bind_eq_ok.mp hw
      obtain ⟨w3, h3, -⟩ := Res.bind_eq_ok.mp hw
      rw [emitAllF_append] at h12
      obtain ⟨w1, h1, -⟩ := Res.bind_eq_ok.mp h12
      rw [emitAllF_append, emitAllF_append, h1, Res.ok_bind, v2, Res.ok_bind, Res.ok_bind, h3]
      exact ⟨_, rfl⟩
    · subst heq
      rw [e1, e2, hG, hD, hR]
      simp only [hLo]
      have key : ∀ (env : Text → Env) (z : List UInt8),
          (emitAllF m env (ps1 ++ ps2 ++ ps3) >>= fun ws => (.ok (image z ws) : Res (List UInt8))) =
          (emitAllF m env (ps1 ++ rs ++ ps3) >>= fun ws => .ok (image z ws)) := by
        intro env z
        obtain ⟨u1, v1, w1⟩ := a7 m env
        obtain ⟨u2, v2, w2⟩ := b7 m env
        simp only [emitAllF_append, v1, v2, Res.bind_assoc, Res.ok_bind, image_append, w1, w2]
      simp only [key]
    · rw [e1, e2, hG, hD, hR]
      simp only [hLo]
      intro h
      rcases Res.bind_eq_err.mp h with h | ⟨g, hv, h⟩
      · rw [h]; rfl
      rcases Res.bind_eq_err.mp h with h | ⟨ws, _, h⟩
      rotate_left
      · cases h
      rw [hv, Res.ok_bind]
      obtain ⟨u1, v1, -⟩ := a7 m (fun s => namesGet g (localLabels s (ps1 ++ rs ++ ps3)).reverse)
      obtain ⟨u2, v2, -⟩ := b7 m (fun s => namesGet g (localLabels s (ps1 ++ rs ++ ps3)).reverse)
      rw [emitAllF_append, emitAllF_append, v1] at h
      rw [emitAllF_append, emitAllF_append, v2]
      rcases Res.bind_eq_err.mp h with h | ⟨ws, h1, h⟩
      · rcases Res.bind_eq_err.mp h with h | ⟨ws1, _, h⟩
        · rw [h]; rfl
        · cases h
      · obtain ⟨w1, h2, -⟩ := Res.bind_eq_ok.mp h1
        rw [h2, Res.ok_bind, Res.ok_bind, Res.ok_bind]
        rcases Res.bind_eq_err.mp h with h | ⟨ws1, _, h⟩
        · rw [h]; rfl
        · cases h
  · exact absurd (hdist.mp d1) (fun h => not_distinct d2 h)
  · exact absurd (hdist.mpr d2) (fun h => not_distinct d1 h)
  · refine ⟨⟨_, hsrc, hlay, hfit, hfwd⟩, ?_, fun _ out => ?_, fun hd => absurd hd (not_distinct d1)⟩
    · rw [e1]
      rintro ⟨_, h⟩
      cases h
    · rw [e1, e2]
      exact ⟨nofun, nofun⟩

theorem data_block {m : Mode} {pre a b post : List Stmt} {bs : List UInt8} {ps : List Placed} (ha : Data a bs)
    (hb : Data b bs) (hL : Laid m (pre ++ a ++ post) ps) :
    (∃ ps', Laid m (pre ++ b ++ post) ps') ∧
    ∀ out, assemble m (pre ++ a ++ post) = .ok out ↔ assemble m (pre ++ b ++ post) = .ok out := by
  obtain ⟨h1, -, h2, -⟩ := data_swap ha hb rfl hL
  exact ⟨h1, h2 rfl⟩

end Verif
