import Verif.Lemmas.ReadBack
import Verif.Lemmas.LiftEval
import Verif.Lemmas.TraceMore
import Verif.Lemmas.AsmMore
import Verif.Lemmas.Data
import Verif.Spec.Reassembly
/-
Assembling a listing: what its lines, as they are read back, put where.
-/
namespace Verif
open Verif.Spec

/-- The lines of a listing as they are read back, placed from `cur` on: instructions and bytes of the binary at their
places, `.org` over zeros. -/
inductive Seq (bytes : List UInt8) (Good : Nat → Instr Expr IM → Instr Int Nat → Prop) : Nat → List Stmt → Nat → Prop where
  | done {cur} : cur ≤ bytes.length → (∀ k, cur ≤ k → k < bytes.length → bytes[k]? = some 0) → Seq bytes Good cur [] cur
  | org {cur p rest e} : cur ≤ p → p ≤ 65535 → (∀ k, cur ≤ k → k < p → bytes[k]? = some 0) → Seq bytes Good p rest e →
      Seq bytes Good cur (.dir (.org p) :: rest) e
  | instr {cur l i rest e} : Good cur l i → l.form = i.form → i.encode = (bytes.drop cur).take i.size →
      cur + i.size ≤ bytes.length → Seq bytes Good (cur + i.size) rest e → Seq bytes Good cur (.instr l :: rest) e
  | labelled {cur l i rest e} : Good cur l i → l.form = i.form → i.encode = (bytes.drop cur).take i.size →
      cur + i.size ≤ bytes.length → Seq bytes Good (cur + i.size) rest e →
      Seq bytes Good cur (.label (lower (labelName cur)) :: .instr l :: rest) e
  | bytes {cur bs rest e} : bs = (bytes.drop cur).take bs.length → cur + bs.length ≤ bytes.length →
      Seq bytes Good (cur + bs.length) rest e →
      Seq bytes Good cur (.dir (.byte (bs.map fun b => .expr (.num b.toNat))) :: rest) e

/-- What the lines mean. -/
structure SeqOut (m : Mode) (bytes : List UInt8) (Good : Nat → Instr Expr IM → Instr Int Nat → Prop) (cur : Nat) (S : List Stmt)
    (e : Nat) (ps : List Placed) (ws : List (Nat × List UInt8)) : Prop where
  stop : stop cur ps = e
  le : cur ≤ e
  bound : e ≤ bytes.length
  ends : ∀ q ∈ ps, q.end_ ≤ e
  emits : ∀ G all, (∀ L p l i, Good p l i → l.evalIn m (meaning G L) (p + (row l.form).size) = .ok i) → EmitsAll m G all ps ws
  writes : ∀ w ∈ ws, w.1 + w.2.length ≤ bytes.length ∧ w.2 = (bytes.drop w.1).take w.2.length
  covered : ∀ j, cur ≤ j → j < bytes.length → bytes[j]? ≠ some 0 → ∃ w ∈ ws, covers w j
  labels : ∀ x ∈ globalLabels ps, ∃ p : Nat, cur ≤ p ∧ x = (lower (labelName p), (p : Int))
  nodup : ((globalLabels ps).map (·.1)).Nodup
  locals : ∀ sc, localLabels sc ps = []
  labelled : ∀ n, Stmt.label n ∈ S → ∃ p : Nat, n = lower (labelName p) ∧ (n, (p : Int)) ∈ globalLabels ps
  defs : definitions S = []
  noCnop : ∀ a k, Stmt.dir (.cnop a k) ∉ S
  noCnop' : ∀ q ∈ ps, ∀ a k, q.stmt ≠ .dir (.cnop a k)

theorem dotted_label (p : Nat) : dotted (lower (labelName p)) = false := by
  have h : labelName p = 'l' :: ("abel_".toList ++ zeroPad 4 (digitsOf 16 p)) := rfl
  rw [h]
  have h2 : ∀ t : Text, lower ('l' :: t) = 'l' :: lower t := fun t => rfl
  rw [h2]
  rfl

theorem bytes_count (bs : List UInt8) : byteCount (bs.map fun b => .expr (.num b.toNat)) = bs.length := by
  induction bs with
  | nil => rfl
  | cons b bs ih => simp only [List.map_cons, byteCount, ih, List.length_cons]; omega

theorem bytes_items (m : Mode) (env : Env) (bs : List UInt8) : ByteItems m env (bs.map fun b => .expr (.num b.toNat)) bs := by
  induction bs with
  | nil => exact .nil
  | cons b bs ih =>
    have := b.toNat_lt
    exact .expr (v := b.toNat) rfl (by omega) (by omega) (by omega) ih

section
variable {m : Mode} {bytes : List UInt8} {Good : Nat → Instr Expr IM → Instr Int Nat → Prop}

theorem covers_range {bs : List UInt8} {cur j : Nat} (h1 : cur ≤ j) (h2 : j < cur + bs.length) : covers (cur, bs) j := ⟨h1, h2⟩

/-- An instruction in front. -/
theorem SeqOut.instr {cur l i S e ps ws} (hg : Good cur l i) (hf : l.form = i.form) (he : i.encode = (bytes.drop cur).take i.size)
    (hb : cur + i.size ≤ bytes.length) (sc : Text) (h : SeqOut m bytes Good (cur + i.size) S e ps ws) :
    SeqOut m bytes Good cur (.instr l :: S) e (⟨cur, sc, .instr l⟩ :: ps) ((cur, i.encode) :: ws) := by
  have hsz : (row l.form).size = i.size := by rw [docSize_eq, size_eq, hf]
  have hlen : i.encode.length = i.size := by rw [encode_length, size_eq]
  have hend : (⟨cur, sc, .instr l⟩ : Placed).end_ = cur + i.size := by rw [end_eq (p' := cur + i.size)]; simp [advance, hsz]
  have hle := h.le
  refine ⟨?_, by omega, h.bound, ?_, ?_, ?_, ?_, ?_, h.nodup, h.locals, ?_, h.defs, ?_, ?_⟩
  · simp only [Spec.stop, hend]; exact h.stop
  · intro q hq
    rcases List.mem_cons.mp hq with rfl | hq
    · rw [hend]; exact hle
    · exact h.ends q hq
  · intro G all hG
    exact .cons (.instr (hG _ _ _ _ hg)) (h.emits G all hG)
  · intro w hw
    rcases List.mem_cons.mp hw with rfl | hw
    · dsimp only; rw [hlen]; exact ⟨hb, he⟩
    · exact h.writes w hw
  · intro j h1 h2 h3
    by_cases hj : j < cur + i.size
    · exact ⟨_, List.mem_cons_self, covers_range h1 (by omega)⟩
    · obtain ⟨w, hw, hc⟩ := h.covered j (by omega) h2 h3
      exact ⟨w, List.mem_cons_of_mem _ hw, hc⟩
  · intro x hx
    obtain ⟨p, h1, h2⟩ := h.labels x hx
    exact ⟨p, by omega, h2⟩
  · intro n hn
    rcases List.mem_cons.mp hn with hn | hn
    · cases hn
    · exact h.labelled n hn
  · intro a k hn
    rcases List.mem_cons.mp hn with hn | hn
    · cases hn
    · exact h.noCnop a k hn
  · intro q hq a k
    rcases List.mem_cons.mp hq with rfl | hq
    · intro h; cases h
    · exact h.noCnop' q hq a k

theorem seq_placed {cur S e} (h : Seq bytes Good cur S e) : ∀ scope, ∃ ps ws, place cur scope S = some ps ∧
    SeqOut m bytes Good cur S e ps ws := by
  induction h with
  | @done cur h1 h2 =>
    intro scope
    refine ⟨[], [], rfl, rfl, Nat.le_refl _, h1, by simp, fun _ _ _ => .nil, by simp, ?_, by simp [globalLabels], by simp [globalLabels],
      fun _ => rfl, by simp, rfl, by simp, by simp⟩
    intro j h3 h4 h5
    exact absurd (h2 j h3 h4) h5
  | @org cur p rest e h1 h2 h3 _ ih =>
    intro scope
    obtain ⟨ps, ws, g1, g2⟩ := ih scope
    have hle := g2.le
    refine ⟨⟨cur, scope, .dir (.org p)⟩ :: ps, (cur, []) :: ws, ?_, ?_, by omega, g2.bound, ?_, ?_, ?_, ?_, ?_, g2.nodup, g2.locals, ?_,
      g2.defs, ?_, ?_⟩
    · simp only [place, advance, nextScope, g1]
    · exact g2.stop
    · intro q hq
      rcases List.mem_cons.mp hq with rfl | hq
      · exact hle
      · exact g2.ends q hq
    · intro G all hG
      exact .cons (.org h2) (g2.emits G all hG)
    · intro w hw
      rcases List.mem_cons.mp hw with rfl | hw
      · have := g2.bound
        simp only [List.length_nil, List.take_zero, and_true]
        omega
      · exact g2.writes w hw
    · intro j k1 k2 k3
      by_cases hj : j < p
      · exact absurd (h3 j k1 hj) k3
      · obtain ⟨w, hw, hc⟩ := g2.covered j (by omega) k2 k3
        exact ⟨w, List.mem_cons_of_mem _ hw, hc⟩
    · intro x hx
      obtain ⟨q, k1, k2⟩ := g2.labels x hx
      exact ⟨q, by omega, k2⟩
    · intro n hn
      rcases List.mem_cons.mp hn with hn | hn
      · cases hn
      · exact g2.labelled n hn
    · intro a k hn
      rcases List.mem_cons.mp hn with hn | hn
      · cases hn
      · exact g2.noCnop a k hn
    · intro q hq a k
      rcases List.mem_cons.mp hq with rfl | hq
      · intro h; cases h
      · exact g2.noCnop' q hq a k
  | @instr cur l i rest e hg hf he hb _ ih =>
    intro scope
    obtain ⟨ps, ws, g1, g2⟩ := ih scope
    have hsz : (row l.form).size = i.size := by rw [docSize_eq, size_eq, hf]
    refine ⟨_, _, ?_, g2.instr hg hf he hb scope⟩
    simp only [place, advance, nextScope, hsz, g1]
  | @labelled cur l i rest e hg hf he hb _ ih =>
    intro scope
    obtain ⟨ps, ws, g1, g2⟩ := ih (lower (labelName cur))
    have hsz : (row l.form).size = i.size := by rw [docSize_eq, size_eq, hf]
    have g3 := g2.instr hg hf he hb (lower (labelName cur))
    have hgl : ∀ qs, globalLabels (⟨cur, scope, .label (lower (labelName cur))⟩ :: qs) = (lower (labelName cur), (cur : Int)) :: globalLabels qs := by
      intro qs
      simp only [globalLabels, dotted_label, lower_lower, Bool.false_eq_true, ↓reduceIte]
    refine ⟨⟨cur, scope, .label (lower (labelName cur))⟩ :: ⟨cur, lower (labelName cur), .instr l⟩ :: ps, (cur, []) :: (cur, i.encode) :: ws, ?_,
      g3.stop, g3.le, g3.bound, ?_, ?_, ?_, ?_, ?_, ?_, ?_, ?_, g3.defs, ?_, ?_⟩
    · simp only [place, advance, nextScope, dotted_label, lower_lower, Bool.false_eq_true, ↓reduceIte, hsz, g1]
    · intro q hq
      rcases List.mem_cons.mp hq with rfl | hq
      · exact g3.le
      · exact g3.ends q hq
    · intro G all hG
      exact .cons .label (g3.emits G all hG)
    · intro w hw
      rcases List.mem_cons.mp hw with rfl | hw
      · have := g3.bound
        have := g3.le
        simp only [List.length_nil, List.take_zero, and_true]
        omega
      · exact g3.writes w hw
    · intro j k1 k2 k3
      obtain ⟨w, hw, hc⟩ := g3.covered j k1 k2 k3
      exact ⟨w, List.mem_cons_of_mem _ hw, hc⟩
    · intro x hx
      rw [hgl] at hx
      rcases List.mem_cons.mp hx with rfl | hx
      · exact ⟨cur, Nat.le_refl _, rfl⟩
      · exact g3.labels x hx
    · rw [hgl, List.map_cons, List.nodup_cons]
      refine ⟨?_, g3.nodup⟩
      intro hm
      obtain ⟨x, hx, hx2⟩ := List.mem_map.mp hm
      obtain ⟨p, k1, k2⟩ := g2.labels x hx
      rw [k2] at hx2
      have := labelName_inj hx2
      have := size_pos i
      omega
    · intro sc
      simp only [localLabels, dotted_label, Bool.false_eq_true, false_and, ↓reduceIte]
      exact g2.locals sc
    · intro n hn
      rw [hgl]
      rcases List.mem_cons.mp hn with hn | hn
      · cases hn
        exact ⟨cur, rfl, List.mem_cons_self⟩
      · obtain ⟨p, k1, k2⟩ := g3.labelled n hn
        exact ⟨p, k1, List.mem_cons_of_mem _ k2⟩
    · intro a k hn
      rcases List.mem_cons.mp hn with hn | hn
      · cases hn
      · exact g3.noCnop a k hn
    · intro q hq a k
      rcases List.mem_cons.mp hq with rfl | hq
      · intro h; cases h
      · exact g3.noCnop' q hq a k
  | @bytes cur bs rest e he hb _ ih =>
    intro scope
    obtain ⟨ps, ws, g1, h⟩ := ih scope
    have hle := h.le
    have hend : (⟨cur, scope, .dir (.byte (bs.map fun b => .expr (.num b.toNat)))⟩ : Placed).end_ = cur + bs.length := by
      rw [end_eq (p' := cur + bs.length)]; simp only [advance, bytes_count]
    refine ⟨⟨cur, scope, .dir (.byte (bs.map fun b => .expr (.num b.toNat)))⟩ :: ps, (cur, bs) :: ws, ?_, ?_, by omega, h.bound, ?_, ?_, ?_, ?_, ?_, h.nodup, h.locals, ?_, h.defs, ?_, ?_⟩
    · simp only [place, advance, nextScope, bytes_count, g1]
    · simp only [Spec.stop, hend]; exact h.stop
    · intro q hq
      rcases List.mem_cons.mp hq with rfl | hq
      · rw [hend]; exact hle
      · exact h.ends q hq
    · intro G all hG
      exact .cons (.byte (bytes_items m _ bs)) (h.emits G all hG)
    · intro w hw
      rcases List.mem_cons.mp hw with rfl | hw
      · exact ⟨hb, he⟩
      · exact h.writes w hw
    · intro j h1 h2 h3
      by_cases hj : j < cur + bs.length
      · exact ⟨_, List.mem_cons_self, covers_range h1 (by omega)⟩
      · obtain ⟨w, hw, hc⟩ := h.covered j (by omega) h2 h3
        exact ⟨w, List.mem_cons_of_mem _ hw, hc⟩
    · intro x hx
      obtain ⟨p, h1, h2⟩ := h.labels x hx
      exact ⟨p, by omega, h2⟩
    · intro n hn
      rcases List.mem_cons.mp hn with hn | hn
      · cases hn
      · exact h.labelled n hn
    · intro a k hn
      rcases List.mem_cons.mp hn with hn | hn
      · cases hn
      · exact h.noCnop a k hn
    · intro q hq a k
      rcases List.mem_cons.mp hq with rfl | hq
      · intro h; cases h
      · exact h.noCnop' q hq a k

end

theorem reread_unique {ss a b : List Stmt} (h : Reread ss a) : Reread ss b → a = b := by
  intro h'
  induction h generalizing b with
  | nil => cases h'; rfl
  | comment _ ih =>
    cases h' with
    | comment h => exact ih h
    | cons h1 _ => cases h1
  | cons h1 _ ih =>
    cases h' with
    | comment _ => cases h1
    | cons h2 h3 => rw [lowers_unique h1 h2, ih h3]

/-! From the lines to their places -/

section
variable {flag : Bool} {entries : List Nat} {bytes : List UInt8} {g : Graph} {Good : Nat → Instr Expr IM → Instr Int Nat → Prop}

/-- Where the assembler is when the disassembler is at `pos`. -/
def AsmAt (bytes : List UInt8) (g : Graph) (w : Nat → Bool) (pos cur : Nat) : Prop :=
  cur ≤ pos ∧ (∀ k, cur ≤ k → k < pos → bytes[k]? = some 0) ∧ (∀ p i, g.get p = some i → p < pos → p + i.size ≤ pos) ∧
    (pos = 0 ∨ g.mask (pos - 1) = true ∨ w (pos - 1) = true → cur = pos)

theorem seq_org {cur pos S e} (h1 : cur ≤ pos) (h2 : pos ≤ 65535) (h3 : ∀ k, cur ≤ k → k < pos → bytes[k]? = some 0)
    (h : Seq bytes Good pos S e) : Seq bytes Good cur ([.dir (.org pos)] ++ S) e := .org h1 h2 h3 h

theorem before_instr {w pos cur} (h : AsmAt bytes g w pos cur) (hp : pos ≤ 65535) :
    ∃ S0, Reread ((entryPart entries pos ++ afterData entries g w pos).map (·.stmt)) S0 ∧
      ∀ S e, Seq bytes Good pos S e → Seq bytes Good cur (S0 ++ S) e := by
  obtain ⟨h1, h2, _, h4⟩ := h
  by_cases hc : entries.contains pos = true
  · refine ⟨[.dir (.org pos)], ?_, fun S e => seq_org h1 hp h2⟩
    simp only [entryPart, hc, ↓reduceIte, afterData, Bool.not_true, Bool.and_false, Bool.false_eq_true, List.append_nil]
    exact .comment (.comment (.cons .org .nil))
  · simp only [entryPart, hc, Bool.false_eq_true, ↓reduceIte, List.nil_append, afterData, Bool.not_false, Bool.and_true]
    by_cases h5 : (decide (0 < pos) && !g.mask (pos - 1)) = true
    · simp only [h5, ↓reduceIte]
      cases hw : w (pos - 1) with
      | false =>
        refine ⟨[.dir (.org pos)], ?_, fun S e => seq_org h1 hp h2⟩
        exact .comment (.cons .org .nil)
      | true =>
        have := h4 (.inr (.inr hw))
        subst this
        exact ⟨[], .comment .nil, fun S e h => h⟩
    · have : cur = pos := h4 (by
        simp only [Bool.and_eq_true, decide_eq_true_eq, Bool.not_eq_true'] at h5
        by_cases hz : pos = 0
        · exact .inl hz
        · cases hm : g.mask (pos - 1) with
          | true => exact .inr (.inl rfl)
          | false => exact absurd ⟨by omega, hm⟩ h5)
      subst this
      refine ⟨[], ?_, fun S e h => h⟩
      rw [if_neg h5]
      exact .nil

theorem before_bytes {w pos cur} (h : AsmAt bytes g w pos cur) (hp : pos ≤ 65535) :
    ∃ S0, Reread ((beforeData g w pos).map (·.stmt)) S0 ∧
      ∀ S e, Seq bytes Good pos S e → Seq bytes Good cur (S0 ++ S) e := by
  obtain ⟨h1, h2, _, h4⟩ := h
  unfold beforeData
  by_cases hz : pos = 0
  · have := h4 (.inl hz)
    subst this
    subst hz
    exact ⟨[], .nil, fun S e h => h⟩
  · have hd : decide (0 < pos) = true := by simp; omega
    cases hm : g.mask (pos - 1) with
    | true =>
      have := h4 (.inr (.inl hm))
      subst this
      refine ⟨[], ?_, fun S e h => h⟩
      simp only [hd, Bool.and_self, ↓reduceIte, Bool.not_true, Bool.and_false, Bool.false_eq_true, List.append_nil]
      exact .comment .nil
    | false =>
      cases hw : w (pos - 1) with
      | true =>
        have := h4 (.inr (.inr hw))
        subst this
        refine ⟨[], ?_, fun S e h => h⟩
        simp only [Bool.and_false, Bool.false_eq_true, ↓reduceIte, Bool.not_true, Bool.false_and, List.append_nil]
        exact .nil
      | false =>
        refine ⟨[.dir (.org pos)], ?_, fun S e => seq_org h1 hp h2⟩
        simp only [hd, Bool.and_false, Bool.false_eq_true, ↓reduceIte, Bool.not_false, Bool.and_self, List.nil_append]
        exact .comment (.cons .org .nil)

theorem seq_le {cur S e} (h : Seq bytes Good cur S e) : cur ≤ e := by
  induction h with
  | done => exact Nat.le_refl _
  | _ => omega

theorem minor_end {d : DStmt} (h : d.minor) {x : Nat} : ¬ EndsBefore d x := by
  rintro ⟨p, _, ⟨i, h1, _⟩ | ⟨bs, h1, _⟩⟩
  · exact (h i []).1 h1
  · exact (h .Nop bs).2 h1

theorem emits_seq (hent : ∀ p ∈ entries, p < bytes.length → g.contains p = true) (hs : Sound bytes g)
    (hmask : ∀ k, g.mask k = true → ∃ p i, g.get p = some i ∧ p ≤ k ∧ k < p + i.size)
    (hov : ∀ p q i j, g.get p = some i → g.get q = some j → p < q → p + i.size ≤ q) (hlen : bytes.length ≤ 65536)
    (hgood : ∀ p i l l', g.get p = some i → liftInstr p g (buildNames g) i = .ok l → l'.form = l.form →
      operands l' = (operands l).map lowerOperand → Good p l' i ∧ l'.form = i.form)
    {pos w out} (h : Emits flag entries bytes g (buildNames g) pos w out) : pos ≤ bytes.length → (∀ p, w p = true → p < pos) → ∀ cur,
    (AsmAt bytes g w pos cur ∨ ∃ p i, g.get p = some i ∧ p < pos ∧ pos < p + i.size ∧ cur = p + i.size) →
    ∃ S e, Reread (out.map (·.stmt)) S ∧ Seq bytes Good cur S e ∧ (∀ d ∈ out, ∀ x, EndsBefore d x → x ≤ e) ∧
      (e = cur ∨ ∃ d ∈ out, EndsBefore d e) := by
  have hfit : ∀ p i, g.get p = some i → p + i.size ≤ bytes.length ∧ i.encode = (bytes.drop p).take i.size := by
    intro p i hi
    obtain ⟨c1, c2, _⟩ := Props.C02_encode_decode _ _ (hs p i hi).2
    rw [List.length_drop] at c2
    have := (hs p i hi).1
    exact ⟨by omega, c1⟩
  have hnoent : ∀ p, p < bytes.length → g.get p = none → entryPart entries p = [] := by
    intro p hp hg
    unfold entryPart
    rw [if_neg]
    intro hc
    have := hent p (List.contains_iff_mem.mp hc) hp
    simp [Graph.contains, hg] at this
  induction h with
  | @done pos w hd =>
    intro hp hw cur hc
    rcases hc with ⟨h1, h2, h3, h4⟩ | ⟨p, i, h1, h2, h3, rfl⟩
    · exact ⟨[], cur, .nil, .done (by omega) (fun k k1 k2 => h2 k k1 (by omega)), nofun, .inl rfl⟩
    · have := (hfit p i h1).1
      omega
  | @instr pos w i l rest hlt hg hl _ ih =>
    intro hp hw cur hc
    obtain ⟨f1, f2⟩ := hfit pos i hg
    have hsz := size_pos i
    have hA : AsmAt bytes g w pos cur := by
      rcases hc with hc | ⟨p, j, h1, h2, h3, rfl⟩
      · exact hc
      · have := hov p pos j i h1 hg h2
        omega
    obtain ⟨S0, a1, a2⟩ := before_instr (Good := Good) (entries := entries) hA (by omega)
    obtain ⟨S, e, b1, b2, b3, b4⟩ := ih (by omega) (fun p h => by have := hw p h; omega) (pos + i.size) (by
      by_cases h1 : i.size = 1
      · left
        refine ⟨by omega, fun k k1 k2 => by omega, ?_, fun _ => by omega⟩
        intro p j hj hpj
        by_cases hpp : p = pos
        · subst hpp
          rw [hg] at hj
          cases hj
          omega
        · have := hA.2.2.1 p j hj (by omega)
          omega
      · exact .inr ⟨pos, i, hg, by omega, by omega, rfl⟩)
    obtain ⟨g1, g2⟩ := hgood pos i l (l.mapE lowerExpr) hg hl (mapE_form _ _) (mapE_operands _ _)
    have hle := seq_le b2
    have hform : (row l.form).size = i.size := by rw [docSize_eq, size_eq, ← g2, mapE_form]
    have hI : Reread (Stmt.instr l :: rest.map (·.stmt)) (.instr (l.mapE lowerExpr) :: S) :=
      .cons (.instr (mapE_form _ _) (mapE_operands _ _)) b1
    have hO : Reread ((overlapPart g pos).map (·.stmt) ++ Stmt.instr l :: rest.map (·.stmt)) (.instr (l.mapE lowerExpr) :: S) := by
      unfold overlapPart
      split
      · exact hI
      · exact .comment hI
    have hL : ∃ S1, Reread ((labelPart (buildNames g) pos).map (·.stmt) ++ ((overlapPart g pos).map (·.stmt) ++ Stmt.instr l :: rest.map (·.stmt))) S1 ∧
        Seq bytes Good pos S1 e := by
      cases hx : (buildNames g).labels.lookup pos with
      | none =>
        refine ⟨.instr (l.mapE lowerExpr) :: S, ?_, .instr g1 g2 f2 f1 b2⟩
        simp only [labelPart, hx, List.map_nil, List.nil_append]
        exact hO
      | some n =>
        have := disLabels_lookup hx
        subst this
        refine ⟨.label (lower (labelName pos)) :: .instr (l.mapE lowerExpr) :: S, ?_, .labelled g1 g2 f2 f1 b2⟩
        simp only [labelPart, hx, List.map_cons, List.map_nil, List.cons_append, List.nil_append]
        exact .cons .label hO
    obtain ⟨S1, c1, c2⟩ := hL
    refine ⟨S0 ++ S1, e, ?_, a2 S1 e c2, ?_, .inr ?_⟩
    · have := a1.append c1
      simp only [List.map_append, List.map_cons, List.append_assoc] at this ⊢
      exact this
    · intro d hd x hx
      simp only [List.append_assoc, List.mem_append, List.mem_cons] at hd
      rcases hd with hd | hd | hd | hd | rfl | hd
      · exact absurd hx (minor_end (entryPart_minor d hd))
      · exact absurd hx (minor_end (afterData_minor d hd))
      · exact absurd hx (minor_end (labelPart_minor d hd))
      · exact absurd hx (minor_end (overlapPart_minor d hd))
      · obtain ⟨p, hp', ⟨l', hl', rfl⟩ | ⟨bs, h1, _⟩⟩ := hx
        · cases hp'
          cases hl'
          rw [hform]
          exact hle
        · cases h1
      · exact b3 d hd x hx
    · rcases b4 with rfl | ⟨d, hd, hx⟩
      · exact ⟨_, List.mem_append_right _ List.mem_cons_self, pos, rfl, .inl ⟨l, rfl, by rw [hform]⟩⟩
      · exact ⟨d, List.mem_append_right _ (List.mem_cons_of_mem _ hd), hx⟩
  | @bytes pos w rest hlt hg hm hz _ ih =>
    intro hp hw cur hc
    obtain ⟨k1, k2, k3, k4, k5⟩ := chunk_spec hlt hm
    have hA : AsmAt bytes g w pos cur := by
      rcases hc with hc | ⟨p, j, h1, h2, h3, rfl⟩
      · exact hc
      · have := mask_of_get (bytes := bytes) h1 (k := pos) (by omega) h3
        rw [hm] at this
        cases this
    obtain ⟨S0, a1, a2⟩ := before_bytes (Good := Good) hA (by omega)
    have hno : ∀ p, pos ≤ p → p < pos + (chunkAt bytes g pos).length → g.get p = none := by
      intro p h1 h2
      cases hx : g.get p with
      | none => rfl
      | some j =>
        have h3 := mask_of_get (bytes := bytes) hx (Nat.le_refl p) (by have := size_pos j; omega)
        have h4 := k5 (p - pos) (by omega)
        rw [Nat.add_sub_cancel' h1, h3] at h4
        cases h4
    obtain ⟨S, e, b1, b2, b3, b4⟩ := ih k3 (fun p h => by
      simp only [Bool.or_eq_true, Bool.and_eq_true, decide_eq_true_eq] at h
      rcases h with h | h
      · have := hw p h; omega
      · omega) _ (.inl ⟨Nat.le_refl _, fun k k1 k2 => by omega, fun p j hj hpj => by
        by_cases hpp : pos ≤ p
        · rw [hno p hpp hpj] at hj
          cases hj
        · have := hA.2.2.1 p j hj (by omega)
          omega, fun _ => rfl⟩)
    have hle := seq_le b2
    refine ⟨S0 ++ .dir (.byte ((chunkAt bytes g pos).map fun b => .expr (.num b.toNat))) :: S, e, ?_, a2 _ _ (.bytes k4 k3 b2), ?_, .inr ?_⟩
    · rw [hnoent pos hlt hg]
      have h1 : Reread (Stmt.dir (.byte ((chunkAt bytes g pos).map fun b => .expr (.num b.toNat))) :: rest.map (·.stmt))
          (.dir (.byte ((chunkAt bytes g pos).map fun b => .expr (.num b.toNat))) :: S) := by
        refine .cons ?_ b1
        have := @Lowers.byte ((chunkAt bytes g pos).map fun b => .expr (.num b.toNat))
        rw [List.map_map] at this
        exact this
      have := a1.append h1
      simp only [List.nil_append, List.map_append, List.map_cons] at this ⊢
      exact this
    · intro d hd x hx
      simp only [List.append_assoc, List.mem_append, List.mem_cons] at hd
      rcases hd with hd | hd | rfl | hd
      · exact absurd hx (minor_end (entryPart_minor d hd))
      · exact absurd hx (minor_end (beforeData_minor d hd))
      · obtain ⟨p, hp', ⟨l', hl', _⟩ | ⟨bs, h1, rfl⟩⟩ := hx
        · cases hl'
        · cases hp'
          simp only [DStmt.bytes, Stmt.dir.injEq, Directive.byte.injEq] at h1
          rw [← h1, List.length_map]
          exact hle
      · exact b3 d hd x hx
    · rcases b4 with rfl | ⟨d, hd, hx⟩
      · exact ⟨_, List.mem_append_right _ List.mem_cons_self, pos, rfl, .inr ⟨_, rfl, by rw [List.length_map]⟩⟩
      · exact ⟨d, List.mem_append_right _ (List.mem_cons_of_mem _ hd), hx⟩
  | @zeros pos w rest hlt hg hm hz _ ih =>
    intro hp hw cur hc
    obtain ⟨k1, k2, k3, k4, k5⟩ := chunk_spec hlt hm
    have hA : AsmAt bytes g w pos cur := by
      rcases hc with hc | ⟨p, j, h1, h2, h3, rfl⟩
      · exact hc
      · have := mask_of_get (bytes := bytes) h1 (k := pos) (by omega) h3
        rw [hm] at this
        cases this
    have hno : ∀ p, pos ≤ p → p < pos + (chunkAt bytes g pos).length → g.get p = none := by
      intro p h1 h2
      cases hx : g.get p with
      | none => rfl
      | some j =>
        have h3 := mask_of_get (bytes := bytes) hx (Nat.le_refl p) (by have := size_pos j; omega)
        have h4 := k5 (p - pos) (by omega)
        rw [Nat.add_sub_cancel' h1, h3] at h4
        cases h4
    obtain ⟨S, e, b1, b2, b3, b4⟩ := ih k3 (fun p h => by have := hw p h; omega) cur (.inl ⟨by have := hA.1; omega, fun k h1 h2 => by
        by_cases hk : k < pos
        · exact hA.2.1 k h1 hk
        · have h3 : (chunkAt bytes g pos)[k - pos]? = bytes[k]? := by
            rw [k4, List.getElem?_take, if_pos (by omega), List.getElem?_drop, Nat.add_sub_cancel' (by omega)]
          rw [← h3]
          have h4 : k - pos < (chunkAt bytes g pos).length := by omega
          rw [List.getElem?_eq_getElem h4]
          have := List.all_eq_true.mp hz _ (List.getElem_mem h4)
          simpa using this, fun p j hj hpj => by
        by_cases hpp : pos ≤ p
        · rw [hno p hpp hpj] at hj
          cases hj
        · have := hA.2.2.1 p j hj (by omega)
          omega, fun hx => by
        rcases hx with hx | hx | hx
        · omega
        · have := k5 ((chunkAt bytes g pos).length - 1) (by omega)
          rw [show pos + ((chunkAt bytes g pos).length - 1) = pos + (chunkAt bytes g pos).length - 1 by omega, hx] at this
          cases this
        · have := hw _ hx
          omega⟩)
    refine ⟨S, e, ?_, b2, ?_, ?_⟩
    · rw [hnoent pos hlt hg]
      exact b1
    · intro d hd x hx
      rcases List.mem_append.mp hd with hd | hd
      · exact absurd hx (minor_end (entryPart_minor d hd))
      · exact b3 d hd x hx
    · exact b4.imp id fun ⟨d, hd, hx⟩ => ⟨d, List.mem_append_right _ hd, hx⟩
  | @inside pos w rest hlt hg hm _ ih =>
    intro hp hw cur hc
    obtain ⟨q, j, q1, q2, q3⟩ := hmask pos hm
    have hq : q ≠ pos := by
      rintro rfl
      rw [hg] at q1
      cases q1
    have hcur : cur = q + j.size := by
      rcases hc with hc | ⟨p, i, h1, h2, h3, rfl⟩
      · have := hc.2.2.1 q j q1 (by omega)
        omega
      · by_cases hpq : p = q
        · subst hpq
          rw [h1] at q1
          cases q1
          rfl
        · rcases Nat.lt_or_gt_of_ne hpq with h | h
          · have := hov p q i j h1 q1 h; omega
          · have := hov q p j i q1 h1 h; omega
    subst hcur
    obtain ⟨S, e, b1, b2, b3, b4⟩ := ih (by omega) (fun p h => by have := hw p h; omega) (q + j.size) (by
      by_cases h1 : pos + 1 = q + j.size
      · left
        refine ⟨by omega, fun k k1 k2 => by omega, ?_, fun _ => by omega⟩
        intro p i hi hpi
        by_cases hpp : p = q
        · subst hpp
          rw [hi] at q1
          cases q1
          omega
        · rcases Nat.lt_or_gt_of_ne hpp with h | h
          · have := hov p q i j hi q1 h; omega
          · have := hov q p j i q1 hi h; omega
      · exact .inr ⟨q, j, q1, by omega, by omega, rfl⟩)
    refine ⟨S, e, ?_, b2, ?_, ?_⟩
    · rw [hnoent pos hlt hg]
      exact b1
    · intro d hd x hx
      rcases List.mem_append.mp hd with hd | hd
      · exact absurd hx (minor_end (entryPart_minor d hd))
      · exact b3 d hd x hx
    · exact b4.imp id fun ⟨d, hd, hx⟩ => ⟨d, List.mem_append_right _ hd, hx⟩

end

/-! Operands in lower case -/

theorem eval_lower {m : Mode} {env : Env} : ∀ (e : Expr) (v : Int), e.eval m env = .ok v → (lowerExpr e).eval m env = .ok v := by
  intro e
  induction e with
  | name n =>
    intro v h
    simp only [lowerExpr, Expr.eval, lower_lower] at h ⊢
    split at h
    · exact h
    · cases h
  | number v r => intro v h; exact h
  | macroLabel n => intro v h; simp [Expr.eval] at h
  | macroArg n => intro v h; simp [Expr.eval] at h
  | uminus e ih | upperByte e ih | lowerByte e ih =>
    intro v h
    simp only [lowerExpr, Expr.eval] at h ⊢
    obtain ⟨a, h1, h2⟩ := Res.bind_eq_ok.mp h
    rw [ih a h1]
    exact h2
  | plus l r ihl ihr | minus l r ihl ihr | times l r ihl ihr | divide l r ihl ihr | bxor l r ihl ihr | band l r ihl ihr | bor l r ihl ihr =>
    intro v h
    simp only [lowerExpr, Expr.eval] at h ⊢
    obtain ⟨a, h1, h2⟩ := Res.bind_eq_ok.mp h
    obtain ⟨b, h3, h4⟩ := Res.bind_eq_ok.mp h2
    rw [ihl a h1, Res.ok_bind, ihr b h3]
    exact h4

theorem field_lower {m : Mode} {env : Env} {next : Nat} {k : Kind} {o : Sum Expr IM} {v : Int}
    (h : evalField m env next k o = .ok v) : evalField m env next k (lowerOperand o) = .ok v := by
  cases o with
  | inr r => exact h
  | inl e =>
    cases k <;> simp only [evalField, lowerOperand, evalBits, evalRel8, evalAbs12, evalRel16] at h ⊢ <;>
      first
      | (obtain ⟨a, h1, h2⟩ := Res.bind_eq_ok.mp h; rw [eval_lower e a h1]; exact h2)
      | (obtain ⟨b, h0, h3⟩ := Res.bind_eq_ok.mp h; obtain ⟨a, h1, h2⟩ := Res.bind_eq_ok.mp h0; rw [eval_lower e a h1, Res.ok_bind, h2]; exact h3)
      | cases h

theorem fields_lower {m : Mode} {env : Env} {next : Nat} : ∀ (ks : List Kind) (os : List (Sum Expr IM)) (vs : List Int),
    evalFields m env next ks os = .ok vs → evalFields m env next ks (os.map lowerOperand) = .ok vs
  | [], os, vs, h => by cases os <;> exact h
  | _ :: _, [], vs, h => h
  | k :: ks, o :: os, vs, h => by
    simp only [evalFields, List.map_cons] at h ⊢
    obtain ⟨a, h1, h2⟩ := Res.bind_eq_ok.mp h
    obtain ⟨b, h3, h4⟩ := Res.bind_eq_ok.mp h2
    rw [field_lower h1, Res.ok_bind, fields_lower ks os b h3]
    exact h4

theorem evalIn_lower {m : Mode} {env : Env} {next : Nat} {l l' : Instr Expr IM} {i : Instr Int Nat} (hi : InRange i)
    (hf : l'.form = l.form) (ho : operands l' = (operands l).map lowerOperand) (h : l.evalIn m env next = .ok i) :
    l'.evalIn m env next = .ok i := by
  obtain ⟨h1, h2⟩ := evalIn_ok h
  have h3 := fields_lower _ _ _ h1
  have h4 := evalIn_eq m env next l'
  rw [hf, ho, h3, Res.ok_bind] at h4
  obtain ⟨j, h5, h6⟩ := Res.bind_eq_ok.mp h4
  simp only [Res.ok.injEq, Prod.mk.injEq] at h6
  have hij : i = j := instr_ext hi (by rw [h2, h6.1]) (by rw [values_eq, values_eq, h6.2])
  rw [h5, hij]

/-! The end of the listing -/

/-- The names of `sortedNames`, with their values. -/
def sortedPairs (l : List (Nat × Text)) : List (Nat × Text) :=
  (List.range 0x200).filterMap fun k => (l.lookup k).map fun n => (k, n)

theorem sortedNames_eq (l : List (Nat × Text)) : sortedNames l = (sortedPairs l).map fun p => .alias p.2 p.1 := by
  unfold sortedNames sortedPairs
  generalize List.range 0x200 = ks
  induction ks with
  | nil => rfl
  | cons k ks ih =>
    simp only [List.filterMap_cons]
    cases l.lookup k with
    | none => exact ih
    | some n => simp only [Option.map_some, List.map_cons, ih]

/-- All aliases. -/
def allPairs : List (Nat × Text) := sortedPairs pswBits ++ sortedPairs aliases

theorem allPairs_eq : allPairs = sortedPairs pswBits ++ sortedPairs aliases := rfl

theorem sortedPairs_mem {l : List (Nat × Text)} {p : Nat × Text} (h : p ∈ sortedPairs l) : p.1 < 0x200 ∧ p ∈ l := by
  simp only [sortedPairs, List.mem_filterMap, Option.map_eq_some_iff, List.mem_range] at h
  obtain ⟨k, h1, n, h2, rfl⟩ := h
  exact ⟨h1, lookup_mem_pair h2⟩

theorem sortedPairs_keys (l : List (Nat × Text)) : (sortedPairs l).Pairwise fun a b => a.1 ≠ b.1 := by
  unfold sortedPairs
  rw [List.pairwise_filterMap]
  refine List.Pairwise.imp ?_ (List.nodup_range (n := 0x200))
  intro a b hab x hx y hy
  simp only [Option.map_eq_some_iff] at hx hy
  obtain ⟨_, _, rfl⟩ := hx
  obtain ⟨_, _, rfl⟩ := hy
  exact hab

theorem allPairs_mem {p : Nat × Text} (h : p ∈ allPairs) : p ∈ pswBits ++ aliases := by
  unfold allPairs at h
  rw [List.mem_append] at h ⊢
  exact h.imp (fun h => (sortedPairs_mem h).2) (fun h => (sortedPairs_mem h).2)

theorem allPairs_nodup : (allPairs.map fun p => lower p.2).Nodup := by
  have hd := aliases_distinct
  have inj := map_nodup_inj hd
  unfold List.Nodup
  rw [List.pairwise_map]
  unfold allPairs
  rw [List.pairwise_append]
  have one : ∀ l : List (Nat × Text), (∀ p ∈ l, p ∈ pswBits ++ aliases) →
      (sortedPairs l).Pairwise fun a b => lower a.2 ≠ lower b.2 := by
    intro l hl
    refine List.Pairwise.imp_of_mem ?_ (sortedPairs_keys l)
    intro a b ha hb hk he
    exact hk (by rw [inj a (hl a (sortedPairs_mem ha).2) b (hl b (sortedPairs_mem hb).2) he])
  refine ⟨one _ fun p h => List.mem_append_left _ h, one _ fun p h => List.mem_append_right _ h, ?_⟩
  intro a ha b hb he
  rw [List.map_append, List.nodup_append] at hd
  exact hd.2.2 (lower a.2) (List.mem_map.mpr ⟨a, (sortedPairs_mem ha).2, rfl⟩) (lower b.2)
    (List.mem_map.mpr ⟨b, (sortedPairs_mem hb).2, rfl⟩) he

theorem aliases_dotted : ∀ p ∈ pswBits ++ aliases, dotted (lower p.2) = false := by decide +kernel

theorem allPairs_good : ∀ p ∈ allPairs, p.1 < 0x200 ∧ dotted (lower p.2) = false ∧ (lower p.2).take 6 ≠ "label_".toList := by
  intro p hp
  refine ⟨?_, aliases_dotted p (allPairs_mem hp), aliases_lower p (allPairs_mem hp)⟩
  unfold allPairs at hp
  rcases List.mem_append.mp hp with h | h
  · exact (sortedPairs_mem h).1
  · exact (sortedPairs_mem h).1

attribute [local irreducible] sortedPairs allPairs

/-- A definition as it is read back. -/
def pairStmt (p : Nat × Text) : Stmt := .alias (lower p.2) (.num (asI32 p.1))

theorem pairs_reread (D : List (Nat × Text)) : Reread (D.map fun p => (DStmt.alias p.2 p.1).stmt) (D.map pairStmt) := by
  induction D with
  | nil => exact .nil
  | cons p D ih => exact .cons .alias ih

theorem epilogue_reread_of (size : Nat) (ls A B : List (Nat × Text)) : Reread ((epilogue size ⟨ls, A, B⟩).map (·.stmt))
    (.dir (.cnop (.num (asI32 (size % 0x200))) (.num (asI32 0x200))) :: (sortedPairs A ++ sortedPairs B).map pairStmt) := by
  simp only [epilogue, sortedNames_eq, List.map_append, List.map_cons, List.map_nil, List.cons_append, List.nil_append]
  refine .comment (.cons .cnop (.comment ?_))
  rw [List.append_assoc]
  refine Spec.Reread.append ?_ (.comment ?_)
  · rw [List.map_map]
    exact pairs_reread _
  · rw [List.map_map]
    exact pairs_reread _

theorem epilogue_reread (size : Nat) (g : Graph) : Reread ((epilogue size (buildNames g)).map (·.stmt))
    (.dir (.cnop (.num (asI32 (size % 0x200))) (.num (asI32 0x200))) :: allPairs.map pairStmt) := by
  have := epilogue_reread_of size (disLabels g) pswBits aliases
  rw [← allPairs_eq] at this
  exact this

theorem place_pairs (p : Nat) (sc : Text) (D : List (Nat × Text)) :
    place p sc (D.map pairStmt) = some (D.map fun d => ⟨p, sc, pairStmt d⟩) := by
  induction D with
  | nil => rfl
  | cons d D ih => simp only [List.map_cons, place, pairStmt, advance, nextScope] at ih ⊢; rw [ih]

theorem pairs_defs (D : List (Nat × Text)) : definitions (D.map pairStmt) = D.map fun d => (lower d.2, .num (asI32 d.1)) := by
  induction D with
  | nil => rfl
  | cons d D ih => simp only [List.map_cons, pairStmt, definitions, lower_lower] at ih ⊢; rw [ih]

theorem pairs_vars (m : Mode) (D : List (Nat × Text)) : ∀ known, Vars m known (D.map fun d => (lower d.2, .num (asI32 d.1)))
    (D.map fun d => (lower d.2, asI32 d.1)) := by
  induction D with
  | nil => intro known; exact .nil
  | cons d D ih => intro known; exact .cons rfl (ih _)

theorem pairs_emits (m : Mode) (G : List (Text × Int)) (all : List Placed) (p : Nat) (sc : Text) (D : List (Nat × Text)) :
    EmitsAll m G all (D.map fun d => ⟨p, sc, pairStmt d⟩) (D.map fun _ => (p, [])) := by
  induction D with
  | nil => exact .nil
  | cons d D ih => exact .cons .alias ih

theorem pairs_labels (p : Nat) (sc : Text) (D : List (Nat × Text)) : globalLabels (D.map fun d => ⟨p, sc, pairStmt d⟩) = [] ∧
    ∀ t, localLabels t (D.map fun d => ⟨p, sc, pairStmt d⟩) = [] := by
  induction D with
  | nil => exact ⟨rfl, fun _ => rfl⟩
  | cons d D ih => exact ⟨ih.1, ih.2⟩

theorem pairs_end (p : Nat) (sc : Text) (d : Nat × Text) : (⟨p, sc, pairStmt d⟩ : Placed).end_ = p := rfl

theorem emitsAll_join {m : Mode} {G : List (Text × Int)} {all ps qs : List Placed} {ws vs : List (Nat × List UInt8)}
    (h : EmitsAll m G all ps ws) (h' : EmitsAll m G all qs vs) : EmitsAll m G all (ps ++ qs) (ws ++ vs) := by
  induction h with
  | nil => exact h'
  | cons h1 _ ih => exact .cons h1 ih

theorem reach_pairs (p : Nat) (sc : Text) (D : List (Nat × Text)) : reach (D.map fun d => ⟨p, sc, pairStmt d⟩) ≤ p := by
  induction D with
  | nil => exact Nat.zero_le _
  | cons d D ih => simp only [List.map_cons, reach, pairs_end]; omega

/-! The image -/

theorem last_cover {ws : List (Nat × List UInt8)} {j : Nat} (h : ∃ w ∈ ws, covers w j) :
    ∃ before w after, ws = before ++ w :: after ∧ covers w j ∧ ∀ w' ∈ after, ¬ covers w' j := by
  induction ws with
  | nil => obtain ⟨w, h1, _⟩ := h; cases h1
  | cons x ws ih =>
    by_cases hx : ∃ w ∈ ws, covers w j
    · obtain ⟨a, w, b, h1, h2, h3⟩ := ih hx
      exact ⟨x :: a, w, b, by rw [h1]; rfl, h2, h3⟩
    · obtain ⟨w, h1, h2⟩ := h
      rcases List.mem_cons.mp h1 with rfl | h1
      · exact ⟨[], w, ws, rfl, h2, fun w' hw hc => hx ⟨w', hw, hc⟩⟩
      · exact absurd ⟨w, h1, h2⟩ hx

theorem sized_length (n : Nat) (bytes : List UInt8) : (sized n bytes).length = n := by
  simp only [sized, List.length_append, List.length_take, List.length_replicate]; omega

theorem sized_get {n : Nat} {bytes : List UInt8} {j : Nat} {b : UInt8} (h : (sized n bytes)[j]? = some b) :
    (bytes[j]? = some b) ∨ (bytes.length ≤ j ∧ b = 0) := by
  unfold sized at h
  by_cases hj : j < (bytes.take n).length
  · rw [List.getElem?_append_left hj, List.getElem?_take] at h
    split at h
    · exact .inl h
    · cases h
  · rw [List.getElem?_append_right (by omega), List.getElem?_replicate] at h
    rw [List.length_take] at hj h
    split at h
    · cases h
      exact .inr ⟨by omega, rfl⟩
    · cases h

theorem image_sized {bytes : List UInt8} {ws vs : List (Nat × List UInt8)} {n : Nat}
    (h1 : ∀ w ∈ ws, w.1 + w.2.length ≤ bytes.length ∧ w.2 = (bytes.drop w.1).take w.2.length)
    (h2 : ∀ j, j < bytes.length → bytes[j]? ≠ some 0 → ∃ w ∈ ws, covers w j) (h3 : ∀ w ∈ vs, w.2 = []) :
    ∀ j b, (sized n bytes)[j]? = some b → ImageByte (ws ++ vs) j b := by
  have hn : ∀ j, ∀ w ∈ vs, ¬ covers w j := by
    intro j w hw hc
    have := hc.2
    rw [h3 w hw] at this
    have := hc.1
    simp at *
    omega
  intro j b hb
  by_cases hc : ∃ w ∈ ws, covers w j
  · obtain ⟨x, w, y, e1, e2, e3⟩ := last_cover hc
    obtain ⟨f1, f2⟩ := h1 w (by rw [e1]; simp)
    left
    refine ⟨x, w, y ++ vs, by rw [e1]; simp, e2, ?_, ?_⟩
    · intro w' hw
      rcases List.mem_append.mp hw with hw | hw
      · exact e3 w' hw
      · exact hn j w' hw
    · have h4 := e2.1
      have h5 := e2.2
      rw [f2, List.getElem?_take, if_pos (by omega), List.getElem?_drop, Nat.add_sub_cancel' h4]
      rcases sized_get hb with h | ⟨h, _⟩
      · exact h
      · omega
  · right
    refine ⟨fun w hw hcw => ?_, ?_⟩
    · rcases List.mem_append.mp hw with hw | hw
      · exact hc ⟨w, hw, hcw⟩
      · exact hn j w hw hcw
    · rcases sized_get hb with h | ⟨_, h⟩
      · by_cases hz : b = 0
        · exact hz
        · refine absurd (h2 j ?_ ?_) hc
          · exact (List.getElem?_eq_some_iff.mp h).1
          · rw [h]
            intro hx
            cases hx
            exact hz rfl
      · exact h

/-! Assembling the listing -/

section
variable {flag : Bool} {entries : List Nat} {bytes : List UInt8} {g : Graph} {body : List DStmt}

/-- The instruction means what was decoded, wherever the names of the listing have their values. -/
def GoodIn (out : List DStmt) (p : Nat) (l : Instr Expr IM) (i : Instr Int Nat) : Prop :=
  l.form = i.form ∧ ∀ m env, (∀ n v, Defines out n v → env (lower n) = some v) → l.evalIn m env (p + i.size) = .ok i

theorem listing_seq (h1 : trace entries bytes = .ok g) (h2 : Emits flag entries bytes g (buildNames g) 0 (fun _ => false) body)
    (hlen : bytes.length ≤ 65536) (hov : NoOverlap bytes (body ++ epilogue bytes.length (buildNames g)))
    (hn : ∀ p i l, g.get p = some i → liftInstr p g (buildNames g) i = .ok l → ∀ n, .inl (.name n) ∈ operands l →
      ∃ v, Defines (body ++ epilogue bytes.length (buildNames g)) n v) :
    ∃ S e, Reread (body.map (·.stmt)) S ∧ Seq bytes (GoodIn (body ++ epilogue bytes.length (buildNames g))) 0 S e ∧
      ContentEnd (body ++ epilogue bytes.length (buildNames g)) e := by
  have ht := trace_ok h1
  have hl := listed_iff ht.sound h2 (size := bytes.length)
  obtain ⟨S, e, a1, a2, a3, a4⟩ := emits_seq (Good := GoodIn (body ++ epilogue bytes.length (buildNames g)))
    (fun p hp hlt => (ht.entries p hp hlt).resolve_right (by simp)) ht.sound
    (by
      intro k hk
      simp only [Graph.mask, List.any_eq_true, Bool.and_eq_true, decide_eq_true_eq] at hk
      obtain ⟨⟨p, i⟩, k1, k2, k3⟩ := hk
      obtain ⟨j, hj⟩ := get_of_mem ht.sound k1
      have e1 := (mem_sound h1 k1).2
      rw [(ht.sound p j hj).2] at e1
      simp only [Res.ok.injEq, Option.some.injEq] at e1
      subst e1
      exact ⟨p, j, hj, k2, k3⟩)
    (fun p q i j hi hj hpq => hov p q i ((hl p).mpr (by simp [Graph.contains, hi])) ((hl q).mpr (by simp [Graph.contains, hj])) hpq (ht.sound p i hi))
    hlen
    (by
      intro p i l l' hi hli hf ho
      have hr := decode_inRange (ht.sound p i hi).2
      obtain ⟨l2, b1, b2, _⟩ := lift_spec p g (buildNames g) i hr
      rw [hli] at b1
      cases b1
      refine ⟨⟨by rw [hf, b2], fun m env henv => ?_⟩, by rw [hf, b2]⟩
      exact evalIn_lower hr hf ho (lift_eval ht.sound h2 hlen henv hi hli (hn p i l hi hli)))
    h2 (Nat.zero_le _) (by simp) 0 (.inl ⟨Nat.le_refl _, fun k k1 k2 => by omega, fun p i hi hp => by omega, fun _ => rfl⟩)
  refine ⟨S, e, a1, a2, ?_, ?_⟩
  · intro d hd x hx
    rcases List.mem_append.mp hd with hd | hd
    · exact a3 d hd x hx
    · exact absurd hx (minor_end (epilogue_minor d hd))
  · exact a4.imp id fun ⟨d, hd, hx⟩ => ⟨d, List.mem_append_left _ hd, hx⟩

theorem reread_label {ss ss' : List Stmt} {n : Text} (h : Reread ss ss') (hm : Stmt.label n ∈ ss) : Stmt.label (lower n) ∈ ss' := by
  induction h with
  | nil => cases hm
  | comment _ ih =>
    rcases List.mem_cons.mp hm with h | h
    · cases h
    · exact ih h
  | cons h1 _ ih =>
    rcases List.mem_cons.mp hm with h | h
    · subst h
      cases h1
      exact List.mem_cons_self
    · exact List.mem_cons_of_mem _ (ih h)

theorem reach_le {ps : List Placed} {e : Nat} (h : ∀ q ∈ ps, q.end_ ≤ e) : reach ps ≤ e := by
  induction ps with
  | nil => exact Nat.zero_le _
  | cons q ps ih =>
    simp only [reach]
    have := h q List.mem_cons_self
    have := ih fun q hq => h q (List.mem_cons_of_mem _ hq)
    omega

theorem leastMultiple_ge (k p : Nat) : p ≤ leastMultiple k p := by
  unfold leastMultiple
  split <;> omega

theorem seq_zeros {Good cur S e} (h : Seq bytes Good cur S e) : e ≤ bytes.length ∧ ∀ k, e ≤ k → k < bytes.length → bytes[k]? = some 0 := by
  induction h with
  | done h1 h2 => exact ⟨h1, h2⟩
  | _ => assumption

theorem epilogue_alias_of {size : Nat} {ls A B : List (Nat × Text)} {d : DStmt} (hd : d ∈ epilogue size ⟨ls, A, B⟩) {n : Text} {v : Int} {r : Radix}
    (hx : d.stmt = .alias n (.number v r)) : ∃ c ∈ sortedPairs A ++ sortedPairs B, c.2 = n ∧ asI32 c.1 = v := by
  simp only [epilogue, sortedNames_eq, List.mem_append, List.mem_cons, List.not_mem_nil, or_false, List.mem_map] at hd
  rcases hd with ((((rfl | rfl | rfl) | ⟨c, hc, rfl⟩) | rfl) | ⟨c, hc, rfl⟩)
  · cases hx
  · cases hx
  · cases hx
  · simp only [DStmt.alias, Stmt.alias.injEq, Expr.num, Expr.number.injEq] at hx
    exact ⟨c, List.mem_append_left _ hc, hx.1, hx.2.1⟩
  · cases hx
  · simp only [DStmt.alias, Stmt.alias.injEq, Expr.num, Expr.number.injEq] at hx
    exact ⟨c, List.mem_append_right _ hc, hx.1, hx.2.1⟩

theorem epilogue_alias {size : Nat} {d : DStmt} (hd : d ∈ epilogue size (buildNames g)) {n : Text} {v : Int} {r : Radix}
    (hx : d.stmt = .alias n (.number v r)) : ∃ c ∈ allPairs, c.2 = n ∧ asI32 c.1 = v := by
  rw [allPairs_eq]
  exact epilogue_alias_of (ls := disLabels g) hd hx

theorem listing_assembles (h1 : trace entries bytes = .ok g) (h2 : Emits flag entries bytes g (buildNames g) 0 (fun _ => false) body)
    (hlen : bytes.length ≤ 65536) (hov : NoOverlap bytes (body ++ epilogue bytes.length (buildNames g)))
    (hn : ∀ p i l, g.get p = some i → liftInstr p g (buildNames g) i = .ok l → ∀ n, .inl (.name n) ∈ operands l →
      ∃ v, Defines (body ++ epilogue bytes.length (buildNames g)) n v) :
    ∃ S e, Reread ((body ++ epilogue bytes.length (buildNames g)).map (·.stmt)) S ∧
      ContentEnd (body ++ epilogue bytes.length (buildNames g)) e ∧
      (e ≤ bytes.length ∧ ∀ k, e ≤ k → k < bytes.length → bytes[k]? = some 0) ∧
      ∀ m, assemble m S = .ok (sized (leastMultiple 512 e + bytes.length % 512) bytes) := by
  obtain ⟨S, e, a1, a2, a3⟩ := listing_seq h1 h2 hlen hov hn
  refine ⟨S ++ (.dir (.cnop (.num (asI32 (bytes.length % 0x200))) (.num (asI32 0x200))) :: allPairs.map pairStmt), e, ?_, a3, ?_, fun m => ?_⟩
  · rw [List.map_append]
    exact a1.append (epilogue_reread _ _)
  · exact seq_zeros a2
  · obtain ⟨ps, ws, b1, b2⟩ := seq_placed (m := m) a2 []
    have c0 : asI32 (bytes.length % 0x200) = (bytes.length % 512 : Nat) := by unfold asI32 wrap32; omega
    have c1 : asI32 0x200 = 512 := by decide
    rw [c0, c1]
    clear c0 c1
    have hr : bytes.length % 512 < 512 := Nat.mod_lt _ (by omega)
    generalize bytes.length % 512 = r at hr ⊢
    have hL : leastMultiple 512 e ≤ e + 512 := by unfold leastMultiple; split <;> omega
    have hL' := leastMultiple_ge 512 e
    generalize hLe : leastMultiple 512 e = L at hL hL'
    have hadv : advance e (.dir (.cnop (.num (r : Int)) (.num 512))) = some (L + r) := by
      simp only [advance, Expr.num]
      rw [if_neg (by omega), if_neg (by omega), ← hLe]
      rfl
    have hb := b2.bound
    let sc := S.foldl nextScope []
    let tl : List Placed := ⟨e, sc, .dir (.cnop (.num (r : Int)) (.num 512))⟩ :: allPairs.map fun d => ⟨L + r, sc, pairStmt d⟩
    have hlay : layout (S ++ .dir (.cnop (.num (r : Int)) (.num 512)) :: allPairs.map pairStmt) = some (ps ++ tl) := by
      refine place_join b1 ?_
      rw [b2.stop]
      simp only [place, hadv, nextScope, place_pairs]
      rfl
    have hgl : globalLabels (ps ++ tl) = globalLabels ps := by
      rw [globalLabels_append]
      have : globalLabels tl = [] := (pairs_labels _ _ _).1
      rw [this, List.append_nil]
    have hll : ∀ t, localLabels t (ps ++ tl) = [] := by
      intro t
      rw [localLabels_append, b2.locals]
      exact (pairs_labels _ _ _).2 t
    have hend : ∀ q ∈ ps ++ tl, q.end_ ≤ L + r := by
      intro q hq
      rcases List.mem_append.mp hq with hq | hq
      · have := b2.ends q hq; omega
      · rcases List.mem_cons.mp hq with rfl | hq
        · rw [end_eq hadv]; exact Nat.le_refl _
        · obtain ⟨d, _, rfl⟩ := List.mem_map.mp hq
          rw [pairs_end]; exact Nat.le_refl _
    have hreach : reach (ps ++ tl) = L + r := by
      refine Nat.le_antisymm (reach_le hend) ?_
      rw [reach_append]
      have : reach tl ≥ L + r := by
        show max _ _ ≥ _
        rw [end_eq hadv]
        omega
      omega
    have hpair : ∀ n, Stmt.label n ∈ S ++ .dir (.cnop (.num (r : Int)) (.num 512)) :: allPairs.map pairStmt → Stmt.label n ∈ S := by
      intro n hn
      rcases List.mem_append.mp hn with h | h
      · exact h
      · rcases List.mem_cons.mp h with h | h
        · cases h
        · obtain ⟨d, _, hd⟩ := List.mem_map.mp h
          cases hd
    have hcn : ∀ a k, Stmt.dir (.cnop a k) ∈ S ++ .dir (.cnop (.num (r : Int)) (.num 512)) :: allPairs.map pairStmt →
        a = .num (r : Int) ∧ k = .num 512 := by
      intro a k hn
      rcases List.mem_append.mp hn with h | h
      · exact absurd h (b2.noCnop a k)
      · rcases List.mem_cons.mp h with h | h
        · simp only [Stmt.dir.injEq, Directive.cnop.injEq] at h
          exact h
        · obtain ⟨d, _, hd⟩ := List.mem_map.mp h
          cases hd
    have laid : Laid m (S ++ .dir (.cnop (.num (r : Int)) (.num 512)) :: allPairs.map pairStmt) (ps ++ tl) := by
      refine ⟨⟨fun n hn _ => ?_, fun a k hn => ?_⟩, hlay, fun q hq => by have := hend q hq; omega, .inr ?_⟩
      · obtain ⟨p, rfl, _⟩ := b2.labelled n (hpair n hn)
        refine ⟨lower_lower _, ?_⟩
        intro h
        have := label_lower p
        rw [h] at this
        cases this
      · obtain ⟨rfl, rfl⟩ := hcn a k hn
        constructor
        · intro v r' h; cases h; omega
        · intro v r' h; cases h; omega
      · intro q hq a k hx
        rcases List.mem_append.mp hq with hq | hq
        · exact absurd hx (b2.noCnop' q hq a k)
        · rcases List.mem_cons.mp hq with rfl | hq
          · rw [end_eq hadv]; show e ≤ _; omega
          · obtain ⟨d, _, rfl⟩ := List.mem_map.mp hq
            cases hx
    let vars := allPairs.map fun d => (lower d.2, asI32 d.1)
    have hnd : ((globalLabels ps ++ vars).map (·.1)).Nodup := by
      have hv : vars.map (·.1) = allPairs.map fun d => lower d.2 := by
        show List.map _ (List.map _ _) = _
        rw [List.map_map]
        rfl
      rw [List.map_append, List.nodup_append, hv]
      refine ⟨b2.nodup, allPairs_nodup, ?_⟩
      intro x hx y hy hxy
      obtain ⟨z, hz, rfl⟩ := List.mem_map.mp hx
      obtain ⟨d, hd, rfl⟩ := List.mem_map.mp hy
      obtain ⟨p, _, rfl⟩ := b2.labels z hz
      refine (allPairs_good d hd).2.2 ?_
      rw [← hxy]
      exact label_lower p
    refine (assemble_iff m laid.source.1 laid.layout laid.fits laid.forward _).mpr ⟨ps ++ tl, vars, ws ++ (e, []) :: allPairs.map (fun _ => (L + r, [])), hlay, ⟨?_, ?_⟩, ?_, ?_, ?_, ?_, ?_⟩
    · rw [hgl]; exact b2.nodup
    · intro t; rw [hll]; exact .nil
    · rw [hgl, definitions_append, b2.defs]
      show Vars m _ (definitions (allPairs.map pairStmt)) _
      rw [pairs_defs]
      exact pairs_vars m allPairs _
    · rw [hgl]; exact hnd
    · rw [hgl]
      refine emitsAll_join (b2.emits _ _ ?_) (.cons .cnop (pairs_emits _ _ _ _ _ _))
      intro T p l i hg
      have hsz : (row l.form).size = i.size := by rw [docSize_eq, size_eq, hg.1]
      rw [hsz]
      refine hg.2 m _ fun n v hd => ?_
      have hmem : (lower n, v) ∈ globalLabels ps ++ vars ∧ dotted (lower n) = false := by
        rcases hd with ⟨d, hd, ra, hx⟩ | ⟨p, hp, rfl⟩
        · rcases List.mem_append.mp hd with hd | hd
          · exact absurd hx (emits_noAlias h2 d hd _ _)
          · obtain ⟨c, hc1, hc2⟩ := epilogue_alias hd hx
            exact ⟨List.mem_append_right _ (List.mem_map.mpr ⟨c, hc1, by rw [hc2.1, hc2.2]⟩), by rw [← hc2.1]; exact (allPairs_good c hc1).2.1⟩
        · obtain ⟨pre, post, d, h3, h4, h5⟩ := hp
          have hm : Stmt.label n ∈ body.map (·.stmt) := by
            have : d ∈ body ++ epilogue bytes.length (buildNames g) := by rw [h3]; simp
            rcases List.mem_append.mp this with h | h
            · exact List.mem_map.mpr ⟨d, h, h4⟩
            · exact absurd h4 (epilogue_noLabel d h n)
          have hm' := reread_label a1 hm
          obtain ⟨q, e1, e2⟩ := b2.labelled _ hm'
          have e3 : (p : Int) = q := by
            rcases defines_cases h2 (n := n) (v := p) (size := bytes.length) (.inr ⟨p, ⟨pre, post, d, h3, h4, h5⟩, rfl⟩) with ⟨k, k1, _⟩ | ⟨p', k1, k2⟩
            · exfalso
              refine aliases_lower _ k1 ?_
              show (lower n).take 6 = _
              rw [e1, label_lower]
            · rw [k1] at e1
              rw [k2, labelName_inj e1]
          rw [e3]
          exact ⟨List.mem_append_left _ e2, by rw [e1]; exact dotted_label q⟩
      unfold meaning
      rw [hmem.2]
      exact lookup_of_mem hnd hmem.1
    · rw [sized_length, hreach]
    · refine image_sized b2.writes (fun j hj hz => b2.covered j (Nat.zero_le _) hj hz) ?_
      intro w hw
      rcases List.mem_cons.mp hw with rfl | hw
      · rfl
      · obtain ⟨d, _, rfl⟩ := List.mem_map.mp hw
        rfl

end
end Verif
