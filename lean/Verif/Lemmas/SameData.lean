import Verif.Lemmas.Data
import Verif.Lemmas.DataIncludes
import Verif.Lemmas.Respell
import Verif.Lemmas.Located.SourceRunsBack
import Verif.Spec.AssembledFiles
/-
Programs that differ only in how their data are written.
-/
namespace Verif
open Spec

/-- The same lines, but for data that are related by `E` -/
inductive SameData (E : List UInt8 → List UInt8 → Prop) : List Stmt → List Stmt → Prop where
  | nil : SameData E [] []
  | same {s : Stmt} {ss ss'} : SameData E ss ss' → SameData E (s :: ss) (s :: ss')
  | data {d d' : List Stmt} {bs bs' ss ss'} : Data d bs → Data d' bs' → E bs bs' → SameData E ss ss' → SameData E (d ++ ss) (d' ++ ss')

theorem SameData.prefix_same {E} {ss ss' : List Stmt} (h : SameData E ss ss') : ∀ pre : List Stmt, SameData E (pre ++ ss) (pre ++ ss')
  | [] => h
  | _ :: pre => .same (h.prefix_same pre)

theorem SameData.symm {ss ss' : List Stmt} (h : SameData (fun a b => b.length = a.length) ss ss') :
    SameData (fun a b => b.length = a.length) ss' ss := by
  induction h with
  | nil => exact .nil
  | same _ ih => exact .same ih
  | data h h' he _ ih => exact .data h' h he.symm ih

theorem sameData_mem {E} {ss ss' : List Stmt} (h : SameData E ss ss') :
    (∀ n, .label n ∈ ss' → .label n ∈ ss) ∧ ∀ a k, .dir (.cnop a k) ∈ ss' → .dir (.cnop a k) ∈ ss := by
  induction h with
  | nil => exact ⟨fun _ h => h, fun _ _ h => h⟩
  | same _ ih =>
    constructor
    · intro n hn
      rcases List.mem_cons.mp hn with e | hn
      · exact e ▸ List.mem_cons_self
      · exact List.mem_cons_of_mem _ (ih.1 n hn)
    · intro a k hn
      rcases List.mem_cons.mp hn with e | hn
      · exact e ▸ List.mem_cons_self
      · exact List.mem_cons_of_mem _ (ih.2 a k hn)
  | data _ hd' _ _ ih =>
    obtain ⟨h1, h2⟩ := data_source hd'
    constructor
    · intro n hn
      rcases List.mem_append.mp hn with hn | hn
      · exact absurd hn (h1 n)
      · exact List.mem_append_right _ (ih.1 n hn)
    · intro a k hn
      rcases List.mem_append.mp hn with hn | hn
      · exact absurd hn (h2 a k)
      · exact List.mem_append_right _ (ih.2 a k hn)

theorem sameData_source {E} {ss ss' : List Stmt} (h : SameData E ss ss') (hs : Source ss) : Source ss' :=
  ⟨fun n hn hd => hs.1 n ((sameData_mem h).1 n hn) hd, fun a k hk => hs.2 a k ((sameData_mem h).2 a k hk)⟩

/-- With data of the same lengths, the program is laid out and assembled as well. -/
theorem sameData_laid {m : Mode} {E} (hE : ∀ a b, E a b → b.length = a.length) {ss ss' : List Stmt} (h : SameData E ss ss') :
    ∀ {pre ps}, Laid m (pre ++ ss) ps → (∃ ps', Laid m (pre ++ ss') ps') ∧
      ((∃ out, assemble m (pre ++ ss) = .ok out) → ∃ out, assemble m (pre ++ ss') = .ok out) := by
  induction h with
  | nil => exact fun hL => ⟨⟨_, hL⟩, id⟩
  | @same s ss ss' _ ih =>
    intro pre ps hL
    have := ih (pre := pre ++ [s]) (ps := ps)
    simp only [List.append_assoc, List.cons_append, List.nil_append] at this
    exact this hL
  | @data d d' bs bs' ss ss' hd hd' he _ ih =>
    intro pre ps hL
    rw [← List.append_assoc] at hL
    obtain ⟨⟨ps1, h1⟩, h2, -⟩ := data_swap hd hd' (hE _ _ he) hL
    obtain ⟨h3, h4⟩ := ih h1
    simp only [← List.append_assoc]
    exact ⟨h3, fun h => h4 (h2 h)⟩

/-- With the same data, it gives the same bytes. -/
theorem sameData_bytes {m : Mode} {ss ss' : List Stmt} (h : SameData Eq ss ss') :
    ∀ {pre ps}, Laid m (pre ++ ss) ps → ∀ out, assemble m (pre ++ ss) = .ok out ↔ assemble m (pre ++ ss') = .ok out := by
  induction h with
  | nil => exact fun _ _ => Iff.rfl
  | @same s ss ss' _ ih =>
    intro pre ps hL
    have := ih (pre := pre ++ [s]) (ps := ps)
    simp only [List.append_assoc, List.cons_append, List.nil_append] at this
    exact this hL
  | @data d d' bs bs' ss ss' hd hd' he _ ih =>
    intro pre ps hL out
    subst he
    rw [← List.append_assoc] at hL
    obtain ⟨⟨ps1, h1⟩, h2⟩ := data_block hd hd' hL
    rw [← List.append_assoc, ← List.append_assoc, h2 out]
    exact ih h1 out

theorem data_not_call {d : List Stmt} {bs} (h : Data d bs) : ∀ s ∈ d, ∀ name args, s ≠ .macroCall name args := by
  induction h <;> simp_all

theorem expands_data {M : MacroTable} : ∀ {d : List Stmt} (_ : ∀ s ∈ d, ∀ name args, s ≠ Stmt.macroCall name args) {ss q fresh},
    ProgramExpands M (d ++ ss) q fresh → ∃ out, q = d ++ out ∧ ProgramExpands M ss out fresh
  | [], _, _, _, _, h => ⟨_, rfl, h⟩
  | s :: d, hd, ss, q, fresh, h => by
    rw [List.cons_append] at h
    generalize e : s :: (d ++ ss) = l at h
    cases h with
    | nil => cases e
    | keep _ h =>
      cases e
      obtain ⟨out, rfl, h'⟩ := expands_data (fun s hs => hd s (List.mem_cons_of_mem _ hs)) h
      exact ⟨out, rfl, h'⟩
    | call => cases e; exact absurd rfl (hd _ List.mem_cons_self _ _)

theorem data_expands {M : MacroTable} : ∀ {d : List Stmt} (_ : ∀ s ∈ d, ∀ name args, s ≠ Stmt.macroCall name args) {ss out fresh},
    ProgramExpands M ss out fresh → ProgramExpands M (d ++ ss) (d ++ out) fresh
  | [], _, _, _, _, h => h
  | _ :: _, hd, _, _, _, h => .keep (hd _ List.mem_cons_self) (data_expands (fun s hs => hd s (List.mem_cons_of_mem _ hs)) h)

/-- Macro calls are expanded in the same way. -/
theorem sameData_expands {M : MacroTable} {E} {ss ss' : List Stmt} (h : SameData E ss ss') :
    ∀ {q fresh}, ProgramExpands M ss q fresh → ∃ q', ProgramExpands M ss' q' fresh ∧ SameData E q q' := by
  induction h with
  | nil => intro q fresh h; cases h; exact ⟨[], .nil, .nil⟩
  | same _ ih =>
    intro q fresh h
    cases h with
    | keep hk h =>
      obtain ⟨q', h1, h2⟩ := ih h
      exact ⟨_, .keep hk h1, .same h2⟩
    | call a b c d h =>
      obtain ⟨q', h1, h2⟩ := ih h
      exact ⟨_, .call a b c d h1, h2.prefix_same _⟩
  | data hd hd' he _ ih =>
    intro q fresh h
    obtain ⟨out, rfl, hx⟩ := expands_data (data_not_call hd) h
    obtain ⟨q', h1, h2⟩ := ih hx
    exact ⟨_, data_expands (data_not_call hd') h1, .data hd hd' he h2⟩

/-! ### Includes of data -/

theorem byte_unique {a b : UInt8} (h : ∀ k < 8, a.toNat.testBit k = b.toNat.testBit k) : a = b := by
  apply UInt8.toNat_inj.mp
  apply Nat.eq_of_testBit_eq
  intro k
  by_cases hk : k < 8
  · exact h k hk
  · have h1 := a.toNat_lt
    have h2 := b.toNat_lt
    have h3 : 2 ^ 8 ≤ 2 ^ k := Nat.pow_le_pow_right (by omega) (by omega)
    rw [Nat.testBit_lt_two_pow (by omega), Nat.testBit_lt_two_pow (by omega)]

theorem packed_unique {bits : List Bool} {pad bs bs'} (h : PackedBits bits pad bs) (h' : PackedBits bits pad bs') : bs = bs' := by
  have hl : bs.length = bs'.length := by rw [h.length, h'.length]
  refine List.ext_getElem hl fun i h1 h2 => byte_unique fun k hk => ?_
  have e1 := h.bit (8 * i + (7 - k)) bs[i] (by rw [show (8 * i + (7 - k)) / 8 = i by omega]; exact List.getElem?_eq_getElem h1)
  have e2 := h'.bit (8 * i + (7 - k)) bs'[i] (by rw [show (8 * i + (7 - k)) / 8 = i by omega]; exact List.getElem?_eq_getElem h2)
  rw [show 7 - (8 * i + (7 - k)) % 8 = k by omega] at e1 e2
  rw [e1, e2]

theorem rows_unique {α : Type} {R : α → List UInt8 → Prop} (hR : ∀ a b b', R a b → R a b' → b = b') {rows : List α}
    {bs bs' : List (List UInt8)} (hl : bs.length = bs'.length) (hle : bs.length ≤ rows.length)
    (h : ∀ (y : Nat) row b, rows[y]? = some row → bs[y]? = some b → R row b)
    (h' : ∀ (y : Nat) row b, rows[y]? = some row → bs'[y]? = some b → R row b) : bs = bs' := by
  refine List.ext_getElem hl fun i h1 h2 => ?_
  have hr : i < rows.length := by omega
  exact hR _ _ _ (h i _ _ (List.getElem?_eq_getElem hr) (List.getElem?_eq_getElem h1))
    (h' i _ _ (List.getElem?_eq_getElem hr) (List.getElem?_eq_getElem h2))

theorem spriteFrame_unique {dark : Color → Bool} {masked header f a b c a' b' c'} (h : SpriteFrame dark masked header f a b c)
    (h' : SpriteFrame dark masked header f a' b' c') : a = a' ∧ b = b' ∧ c = c' := by
  refine ⟨h.size.trans h'.size.symm, ?_, ?_⟩
  · refine rows_unique (R := fun (row : List Color) bs => PackedBits (row.map fun c => decide (c.alpha.toNat ≤ 127)) true bs)
      (fun _ _ _ h h' => packed_unique h h') (h.maskLength.trans h'.maskLength.symm) ?_ h.mask h'.mask
    rw [h.maskLength]
    split <;> omega
  · exact rows_unique (R := fun (row : List Color) bs => PackedBits (row.map dark) false bs) (fun _ _ _ h h' => packed_unique h h')
      (h.imageLength.trans h'.imageLength.symm) (by rw [h.imageLength]; exact Nat.le_refl _) h.image h'.image

theorem framesBytes_unique {dark : Color → Bool} {masked header} {l : List Frame} {bs} (h : FramesBytes dark masked header l bs) :
    ∀ {bs'}, FramesBytes dark masked header l bs' → bs = bs' := by
  induction h with
  | nil => intro _ h; cases h; rfl
  | cons h _ ih =>
    intro _ h'
    cases h' with
    | cons k h' =>
      obtain ⟨rfl, rfl, rfl⟩ := spriteFrame_unique h k
      rw [ih h']

theorem eyecatchPath_unique {fs : FS} {dir file : Path} {e a b} (h : EyecatchPath fs dir file e a) (h' : EyecatchPath fs dir file e b) :
    a = b := by
  cases h with
  | none => cases h'; rfl
  | @some t q h =>
    generalize e : Option.some (ByteValue.str (utf8 t)) = s at h'
    cases h' with
    | none => cases e
    | @some t' q' h' =>
      have : utf8 t = utf8 t' := by injection e with e; injection e
      cases Located.utf8_text_unique this
      rw [resolves_unique h h']

theorem eyecatchFrame_unique {load : Text → Res Image} {p a b} (h : EyecatchFrame load p a) (h' : EyecatchFrame load p b) : a = b := by
  cases h with
  | none => cases h'; rfl
  | some h1 h2 =>
    cases h' with
    | some k1 k2 =>
      rw [h1] at k1
      cases k1
      rw [h2] at k2
      cases k2
      rfl

theorem colours_mono {a b : Nat} (hab : a ≤ b) {cs} (h : ColoursAtMost a cs) : ColoursAtMost b cs := by
  obtain ⟨l, h1, h2⟩ := h
  exact ⟨l, by omega, h2⟩

theorem eyecatch_length {bs bs' : List UInt8} {off e t t'} (h : Eyecatch bs off e t) (h' : Eyecatch bs' off e t') : bs'.length = bs.length := by
  cases h <;> cases h' <;> first
    | omega
    | (exfalso; apply_assumption; apply colours_mono (a := 16) (b := 256) (by omega); assumption)
    | contradiction

/-- An include stands for as many bytes, and unless it is an icon for the same bytes. -/
theorem includedData_unique {m : Mode} {fs : FS} {dir : Path} {load : Text → Res Image} {dark file t name bs bs'}
    (h : IncludedData m fs dir load dark file t name bs) (h' : IncludedData m fs dir load dark file t name bs') :
    bs'.length = bs.length ∧ ((∀ speed eye, t ≠ .icon speed eye) → bs = bs') := by
  cases h with
  | bytes h1 h2 =>
    cases h' with
    | bytes k1 k2 =>
      cases resolves_unique h1 k1
      rw [h2] at k2
      cases k2
      exact ⟨rfl, fun _ => rfl⟩
  | sprite h1 h2 _ h4 =>
    cases h' with
    | sprite k1 k2 _ k4 =>
      cases resolves_unique h1 k1
      rw [h2] at k2
      cases k2
      cases framesBytes_unique h4 k4
      exact ⟨rfl, fun _ => rfl⟩
  | icon _ h2 h3 h4 _ _ h7 _ h9 =>
    cases h' with
    | icon _ k2 k3 k4 _ _ k7 _ k9 =>
      refine ⟨?_, fun hn => absurd rfl (hn _ _)⟩
      cases resolves_unique h3 k3
      rw [h4] at k4
      cases k4
      cases eyecatchPath_unique h2 k2
      cases eyecatchFrame_unique h7 k7
      obtain ⟨_, -, h⟩ := h9.eyecatch
      obtain ⟨_, -, h'⟩ := k9.eyecatch
      exact eyecatch_length h h'

theorem afterIncludes_same {m : Mode} {fs : FS} {dir : Path} {load : Text → Res Image} {dark file} {ss out}
    (h : AfterIncludes m fs dir load dark file ss out) : ∀ {out'}, AfterIncludes m fs dir load dark file ss out' →
      SameData (fun a b => b.length = a.length) out out' ∧
      ((∀ speed eye name, .dir (.incl (.icon speed eye) name) ∉ ss) → SameData Eq out out') := by
  induction h with
  | nil => intro _ h'; cases h'; exact ⟨.nil, fun _ => .nil⟩
  | other hn _ ih =>
    intro _ h'
    cases h' with
    | other _ h' =>
      exact ⟨.same (ih h').1, fun hi => .same ((ih h').2 fun a b c hm => hi a b c (List.mem_cons_of_mem _ hm))⟩
    | data => exact absurd rfl (hn _ _)
  | @data t name bs lines ss out h1 h2 _ ih =>
    intro _ h'
    cases h' with
    | other hn => exact absurd rfl (hn _ _)
    | data k1 k2 h' =>
      obtain ⟨hl, he⟩ := includedData_unique h1 k1
      refine ⟨.data h2 k2 hl (ih h').1, fun hi => .data h2 k2 (he ?_) ((ih h').2 fun a b c hm => hi a b c (List.mem_cons_of_mem _ hm))⟩
      intro speed eye e
      subst e
      exact hi _ _ _ List.mem_cons_self

end Verif
