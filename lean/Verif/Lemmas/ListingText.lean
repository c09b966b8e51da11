import Verif.Lemmas.Reassemble
/-
The text of a listing: every line can be read back.
-/
namespace Verif
open Verif.Spec

/-- ASCII on one line. -/
def OneLine (t : Text) : Prop := ∀ c ∈ t, c.toNat < 128 ∧ c ≠ '\n'

theorem OneLine.append {a b : Text} (h : OneLine a) (h' : OneLine b) : OneLine (a ++ b) := by
  intro c hc
  exact (List.mem_append.mp hc).elim (h c) (h' c)

theorem oneLine_digits {t : Text} (h : ∀ c ∈ t, c ∈ "0123456789ABCDEF".toList) : OneLine t := by
  have : ∀ c ∈ "0123456789ABCDEF".toList, c.toNat < 128 ∧ c ≠ '\n' := by decide
  exact fun c hc => this c (h c hc)

theorem oneLine_join {sep : Text} (hs : OneLine sep) {ts : List Text} (h : ∀ t ∈ ts, OneLine t) : OneLine (joinWith sep ts) := by
  induction ts with
  | nil => intro c hc; cases hc
  | cons t ts ih =>
    have h1 := h t List.mem_cons_self
    have h2 := ih fun x hx => h x (List.mem_cons_of_mem _ hx)
    cases ts with
    | nil => exact h1
    | cons u ts => exact (h1.append hs).append h2

theorem oneLine_positions (ps : List Nat) : OneLine (positionList ps) := by
  unfold positionList
  refine oneLine_join (by unfold OneLine; decide) ?_
  intro t ht
  obtain ⟨p, _, rfl⟩ := List.mem_map.mp ht
  exact oneLine_digits zeroPad_chars

theorem oneLine_byte (b : UInt8) : OneLine (byteText b) := by
  unfold byteText
  split
  · rename_i h
    intro c hc
    rw [List.mem_singleton] at hc
    subst hc
    have h1 : 32 ≤ b.toNat := UInt8.le_iff_toNat_le.mp h.1
    have h2 : b.toNat ≤ 126 := UInt8.le_iff_toNat_le.mp h.2
    generalize b.toNat = n at h1 h2
    have : ∀ n < 127, 32 ≤ n → (Char.ofNat n).toNat < 128 ∧ Char.ofNat n ≠ '\n' := by decide
    exact this n (by omega) h1
  · split
    · unfold OneLine; decide
    · split
      · unfold OneLine; decide
      · split <;> (unfold OneLine; decide)

/-- The line can be printed and read back. -/
def CleanLine (d : DStmt) : Prop := CleanStmt d.stmt ∧ (∀ c, d.comment = some c → OneLine c) ∧ AsciiStmt d.stmt

theorem clean_note {t : Text} (h : OneLine t) : CleanLine (.note t) :=
  ⟨.comment (u := t) (fun hn => (h _ hn).2 rfl) (.inl rfl), (fun c hc => by cases hc), fun c hc => (h c hc).1⟩

theorem clean_heading {t : Text} (h : OneLine t) : CleanLine (.note ('\n' :: t)) :=
  ⟨.comment (u := t) (fun hn => (h _ hn).2 rfl) (.inr rfl), (fun c hc => by cases hc), fun c hc => by
    rcases List.mem_cons.mp hc with rfl | hc
    · decide
    · exact (h c hc).1⟩

theorem clean_org {p : Nat} (h : p < 2147483648) : CleanLine (.org p) := ⟨.org h, (fun c hc => by cases hc), trivial⟩

theorem clean_num {v : Int} (h : 0 ≤ v) (h' : v < 2147483648) : Clean (.num v) := ⟨⟨h, by omega⟩, h⟩

theorem ident_label (p : Nat) : Ident (labelName p) := by
  refine ⟨'l', "abel_".toList ++ zeroPad 4 (digitsOf 16 p), rfl, .inl rfl, ?_⟩
  intro d hd
  rcases List.mem_append.mp hd with h | h
  · have : ∀ d ∈ "abel_".toList, d.isAlpha = true ∨ d = '_' := by decide
    exact (this d h).elim (fun h => .inl (.inl h)) (fun h => .inl (.inr (.inl h)))
  · have : ∀ d ∈ "0123456789ABCDEF".toList, d.isAlpha = true ∨ d.isDigit = true := by decide
    exact (this d (zeroPad_chars d h)).elim (fun h => .inl (.inl h)) (fun h => .inr (.inl h))

theorem clean_label (p : Nat) : CleanLine (.label (labelName p)) := by
  refine ⟨.label (ident_label p) ?_, (fun c hc => by cases hc), trivial⟩
  intro h
  have := label_lower p
  rw [h] at this
  cases this

/-- A check for identifiers. -/
def identLike : Text → Bool
  | [] => false
  | c :: cs => c.isAlpha && cs.all fun d => d.isAlpha || d == '_' || d.isDigit

theorem ident_like {t : Text} (h : identLike t = true) : Ident t := by
  cases t with
  | nil => cases h
  | cons c cs =>
    simp only [identLike, Bool.and_eq_true, List.all_eq_true, Bool.or_eq_true, beq_iff_eq] at h
    refine ⟨c, cs, rfl, .inl h.1, fun d hd => ?_⟩
    rcases h.2 d hd with (h | h) | h
    · exact .inl (.inl h)
    · exact .inl (.inr (.inl h))
    · exact .inr (.inl h)

theorem aliases_ident : ∀ p ∈ pswBits ++ aliases, identLike p.2 = true ∧ lower p.2 ≠ "equ".toList ∧
    lower p.2 ∉ directives.map String.toList := by decide +kernel

theorem label_not_equ (p : Nat) : lower (labelName p) ≠ "equ".toList := by
  intro h
  have := label_lower p
  rw [h] at this
  cases this

/-- The numbers among the operands. -/
theorem op_numbers {names : DNames} {next : Nat} {label : Option Nat} (hlab : ∀ a, label = some a → labelExpr names a = .name (labelName a)) :
    ∀ (ks : List Kind) (prev : Int) (vs : List Int) (os : List (Sum Expr IM)),
    liftedOps names next label prev ks vs os → holdsAll ks vs → ∀ e, .inl e ∈ os →
    (∃ n, e = .name n) ∨ ∃ v : Int, e = .num v ∧ 0 ≤ v ∧ v < 65536 := by
  intro ks
  induction ks with
  | nil =>
    intro prev vs os ho _ n hn
    cases vs <;> cases os <;> first | exact ho.elim | cases hn
  | cons k ks ih =>
    intro prev vs os ho hk e he
    cases vs with
    | nil => exact hk.elim
    | cons v vs =>
      cases os with
      | nil => exact ho.elim
      | cons o os =>
        rcases List.mem_cons.mp he with he | he
        · have ho := ho.1
          have hk := hk.1
          have lab : ∀ a, o = .inl (labelExpr names a) → label = some a → ∃ n, e = .name n := by
            intro a h1 h2
            rw [h1, hlab a h2] at he
            cases he
            exact ⟨_, rfl⟩
          cases k with
          | i8 => simp only [liftedOp] at ho; rw [ho] at he; cases he; exact .inr ⟨v, rfl, hk.1, by have := hk.2; omega⟩
          | d9 =>
            simp only [liftedOp] at ho
            simp only [Kind.holds] at hk
            rw [ho] at he
            cases he
            unfold memExpr
            split
            · exact .inl ⟨_, rfl⟩
            · exact .inr ⟨v, rfl, by omega, by omega⟩
          | ri => obtain ⟨m, rfl, _⟩ := ho; cases he
          | b3 =>
            simp only [liftedOp] at ho
            simp only [Kind.holds] at hk
            rw [ho] at he
            cases he
            unfold bitsExpr
            split
            · split
              · exact .inl ⟨_, rfl⟩
              · exact .inr ⟨v, rfl, by omega, by omega⟩
            · exact .inr ⟨v, rfl, by omega, by omega⟩
          | r8 => exact .inl (lab _ ho.1 ho.2)
          | r16 => exact .inl (lab _ ho.1 ho.2)
          | a12 => exact .inl (lab _ ho.1 ho.2)
          | a16 =>
            rcases ho with ho | ho
            · exact .inl (lab _ ho.1 ho.2)
            · rw [ho] at he
              cases he
              simp only [Kind.holds] at hk
              exact .inr ⟨_, rfl, by unfold asI32 wrap32 toUsize; omega, by unfold asI32 wrap32 toUsize; omega⟩
        · exact ih v vs os ho.2 hk.2 e he

section
variable {flag : Bool} {entries : List Nat} {bytes : List UInt8} {g : Graph} {body : List DStmt}

theorem clean_entry {pos : Nat} (hp : pos < 2147483648) : ∀ d ∈ entryPart entries pos, CleanLine d := by
  intro d hd
  unfold entryPart at hd
  split at hd
  · simp only [List.mem_cons, List.not_mem_nil, or_false] at hd
    rcases hd with rfl | rfl | rfl
    · exact clean_note (by unfold OneLine; decide)
    · exact clean_note (by unfold OneLine; decide)
    · exact clean_org hp
  · cases hd

theorem clean_after {w : Nat → Bool} {pos : Nat} (hp : pos < 2147483648) : ∀ d ∈ afterData entries g w pos, CleanLine d := by
  intro d hd
  unfold afterData at hd
  split at hd
  · rcases List.mem_cons.mp hd with rfl | hd
    · exact clean_note (by unfold OneLine; decide)
    · split at hd
      · simp only [List.mem_cons, List.not_mem_nil, or_false] at hd
        subst hd
        exact clean_org hp
      · cases hd
  · cases hd

theorem clean_before {w : Nat → Bool} {pos : Nat} (hp : pos < 2147483648) : ∀ d ∈ beforeData g w pos, CleanLine d := by
  intro d hd
  unfold beforeData at hd
  rcases List.mem_append.mp hd with hd | hd
  · split at hd
    · simp only [List.mem_cons, List.not_mem_nil, or_false] at hd
      subst hd
      exact clean_note (by unfold OneLine; decide)
    · cases hd
  · split at hd
    · simp only [List.mem_cons, List.not_mem_nil, or_false] at hd
      rcases hd with rfl | rfl
      · exact clean_note (by unfold OneLine; decide)
      · exact clean_org hp
    · cases hd

theorem clean_labelPart {pos : Nat} : ∀ d ∈ labelPart (buildNames g) pos, CleanLine d := by
  intro d hd
  unfold labelPart at hd
  split at hd
  · rename_i n hx
    have := disLabels_lookup hx
    subst this
    simp only [List.mem_cons, List.not_mem_nil, or_false] at hd
    subst hd
    exact clean_label pos
  · cases hd

theorem clean_overlap {pos : Nat} : ∀ d ∈ overlapPart g pos, CleanLine d := by
  intro d hd
  unfold overlapPart at hd
  split at hd
  · cases hd
  · simp only [List.mem_cons, List.not_mem_nil, or_false] at hd
    subst hd
    exact clean_note (OneLine.append (by unfold OneLine; decide) (oneLine_positions _))

theorem clean_instr (hs : Sound bytes g) (h : Emits flag entries bytes g (buildNames g) 0 (fun _ => false) body) {p : Nat} {i : Instr Int Nat}
    (hi : g.get p = some i) {l : Instr Expr IM} (hl : liftInstr p g (buildNames g) i = .ok l) : CleanStmt (.instr l) := by
  have hr := decode_inRange (hs p i hi).2
  obtain ⟨l', a1, a2, a3⟩ := lift_spec p g (buildNames g) i hr
  rw [hl] at a1
  cases a1
  refine .instr fun e he => ?_
  rcases op_numbers (fun a ha => labelExpr_of hi ha) _ _ _ _ a3 hr e he with ⟨n, rfl⟩ | ⟨v, rfl, h1, h2⟩
  · have hn : Ident n ∧ lower n ≠ "equ".toList := by
      have lab : ∀ a, Ident (labelName a) ∧ lower (labelName a) ≠ "equ".toList := fun a => ⟨ident_label a, label_not_equ a⟩
      rcases op_names (body := body) (size := bytes.length) rfl _ _ _ _ a3 hr n he with ⟨v, hx⟩ | ⟨a, ha, rfl⟩
      · rcases defines_cases h hx with ⟨k, h1, _⟩ | ⟨q, rfl, _⟩
        · have := aliases_ident _ h1
          exact ⟨ident_like this.1, this.2.1⟩
        · exact lab q
      · exact lab a
    refine ⟨⟨hn.1, trivial⟩, rfl, fun m hm => ?_⟩
    simp only [namesIn, List.mem_singleton] at hm
    subst hm
    exact hn.2
  · exact ⟨clean_num h1 (by omega), rfl, fun m hm => by simp [namesIn, Expr.num] at hm⟩

theorem clean_bytes {pos : Nat} {bs : List UInt8} (h : bs ≠ []) : CleanLine (.bytes pos bs) := by
  refine ⟨.byte (by simpa using h) ?_, ?_, ?_⟩
  · intro v hv
    obtain ⟨b, _, rfl⟩ := List.mem_map.mp hv
    have := b.toNat_lt
    exact .expr (clean_num (by omega) (by omega))
  · intro c hc
    simp only [DStmt.bytes] at hc
    split at hc
    · cases hc
      intro x hx
      obtain ⟨b, _, hb⟩ := List.mem_flatMap.mp hx
      exact oneLine_byte b x hb
    · cases hc
  · intro v hv
    obtain ⟨b, _, rfl⟩ := List.mem_map.mp hv
    trivial

theorem emits_clean (hs : Sound bytes g) (hlen : bytes.length < 2147483648)
    (h0 : Emits flag entries bytes g (buildNames g) 0 (fun _ => false) body) {pos : Nat} {w : Nat → Bool} {out : List DStmt}
    (h : Emits flag entries bytes g (buildNames g) pos w out) : ∀ d ∈ out, CleanLine d := by
  induction h with
  | done => intro d hd; cases hd
  | instr hl hi h1 _ ih =>
    intro d hd
    simp only [List.append_assoc, List.mem_append, List.mem_cons] at hd
    rcases hd with hd | hd | hd | hd | rfl | hd
    · exact clean_entry (by omega) d hd
    · exact clean_after (by omega) d hd
    · exact clean_labelPart d hd
    · exact clean_overlap d hd
    · refine ⟨clean_instr hs h0 hi h1, fun c hc => ?_, trivial⟩
      simp only [arrivedComment] at hc
      split at hc
      · cases hc
        exact OneLine.append (by unfold OneLine; decide) (oneLine_positions _)
      · cases hc
    · exact ih d hd
  | bytes hl hi hm hz _ ih =>
    intro d hd
    simp only [List.append_assoc, List.mem_append, List.mem_cons] at hd
    rcases hd with hd | hd | rfl | hd
    · exact clean_entry (by omega) d hd
    · exact clean_before (by omega) d hd
    · refine clean_bytes ?_
      intro hx
      have := (chunk_spec hl hm).1
      rw [hx] at this
      simp at this
    · exact ih d hd
  | zeros hl hi hm hz _ ih =>
    intro d hd
    rcases List.mem_append.mp hd with hd | hd
    · exact clean_entry (by omega) d hd
    · exact ih d hd
  | inside hl hi hm _ ih =>
    intro d hd
    rcases List.mem_append.mp hd with hd | hd
    · exact clean_entry (by omega) d hd
    · exact ih d hd

theorem clean_pair {p : Nat × Text} (hp : p ∈ pswBits ++ aliases) (h : p.1 < 0x200) : CleanLine (.alias p.2 p.1) := by
  obtain ⟨h1, _, h3⟩ := aliases_ident p hp
  refine ⟨.alias (ident_like h1) h3 (clean_num ?_ ?_), (fun c hc => by cases hc), trivial⟩
  · unfold asI32 wrap32; omega
  · unfold asI32 wrap32; omega

theorem clean_epilogue_of {size : Nat} {ls A B : List (Nat × Text)} (hA : ∀ p ∈ sortedPairs A ++ sortedPairs B, CleanLine (.alias p.2 p.1)) :
    ∀ d ∈ epilogue size ⟨ls, A, B⟩, CleanLine d := by
  intro d hd
  simp only [epilogue, sortedNames_eq, List.mem_append, List.mem_cons, List.not_mem_nil, or_false, List.mem_map] at hd
  rcases hd with ((((rfl | rfl | rfl) | ⟨c, hc, rfl⟩) | rfl) | ⟨c, hc, rfl⟩)
  · exact clean_heading (t := "Pad size of binary".toList) (by unfold OneLine; decide)
  · refine ⟨.cnop (clean_num ?_ ?_) (clean_num ?_ ?_), (fun c hc => by cases hc), trivial⟩ <;> (unfold asI32 wrap32; omega)
  · exact clean_heading (t := "PSW bits".toList) (by unfold OneLine; decide)
  · exact hA c (List.mem_append_left _ hc)
  · exact clean_heading (t := "Special Function Registers".toList) (by unfold OneLine; decide)
  · exact hA c (List.mem_append_right _ hc)

theorem clean_epilogue {size : Nat} : ∀ d ∈ epilogue size (buildNames g), CleanLine d := by
  refine clean_epilogue_of (ls := disLabels g) (A := pswBits) (B := aliases) fun p hp => ?_
  rw [← allPairs_eq] at hp
  exact clean_pair (allPairs_mem hp) (allPairs_good p hp).1

/-- What follows a line. -/
def tailOf (d : DStmt) : Text :=
  match d.comment with
  | some c => " ; ".toList ++ c
  | none => []

theorem printListing_eq {ds : List DStmt} : ∀ {ts : List Text}, printEach (ds.map (·.stmt)) = .ok ts →
    printListing false ds = .ok (List.flatten (List.zipWith (fun t c => t ++ c ++ ['\n']) ts (ds.map tailOf))) := by
  induction ds with
  | nil => intro ts h; cases h; rfl
  | cons d ds ih =>
    intro ts h
    simp only [List.map_cons, printEach] at h
    obtain ⟨t, h1, h2⟩ := Res.bind_eq_ok.mp h
    obtain ⟨us, h3, h4⟩ := Res.bind_eq_ok.mp h2
    cases h4
    simp only [printListing, printLine, h1, ih h3, Res.ok_bind, List.map_cons, List.zipWith_cons_cons, List.flatten_cons, tailOf]
    rfl

/-- The listing is printed, and read as its statements. -/
theorem listing_reads {out : List DStmt} (h : ∀ d ∈ out, CleanLine d) : ∃ t K sss, printListing false out = .ok t ∧ Ascii t ∧
    ReadsAs t K ∧ EachLine LineSyntax K sss ∧ Reread (out.map (·.stmt)) sss.flatten := by
  have hl : ∀ l ∈ out.map fun d => (d.stmt, tailOf d), CleanStmt l.1 ∧ LineTail l.2 ∧ Ascii l.2 ∧ AsciiStmt l.1 := by
    intro l hl
    obtain ⟨d, hd, rfl⟩ := List.mem_map.mp hl
    obtain ⟨h1, h2, h3⟩ := h d hd
    refine ⟨h1, ?_⟩
    unfold tailOf
    cases hc : d.comment with
    | none => exact ⟨.inl rfl, (fun c hc => by cases hc), h3⟩
    | some c =>
      have := h2 c hc
      refine ⟨.inr ⟨c, rfl, fun hn => (this _ hn).2 rfl⟩, Ascii.append ?_ fun x hx => (this x hx).1, h3⟩
      unfold Ascii
      decide
  obtain ⟨ts, K, sss, a1, a2, a3, a4, a5⟩ := lines_read fun l h => ⟨(hl l h).1, (hl l h).2.1⟩
  rw [List.map_map] at a1 a3 a5
  refine ⟨_, K, sss, printListing_eq a1, ?_, a3, a4, a5⟩
  intro c hc
  obtain ⟨x, hx, hcx⟩ := List.mem_flatten.mp hc
  obtain ⟨t, u, h1, h2, rfl⟩ : ∃ t u, t ∈ ts ∧ u ∈ out.map tailOf ∧ x = t ++ u ++ ['\n'] := by
    clear a1 a2 a3 a4 a5 hc
    generalize out.map tailOf = us at hx
    induction ts generalizing us with
    | nil => cases hx
    | cons t ts ih =>
      cases us with
      | nil => cases hx
      | cons u us =>
        rw [List.zipWith_cons_cons] at hx
        rcases List.mem_cons.mp hx with rfl | hx
        · exact ⟨t, u, List.mem_cons_self, List.mem_cons_self, rfl⟩
        · obtain ⟨t', u', b1, b2, b3⟩ := ih us hx
          exact ⟨t', u', List.mem_cons_of_mem _ b1, List.mem_cons_of_mem _ b2, b3⟩
  obtain ⟨d, hd, rfl⟩ := List.mem_map.mp h2
  rcases List.mem_append.mp hcx with hcx | hcx
  · rcases List.mem_append.mp hcx with hcx | hcx
    · exact a2 (fun l h => (hl l h).2.2.2) t h1 c hcx
    · exact (hl _ (List.mem_map.mpr ⟨d, hd, rfl⟩)).2.2.1 c hcx
  · rw [List.mem_singleton.mp hcx]; decide

end
end Verif
