import Verif.Lemmas.Located.Messages
import Verif.Lemmas.Located.SourceRuns
import Verif.Lemmas.LiftEval
/-
Helper lemmas: what can be told from a message.
-/
namespace Verif.Located
open Verif.Spec Verif.Spec.Places Verif.Spec.Messages

/-! ### Expanding -/

theorem expand_err {m : Mode} {seg : Seg} {order : List Color → List Color} {load : Text → Verif.Res Verif.Image} {uuid : Nat → Text}
    {fs : FS} {fuel macroFuel : Nat} {name : Text} {sf sf' : SourceFiles} {e : Error}
    (h : expandFile m seg order load uuid fs fuel macroFuel name sf = (sf', .err e)) :
    assembleFile m seg order load uuid fs fuel macroFuel name sf = (sf', .err e) := by
  unfold expandFile at h
  unfold assembleFile
  generalize hx : readStatements m seg order load fs fuel name = x at h ⊢
  generalize hy : x sf = y
  obtain ⟨sf1, r⟩ := y
  cases r with
  | ok p =>
    rw [Run.bind_ok hy] at h ⊢
    have h1 : sf1 = sf' := congrArg Prod.fst h
    replace h := congrArg Prod.snd h
    refine Prod.ext h1 ?_
    change (expandMacros uuid macroFuel p >>= _) = _ at h
    show (expandMacros uuid macroFuel p >>= _) = _
    generalize expandMacros uuid macroFuel p = z at h ⊢
    cases z with
    | ok q =>
      exfalso
      change (match printStatements (q.stmts.map Stmt.erase) with
        | .ok text => Res.ok (text ++ "\n".toList)
        | .err _ => .panic
        | .panic => .panic
        | .loop => .loop) = .err e at h
      split at h <;> cases h
    | err e => exact congrArg Res.err (Res.err.inj h)
    | panic => cases h
    | loop => cases h
  | err e => rw [Run.bind_err hy] at h ⊢; cases h; rfl
  | panic => rw [Run.bind_panic hy] at h; cases h
  | loop => rw [Run.bind_loop hy] at h; cases h

theorem erase_expandFile (m : Mode) (seg : Seg) (order : List Color → List Color) (load : Text → Verif.Res Verif.Image)
    (uuid : Nat → Text) (fs : FS) (fuel macroFuel : Nat) (name : Text) (sf : SourceFiles) :
    (expandFile m seg order load uuid fs fuel macroFuel name sf).2.erase (fun a => a) =
      Verif.expandFile m seg order load uuid fs fuel macroFuel sf name := by
  have h := erase_readStatements m seg order load fs fuel name sf
  unfold expandFile Verif.expandFile
  rw [← h, Run.bind_def]
  unfold Run.bind
  obtain ⟨sf', r⟩ := readStatements m seg order load fs fuel name sf
  cases r with
  | ok p =>
    simp only [Res.erase_ok, Verif.Res.ok_bind]
    refine Res.erase_bind (erase_expandMacros uuid macroFuel p) fun p => ?_
    show _ = (printStatements (p.stmts.map Stmt.erase) >>= _)
    cases hp : printStatements (p.stmts.map Stmt.erase) with
    | err e => exact absurd hp (print_no_err _ _)
    | _ => rfl
  | _ => rfl

/-! ### Parts of texts -/

theorem cut_at {p : Char → Bool} : ∀ {a a' r r' : Text} {c c' : Char}, (∀ x ∈ a, p x = true) → (∀ x ∈ a', p x = true) →
    p c = false → p c' = false → a ++ c :: r = a' ++ c' :: r' → a = a' ∧ c = c' ∧ r = r'
  | [], [], _, _, _, _, _, _, _, _, h => by
    injection h with h1 h2
    exact ⟨rfl, h1, h2⟩
  | [], x :: a', _, _, _, _, _, h2, h3, _, h => by
    injection h with h4 _
    rw [h4, h2 x List.mem_cons_self] at h3
    cases h3
  | x :: a, [], _, _, _, _, h1, _, _, h3, h => by
    injection h with h4 _
    rw [← h4, h1 x List.mem_cons_self] at h3
    cases h3
  | x :: a, y :: a', _, _, _, _, h1, h2, h3, h4, h => by
    injection h with h5 h6
    obtain ⟨h7, h8⟩ := cut_at (fun z hz => h1 z (List.mem_cons_of_mem _ hz)) (fun z hz => h2 z (List.mem_cons_of_mem _ hz)) h3 h4 h6
    exact ⟨by rw [h5, h7], h8⟩

theorem cut_back {p : Char → Bool} {a a' d d' : Text} {c c' : Char} (h1 : ∀ x ∈ d, p x = true) (h2 : ∀ x ∈ d', p x = true)
    (h3 : p c = false) (h4 : p c' = false) (h : a ++ c :: d = a' ++ c' :: d') : a = a' ∧ c = c' ∧ d = d' := by
  have h5 : d.reverse ++ c :: a.reverse = d'.reverse ++ c' :: a'.reverse := by
    have := congrArg List.reverse h
    simpa using this
  obtain ⟨h6, h7, h8⟩ := cut_at (fun x hx => h1 x (List.mem_reverse.mp hx)) (fun x hx => h2 x (List.mem_reverse.mp hx)) h3 h4 h5
  exact ⟨List.reverse_inj.mp h8, h7, List.reverse_inj.mp h6⟩

/-- The characters of numbers -/
def numeric (c : Char) : Bool := "-0123456789ABCDEF".toList.contains c

/-- A number, or some of its digits -/
def Numeric (t : Text) : Prop := ∀ c ∈ t, numeric c = true

theorem digits_numeric (base n : Nat) : Numeric (digitsOf base n) := by
  intro c hc
  have := digitsLoop_chars c hc
  unfold numeric
  rw [List.contains_iff_mem]
  exact List.mem_cons_of_mem '-' this

theorem number_numeric (n : Nat) : Numeric (number n) := by
  rw [← digits_number]; exact digits_numeric _ _

theorem signed_numeric (v : Int) : Numeric (signed v) := by
  rw [← decimal_signed]
  unfold decimalText
  split
  · intro c hc
    rcases List.mem_cons.mp hc with rfl | hc
    · decide
    · exact digits_numeric _ _ c hc
  · exact digits_numeric _ _

theorem hex_numeric (n : Nat) : Numeric (hex n) := by
  rw [← digits_hex]; exact digits_numeric _ _

theorem pad_numeric {t : Text} (h : Numeric t) (k : Nat) : Numeric (t.leftpad k '0') := by
  intro c hc
  rcases List.mem_append.mp hc with hc | hc
  · rw [List.eq_of_mem_replicate hc]; decide
  · exact h c hc

theorem digits_inj {base width a b : Nat} (hb : 2 ≤ base) (hb' : base ≤ 16)
    (h : zeroPad width (digitsOf base a) = zeroPad width (digitsOf base b)) : a = b := by
  have ha := (padded_numeral (width := width) (n := a) hb hb').1
  have hb := (padded_numeral (width := width) (n := b) hb hb').1
  rw [h] at ha
  exact digits_unique ha hb

theorem zeroPad_0 (t : Text) : zeroPad 0 t = t := by
  unfold zeroPad
  rw [Nat.zero_sub]
  rfl

theorem decimals_inj {a b : Nat} (h : digitsOf 10 a = digitsOf 10 b) : a = b :=
  digits_inj (base := 10) (width := 0) (by decide) (by decide) (by rw [h])

theorem number_inj {a b : Nat} (h : number a = number b) : a = b := by
  rw [← digits_number, ← digits_number] at h
  exact decimals_inj h

theorem hex_inj {a b : Nat} (h : hex a = hex b) : a = b := by
  rw [← digits_hex, ← digits_hex] at h
  exact digits_inj (base := 16) (width := 0) (by decide) (by decide) (by rw [h])

theorem hex4_inj {a b : Nat} (h : hex4 a = hex4 b) : a = b := by
  unfold hex4 at h
  rw [← digits_hex, ← digits_hex] at h
  exact digits_inj (base := 16) (width := 4) (by decide) (by decide) h

theorem signed_inj {a b : Int} (h : signed a = signed b) : a = b := by
  rw [← decimal_signed, ← decimal_signed] at h
  have hd : ∀ {n : Nat} {t : Text}, digitsOf 10 n ≠ '-' :: t := by
    intro n t h
    have : '-' ∈ digitsOf 10 n := by rw [h]; exact List.mem_cons_self
    have := digitsLoop_chars _ this
    revert this
    decide
  unfold decimalText at h
  split at h <;> split at h
  · injection h with _ h
    have := decimals_inj h
    omega
  · exact absurd h.symm hd
  · exact absurd h hd
  · have := decimals_inj h
    omega

theorem nibble_numeric (n : Nat) : Numeric (nibble n) := by
  unfold nibble
  rw [← digits_bits]
  exact pad_numeric (digits_numeric _ _) 4

end Verif.Located
