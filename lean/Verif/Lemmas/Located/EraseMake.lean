import Verif.Lemmas.Located.Erase
/-
Forgetting the spans of instructions made by make_instr.
-/
namespace Verif.Located

/-- One row of the tables of makers -/
def SameMaker (f : List Arg → Option (Instr Expr IM)) (g : List Verif.Arg → Option (Instr Verif.Expr IM)) : Prop :=
  ∀ args, (f args).map eraseInstr = g (args.map Arg.erase)

/-- The same names with the same makers -/
def SameMakers : List (Text × (List Arg → Option (Instr Expr IM))) →
    List (Text × (List Verif.Arg → Option (Instr Verif.Expr IM))) → Prop
  | [], [] => True
  | (a, f) :: l, (b, g) :: r => a = b ∧ SameMaker f g ∧ SameMakers l r
  | _, _ => False

theorem SameMakers.cons {a : Text} {f : List Arg → Option (Instr Expr IM)}
    {g : List Verif.Arg → Option (Instr Verif.Expr IM)} {l : List (Text × (List Arg → Option (Instr Expr IM)))}
    {r : List (Text × (List Verif.Arg → Option (Instr Verif.Expr IM)))} (hf : SameMaker f g) (ht : SameMakers l r) :
    SameMakers ((a, f) :: l) ((a, g) :: r) := ⟨rfl, hf, ht⟩

theorem SameMakers.lookup {l : List (Text × (List Arg → Option (Instr Expr IM)))}
    {r : List (Text × (List Verif.Arg → Option (Instr Verif.Expr IM)))} (h : SameMakers l r) (n : Text) :
    (l.lookup n = none ∧ r.lookup n = none) ∨ ∃ f g, l.lookup n = some f ∧ r.lookup n = some g ∧ SameMaker f g := by
  induction l generalizing r with
  | nil =>
    cases r with
    | nil => exact .inl ⟨rfl, rfl⟩
    | cons y ys => exact h.elim
  | cons x xs ih =>
    cases r with
    | nil => exact h.elim
    | cons y ys =>
      obtain ⟨a, f⟩ := x
      obtain ⟨b, g⟩ := y
      obtain ⟨rfl, hf, ht⟩ := h
      simp only [List.lookup_cons]
      cases n == a
      · exact ih ht
      · exact .inr ⟨f, g, rfl, rfl, hf⟩

/-- All lists of arguments: up to three, or more -/
theorem sameMaker_of {f : List Arg → Option (Instr Expr IM)} {g : List Verif.Arg → Option (Instr Verif.Expr IM)}
    (h0 : (f []).map eraseInstr = g [])
    (h1 : ∀ a, (f [a]).map eraseInstr = g [a.erase])
    (h2 : ∀ a b, (f [a, b]).map eraseInstr = g [a.erase, b.erase])
    (h3 : ∀ a b c, (f [a, b, c]).map eraseInstr = g [a.erase, b.erase, c.erase])
    (h4 : ∀ a b c d r, (f (a :: b :: c :: d :: r)).map eraseInstr =
      g (a.erase :: b.erase :: c.erase :: d.erase :: r.map Arg.erase)) : SameMaker f g
  | [] => h0
  | [a] => h1 a
  | [a, b] => h2 a b
  | [a, b, c] => h3 a b c
  | a :: b :: c :: d :: r => h4 a b c d r

theorem same_makers : SameMakers makers Verif.makers := by
  unfold makers Verif.makers
  repeat' apply SameMakers.cons
  all_goals first
    | trivial
    | (refine sameMaker_of rfl ?_ ?_ ?_ ?_
       · first | (intros; rfl) | (intro a; cases a <;> rfl)
       · intro a b
         first | rfl | (cases a <;> first | rfl | (cases b <;> rfl))
       · intro a b c
         first | rfl | (cases a <;> first | rfl | (cases b <;> first | rfl | (cases c <;> rfl)))
       · intro a b c d r
         first | rfl | (cases a <;> first | rfl | (cases b <;> first | rfl | (cases c <;> rfl))))

theorem erase_makeInstr (s : Span) (name : Text) (args : List Arg) :
    (makeInstr s name args).erase eraseInstr = Verif.makeInstr name (args.map Arg.erase) := by
  unfold makeInstr Verif.makeInstr
  rcases same_makers.lookup name with ⟨hl, hr⟩ | ⟨f, g, hl, hr, h⟩
  · rw [hl, hr]; rfl
  · rw [hl, hr]
    dsimp only
    rw [← h args]
    cases f args <;> rfl

end Verif.Located
