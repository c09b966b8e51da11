import Verif.Lemmas.ParseExpr
import Verif.Lemmas.MakeInstr
/-
Lists, arguments and directives: the parser reads exactly the grammar.
-/
namespace Verif
open Spec

theorem isEmpty_iff {ts : List Tok} : Toks.isEmpty ts = true ↔ LineEnd ts := by
  unfold LineEnd
  cases ts with
  | nil => simp [Toks.isEmpty]
  | cons t ts => cases t <;> simp [Toks.isEmpty]

theorem Spec.LineEnd.noOperator {ts : List Tok} (h : LineEnd ts) : NoOperator ts := by
  rcases h with rfl | ⟨_, rfl⟩
  · intro t ts lv f e; cases e
  · intro t ts lv f e hb; cases e; cases hb

theorem noOperator_comma (ts : List Tok) : NoOperator (.comma :: ts) := by
  intro t ts lv f e hb; cases e; cases hb

/-- First tokens an item can have. -/
def Starts (w : List Tok) : Prop := ∃ t w', w = t :: w' ∧ t ≠ .eof

theorem Starts.not_empty {w : List Tok} (h : Starts w) (rest : List Tok) : Toks.isEmpty (w ++ rest) = false := by
  obtain ⟨t, w', rfl, ht⟩ := h
  cases t <;> simp_all [Toks.isEmpty]

theorem starts_append {w : List Tok} (h : Starts w) (rest : List Tok) : Starts (w ++ rest) := by
  obtain ⟨t, w', rfl, ht⟩ := h
  exact ⟨t, w' ++ rest, rfl, ht⟩

theorem Spec.Sentence.starts {lv w e} (h : Sentence lv w e) : Starts w := by
  induction h with
  | atom h => cases h <;> exact ⟨_, _, rfl, by simp⟩
  | paren _ _ => exact ⟨_, _, rfl, by simp⟩
  | pre h _ _ => cases h <;> exact ⟨_, _, rfl, by simp⟩
  | binary _ _ _ ih _ => exact starts_append ih _
  | tight _ ih => exact ih

/-- `p` reads the items `Syn`, up to a token that is no operator. -/
structure ItemReads {α : Type} (p : Toks → Res (α × Toks)) (Syn : List Tok → α → Prop) : Prop where
  sound : ∀ ts a rest, p ts = .ok (a, rest) → ∃ w, ts = w ++ rest ∧ Syn w a
  complete : ∀ w a rest, Syn w a → NoOperator rest → p (w ++ rest) = .ok (a, rest)
  starts : ∀ w a, Syn w a → Starts w
  safe : ∀ ts, p ts ≠ .loop ∧ p ts ≠ .panic

theorem reads_expr : ItemReads parseExpr ExprSyntax where
  sound := fun _ _ _ h => let ⟨w, e, s, _⟩ := parseExpr_iff.mp h; ⟨w, e, s⟩
  complete := fun w _ _ s n => parseExpr_iff.mpr ⟨w, rfl, s, n⟩
  starts := fun _ _ h => h.starts
  safe := fun ts => ⟨parseExpr_not_loop ts, parseExpr_not_panic ts⟩

theorem consume_ok {k what ts rest} : Toks.consume k what ts = .ok rest ↔ ts = k :: rest := by
  cases ts with
  | nil => simp [Toks.consume]
  | cons t ts =>
    simp only [Toks.consume]
    split
    next h => subst h; simp
    next h => simp [h]

theorem consume_safe (k what ts) : Toks.consume k what ts ≠ .loop ∧ Toks.consume k what ts ≠ .panic := by
  cases ts with
  | nil => simp [Toks.consume]
  | cons t ts => simp only [Toks.consume]; split <;> simp

section
variable {α : Type} {p : Toks → Res (α × Toks)} {Syn : List Tok → α → Prop}

/-- What the loop of a list reads: nothing more, or a comma and a list. -/
def Tail (Syn : List Tok → α → Prop) (w : List Tok) (as : List α) : Prop :=
  (w = [] ∧ as = []) ∨ ∃ w', w = .comma :: w' ∧ Listed Syn w' as

theorem listed_of_tail {w a w' as} (h : Syn w a) (ht : Tail Syn w' as) : Listed Syn (w ++ w') (a :: as) := by
  rcases ht with ⟨rfl, rfl⟩ | ⟨w'', rfl, hl⟩
  · rw [List.append_nil]; exact .one h
  · exact .cons h hl

theorem tail_of_listed {w as} (h : Listed Syn w as) :
    ∃ w1 a w2 as', w = w1 ++ w2 ∧ as = a :: as' ∧ Syn w1 a ∧ Tail Syn w2 as' := by
  cases h with
  | one h => exact ⟨_, _, [], [], (List.append_nil _).symm, rfl, h, .inl ⟨rfl, rfl⟩⟩
  | cons h hl => exact ⟨_, _, _, _, rfl, rfl, h, .inr ⟨_, rfl, hl⟩⟩

theorem listLoop_sound (hp : ItemReads p Syn) (f : Nat) : ∀ ts as rest, parseListLoop p f ts = .ok (as, rest) →
    ∃ w, ts = w ++ rest ∧ Tail Syn w as ∧ LineEnd rest := by
  induction f with
  | zero => intro ts as rest h; cases h
  | succ f ih =>
    intro ts as rest h
    rw [parseListLoop] at h
    split at h
    next he =>
      cases h
      exact ⟨[], rfl, .inl ⟨rfl, rfl⟩, isEmpty_iff.mp he⟩
    next he =>
      obtain ⟨ts1, h1, h⟩ := Res.bind_eq_ok.mp h
      obtain ⟨⟨v, ts2⟩, h2, h⟩ := Res.bind_eq_ok.mp h
      obtain ⟨⟨vs, ts3⟩, h3, h⟩ := Res.bind_eq_ok.mp h
      cases h
      rw [consume_ok] at h1
      obtain ⟨w1, e1, s1⟩ := hp.sound _ _ _ h2
      obtain ⟨w2, e2, s2, l2⟩ := ih _ _ _ h3
      refine ⟨.comma :: (w1 ++ w2), by simp [h1, e1, e2], .inr ⟨_, rfl, listed_of_tail s1 s2⟩, l2⟩

theorem listLoop_complete (hp : ItemReads p Syn) (f : Nat) : ∀ w as rest, Tail Syn w as → LineEnd rest → w.length < f →
    parseListLoop p f (w ++ rest) = .ok (as, rest) := by
  induction f with
  | zero => intros; omega
  | succ f ih =>
    intro w as rest h hl hf
    rw [parseListLoop]
    rcases h with ⟨rfl, rfl⟩ | ⟨w', rfl, h⟩
    · rw [List.nil_append, if_pos (isEmpty_iff.mpr hl)]
    · rw [if_neg (by simp [Toks.isEmpty])]
      obtain ⟨w1, a, w2, as', rfl, rfl, s1, s2⟩ := tail_of_listed h
      simp only [List.cons_append, Toks.consume, if_true, Res.ok_bind]
      have hn : NoOperator (w2 ++ rest) := by
        rcases s2 with ⟨rfl, rfl⟩ | ⟨w', rfl, _⟩
        · exact LineEnd.noOperator hl
        · exact noOperator_comma _
      rw [List.append_assoc, hp.complete _ _ _ s1 hn, Res.ok_bind]
      dsimp only
      rw [ih _ _ _ s2 hl (by simp at hf; omega)]
      rfl

theorem listLoop_safe (hp : ItemReads p Syn) (f : Nat) : ∀ ts, ts.length < f →
    parseListLoop p f ts ≠ .loop ∧ parseListLoop p f ts ≠ .panic := by
  induction f with
  | zero => intros; omega
  | succ f ih =>
    intro ts hf
    rw [parseListLoop]
    split
    · simp
    · cases h1 : Toks.consume .comma commaName ts with
      | err e => simp
      | panic => exact absurd h1 (consume_safe _ _ _).2
      | loop => exact absurd h1 (consume_safe _ _ _).1
      | ok ts1 =>
        rw [Res.ok_bind]
        cases h2 : p ts1 with
        | err e => simp
        | panic => exact absurd h2 (hp.safe _).2
        | loop => exact absurd h2 (hp.safe _).1
        | ok a =>
          obtain ⟨v, ts2⟩ := a
          rw [Res.ok_bind]
          dsimp only
          obtain ⟨w1, e1, -⟩ := hp.sound _ _ _ h2
          rw [consume_ok] at h1
          have := ih ts2 (by rw [h1, e1] at hf; simp at hf; omega)
          cases h3 : parseListLoop p f ts2 with
          | err e => simp
          | panic => exact absurd h3 this.2
          | loop => exact absurd h3 this.1
          | ok b => simp

theorem list_sound (hp : ItemReads p Syn) {ts as rest} (h : parseList p ts = .ok (as, rest)) :
    ∃ w, ts = w ++ rest ∧ OptListed Syn w as ∧ LineEnd rest := by
  rw [parseList] at h
  split at h
  next he => cases h; exact ⟨[], rfl, .inl ⟨rfl, rfl⟩, isEmpty_iff.mp he⟩
  next he =>
    obtain ⟨⟨v, ts2⟩, h2, h⟩ := Res.bind_eq_ok.mp h
    obtain ⟨⟨vs, ts3⟩, h3, h⟩ := Res.bind_eq_ok.mp h
    cases h
    obtain ⟨w1, e1, s1⟩ := hp.sound _ _ _ h2
    obtain ⟨w2, e2, s2, l2⟩ := listLoop_sound hp _ _ _ _ h3
    exact ⟨w1 ++ w2, by simp [e1, e2], .inr (listed_of_tail s1 s2), l2⟩

theorem list_complete (hp : ItemReads p Syn) {w as rest} (h : OptListed Syn w as) (hl : LineEnd rest) :
    parseList p (w ++ rest) = .ok (as, rest) := by
  rw [parseList]
  rcases h with ⟨rfl, rfl⟩ | h
  · rw [List.nil_append, if_pos (isEmpty_iff.mpr hl)]
  · obtain ⟨w1, a, w2, as', rfl, rfl, s1, s2⟩ := tail_of_listed h
    rw [if_neg (by rw [List.append_assoc, (hp.starts _ _ s1).not_empty]; simp)]
    have hn : NoOperator (w2 ++ rest) := by
      rcases s2 with ⟨rfl, rfl⟩ | ⟨w', rfl, _⟩
      · exact LineEnd.noOperator hl
      · exact noOperator_comma _
    rw [List.append_assoc, hp.complete _ _ _ s1 hn, Res.ok_bind]
    dsimp only
    rw [listLoop_complete hp _ _ _ _ s2 hl (by simp only [List.length_append]; omega)]
    rfl

theorem list_safe (hp : ItemReads p Syn) (ts) : parseList p ts ≠ .loop ∧ parseList p ts ≠ .panic := by
  rw [parseList]
  split
  · simp
  · cases h2 : p ts with
    | err e => simp
    | panic => exact absurd h2 (hp.safe _).2
    | loop => exact absurd h2 (hp.safe _).1
    | ok a =>
      obtain ⟨v, ts2⟩ := a
      rw [Res.ok_bind]
      dsimp only
      have := listLoop_safe hp (ts2.length + 1) ts2 (by omega)
      cases h3 : parseListLoop p (ts2.length + 1) ts2 with
      | err e => simp
      | panic => exact absurd h3 this.2
      | loop => exact absurd h3 this.1
      | ok b => simp

theorem listed_starts (hp : ItemReads p Syn) {w as} (h : Listed Syn w as) : Starts w := by
  obtain ⟨w1, a, w2, as', rfl, rfl, s1, s2⟩ := tail_of_listed h
  exact starts_append (hp.starts _ _ s1) _

theorem listed_ne_nil {w as} (h : Listed Syn w as) : as ≠ [] := by
  cases h <;> simp

end

/-! ### Arguments -/

theorem im_iff {t r} : imOf t = some r ↔ ModeTok t r := by
  constructor
  · intro h; cases t <;> simp [imOf] at h <;> subst h <;> constructor
  · intro h; cases h <;> rfl

theorem argOf_syntax {w e} (h : ExprSyntax w e) : ArgSyntax w (argOf e) := by
  cases e with
  | macroArg n => exact .param h
  | _ => exact .ex h (by simp)

theorem argOf_ex {e : Expr} (h : ∀ n, e ≠ .macroArg n) : argOf e = .ex e := by
  cases e with
  | macroArg n => exact absurd rfl (h n)
  | _ => rfl

/-- A sentence begins neither with an indirection mode nor with `#`. -/
theorem Spec.Sentence.first {lv w e} (h : Sentence lv w e) :
    ∃ t w', w = t :: w' ∧ imOf t = none ∧ t ≠ .hash ∧ (∀ s, t ≠ .string s) ∧ t ≠ .comma ∧ t ≠ .equals ∧ t ≠ .colon := by
  induction h with
  | atom h => cases h <;> exact ⟨_, _, rfl, rfl, by simp⟩
  | paren _ _ => exact ⟨_, _, rfl, rfl, by simp⟩
  | pre h _ _ => cases h <;> exact ⟨_, _, rfl, rfl, by simp⟩
  | binary _ _ _ ih _ =>
    obtain ⟨t, w', rfl, h⟩ := ih
    exact ⟨t, _, rfl, h⟩
  | tight _ ih => exact ih

theorem parseExprArg_sound {ts a rest} (h : parseExprArg ts = .ok (a, rest)) : ∃ w, ts = w ++ rest ∧ ArgSyntax w a := by
  obtain ⟨⟨e, r⟩, h1, h2⟩ := Res.bind_eq_ok.mp h
  cases h2
  obtain ⟨w, e, s, -⟩ := parseExpr_iff.mp h1
  exact ⟨w, e, argOf_syntax s⟩

theorem reads_arg : ItemReads parseArg ArgSyntax where
  sound := by
    intro ts a rest h
    cases ts with
    | nil => cases h
    | cons t ts =>
      rw [parseArg] at h
      split at h
      next r hr => cases h; exact ⟨[t], rfl, .im (im_iff.mp hr)⟩
      next hr =>
        split at h
        next ht =>
          obtain ⟨⟨e, r⟩, h1, h2⟩ := Res.bind_eq_ok.mp h
          cases h2
          obtain ⟨w, e, s, -⟩ := parseExpr_iff.mp h1
          subst ht
          exact ⟨.hash :: w, by rw [e]; rfl, .imm s⟩
        next ht => exact parseExprArg_sound h
  complete := by
    intro w a rest h hn
    cases h with
    | im h => simp [parseArg, im_iff.mpr h]
    | @imm w e h =>
      simp only [List.cons_append, parseArg, imOf, if_true]
      rw [parseExpr_iff.mpr ⟨w, rfl, h, hn⟩]; rfl
    | @param w n h =>
      obtain ⟨t, w', rfl, h1, h2, -⟩ := h.first
      simp only [List.cons_append, parseArg, h1, h2, if_false, parseExprArg]
      rw [← List.cons_append, parseExpr_iff.mpr ⟨t :: w', rfl, h, hn⟩]; rfl
    | @ex w e h hx =>
      obtain ⟨t, w', rfl, h1, h2, -⟩ := h.first
      simp only [List.cons_append, parseArg, h1, h2, if_false, parseExprArg]
      rw [← List.cons_append, parseExpr_iff.mpr ⟨t :: w', rfl, h, hn⟩, Res.ok_bind, argOf_ex hx]
  starts := by
    intro w a h
    cases h with
    | im h => cases h <;> exact ⟨_, _, rfl, by simp⟩
    | imm h => exact ⟨_, _, rfl, by simp⟩
    | param h => exact h.starts
    | ex h _ => exact h.starts
  safe := by
    have hx : ∀ ts, parseExprArg ts ≠ .loop ∧ parseExprArg ts ≠ .panic := by
      intro ts
      unfold parseExprArg
      cases h : parseExpr ts with
      | err e => simp
      | panic => exact absurd h (parseExpr_not_panic _)
      | loop => exact absurd h (parseExpr_not_loop _)
      | ok a => simp
    intro ts
    cases ts with
    | nil => simp [parseArg]
    | cons t ts =>
      rw [parseArg]
      split
      · simp
      · split
        · cases h : parseExpr ts with
          | err e => simp
          | panic => exact absurd h (parseExpr_not_panic _)
          | loop => exact absurd h (parseExpr_not_loop _)
          | ok a => simp
        · exact hx _

/-! ### Items of directives -/

theorem utf8_eq (s : Text) : (String.ofList s).toUTF8.data.toList = utf8 s := by
  simp [String.toUTF8, String.toByteArray_ofList, List.utf8Encode, utf8]

theorem parseByteValue_string (s : Text) (ts : List Tok) : parseByteValue (.string s :: ts) = .ok (.str (utf8 s), ts) := rfl

theorem parseByteValue_other {ts : List Tok} (h : ∀ s r, ts ≠ .string s :: r) :
    parseByteValue ts = (do
      let (e, ts) ← parseExpr ts
      .ok (.expr e, ts)) := by
  cases ts with
  | nil => rfl
  | cons t ts =>
    cases t with
    | string s => exact absurd rfl (h s ts)
    | _ => rfl

theorem reads_byte : ItemReads parseByteValue ByteSyntax where
  sound := by
    intro ts a rest h
    by_cases hs : ∃ s r, ts = .string s :: r
    · obtain ⟨s, r, rfl⟩ := hs
      rw [parseByteValue_string] at h
      cases h
      exact ⟨[.string s], rfl, by rw [← utf8_eq]; exact .str⟩
    · rw [parseByteValue_other (by simpa using hs)] at h
      obtain ⟨⟨e, r⟩, h1, h2⟩ := Res.bind_eq_ok.mp h
      cases h2
      obtain ⟨w, e, s, -⟩ := parseExpr_iff.mp h1
      exact ⟨w, e, .expr s⟩
  complete := by
    intro w a rest h hn
    cases h with
    | @str s => rw [utf8_eq]; rfl
    | @expr w e h =>
      obtain ⟨t, w', rfl, h1, h2, h3, -⟩ := h.first
      rw [parseByteValue_other (by intro s r he; cases he; exact h3 s rfl), parseExpr_iff.mpr ⟨t :: w', rfl, h, hn⟩]
      rfl
  starts := by
    intro w a h
    cases h with
    | str => exact ⟨_, _, rfl, by simp⟩
    | expr h => exact h.starts
  safe := by
    intro ts
    by_cases hs : ∃ s r, ts = .string s :: r
    · obtain ⟨s, r, rfl⟩ := hs
      simp [parseByteValue_string]
    · rw [parseByteValue_other (by simpa using hs)]
      cases h : parseExpr ts with
      | err e => simp
      | panic => exact absurd h (parseExpr_not_panic _)
      | loop => exact absurd h (parseExpr_not_loop _)
      | ok a => simp

theorem parseKeyVal_eq (n : Text) (ts : List Tok) : parseKeyVal (.name n :: .equals :: ts) = (do
    let (v, ts) ← parseByteValue ts
    .ok ((n, v), ts)) := rfl

theorem parseKeyVal_else {ts : List Tok} (h : ∀ n r, ts ≠ .name n :: .equals :: r) :
    ∃ e, parseKeyVal ts = .err e := by
  unfold parseKeyVal
  split
  · exact absurd rfl (h _ _)
  · exact ⟨_, rfl⟩
  · exact ⟨_, rfl⟩
  · exact ⟨_, rfl⟩
  · exact ⟨_, rfl⟩

theorem reads_prop : ItemReads parseKeyVal PropSyntax where
  sound := by
    intro ts a rest h
    by_cases hs : ∃ n r, ts = .name n :: .equals :: r
    · obtain ⟨n, r, rfl⟩ := hs
      rw [parseKeyVal_eq] at h
      obtain ⟨⟨v, r⟩, h1, h2⟩ := Res.bind_eq_ok.mp h
      cases h2
      obtain ⟨w, e, s⟩ := reads_byte.sound _ _ _ h1
      exact ⟨.name n :: .equals :: w, by rw [e]; rfl, .mk s⟩
    · obtain ⟨e, he⟩ := parseKeyVal_else (ts := ts) (by simpa using hs)
      rw [he] at h; cases h
  complete := by
    intro w a rest h hn
    cases h with
    | @mk key w v h =>
      simp only [List.cons_append]
      rw [parseKeyVal_eq, reads_byte.complete _ _ _ h hn]; rfl
  starts := by
    intro w a h
    cases h with
    | mk h => exact ⟨_, _, rfl, by simp⟩
  safe := by
    intro ts
    by_cases hs : ∃ n r, ts = .name n :: .equals :: r
    · obtain ⟨n, r, rfl⟩ := hs
      rw [parseKeyVal_eq]
      cases h : parseByteValue r with
      | err e => simp
      | panic => exact absurd h (reads_byte.safe _).2
      | loop => exact absurd h (reads_byte.safe _).1
      | ok a => simp
    · obtain ⟨e, he⟩ := parseKeyVal_else (ts := ts) (by simpa using hs)
      simp [he]

theorem lookup_filter {β : Type} (l : List (Text × β)) (k : Text) :
    l.lookup k = (l.filter (·.1 = k)).head?.map (·.2) := by
  induction l with
  | nil => rfl
  | cons q l ih =>
    obtain ⟨a, b⟩ := q
    by_cases h : a = k
    · subst h; simp
    · have hk : (k == a) = false := by simpa using fun e => h e.symm
      simp [List.lookup, hk, h, ih]

/-- Looking up in the reversed list finds the last pair. -/
theorem lookup_property (ps : List (Text × ByteValue)) (key : String) :
    ps.reverse.lookup key.toList = property ps key := by
  rw [lookup_filter, List.filter_reverse, List.head?_reverse]
  rfl

end Verif
