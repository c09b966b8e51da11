import Verif.Lemmas.Located.ProgramError
import Verif.Lemmas.Eofs
/-
There is only one error for a line.
-/
namespace Verif.Located
open Verif.Spec Verif.Spec.Syntax

/-! ### Languages -/

theorem cut {α : Type} {w w' : List α} {t t' r r'} (h : w ++ t :: r = w' ++ t' :: r') :
    (w = w' ∧ t = t' ∧ r = r') ∨ (∃ m, w' = w ++ t :: m) ∨ ∃ m, w = w' ++ t' :: m := by
  rcases List.append_eq_append_iff.mp h with ⟨m, rfl, h2⟩ | ⟨m, rfl, h2⟩
  · cases m with
    | nil => rw [List.nil_append] at h2; injection h2 with h2 h3; exact .inl ⟨(List.append_nil _).symm, h2, h3⟩
    | cons a m => injection h2 with h2 h3; subst h2; exact .inr (.inl ⟨m, rfl⟩)
  · cases m with
    | nil => rw [List.nil_append] at h2; injection h2 with h2 h3; exact .inl ⟨List.append_nil _, h2.symm, h3.symm⟩
    | cons a m => injection h2 with h2 h3; subst h2; exact .inr (.inr ⟨m, rfl⟩)

theorem words_append (a b : List Token) : words (a ++ b) = words a ++ words b := List.map_append

/-- `w` is the beginning of a sentence. -/
theorem follow_of {L : List Tok → Prop} {w : List Token} {t : Token} {m : List Token} {v} (h : L (words (w ++ t :: m) ++ v)) :
    Follow L (words w) t.tok := by
  rw [words_append, List.append_assoc] at h
  exact ⟨_, h⟩

theorem wanted_inv {x t} (h : Wanted x t) :
    (t = .comma ∧ x = .expectedTokenNotFound "','".toList) ∨ (t = .rightParen ∧ x = .expectedTokenNotFound "')'".toList) ∨
    (∃ n, t = .name n ∧ n ∉ kinds5 ∧ x = .expectedTokenNotFound "Name".toList) ∨
    (∃ v r, t = .number v r ∧ x = .expectedTokenNotFound "Number".toList) ∨
    (∃ s, t = .string s ∧ x = .expectedTokenNotFound "String".toList) ∨ (t = .equals ∧ x = .expectedTokenNotFound "=".toList) ∨
    (∃ n, t = .name n ∧ n ∈ kinds5 ∧ x = .expectedTokenNotFound "Include Type".toList) ∨
    (∃ n, t = .macroIdent n ∧ x = .invalidExpression) := by
  cases h with
  | comma => exact .inl ⟨rfl, rfl⟩
  | rightParen => exact .inr (.inl ⟨rfl, rfl⟩)
  | name h => exact .inr (.inr (.inl ⟨_, rfl, h, rfl⟩))
  | number => exact .inr (.inr (.inr (.inl ⟨_, _, rfl, rfl⟩)))
  | string => exact .inr (.inr (.inr (.inr (.inl ⟨_, rfl, rfl⟩))))
  | equals => exact .inr (.inr (.inr (.inr (.inr (.inl ⟨rfl, rfl⟩)))))
  | kind h =>
    refine .inr (.inr (.inr (.inr (.inr (.inr (.inl ⟨_, rfl, ?_, rfl⟩))))))
    simp only [kinds5, List.map_cons, List.mem_cons, List.map_nil, List.not_mem_nil, or_false] at h ⊢
    rcases h with h | h | h <;> simp [h]
  | expression => exact .inr (.inr (.inr (.inr (.inr (.inr (.inr ⟨_, rfl, rfl⟩))))))

theorem may_inv {x t} (h : May x t) : x = .invalidExpression ∨ Wanted x t ∨
    (x = .expectedTokenNotFound "Name".toList ∧ ∃ n, t = .name n) ∨
    (x = .expectedTokenNotFound "Include Type".toList ∧ ((∃ n, t = .name n ∧ n ∈ kinds5) ∨ ∃ s, t = .string s)) ∨
    (∃ lv f, BinOp t lv f) ∨ t = .colon ∨ t = .eof := by
  cases h with
  | expression => exact .inl rfl
  | wanted h => exact .inr (.inl h)
  | name => exact .inr (.inr (.inl ⟨rfl, _, rfl⟩))
  | kind h => exact .inr (.inr (.inr (.inl ⟨rfl, .inl ⟨_, rfl, h⟩⟩)))
  | path => exact .inr (.inr (.inr (.inl ⟨rfl, .inr ⟨_, rfl⟩⟩)))
  | operator h => exact .inr (.inr (.inr (.inr (.inl ⟨_, _, h⟩))))
  | colon => exact .inr (.inr (.inr (.inr (.inr (.inl rfl)))))
  | eof => exact .inr (.inr (.inr (.inr (.inr (.inr rfl)))))

theorem may_wanted {x x' t} (h1 : Wanted x t) (h2 : May x' t) :
    x' = .invalidExpression ∨ x' = x ∨ (x' = .expectedTokenNotFound "Name".toList ∧ ∃ n, t = .name n ∧ n ∈ kinds5) ∨
    (x' = .expectedTokenNotFound "Include Type".toList ∧ ∃ s, t = .string s) := by
  have h1 := wanted_inv h1
  rcases may_inv h2 with h | h | ⟨h, n, rfl⟩ | ⟨h, ⟨n, rfl, hn⟩ | ⟨s, rfl⟩⟩ | ⟨lv, f, h⟩ | rfl | rfl
  · exact .inl h
  · have h := wanted_inv h
    rcases h1 with ⟨rfl, rfl⟩ | ⟨rfl, rfl⟩ | ⟨n, rfl, hn, rfl⟩ | ⟨v, r, rfl, rfl⟩ | ⟨s, rfl, rfl⟩ | ⟨rfl, rfl⟩ | ⟨n, rfl, hn, rfl⟩ |
        ⟨n, rfl, rfl⟩ <;>
      simp only [reduceCtorEq, false_and, and_false, exists_false, false_or, or_false, Tok.name.injEq, true_and] at h
    · exact .inr (.inl h)
    · exact .inr (.inl h)
    · rcases h with ⟨m, rfl, _, h⟩ | ⟨m, rfl, hm, _⟩
      · exact .inr (.inl h)
      · exact absurd hm hn
    · obtain ⟨_, _, _, h⟩ := h; exact .inr (.inl h)
    · obtain ⟨_, _, h⟩ := h; exact .inr (.inl h)
    · exact .inr (.inl h)
    · rcases h with ⟨m, rfl, hm, _⟩ | ⟨m, rfl, _, h⟩
      · exact absurd hn hm
      · exact .inr (.inl h)
    · obtain ⟨_, _, h⟩ := h; exact .inl h
  · simp only [reduceCtorEq, false_and, exists_false, false_or, or_false, Tok.name.injEq] at h1
    rcases h1 with ⟨m, rfl, _, h'⟩ | ⟨m, rfl, hm, _⟩
    · exact .inr (.inl (h.trans h'.symm))
    · exact .inr (.inr (.inl ⟨h, _, rfl, hm⟩))
  · simp only [reduceCtorEq, false_and, exists_false, false_or, or_false, Tok.name.injEq] at h1
    rcases h1 with ⟨m, rfl, hm, h'⟩ | ⟨m, rfl, hm, h'⟩
    · exact absurd hn hm
    · exact .inr (.inl (h.trans h'.symm))
  · exact .inr (.inr (.inr ⟨h, s, rfl⟩))
  · cases h <;> simp at h1
  · simp at h1
  · simp at h1

theorem missing_unique {L w x x'} (h : Missing L w x) (h' : Missing L w x') : x = x' := by
  obtain ⟨⟨t, h1, h2⟩, h3⟩ := h
  obtain ⟨⟨t', h1', h2'⟩, h3'⟩ := h'
  have hn1 : Err.expectedTokenNotFound "Name".toList ≠ .expectedTokenNotFound "Include Type".toList := by decide
  have hs1 : Err.expectedTokenNotFound "String".toList ≠ .expectedTokenNotFound "Include Type".toList := by decide
  have hs2 : Err.expectedTokenNotFound "String".toList ≠ .expectedTokenNotFound "Name".toList := by decide
  have b := h3 t' h2'
  rcases may_wanted h1 (h3' t h2) with rfl | rfl | ⟨rfl, n, rfl, hn⟩ | ⟨rfl, s, rfl⟩
  · obtain ⟨n, rfl⟩ : ∃ n, t' = .macroIdent n := by
      rcases wanted_inv h1' with h | h | ⟨n, h⟩ | ⟨_, _, h⟩ | ⟨_, h⟩ | h | ⟨_, h⟩ | ⟨n, h, _⟩
      all_goals first | exact ⟨n, h⟩ | simp at h
    rcases may_inv b with h | h | ⟨h, n, h'⟩ | ⟨h, ⟨n, h', hn⟩ | ⟨s, h'⟩⟩ | ⟨lv, f, h⟩ | h | h
    · exact h
    · rcases wanted_inv h with h | h | ⟨n, h⟩ | ⟨_, _, h⟩ | ⟨_, h⟩ | h | ⟨_, h⟩ | ⟨n, _, h⟩
      all_goals first | exact h | simp at h
    all_goals first | cases h; done | cases h'
  · rfl
  · have hx : x = .expectedTokenNotFound "Include Type".toList := by
      rcases wanted_inv h1 with h | h | ⟨m, h, hm, _⟩ | ⟨_, _, h⟩ | ⟨_, h⟩ | h | ⟨_, _, _, h⟩ | ⟨n, h, _⟩
      all_goals first | exact h | (cases h; exact absurd hn hm) | simp at h
    subst hx
    obtain ⟨m, rfl, hm⟩ : ∃ m, t' = .name m ∧ m ∉ kinds5 := by
      rcases wanted_inv h1' with ⟨_, h⟩ | ⟨_, h⟩ | ⟨n, h1, h2, _⟩ | ⟨_, _, _, h⟩ | ⟨_, _, h⟩ | ⟨_, h⟩ | ⟨_, _, _, h⟩ | ⟨n, _, h⟩
      all_goals first | exact ⟨n, h1, h2⟩ | exact absurd h (by decide)
    rcases may_inv b with h | h | ⟨h, n, h'⟩ | ⟨h, ⟨n, h', hn⟩ | ⟨s, h'⟩⟩ | ⟨lv, f, h⟩ | h | h
    · cases h
    · rcases wanted_inv h with ⟨h, _⟩ | ⟨h, _⟩ | ⟨n, _, _, h⟩ | ⟨_, _, h, _⟩ | ⟨_, h, _⟩ | ⟨h, _⟩ | ⟨_, h, hk, _⟩ | ⟨n, h, _⟩
      all_goals first | exact absurd h (by decide) | (cases h; exact absurd hk hm) | simp at h
    · exact absurd h.symm hn1
    · cases h'; exact absurd hn hm
    all_goals first | cases h; done | cases h'
  · have hx : x = .expectedTokenNotFound "String".toList := by
      rcases wanted_inv h1 with h | h | ⟨m, h, hm, _⟩ | ⟨_, _, h⟩ | ⟨_, _, h⟩ | h | ⟨_, h, _⟩ | ⟨n, h, _⟩
      all_goals first | exact h | simp at h
    subst hx
    obtain ⟨m, rfl⟩ : ∃ m, t' = .name m := by
      rcases wanted_inv h1' with ⟨_, h⟩ | ⟨_, h⟩ | ⟨n, h1, h2, _⟩ | ⟨_, _, _, h⟩ | ⟨_, _, h⟩ | ⟨_, h⟩ | ⟨n, h1, _, _⟩ | ⟨n, _, h⟩
      all_goals first | exact ⟨n, h1⟩ | exact absurd h (by decide)
    rcases may_inv b with h | h | ⟨h, n, h'⟩ | ⟨h, ⟨n, h', hn⟩ | ⟨s, h'⟩⟩ | ⟨lv, f, h⟩ | h | h
    · cases h
    · rcases wanted_inv h with ⟨h, _⟩ | ⟨h, _⟩ | ⟨n, _, _, h⟩ | ⟨_, _, h, _⟩ | ⟨_, h, _⟩ | ⟨h, _⟩ | ⟨_, _, _, h⟩ | ⟨n, h, _⟩
      all_goals first | exact absurd h (by decide) | simp at h
    · exact absurd h hs2
    · exact absurd h hs1
    all_goals first | cases h; done | cases h'

/-! ### One place where a sentence is stuck -/

theorem stuck_viable {L l x p} (h : Stuck L l x p) :
    (∃ w t rest, l = w ++ t :: rest ∧ Missing L (words w) x ∧ p = about x t ∧ ¬ Follow L (words w) t.tok ∧
      (t.tok = .eof → ¬ L (words w))) ∨
    (x = .unexpectedEof ∧ p = .nowhere ∧ (∃ t, Follow L (words l) t) ∧ ¬ L (words l)) := by
  cases h with
  | token h1 h2 h3 => exact .inl ⟨_, _, _, rfl, h1, rfl, h2, h3⟩
  | short h1 h2 => exact .inr ⟨rfl, rfl, h1, h2⟩

theorem stuck_unique {L l x p x' p'} (h : Stuck L l x p) (h' : Stuck L l x' p') : x = x' ∧ p = p' := by
  rcases stuck_viable h with ⟨w, t, r, rfl, h1, rfl, h2, _⟩ | ⟨rfl, rfl, ⟨t, more, h1⟩, h2⟩ <;>
    rcases stuck_viable h' with ⟨w', t', r', e, h1', rfl, h2', _⟩ | ⟨rfl, rfl, ⟨t', more', h1'⟩, h2'⟩
  · rcases cut e with ⟨rfl, rfl, _⟩ | ⟨m, rfl⟩ | ⟨m, rfl⟩
    · have := missing_unique h1 h1'
      subst this
      exact ⟨rfl, rfl⟩
    · obtain ⟨_, _, _, hf⟩ := h1'.1
      exact absurd (follow_of hf) h2
    · obtain ⟨_, _, _, hf⟩ := h1.1
      exact absurd (follow_of hf) h2'
  · exact absurd (follow_of h1') h2
  · subst e
    exact absurd (follow_of h1) h2'
  · exact ⟨rfl, rfl⟩

/-- A sentence is not stuck. -/
theorem not_stuck {L : List Tok → Prop} (hL : ∀ w, L w → Tok.eof ∉ w) {w e x p} (hw : L (words w)) (he : LineEnd (words e)) :
    ¬ Stuck L (w ++ e) x p := by
  intro h
  have key : ∀ {w1 t r}, w ++ e = w1 ++ t :: r → (∃ u, Follow L (words w1) u) → ¬ Follow L (words w1) t.tok →
      w1 = w ∧ t.tok = .eof := by
    intro w1 t r eq ⟨u, more, h1⟩ h2
    rcases List.append_eq_append_iff.mp eq with ⟨m, rfl, h3⟩ | ⟨m, rfl, h3⟩
    · subst h3
      cases m with
      | nil =>
        rcases he with he | ⟨_, he⟩
        · cases he
        · injection he with he _; exact ⟨List.append_nil _, he⟩
      | cons c m =>
        rcases he with he | ⟨_, he⟩
        · cases he
        · injection he with he _
          refine absurd ?_ (hL _ h1)
          simp [he]
    · cases m with
      | nil =>
        rw [List.nil_append] at h3
        subst h3
        rcases he with he | ⟨_, he⟩
        · cases he
        · injection he with he _; exact ⟨(List.append_nil _).symm, he⟩
      | cons c m =>
        injection h3 with h3 h4
        subst h3
        refine absurd (follow_of (m := m) (v := []) ?_) h2
        rw [List.append_nil]
        exact hw
  rcases stuck_viable h with ⟨w1, t, r, e1, h1, rfl, h2, h3⟩ | ⟨rfl, rfl, ⟨t, more, h1⟩, h2⟩
  · obtain ⟨t', _, hf⟩ := h1.1
    obtain ⟨rfl, ht⟩ := key e1 ⟨t', hf⟩ h2
    exact h3 ht hw
  · rcases he with he | ⟨r, he⟩
    · rw [List.map_eq_nil_iff] at he
      subst he
      rw [List.append_nil] at h2
      exact h2 hw
    · refine absurd ?_ (hL _ h1)
      rw [words_append, he]
      simp

/-! ### The shape of lines -/

theorem shaped_noeof (w : List Tok) (h : Shaped w) : Tok.eof ∉ w := by
  cases h with
  | empty => simp
  | label => simp
  | labelled _ h => have := optListed_noeof (fun _ _ => arg_noeof) h; simp [this]
  | localLabel => simp
  | operation _ h _ => have := optListed_noeof (fun _ _ => arg_noeof) h; simp [this]
  | alias _ h => have := sentence_noeof h; simp [this]
  | «variable» _ h => have := sentence_noeof h; simp [this]
  | byte h => have := optListed_noeof (fun _ _ => byte_noeof) h; simp [this]
  | word h => have := optListed_noeof (fun _ _ => sentence_noeof) h; simp [this]
  | org => simp
  | text => simp
  | string => simp
  | cnop h h' => have := sentence_noeof h; have := sentence_noeof h'; simp [*]
  | incl => simp
  | typed => simp
  | image _ h => have := optListed_noeof (fun _ _ => prop_noeof) h; simp [this]

theorem shaped_name {t w} (h : Shaped (t :: w)) : ∃ n, t = .name n := by
  cases h <;> exact ⟨_, rfl⟩

theorem head_of {w : List Tok} {t w'} (e : t :: w' = w) : w.head? = some t := by subst e; rfl

theorem shaped_label {t u w} (h : Shaped (t :: .colon :: u :: w)) : ∃ m, u = .name m ∧ ¬ Dotted m := by
  generalize hl : t :: Tok.colon :: u :: w = l at h
  cases h with
  | labelled hd _ => injection hl with _ hl; injection hl with _ hl; injection hl with hl _; exact ⟨_, hl, hd⟩
  | operation _ h _ => injection hl with _ hl; exact absurd (head_of hl) (optListed_head h).1
  | byte h => injection hl with _ hl; exact absurd (head_of hl) (byte_head h)
  | word h => injection hl with _ hl; exact absurd (head_of hl) (exprs_head h)
  | cnop h _ =>
    injection hl with _ hl
    obtain ⟨t, w', rfl, h1, _⟩ := expr_head h
    injection hl with hl _
    exact absurd hl.symm h1
  | _ => cases hl

theorem shaped_dotted {n u w} (h : Shaped (.name n :: u :: w)) (hd : Dotted n) (hn : n ∉ directives.map String.toList) :
    u = .colon ∨ u = .equals ∨ u = .name "equ".toList := by
  have hdir : ∀ {d : String}, d ∈ directives → Tok.name n = .name d.toList → False := fun hm e => by
    injection e with e
    exact hn (e ▸ List.mem_map.mpr ⟨_, hm, rfl⟩)
  generalize hl : Tok.name n :: u :: w = l at h
  cases h with
  | label => injection hl with _ hl; injection hl with hl _; exact .inl hl
  | labelled => injection hl with _ hl; injection hl with hl _; exact .inl hl
  | operation h => injection hl with hl _; injection hl with hl; exact absurd (hl ▸ hd) h
  | alias => injection hl with _ hl; injection hl with hl _; exact .inr (.inr hl)
  | «variable» => injection hl with _ hl; injection hl with hl _; exact .inr (.inl hl)
  | byte => injection hl with hl _; exact (hdir (by decide) hl).elim
  | word => injection hl with hl _; exact (hdir (by decide) hl).elim
  | org => injection hl with hl _; exact (hdir (by decide) hl).elim
  | text => injection hl with hl _; exact (hdir (by decide) hl).elim
  | string => injection hl with hl _; exact (hdir (by decide) hl).elim
  | cnop => injection hl with hl _; exact (hdir (by decide) hl).elim
  | incl => injection hl with hl _; exact (hdir (by decide) hl).elim
  | typed => injection hl with hl _; exact (hdir (by decide) hl).elim
  | image => injection hl with hl _; exact (hdir (by decide) hl).elim
  | _ => cases hl

/-- The line has the right shape, and nothing follows it. -/
def Fits (l : List Token) : Prop := ∃ w e, l = w ++ e ∧ Shaped (words w) ∧ LineEnd (words e)

theorem listed_unique {α : Type} {p : Toks → Verif.Res (α × Toks)} {Syn} (hp : ItemReads p Syn) {w w' e e' : List Tok} {as as'}
    (h : OptListed Syn w as) (he : LineEnd e) (h' : OptListed Syn w' as') (he' : LineEnd e') (eq : w ++ e = w' ++ e') :
    as = as' ∧ e = e' := by
  have a := list_complete hp h he
  rw [eq, list_complete hp h' he'] at a
  injection a with a
  injection a with a b
  exact ⟨a.symm, b.symm⟩

theorem meaningless_dir {t : Token} {l x p} (h : Meaningless (t :: l) x p) :
    (∃ n, t.tok = .name n ∧ Mnemonic n) ∨ ∃ d ∈ directives, t.tok = .name d.toList := by
  generalize hl : t :: l = l' at h
  cases h with
  | operands h1 h2 => injection hl with hl _; subst hl; exact .inl ⟨_, h1, h2⟩
  | bytes h1 => injection hl with hl _; subst hl; exact .inr ⟨".byte", by decide, h1⟩
  | words h1 => injection hl with hl _; subst hl; exact .inr ⟨".word", by decide, h1⟩
  | speed h1 => injection hl with hl _; subst hl; exact .inr ⟨".include", by decide, h1⟩
  | spriteType h1 => injection hl with hl _; subst hl; exact .inr ⟨".include", by decide, h1⟩
  | spriteHeader h1 => injection hl with hl _; subst hl; exact .inr ⟨".include", by decide, h1⟩

theorem meaningless_cons {l x p} (h : Meaningless l x p) : ∃ t r, l = t :: r := by
  cases h <;> exact ⟨_, _, rfl⟩

theorem meaningless_colon {t c : Token} {l x p} (h : Meaningless (t :: c :: l) x p) : c.tok ≠ .colon := by
  intro hc
  have hend : ∀ {e : List Token}, c :: l = e → LineEnd (words e) → False := fun h he => by
    subst h
    rcases he with he | ⟨_, he⟩
    · cases he
    · injection he with he _; rw [hc] at he; cases he
  generalize hl : t :: c :: l = l' at h
  cases h with
  | @operands t' n w args e s h1 h2 h3 _ he =>
    injection hl with _ hl
    cases w with
    | nil => exact hend hl he
    | cons u w =>
      injection hl with hl _
      subst hl
      exact (optListed_head h3).1 (congrArg some hc)
  | bytes h1 he => injection hl with _ hl; exact hend hl he
  | words h1 he => injection hl with _ hl; exact hend hl he
  | speed h1 h2 => injection hl with _ hl; injection hl with hl _; subst hl; rw [hc] at h2; cases h2
  | spriteType h1 h2 => injection hl with _ hl; injection hl with hl _; subst hl; rw [hc] at h2; cases h2
  | spriteHeader h1 h2 => injection hl with _ hl; injection hl with hl _; subst hl; rw [hc] at h2; cases h2

theorem meaningless_fits {l x p} (h : Meaningless l x p) (hq : ∀ t u rest, l = t :: u :: rest → u.tok ≠ .name "equ".toList) :
    Fits l := by
  have himg : ∀ {t k path : Token} {w ps e} {kind : String}, t.tok = .name ".include".toList → k.tok = .name kind.toList →
      kind.toList ∈ ["icon", "sprite"].map String.toList →
      (∃ s, path.tok = .string s) → OptListed PropSyntax (words w) ps → LineEnd (words e) → Fits (t :: k :: path :: (w ++ e)) := by
    intro t k path w ps e kind h1 h2 hk ⟨s, h3⟩ h4 h5
    refine ⟨t :: k :: path :: w, e, rfl, ?_, h5⟩
    rw [show words (t :: k :: path :: w) = t.tok :: k.tok :: path.tok :: words w from rfl, h1, h2, h3]
    exact .image hk h4
  cases h with
  | @operands t n w args e s h1 h2 h3 _ he =>
    refine ⟨t :: w, e, rfl, ?_, he⟩
    rw [show words (t :: w) = t.tok :: words w from rfl, h1]
    refine .operation (mnemonic_not_dotted h2) h3 fun hh => ?_
    cases w with
    | nil => cases hh
    | cons u w => exact hq t u (w ++ e) rfl (Option.some.inj hh)
  | @bytes t e h1 he =>
    refine ⟨[t], e, rfl, ?_, he⟩
    rw [show words [t] = [t.tok] from rfl, h1]
    exact .byte (.inl ⟨rfl, rfl⟩)
  | @words t e h1 he =>
    refine ⟨[t], e, rfl, ?_, he⟩
    rw [show words [t] = [t.tok] from rfl, h1]
    exact .word (.inl ⟨rfl, rfl⟩)
  | speed h1 h2 h3 h4 h5 => exact himg h1 h2 (by decide) h3 h4 h5
  | spriteType h1 h2 h3 h4 h5 => exact himg h1 h2 (by decide) h3 h4 h5
  | spriteHeader h1 h2 h3 h4 h5 => exact himg h1 h2 (by decide) h3 h4 h5

theorem labelled_fits {t c : Token} {n l x p} (ht : t.tok = .name n) (hc : c.tok = .colon)
    (hl : ∀ u, l.head? = some u → ∃ m, u.tok = .name m ∧ ¬ Dotted m) (h : Meaningless l x p) : Fits (t :: c :: l) := by
  obtain ⟨u, r, rfl⟩ := meaningless_cons h
  obtain ⟨m, hu, hm⟩ := hl u rfl
  have : ¬ ∃ d ∈ directives, u.tok = .name d.toList := fun ⟨d, hd, e⟩ => by
    rw [hu] at e
    injection e with e
    exact hm (directive_dotted (e ▸ List.mem_map.mpr ⟨_, hd, rfl⟩))
  generalize hl : u :: r = l' at h
  cases h with
  | @operands t' n' w args e s h1 h2 h3 _ he =>
    injection hl with e1 e2
    subst e1 e2
    refine ⟨t :: c :: u :: w, e, rfl, ?_, he⟩
    rw [show words (t :: c :: u :: w) = t.tok :: c.tok :: u.tok :: words w from rfl, ht, hc, hu]
    exact .labelled hm h3
  | bytes h1 => injection hl with e1 e2; subst e1; exact (this ⟨".byte", by decide, h1⟩).elim
  | words h1 => injection hl with e1 e2; subst e1; exact (this ⟨".word", by decide, h1⟩).elim
  | speed h1 => injection hl with e1 e2; subst e1; exact (this ⟨".include", by decide, h1⟩).elim
  | spriteType h1 => injection hl with e1 e2; subst e1; exact (this ⟨".include", by decide, h1⟩).elim
  | spriteHeader h1 => injection hl with e1 e2; subst e1; exact (this ⟨".include", by decide, h1⟩).elim

/-- The properties of an image that is included -/
def Image (kind : String) (l : List Token) (ps : List (Text × Verif.ByteValue)) : Prop :=
  ∃ k path w e, l = k :: path :: (w ++ e) ∧ k.tok = .name kind.toList ∧ OptListed PropSyntax (words w) ps ∧ LineEnd (words e)

theorem image_unique {kind kind' l ps ps'} (h : Image kind l ps) (h' : Image kind' l ps') : kind = kind' ∧ ps = ps' := by
  obtain ⟨k, path, w, e, rfl, h1, h2, h3⟩ := h
  obtain ⟨k', path', w', e', eq, h1', h2', h3'⟩ := h'
  injection eq with e1 eq
  injection eq with e2 eq
  subst e1
  rw [h1] at h1'
  injection h1' with h1'
  refine ⟨String.toList_inj.mp h1', (listed_unique reads_prop h2 h3 h2' h3' ?_).1⟩
  rw [← words_append, ← words_append, eq]

theorem meaningless_cases {t : Token} {l x p} (h : Meaningless (t :: l) x p) :
    (∃ n, t.tok = .name n ∧ Mnemonic n ∧ x = .wrongInstructionArgs n) ∨ (t.tok = .name ".byte".toList ∧ x = .missingBytes) ∨
    (t.tok = .name ".word".toList ∧ x = .missingWords) ∨
    (t.tok = .name ".include".toList ∧ ∃ ps, (Image "icon" l ps ∧ x = .invalidExpression) ∨
      (Image "sprite" l ps ∧ (¬ ∃ k, SpriteTypeIs ps k) ∧ ∃ v y, property ps "type" = some v ∧ Worded v y ∧ x = .invalidSpriteType y) ∨
      (Image "sprite" l ps ∧ (∃ k, SpriteTypeIs ps k) ∧ ∃ v y, property ps "header" = some v ∧ Worded v y ∧ x = .invalidSpriteHeader y)) := by
  generalize hl : t :: l = l' at h
  cases h with
  | operands h1 h2 => injection hl with hl _; subst hl; exact .inl ⟨_, h1, h2, rfl⟩
  | bytes h1 => injection hl with hl _; subst hl; exact .inr (.inl ⟨h1, rfl⟩)
  | words h1 => injection hl with hl _; subst hl; exact .inr (.inr (.inl ⟨h1, rfl⟩))
  | speed h1 h2 h3 h4 h5 =>
    injection hl with hl e
    subst hl e
    exact .inr (.inr (.inr ⟨h1, _, .inl ⟨⟨_, _, _, _, rfl, h2, h4, h5⟩, rfl⟩⟩))
  | spriteType h1 h2 h3 h4 h5 h6 h7 _ h8 =>
    injection hl with hl e
    subst hl e
    exact .inr (.inr (.inr ⟨h1, _, .inr (.inl ⟨⟨_, _, _, _, rfl, h2, h4, h5⟩, h6, _, _, h7, h8, rfl⟩)⟩))
  | spriteHeader h1 h2 h3 h4 h5 h6 _ h7 _ h8 =>
    injection hl with hl e
    subst hl e
    exact .inr (.inr (.inr ⟨h1, _, .inr (.inr ⟨⟨_, _, _, _, rfl, h2, h4, h5⟩, h6, _, _, h7, h8, rfl⟩)⟩))

theorem worded_unique {v : Verif.ByteValue} {y y' : Text} (h : Worded v y) (h' : Worded v y') : y = y' := by
  cases v with
  | str b =>
    have h : b = utf8 y := h
    have h' : b = utf8 y' := h'
    rw [← stringText_utf8 y, ← h, h', stringText_utf8]
  | expr e => exact (show y = e.print from h).trans (show y' = e.print from h').symm

theorem meaningless_unique {l x p x' p'} (h : Meaningless l x p) (h' : Meaningless l x' p') : x = x' := by
  obtain ⟨t, r, rfl⟩ := meaningless_cons h
  have hm : ∀ {n : Text} {d : String}, Mnemonic n → d ∈ directives → Tok.name n = .name d.toList → False := fun h1 h2 e => by
    injection e with e
    exact mnemonic_not_dotted h1 (directive_dotted (e ▸ List.mem_map.mpr ⟨_, h2, rfl⟩))
  rcases meaningless_cases h with ⟨n, h1, h2, rfl⟩ | ⟨h1, rfl⟩ | ⟨h1, rfl⟩ | ⟨h1, ps, h2⟩ <;>
    rcases meaningless_cases h' with ⟨n', h1', h2', rfl⟩ | ⟨h1', rfl⟩ | ⟨h1', rfl⟩ | ⟨h1', ps', h2'⟩ <;> replace h1' := h1.symm.trans h1'
  · injection h1' with h1'; rw [h1']
  · exact (hm h2 (by decide) h1').elim
  · exact (hm h2 (by decide) h1').elim
  · exact (hm h2 (by decide) h1').elim
  · exact (hm h2' (by decide) h1'.symm).elim
  · rfl
  · exact absurd h1' (by decide)
  · exact absurd h1' (by decide)
  · exact (hm h2' (by decide) h1'.symm).elim
  · exact absurd h1' (by decide)
  · rfl
  · exact absurd h1' (by decide)
  · exact (hm h2' (by decide) h1'.symm).elim
  · exact absurd h1' (by decide)
  · exact absurd h1' (by decide)
  · rcases h2 with ⟨h2, rfl⟩ | ⟨h2, h3, v, y, h4, h5, rfl⟩ | ⟨h2, h3, v, y, h4, h5, rfl⟩ <;>
      rcases h2' with ⟨h2', rfl⟩ | ⟨h2', h3', v', y', h4', h5', rfl⟩ | ⟨h2', h3', v', y', h4', h5', rfl⟩ <;>
      obtain ⟨hk, rfl⟩ := image_unique h2 h2'
    all_goals first | rfl | exact absurd hk (by decide) | exact absurd h3 h3' | exact absurd h3' h3 |
      (rw [h4] at h4'; cases h4'; rw [worded_unique h5 h5'])

/-! ### One error for a line -/

/-- What can follow the beginning of a line. -/
theorem follow_name (n : Text) : Follow Shaped [.name n] .colon := ⟨[], .label⟩

theorem follow_first (n : Text) : Follow Shaped [] (.name n) := ⟨[.colon], .label⟩

theorem plain_wanted : Wanted (.expectedTokenNotFound "Name".toList) (.name "a".toList) := .name (by decide)

theorem not_dotted_a : ¬ Dotted "a".toList := fun ⟨_, h⟩ => by simp at h

theorem follow_label (n : Text) : Follow Shaped [.name n, .colon] (.name "a".toList) :=
  ⟨[], .labelled not_dotted_a (.inl ⟨rfl, rfl⟩)⟩

/-- The line is stuck or goes on after its end. -/
inductive Broken (l : List Token) (x : Err) (p : Place) : Prop where
  | stuck : Begun l → Stuck Shaped l x p → Broken l x p
  | excess {w t rest} : l = w ++ t :: rest → Shaped (words w) → t.tok ≠ .eof → ¬ Follow Shaped (words w) t.tok →
      (∀ x u, Wanted x u → ¬ Follow Shaped (words w) u) → x = .unexpectedToken → p = .span t.span → Broken l x p

theorem lineError_cases {l x p} (h : LineError l x p) :
    Broken l x p ∨ (∃ t rest, l = t :: rest ∧ (∀ n, t.tok ≠ .name n) ∧ t.tok ≠ .eof ∧ x = .unexpectedToken ∧ p = .span t.span) ∨
    (∃ t n c u rest, l = t :: c :: u :: rest ∧ t.tok = .name n ∧ c.tok = .colon ∧ (∀ m, u.tok = .name m → Dotted m) ∧
      u.tok ≠ .eof ∧ x = .invalidInstruction ∧ p = .span u.span) ∨
    (∃ t n u rest, l = t :: u :: rest ∧ t.tok = .name n ∧ Dotted n ∧ n ∉ directives.map String.toList ∧ u.tok ≠ .colon ∧
      u.tok ≠ .equals ∧ u.tok ≠ .name "equ".toList ∧ u.tok ≠ .eof ∧ x = .unknownDirective n ∧ p = .span t.span) ∨
    (Fits l ∧ Meaningless l x p) ∨
    (Fits l ∧ ∃ t n c l', l = t :: c :: l' ∧ t.tok = .name n ∧ c.tok = .colon ∧
      (∀ u, l'.head? = some u → ∃ m, u.tok = .name m ∧ ¬ Dotted m) ∧ Meaningless l' x p) := by
  cases h with
  | stuck h1 h2 => exact .inl (.stuck h1 h2)
  | excess h1 h2 h3 h4 => exact .inl (.excess rfl h1 h2 h3 h4 rfl rfl)
  | start h1 h2 => exact .inr (.inl ⟨_, _, rfl, h1, h2, rfl, rfl⟩)
  | label h1 h2 h3 h4 => exact .inr (.inr (.inl ⟨_, _, _, _, _, rfl, h1, h2, h3, h4, rfl, rfl⟩))
  | directive h1 h2 h3 h4 h5 h6 h7 => exact .inr (.inr (.inr (.inl ⟨_, _, _, _, rfl, h1, h2, h3, h4, h5, h6, h7, rfl, rfl⟩)))
  | meaning h1 h2 => exact .inr (.inr (.inr (.inr (.inl ⟨meaningless_fits h2 h1, h2⟩))))
  | labelled h1 h2 h3 h4 =>
    exact .inr (.inr (.inr (.inr (.inr ⟨labelled_fits h1 h2 h3 h4, _, _, _, _, rfl, h1, h2, h3, h4⟩))))

theorem broken_unique {l x p x' p'} (h : Broken l x p) (h' : Broken l x' p') : x = x' ∧ p = p' := by
  have key : ∀ {x p w t rest}, l = w ++ t :: rest → Shaped (words w) → ¬ Follow Shaped (words w) t.tok →
      (∀ x u, Wanted x u → ¬ Follow Shaped (words w) u) → ¬ Stuck Shaped l x p := by
    intro x p w t rest e h1 h2 h3 h
    rcases stuck_viable h with ⟨w', t', r', e', h1', rfl, h2', _⟩ | ⟨rfl, rfl, ⟨t', more', h1'⟩, h2'⟩
    · obtain ⟨u, hu, hf⟩ := h1'.1
      rw [e] at e'
      rcases cut e' with ⟨rfl, rfl, _⟩ | ⟨m, rfl⟩ | ⟨m, rfl⟩
      · exact h3 _ _ hu hf
      · obtain ⟨more, hf⟩ := hf
        exact h2 (follow_of hf)
      · exact h2' (follow_of (m := m) (v := []) (by rw [List.append_nil]; exact h1))
    · subst e
      exact h2 (follow_of h1')
  cases h with
  | stuck _ h1 =>
    cases h' with
    | stuck _ h2 => exact stuck_unique h1 h2
    | excess e h2 _ h3 h4 => exact absurd h1 (key e h2 h3 h4)
  | excess e h2 _ h3 h4 hx hp =>
    cases h' with
    | stuck _ h1 => exact absurd h1 (key e h2 h3 h4)
    | excess e' h2' _ h3' h4' hx' hp' =>
      subst e
      rcases cut e' with ⟨rfl, rfl, _⟩ | ⟨m, rfl⟩ | ⟨m, rfl⟩
      · exact ⟨hx.trans hx'.symm, hp.trans hp'.symm⟩
      · exact absurd (follow_of (m := m) (v := []) (by rw [List.append_nil]; exact h2')) h3
      · exact absurd (follow_of (m := m) (v := []) (by rw [List.append_nil]; exact h2)) h3'

theorem broken_fits {l x p} (h : Broken l x p) : ¬ Fits l := by
  rintro ⟨w, e, rfl, h1, h2⟩
  cases h with
  | stuck _ h => exact not_stuck shaped_noeof h1 h2 h
  | @excess w' t rest eq h3 h4 h5 h6 _ _ =>
    rcases List.append_eq_append_iff.mp eq with ⟨m, rfl, h7⟩ | ⟨m, rfl, h7⟩
    · subst h7
      cases m with
      | nil =>
        rcases h2 with h2 | ⟨_, h2⟩
        · cases h2
        · injection h2 with h2 _; exact h4 h2
      | cons c m =>
        rcases h2 with h2 | ⟨_, h2⟩
        · cases h2
        · injection h2 with h2 _
          refine absurd ?_ (shaped_noeof _ h3)
          simp [h2]
    · cases m with
      | nil =>
        rw [List.nil_append] at h7
        subst h7
        rcases h2 with h2 | ⟨_, h2⟩
        · cases h2
        · injection h2 with h2 _; exact h4 h2
      | cons c m =>
        injection h7 with h7 _
        subst h7
        exact h5 (follow_of (m := m) (v := []) (by rw [List.append_nil]; exact h1))

/-- A line that is broken begins like one: with a name, -/
theorem broken_name {t : Token} {l x p} (h : Broken (t :: l) x p) : ∃ n, t.tok = .name n := by
  cases h with
  | stuck h _ => obtain ⟨t', n, r, e, h, _⟩ := h; injection e with e _; subst e; exact ⟨n, h⟩
  | @excess w t' rest e h1 _ _ h4 _ _ =>
    cases w with
    | nil => exact absurd (follow_first _) (h4 _ _ plain_wanted)
    | cons u w => injection e with e _; subst e; exact shaped_name h1

/-- and with an instruction after a label; -/
theorem broken_label {t c u : Token} {l x p} (h : Broken (t :: c :: u :: l) x p) (hc : c.tok = .colon) :
    ∃ m, u.tok = .name m ∧ ¬ Dotted m := by
  obtain ⟨n, hn⟩ := broken_name h
  cases h with
  | stuck h _ =>
    obtain ⟨t', n, r, e, _, h⟩ := h
    injection e with _ e
    exact h c u l e.symm hc
  | @excess w t' rest e h1 _ h3 h4 _ _ =>
    cases w with
    | nil => exact absurd (follow_first _) (h4 _ _ plain_wanted)
    | cons a w =>
      injection e with e1 e
      subst e1
      cases w with
      | nil =>
        injection e with e1 e
        subst e1
        rw [show words [t] = [t.tok] from rfl, hn, hc] at h3
        exact absurd (follow_name n) h3
      | cons b w =>
        injection e with e1 e
        subst e1
        cases w with
        | nil =>
          have := h4 _ _ plain_wanted
          rw [show words [t, c] = [t.tok, c.tok] from rfl, hn, hc] at this
          exact absurd (follow_label n) this
        | cons d w =>
          injection e with e1 e
          subst e1
          rw [show words (t :: c :: u :: w) = t.tok :: c.tok :: u.tok :: words w from rfl, hc] at h1
          exact shaped_label h1

/-- what follows a name with a dot that is no directive is a definition. -/
theorem broken_dotted {t u : Token} {n l x p} (h : Broken (t :: u :: l) x p) (ht : t.tok = .name n) (hd : Dotted n)
    (hn : n ∉ directives.map String.toList) : u.tok = .colon ∨ u.tok = .equals ∨ u.tok = .name "equ".toList := by
  have hlong : ∀ {w : List Token} {v}, Shaped (words (t :: u :: w) ++ v) →
      u.tok = .colon ∨ u.tok = .equals ∨ u.tok = .name "equ".toList := fun h => by
    rw [show words (t :: u :: _) = t.tok :: u.tok :: words _ from rfl, ht] at h
    exact shaped_dotted h hd hn
  have hsent : ExprSyntax [.name "a".toList] (.name "a".toList) := .tight (.tight (.tight (.tight (.atom .name))))
  have heq : Follow Shaped [.name n] .equals := ⟨[.name "a".toList], .variable hn hsent⟩
  have hequ : Follow Shaped [.name n] (.name "equ".toList) := ⟨[.name "a".toList], .alias hn hsent⟩
  cases h with
  | stuck _ h =>
    rcases stuck_viable h with ⟨w', t', r', e, h1', rfl, h2', _⟩ | ⟨rfl, rfl, ⟨t', more', h1'⟩, h2'⟩
    · cases w' with
      | nil =>
        injection e with e _
        subst e
        rw [ht] at h2'
        exact absurd (follow_first n) h2'
      | cons a w' =>
        injection e with e1 e
        subst e1
        cases w' with
        | nil =>
          exfalso
          rw [show words [t] = [t.tok] from rfl, ht] at h1'
          have hx : x = .invalidExpression := by
            have h3 := may_inv (h1'.2 _ heq)
            have h4 := may_inv (h1'.2 _ hequ)
            simp only [reduceCtorEq, exists_false, and_false, false_and, or_false, false_or] at h3
            rcases h3 with h3 | h3 | ⟨_, _, h3⟩
            · exact h3
            · rcases wanted_inv h3 with h | h | ⟨_, h, _⟩ | ⟨_, _, h, _⟩ | ⟨_, h, _⟩ | ⟨_, rfl⟩ | ⟨_, h, _⟩ | ⟨_, h, _⟩
              all_goals first | (simp at h; done) | skip
              rcases h4 with h4 | h4 | ⟨h4, _⟩ | ⟨h4, _⟩ | ⟨_, _, h4⟩ | h4 | h4
              · cases h4
              · rcases wanted_inv h4 with h | h | ⟨_, _, _, h⟩ | ⟨_, _, h, _⟩ | ⟨_, h, _⟩ | ⟨h, _⟩ | ⟨_, _, _, h⟩ | ⟨_, h, _⟩
                all_goals first | exact absurd h (by decide) | simp at h
              · exact absurd h4 (by decide)
              · exact absurd h4 (by decide)
              · cases h4
              · cases h4
              · cases h4
            · cases h3
          subst hx
          obtain ⟨v, hv, more, hf⟩ := h1'.1
          have hs := shaped_dotted hf hd hn
          rcases wanted_inv hv with h | h | ⟨_, _, _, h⟩ | ⟨_, _, _, h⟩ | ⟨_, _, h⟩ | ⟨_, h⟩ | ⟨_, _, _, h⟩ | ⟨k, rfl, _⟩
          all_goals first | (simp at h; done) | skip
          simp at hs
        | cons b w' =>
          injection e with e1 e
          subst e1
          obtain ⟨v, hv, more, hf⟩ := h1'.1
          exact hlong hf
    · exact hlong h1'
  | @excess w t' rest e h1 _ h3 h4 _ _ =>
    cases w with
    | nil => exact absurd (follow_first _) (h4 _ _ plain_wanted)
    | cons a w =>
      injection e with e1 e
      subst e1
      cases w with
      | nil =>
        have := h4 _ _ .equals
        rw [show words [t] = [t.tok] from rfl, ht] at this
        exact absurd heq this
      | cons b w =>
        injection e with e1 e
        subst e1
        exact hlong (w := w) (v := []) (by rw [List.append_nil]; exact h1)

theorem fits_name {t : Token} {l} (h : Fits (t :: l)) (ht : t.tok ≠ .eof) : ∃ n, t.tok = .name n := by
  obtain ⟨w, e, eq, h1, h2⟩ := h
  cases w with
  | nil =>
    rw [List.nil_append] at eq
    subst eq
    rcases h2 with h2 | ⟨_, h2⟩
    · cases h2
    · injection h2 with h2 _; exact absurd h2 ht
  | cons a w => injection eq with eq _; subst eq; exact shaped_name h1

theorem meaningless_not {t : Token} {n l x p} (h : Meaningless (t :: l) x p) (ht : t.tok = .name n) (hd : Dotted n)
    (hn : n ∉ directives.map String.toList) : False := by
  rcases meaningless_dir h with ⟨m, h1, h2⟩ | ⟨d, hd', h1⟩ <;> rw [ht] at h1 <;> injection h1 with h1
  · exact mnemonic_not_dotted h2 (h1 ▸ hd)
  · exact hn (h1 ▸ List.mem_map.mpr ⟨_, hd', rfl⟩)

/-- There is one error for a line; its place is also unique, unless the line has the right shape. -/
theorem lineError_unique {l x p x' p'} (h : LineError l x p) (h' : LineError l x' p') : x = x' ∧ (p = p' ∨ Fits l) := by
  rcases lineError_cases h with h | ⟨t, r, rfl, h1, h2, rfl, rfl⟩ | ⟨t, n, c, u, r, rfl, h1, h2, h3, h4, rfl, rfl⟩ |
    ⟨t, n, u, r, rfl, h1, h2, h3, h4, h5, h6, h7, rfl, rfl⟩ | ⟨hf, h⟩ | ⟨hf, t, n, c, r, rfl, h1, h2, h3, h⟩ <;>
  rcases lineError_cases h' with h' | ⟨t', r', e, h1', h2', rfl, rfl⟩ | ⟨t', n', c', u', r', e, h1', h2', h3', h4', rfl, rfl⟩ |
    ⟨t', n', u', r', e, h1', h2', h3', h4', h5', h6', h7', rfl, rfl⟩ | ⟨hf', h'⟩ | ⟨hf', t', n', c', r', e, h1', h2', h3', h'⟩
  · obtain ⟨hx, hp⟩ := broken_unique h h'
    exact ⟨hx, .inl hp⟩
  · subst e
    obtain ⟨n, hn⟩ := broken_name h
    exact absurd hn (h1' n)
  · subst e
    obtain ⟨m, hm, hd⟩ := broken_label h h2'
    exact absurd (h3' m hm) hd
  · subst e
    rcases broken_dotted h h1' h2' h3' with hu | hu | hu
    · exact absurd hu h4'
    · exact absurd hu h5'
    · exact absurd hu h6'
  · exact absurd hf' (broken_fits h)
  · exact absurd hf' (broken_fits h)
  · obtain ⟨n, hn⟩ := broken_name h'
    exact absurd hn (h1 n)
  · injection e with e _; subst e; exact ⟨rfl, .inl rfl⟩
  · injection e with e _; subst e; exact absurd h1' (h1 _)
  · injection e with e _; subst e; exact absurd h1' (h1 _)
  · obtain ⟨n, hn⟩ := fits_name hf' h2
    exact absurd hn (h1 n)
  · injection e with e _; subst e; exact absurd h1' (h1 _)
  · obtain ⟨m, hm, hd⟩ := broken_label h' h2
    exact absurd (h3 m hm) hd
  · injection e with e _; subst e; exact absurd h1 (h1' _)
  · injection e with _ e; injection e with _ e; injection e with e _; subst e; exact ⟨rfl, .inl rfl⟩
  · injection e with _ e; injection e with e _; subst e; exact absurd h2 h4'
  · exact absurd h2 (meaningless_colon h')
  · injection e with _ e
    injection e with _ e
    subst e
    obtain ⟨m, hm, hd⟩ := h3' u rfl
    exact absurd (h3 m hm) hd
  · rcases broken_dotted h' h1 h2 h3 with hu | hu | hu
    · exact absurd hu h4
    · exact absurd hu h5
    · exact absurd hu h6
  · injection e with e _; subst e; exact absurd h1 (h1' _)
  · injection e with _ e; injection e with e _; subst e; exact absurd h2' h4
  · injection e with e _
    subst e
    rw [h1] at h1'
    injection h1' with h1'
    subst h1'
    exact ⟨rfl, .inl rfl⟩
  · exact (meaningless_not h' h1 h2 h3).elim
  · injection e with _ e; injection e with e _; subst e; exact absurd h2' h4
  · exact absurd hf (broken_fits h')
  · subst e
    obtain ⟨n, hn⟩ := fits_name hf h2'
    exact absurd hn (h1' n)
  · subst e; exact absurd h2' (meaningless_colon h)
  · subst e; exact (meaningless_not h h1' h2' h3').elim
  · exact ⟨meaningless_unique h h', .inr hf⟩
  · subst e; exact absurd h2' (meaningless_colon h)
  · exact absurd hf (broken_fits h')
  · injection e with e _; subst e; exact absurd h1 (h1' _)
  · injection e with _ e
    injection e with _ e
    subst e
    obtain ⟨m, hm, hd⟩ := h3 u' rfl
    exact absurd (h3' m hm) hd
  · injection e with _ e; injection e with e _; subst e; exact absurd h2 h4'
  · exact absurd h2 (meaningless_colon h')
  · injection e with _ e
    injection e with _ e
    subst e
    exact ⟨meaningless_unique h h', .inr hf⟩

/-! ### A line that is right has no error -/

theorem line_shaped {w ss} (h : LineSyntax w ss) : Shaped w := by
  cases h with
  | empty => exact .empty
  | label => exact .label
  | labelled h => obtain ⟨n, w, args, rfl, hd, h⟩ := instrSyntax_first h; exact .labelled hd h
  | localLabel h1 h2 => exact .localLabel h1 h2
  | instr h hq =>
    obtain ⟨n, w, args, rfl, hd, h⟩ := instrSyntax_first h
    refine .operation hd h fun hh => hq ?_
    cases w with
    | nil => cases hh
    | cons u w => exact hh
  | alias h1 h2 => exact .alias h1 h2
  | «variable» h1 h2 => exact .variable h1 h2
  | directive h =>
    cases h with
    | byte h => exact .byte (.inr h)
    | word h => exact .word (.inr h)
    | org => exact .org
    | text => exact .text
    | string => exact .string
    | cnop h h' => exact .cnop h h'
    | incl => exact .incl
    | asm => exact .typed (by decide)
    | bytes => exact .typed (by decide)
    | cpp => exact .typed (by decide)
    | icon h => exact .image (by decide) h
    | sprite h => exact .image (by decide) h

theorem right_fits {l} (h : Right l) : Fits l := by
  obtain ⟨w, e, ss, h1, h2, h3⟩ := h
  obtain ⟨w', e', rfl, rfl, rfl⟩ := toks_append h1
  exact ⟨w', e', rfl, line_shaped h2, h3⟩

theorem fits_label {t c u : Token} {l} (h : Fits (t :: c :: u :: l)) (ht : t.tok ≠ .eof) (hc : c.tok = .colon) (hu : u.tok ≠ .eof) :
    ∃ m, u.tok = .name m ∧ ¬ Dotted m := by
  obtain ⟨w, e, eq, h1, h2⟩ := h
  have hend : ∀ {v : Token} {r}, v :: r = e → v.tok ≠ .eof → False := fun hv hn => by
    subst hv
    rcases h2 with h2 | ⟨_, h2⟩
    · cases h2
    · injection h2 with h2 _; exact hn h2
  cases w with
  | nil => exact (hend eq ht).elim
  | cons a w =>
    injection eq with e1 eq
    subst e1
    cases w with
    | nil => exact (hend eq (by rw [hc]; simp)).elim
    | cons b w =>
      injection eq with e1 eq
      subst e1
      cases w with
      | nil => exact (hend eq hu).elim
      | cons d w =>
        injection eq with e1 eq
        subst e1
        rw [show words (t :: c :: u :: w) = t.tok :: c.tok :: u.tok :: words w from rfl, hc] at h1
        exact shaped_label h1

theorem fits_dotted {t u : Token} {n l} (h : Fits (t :: u :: l)) (ht : t.tok = .name n) (hd : Dotted n)
    (hn : n ∉ directives.map String.toList) (hu : u.tok ≠ .eof) : u.tok = .colon ∨ u.tok = .equals ∨ u.tok = .name "equ".toList := by
  obtain ⟨w, e, eq, h1, h2⟩ := h
  have hend : ∀ {v : Token} {r}, v :: r = e → v.tok ≠ .eof → False := fun hv hn => by
    subst hv
    rcases h2 with h2 | ⟨_, h2⟩
    · cases h2
    · injection h2 with h2 _; exact hn h2
  cases w with
  | nil => exact (hend eq (by rw [ht]; simp)).elim
  | cons a w =>
    injection eq with e1 eq
    subst e1
    cases w with
    | nil => exact (hend eq hu).elim
    | cons b w =>
      injection eq with e1 eq
      subst e1
      rw [show words (t :: u :: w) = t.tok :: u.tok :: words w from rfl, ht] at h1
      exact shaped_dotted h1 hd hn

/-- An instruction without a meaning is no instruction. -/
theorem operands_wrong {n : Text} {w e w' e' : List Tok} {args s} (hm : Mnemonic n) (h : OptListed ArgSyntax w args)
    (hn : ¬ ∃ i, Writes n args i) (he : LineEnd e) (h' : InstrSyntax w' s) (he' : LineEnd e') (eq : .name n :: (w ++ e) = w' ++ e') :
    False := by
  cases h' with
  | @instr n' w1 args' i h1 h2 =>
    injection eq with e1 eq
    injection e1 with e1
    subst e1
    obtain ⟨rfl, _⟩ := listed_unique reads_arg h he h1 he' eq
    exact hn ⟨i, h2⟩
  | call h1 =>
    injection eq with e1 eq
    injection e1 with e1
    subst e1
    exact h1 hm

/-- The directive begins with this name. -/
theorem dir_first {n : Text} {w e w' : List Tok} {d} (hd : DirSyntax w d) (eq : .name n :: w' = w ++ e) : ∃ k ∈ directives, n = k.toList := by
  cases hd <;> (injection eq with eq _; injection eq with eq; exact ⟨_, by decide, eq⟩)

/-- A line that is no label and no definition is an instruction, a directive or a local label. -/
theorem line_kind {n : Text} {r w e : List Tok} {ss} (h : LineSyntax w ss) (he : LineEnd e) (eq : .name n :: r = w ++ e)
    (h1 : r.head? ≠ some .colon) (h2 : r.head? ≠ some .equals) (h3 : r.head? ≠ some (.name "equ".toList)) :
    (∃ s, InstrSyntax w s) ∨ (∃ d, DirSyntax w d) ∨ (Dotted n ∧ n ∉ directives.map String.toList) := by
  cases h with
  | empty => rcases he with rfl | ⟨_, rfl⟩ <;> cases eq
  | label => injection eq with _ eq; subst eq; exact absurd rfl h1
  | labelled => injection eq with _ eq; subst eq; exact absurd rfl h1
  | localLabel hd hn => injection eq with eq _; injection eq with eq; subst eq; exact .inr (.inr ⟨hd, hn⟩)
  | instr h => exact .inl ⟨_, h⟩
  | directive h => exact .inr (.inl ⟨_, h⟩)
  | alias => injection eq with _ eq; subst eq; exact absurd rfl h3
  | «variable» => injection eq with _ eq; subst eq; exact absurd rfl h2

theorem meaningless_equals {t c : Token} {l x p} (h : Meaningless (t :: c :: l) x p) : c.tok ≠ .equals := by
  intro hc
  have hend : ∀ {e : List Token}, c :: l = e → LineEnd (words e) → False := fun h he => by
    subst h
    rcases he with he | ⟨_, he⟩
    · cases he
    · injection he with he _; rw [hc] at he; cases he
  generalize hl : t :: c :: l = l' at h
  cases h with
  | @operands t' n w args e s h1 h2 h3 _ he =>
    injection hl with _ hl
    cases w with
    | nil => exact hend hl he
    | cons u w =>
      injection hl with hl _
      subst hl
      exact (optListed_head h3).2 (congrArg some hc)
  | bytes h1 he => injection hl with _ hl; exact hend hl he
  | words h1 he => injection hl with _ hl; exact hend hl he
  | speed h1 h2 => injection hl with _ hl; injection hl with hl _; subst hl; rw [hc] at h2; cases h2
  | spriteType h1 h2 => injection hl with _ hl; injection hl with hl _; subst hl; rw [hc] at h2; cases h2
  | spriteHeader h1 h2 => injection hl with _ hl; injection hl with hl _; subst hl; rw [hc] at h2; cases h2

theorem image_dir {kind : String} {l : List Token} {ps w e d} (h : Image kind l ps) (hd : DirSyntax w d) (he : LineEnd e)
    (eq : .name ".include".toList :: words l = w ++ e) (hk : kind = "icon" ∨ kind = "sprite") :
    (kind = "icon" ∧ ∃ v, IconSpeedIs ps v) ∨ (kind = "sprite" ∧ (∃ k, SpriteTypeIs ps k) ∧ ∃ b, SpriteHeaderIs ps b) := by
  obtain ⟨k, path, v, e', rfl, h1, h2, h3⟩ := h
  rw [show words (k :: path :: (v ++ e')) = k.tok :: path.tok :: words (v ++ e') from rfl, words_append, h1] at eq
  have kne : ∀ {s : Text}, Tok.name kind.toList = .name s → s = "icon".toList ∨ s = "sprite".toList := fun e => by
    injection e with e
    rcases hk with rfl | rfl
    · exact .inl e.symm
    · exact .inr e.symm
  cases hd with
  | byte => injection eq with eq _; exact absurd eq (by decide)
  | word => injection eq with eq _; exact absurd eq (by decide)
  | org => injection eq with eq _; exact absurd eq (by decide)
  | text => injection eq with eq _; exact absurd eq (by decide)
  | string => injection eq with eq _; exact absurd eq (by decide)
  | cnop => injection eq with eq _; exact absurd eq (by decide)
  | incl => injection eq with _ eq; injection eq with eq _; cases eq
  | asm => injection eq with _ eq; injection eq with eq _; exact absurd (kne eq) (by decide)
  | bytes => injection eq with _ eq; injection eq with eq _; exact absurd (kne eq) (by decide)
  | cpp => injection eq with _ eq; injection eq with eq _; exact absurd (kne eq) (by decide)
  | icon h4 h5 =>
    injection eq with _ eq
    injection eq with e1 eq
    injection eq with _ eq
    injection e1 with e1
    obtain ⟨rfl, _⟩ := listed_unique reads_prop h2 h3 h4 he eq
    exact .inl ⟨String.toList_inj.mp e1, _, h5⟩
  | sprite h4 h5 h6 =>
    injection eq with _ eq
    injection eq with e1 eq
    injection eq with _ eq
    injection e1 with e1
    obtain ⟨rfl, _⟩ := listed_unique reads_prop h2 h3 h4 he eq
    exact .inr ⟨String.toList_inj.mp e1, ⟨_, h5⟩, _, h6⟩

theorem dir_byte {w e r : List Tok} {d} (hd : DirSyntax w d) (he : LineEnd e) (hr : LineEnd r)
    (eq : .name ".byte".toList :: r = w ++ e) : False := by
  cases hd with
  | byte h =>
    injection eq with _ eq
    obtain ⟨rfl, _⟩ := listed_unique reads_byte (.inl ⟨rfl, rfl⟩ : OptListed _ [] []) hr (.inr h) he eq
    exact no_listed h
  | _ => injection eq with eq _; exact absurd eq (by decide)

theorem dir_word {w e r : List Tok} {d} (hd : DirSyntax w d) (he : LineEnd e) (hr : LineEnd r)
    (eq : .name ".word".toList :: r = w ++ e) : False := by
  cases hd with
  | word h =>
    injection eq with _ eq
    obtain ⟨rfl, _⟩ := listed_unique reads_expr (.inl ⟨rfl, rfl⟩ : OptListed _ [] []) hr (.inr h) he eq
    exact no_listed h
  | _ => injection eq with eq _; exact absurd eq (by decide)

theorem meaningless_right {l x p} (h : Meaningless l x p) (hq : ∀ t u rest, l = t :: u :: rest → u.tok ≠ .name "equ".toList) :
    ¬ Right l := by
  rintro ⟨w, e, ss, h1, h2, h3⟩
  obtain ⟨t, r, rfl⟩ := meaningless_cons h
  obtain ⟨n, ht⟩ : ∃ n, t.tok = .name n := by
    rcases meaningless_dir h with ⟨n, hn, _⟩ | ⟨d, _, hn⟩ <;> exact ⟨_, hn⟩
  have hhead : ∀ {k : Tok}, (∀ c l', r = c :: l' → c.tok ≠ k) → (words r).head? ≠ some k := fun hk hh => by
    cases r with
    | nil => cases hh
    | cons c r => exact hk c r rfl (Option.some.inj hh)
  have hk := line_kind h2 h3 (r := words r) (n := n) (by rw [← ht]; exact h1)
    (hhead fun c l' e => by subst e; exact meaningless_colon h) (hhead fun c l' e => by subst e; exact meaningless_equals h)
    (hhead fun c l' e => hq t c l' (by rw [e]))
  have hinstr : ∀ {s}, InstrSyntax w s → ¬ Dotted n := fun hs => by
    obtain ⟨n', w', as, rfl, hd, _⟩ := instrSyntax_first hs
    rw [show words (t :: r) = t.tok :: words r from rfl, ht] at h1
    injection h1 with h1 _
    injection h1 with h1
    rwa [h1]
  have hloc : Dotted n ∧ n ∉ directives.map String.toList → False := fun ⟨hd, hn⟩ => meaningless_not h ht hd hn
  have hdot : ∀ {k : String}, k ∈ directives → t.tok = .name k.toList → Dotted n := fun hk e => by
    rw [ht] at e
    injection e with e
    exact directive_dotted (e ▸ List.mem_map.mpr ⟨_, hk, rfl⟩)
  generalize hl : t :: r = l' at h
  rcases hk with ⟨s, hs⟩ | ⟨d, hd⟩ | hd
  · have hn := hinstr hs
    cases h with
    | @operands t' n' w' args e' s' h4 h5 h6 h7 h8 =>
      injection hl with e1 e2
      subst e1 e2
      rw [show words (t :: (w' ++ e')) = t.tok :: words (w' ++ e') from rfl, words_append, h4] at h1
      exact operands_wrong h5 h6 h7 h8 hs h3 h1
    | bytes h4 => injection hl with e1 e2; subst e1; exact hn (hdot (by decide) h4)
    | words h4 => injection hl with e1 e2; subst e1; exact hn (hdot (by decide) h4)
    | speed h4 => injection hl with e1 e2; subst e1; exact hn (hdot (by decide) h4)
    | spriteType h4 => injection hl with e1 e2; subst e1; exact hn (hdot (by decide) h4)
    | spriteHeader h4 => injection hl with e1 e2; subst e1; exact hn (hdot (by decide) h4)
  · cases h with
    | @operands t' n' w' args e' s' h4 h5 h6 h7 h8 =>
      injection hl with e1 e2
      subst e1 e2
      rw [show words (t :: (w' ++ e')) = t.tok :: words (w' ++ e') from rfl, h4] at h1
      obtain ⟨k, hk, rfl⟩ := dir_first hd h1
      exact mnemonic_not_dotted h5 (directive_dotted (List.mem_map.mpr ⟨_, hk, rfl⟩))
    | @bytes t' e' h4 h5 =>
      injection hl with e1 e2
      subst e1 e2
      rw [show words (t :: r) = t.tok :: words r from rfl, h4] at h1
      exact dir_byte hd h3 h5 h1
    | @words t' e' h4 h5 =>
      injection hl with e1 e2
      subst e1 e2
      rw [show words (t :: r) = t.tok :: words r from rfl, h4] at h1
      exact dir_word hd h3 h5 h1
    | @speed t' k path w' ps e' s u h4 h5 h6 h7 h8 h9 =>
      injection hl with e1 e2
      subst e1 e2
      rw [show words (t :: k :: path :: (w' ++ e')) = t.tok :: words (k :: path :: (w' ++ e')) from rfl, h4] at h1
      rcases image_dir ⟨k, path, w', e', rfl, h5, h7, h8⟩ hd h3 h1 (.inl rfl) with ⟨_, v, hv⟩ | ⟨h, _⟩
      · cases hv with
        | none hv => rw [hv] at h9; cases h9
        | some hv => rw [hv] at h9; cases h9
      · exact absurd h (by decide)
    | @spriteType t' k path w' ps e' v s y h4 h5 h6 h7 h8 h9 =>
      injection hl with e1 e2
      subst e1 e2
      rw [show words (t :: k :: path :: (w' ++ e')) = t.tok :: words (k :: path :: (w' ++ e')) from rfl, h4] at h1
      rcases image_dir ⟨k, path, w', e', rfl, h5, h7, h8⟩ hd h3 h1 (.inr rfl) with ⟨h, _⟩ | ⟨_, h, _⟩
      · exact absurd h (by decide)
      · exact h9 h
    | @spriteHeader t' k path w' ps e' v s y h4 h5 h6 h7 h8 _ h9 =>
      injection hl with e1 e2
      subst e1 e2
      rw [show words (t :: k :: path :: (w' ++ e')) = t.tok :: words (k :: path :: (w' ++ e')) from rfl, h4] at h1
      rcases image_dir ⟨k, path, w', e', rfl, h5, h7, h8⟩ hd h3 h1 (.inr rfl) with ⟨h, _⟩ | ⟨_, _, h⟩
      · exact absurd h (by decide)
      · exact h9 h
  · exact hloc hd

theorem dir_colon {w e r : List Tok} {t d} (hd : DirSyntax w d) (he : LineEnd e) (eq : t :: .colon :: r = w ++ e) : False := by
  have hend : ∀ {v : List Tok}, Tok.colon :: r = v ++ e → v.head? ≠ some .colon → False := fun h hv => by
    cases ‹List Tok› with
    | nil => rcases he with rfl | ⟨_, rfl⟩ <;> cases h
    | cons a v => injection h with h _; subst h; exact hv rfl
  cases hd with
  | byte h => injection eq with _ eq; exact hend eq (byte_head (.inr h))
  | word h => injection eq with _ eq; exact hend eq (exprs_head (.inr h))
  | cnop h =>
    injection eq with _ eq
    obtain ⟨t, w', rfl, h1, _⟩ := expr_head h
    injection eq with eq _
    exact h1 eq.symm
  | _ => injection eq with _ eq; cases eq

theorem labelled_right {t c : Token} {n l x p} (ht : t.tok = .name n) (hc : c.tok = .colon)
    (hl : ∀ u, l.head? = some u → ∃ m, u.tok = .name m ∧ ¬ Dotted m) (h : Meaningless l x p) : ¬ Right (t :: c :: l) := by
  rintro ⟨w, e, ss, h1, h2, h3⟩
  obtain ⟨u, r, rfl⟩ := meaningless_cons h
  obtain ⟨m, hu, hm⟩ := hl u rfl
  have hdot : ¬ ∃ d ∈ directives, u.tok = .name d.toList := fun ⟨d, hd, e⟩ => by
    rw [hu] at e
    injection e with e
    exact hm (directive_dotted (e ▸ List.mem_map.mpr ⟨_, hd, rfl⟩))
  rw [show words (t :: c :: u :: r) = t.tok :: c.tok :: words (u :: r) from rfl, ht, hc] at h1
  obtain ⟨s, w', rfl, hs⟩ : ∃ s w', w = .name n :: .colon :: w' ∧ InstrSyntax w' s := by
    have hsh := line_shaped h2
    cases h2 with
    | empty => rcases h3 with rfl | ⟨_, rfl⟩ <;> cases h1
    | label =>
      injection h1 with _ h1
      injection h1 with _ h1
      rcases h3 with rfl | ⟨_, rfl⟩
      · cases h1
      · injection h1 with h1 _; rw [hu] at h1; cases h1
    | labelled h => injection h1 with h1 _; injection h1 with h1; subst h1; exact ⟨_, _, rfl, h⟩
    | localLabel hd hn =>
      injection h1 with _ h1
      rcases h3 with rfl | ⟨_, rfl⟩
      · cases h1
      · cases h1
    | instr h =>
      obtain ⟨n', w', as, rfl, hd, h⟩ := instrSyntax_first h
      injection h1 with _ h1
      cases w' with
      | nil => rcases h3 with rfl | ⟨_, rfl⟩ <;> cases h1
      | cons a w' => injection h1 with h1 _; subst h1; exact absurd rfl (optListed_head h).1
    | directive h => exact (dir_colon h h3 h1).elim
    | alias => injection h1 with _ h1; cases h1
    | «variable» => injection h1 with _ h1; cases h1
  injection h1 with _ h1
  injection h1 with _ h1
  generalize hl' : u :: r = l' at h
  cases h with
  | @operands t' n' w'' args e' s' h4 h5 h6 h7 h8 =>
    injection hl' with e1 e2
    subst e1 e2
    rw [show words (u :: (w'' ++ e')) = u.tok :: words (w'' ++ e') from rfl, words_append, h4] at h1
    exact operands_wrong h5 h6 h7 h8 hs h3 h1
  | bytes h4 => injection hl' with e1 e2; subst e1; exact hdot ⟨_, by decide, h4⟩
  | words h4 => injection hl' with e1 e2; subst e1; exact hdot ⟨_, by decide, h4⟩
  | speed h4 => injection hl' with e1 e2; subst e1; exact hdot ⟨_, by decide, h4⟩
  | spriteType h4 => injection hl' with e1 e2; subst e1; exact hdot ⟨_, by decide, h4⟩
  | spriteHeader h4 => injection hl' with e1 e2; subst e1; exact hdot ⟨_, by decide, h4⟩

/-- A line that is right has no error. -/
theorem right_lineError {l x p} (hr : Right l) : ¬ LineError l x p := by
  intro h
  have hf := right_fits hr
  cases h with
  | stuck h1 h2 => exact broken_fits (.stuck h1 h2) hf
  | excess h1 h2 h3 h4 => exact broken_fits (.excess rfl h1 h2 h3 h4 rfl rfl) hf
  | start h1 h2 => obtain ⟨n, hn⟩ := fits_name hf h2; exact h1 n hn
  | label h1 h2 h3 h4 =>
    obtain ⟨m, hm, hd⟩ := fits_label hf (by rw [h1]; simp) h2 h4
    exact hd (h3 m hm)
  | directive h1 h2 h3 h4 h5 h6 h7 =>
    rcases fits_dotted hf h1 h2 h3 h7 with h | h | h
    · exact h4 h
    · exact h5 h
    · exact h6 h
  | meaning h1 h2 => exact meaningless_right h2 h1 hr
  | labelled h1 h2 h3 h4 => exact labelled_right h1 h2 h3 h4 hr

theorem erase_cases {α β : Type} {r : Res α} {k : α → β} {r' : Verif.Res β} (h : r.erase k = r') (hf : Fine r') :
    (∃ a, r = .ok a) ∨ ∃ x p, r = .err ⟨x, p⟩ := by
  subst h
  cases r with
  | ok a => exact .inl ⟨a, rfl⟩
  | err e => exact .inr ⟨e.err, e.place, rfl⟩
  | panic => exact absurd rfl hf.2
  | loop => exact absurd rfl hf.1

theorem lineError_parse {l x p} (h : LineError l x p) : ∃ q, parseLine l = .err ⟨x, q⟩ ∧ (q = p ∨ Fits l) := by
  rcases erase_cases (erase_parseLine l) (line_fine _) with ⟨ss, hp⟩ | ⟨y, q, hp⟩
  · exact absurd h (right_lineError (line_right hp))
  · obtain ⟨h1, h2⟩ := lineError_unique (line_err hp) h
    subst h1
    exact ⟨q, hp, h2⟩

end Verif.Located
