import Verif.Lemmas.Located.OneError
/-
There is only one error for a program.
-/
namespace Verif.Located
open Verif.Spec Verif.Spec.Syntax

/-! ### The first line of a macro definition -/

/-- The language of lists of arguments -/
abbrev Args (w : List Tok) : Prop := ∃ args, OptListed ArgSyntax w args

theorem args_noeof (w : List Tok) (h : Args w) : Tok.eof ∉ w := by
  obtain ⟨_, h⟩ := h
  exact optListed_noeof (fun _ _ => arg_noeof) h

theorem args_unique {w w' e e' : List Token} {as as'} (h : OptListed ArgSyntax (words w) as) (he : LineEnd (words e))
    (h' : OptListed ArgSyntax (words w') as') (he' : LineEnd (words e')) (eq : w ++ e = w' ++ e') : as = as' := by
  refine (listed_unique reads_arg h he h' he' ?_).1
  rw [← words_append, ← words_append, eq]

/-- What is wrong with a list of arguments that should be parameters: a name that is there already, or no name -/
inductive Unnamed : List Verif.Arg → Err → Prop where
  | duplicate {before : List Text} {k after} : before.Nodup → k ∈ before →
      Unnamed (before.map .macroArg ++ .macroArg k :: after) (.duplicateMacroArg k)
  | invalid {before : List Text} {a after} : before.Nodup → (∀ k, a ≠ .macroArg k) →
      Unnamed (before.map .macroArg ++ a :: after) .invalidMacroParam

/-- The first arguments are parameters with different names, and the next one is none. -/
theorem unnamed_parts {args x} (h : Unnamed args x) : ∃ (before : List Text) (a : Verif.Arg) (after : List Verif.Arg),
    args = before.map .macroArg ++ a :: after ∧ before.Nodup ∧
    ((∃ k, a = .macroArg k ∧ k ∈ before ∧ x = .duplicateMacroArg k) ∨ ((∀ k, a ≠ .macroArg k) ∧ x = .invalidMacroParam)) := by
  cases h with
  | duplicate h1 h2 => exact ⟨_, _, _, rfl, h1, .inl ⟨_, rfl, h2, rfl⟩⟩
  | invalid h1 h2 => exact ⟨_, _, _, rfl, h1, .inr ⟨h2, rfl⟩⟩

theorem map_arg_split {before : List Text} {b : List Verif.Arg} {a m} (h : before.map Verif.Arg.macroArg = b ++ a :: m) :
    ∃ (b' : List Text) (k : Text) (m' : List Text), before = b' ++ k :: m' ∧ b = b'.map .macroArg ∧ a = .macroArg k := by
  obtain ⟨b', r, rfl, h1, h2⟩ := List.map_eq_append_iff.mp h
  obtain ⟨k, m', rfl, h3, h4⟩ := List.map_eq_cons_iff.mp h2
  exact ⟨b', k, m', rfl, h1.symm, h3.symm⟩

theorem arg_map_inj {b b' : List Text} (h : b.map Verif.Arg.macroArg = b'.map .macroArg) : b = b' := by
  induction b generalizing b' with
  | nil => cases b' with
    | nil => rfl
    | cons => cases h
  | cons a b ih => cases b' with
    | nil => cases h
    | cons a' b' => injection h with h1 h2; injection h1 with h1; rw [h1, ih h2]

theorem nodup_mid {b : List Text} {k m} (h : (b ++ k :: m).Nodup) : k ∉ b := by
  intro hk
  have := List.nodup_append.mp h
  exact this.2.2 k hk k List.mem_cons_self rfl

theorem unnamed_unique {args x x'} (h : Unnamed args x) (h' : Unnamed args x') : x = x' := by
  obtain ⟨b, a, c, rfl, h1, h2⟩ := unnamed_parts h
  obtain ⟨b', a', c', e, h1', h2'⟩ := unnamed_parts h'
  have key : ∀ {b b' : List Text} {a : Verif.Arg} {m x}, b'.Nodup → b'.map Verif.Arg.macroArg = b.map .macroArg ++ a :: m →
      ((∃ k, a = .macroArg k ∧ k ∈ b ∧ x = Err.duplicateMacroArg k) ∨ ((∀ k, a ≠ .macroArg k) ∧ x = .invalidMacroParam)) → False := by
    intro b b' a m x hn e h
    obtain ⟨b1, k, m', rfl, h3, rfl⟩ := map_arg_split e
    have := arg_map_inj h3
    subst this
    rcases h with ⟨k', hk, h4, _⟩ | ⟨h4, _⟩
    · injection hk with hk
      subst hk
      exact nodup_mid hn h4
    · exact h4 k rfl
  rcases cut e with ⟨e1, e2, _⟩ | ⟨m, e1⟩ | ⟨m, e1⟩
  · subst e2
    rcases h2 with ⟨k, rfl, _, rfl⟩ | ⟨h2, rfl⟩ <;> rcases h2' with ⟨k', hk, _, rfl⟩ | ⟨h2', rfl⟩
    · injection hk with hk; rw [hk]
    · exact absurd rfl (h2' k)
    · exact absurd hk (h2 k')
    · rfl
  · exact (key h1' e1 h2).elim
  · exact (key h1 e1 h2').elim

theorem unnamed_params {params : List Text} {args x} (h : Unnamed args x) (hp : args = params.map .macroArg) : ¬ params.Nodup := by
  intro hn
  obtain ⟨b, a, c, rfl, h1, h2⟩ := unnamed_parts h
  obtain ⟨b1, k, m', rfl, h3, rfl⟩ := map_arg_split hp.symm
  have := arg_map_inj h3
  subst this
  rcases h2 with ⟨k', hk, h4, _⟩ | ⟨h4, _⟩
  · injection hk with hk
    subst hk
    exact nodup_mid hn h4
  · exact h4 k rfl

theorem headerError_cases {ds l x p} (h : HeaderError ds l x p) :
    (∃ m, l = [m] ∧ x = .unexpectedEof) ∨
    (∃ m u rest, l = m :: u :: rest ∧ (∀ n, u.tok ≠ .name n) ∧ x = .expectedTokenNotFound "Name".toList) ∨
    (∃ m u n rest, l = m :: u :: rest ∧ u.tok = .name n ∧ Mnemonic n ∧ x = .macroNameConflict n) ∨
    (∃ m u n rest, l = m :: u :: rest ∧ u.tok = .name n ∧ ¬ Mnemonic n ∧ Stuck Args rest x p) ∨
    (∃ m u n w args e, l = m :: u :: (w ++ e) ∧ u.tok = .name n ∧ ¬ Mnemonic n ∧ OptListed ArgSyntax (words w) args ∧ LineEnd (words e) ∧
      (((∃ d ∈ ds, d.name = n ∧ d.arity = args.length) ∧ x = .macroAlreadyExists n args.length) ∨
        ((¬ ∃ d ∈ ds, d.name = n ∧ d.arity = args.length) ∧ Unnamed args x))) := by
  cases h with
  | short => exact .inl ⟨_, rfl, rfl⟩
  | name h => exact .inr (.inl ⟨_, _, _, rfl, h, rfl⟩)
  | conflict h1 h2 => exact .inr (.inr (.inl ⟨_, _, _, _, rfl, h1, h2, rfl⟩))
  | args h1 h2 h3 => exact .inr (.inr (.inr (.inl ⟨_, _, _, _, rfl, h1, h2, h3⟩)))
  | «exists» h1 h2 h3 h4 h5 h6 h7 =>
    exact .inr (.inr (.inr (.inr ⟨_, _, _, _, _, _, rfl, h1, h2, h3, h4, .inl ⟨⟨_, h5, h6, h7⟩, rfl⟩⟩)))
  | duplicate h1 h2 h3 h4 h5 h6 h7 =>
    refine .inr (.inr (.inr (.inr ⟨_, _, _, _, _, _, rfl, h1, h2, h3, h4, .inr ⟨?_, .duplicate h6 h7⟩⟩)))
    rintro ⟨d, hd, h8, h9⟩
    refine h5 d hd ⟨h8, h9.trans ?_⟩
    simp only [List.length_append, List.length_map, List.length_cons]
    omega
  | @invalid m u n before a after e w1 w2 w3 s h1 h2 h3 h4 h5 h6 h7 =>
    refine .inr (.inr (.inr (.inr ⟨_, _, _, w1 ++ w2 ++ w3, _, _, rfl, h1, h2, h3, h4, .inr ⟨?_, .invalid h6 h7⟩⟩)))
    rintro ⟨d, hd, h8, h9⟩
    refine h5 d hd ⟨h8, h9.trans ?_⟩
    simp only [List.length_append, List.length_map, List.length_cons]
    omega

theorem headerError_unique {ds l x p x' p'} (h : HeaderError ds l x p) (h' : HeaderError ds l x' p') : x = x' := by
  have name : ∀ {u u' : Token} {n n' : Text} {rest rest' : List Token}, u :: rest = u' :: rest' → u.tok = .name n → u'.tok = .name n' →
      n = n' := fun e h h' => by
    injection e with e _
    subst e
    rw [h] at h'
    injection h'
  rcases headerError_cases h with ⟨m, rfl, rfl⟩ | ⟨m, u, r, rfl, h1, rfl⟩ | ⟨m, u, n, r, rfl, h1, h2, rfl⟩ | ⟨m, u, n, r, rfl, h1, h2, h3⟩ |
      ⟨m, u, n, w, args, e, rfl, h1, h2, h3, h4, h5⟩ <;>
    rcases headerError_cases h' with ⟨m', eq, rfl⟩ | ⟨m', u', r', eq, h1', rfl⟩ | ⟨m', u', n', r', eq, h1', h2', rfl⟩ |
      ⟨m', u', n', r', eq, h1', h2', h3'⟩ | ⟨m', u', n', w', args', e', eq, h1', h2', h3', h4', h5'⟩ <;>
    injection eq with _ eq
  · rfl
  · cases eq
  · cases eq
  · cases eq
  · cases eq
  · cases eq
  · rfl
  · injection eq with eq _; subst eq; exact absurd h1' (h1 _)
  · injection eq with eq _; subst eq; exact absurd h1' (h1 _)
  · injection eq with eq _; subst eq; exact absurd h1' (h1 _)
  · cases eq
  · injection eq with eq _; subst eq; exact absurd h1 (h1' _)
  · rw [name eq h1 h1']
  · exact absurd h2 ((name eq h1 h1') ▸ h2')
  · exact absurd h2 ((name eq h1 h1') ▸ h2')
  · cases eq
  · injection eq with eq _; subst eq; exact absurd h1 (h1' _)
  · exact absurd h2' ((name eq h1 h1') ▸ h2)
  · injection eq with _ eq
    subst eq
    exact (stuck_unique h3 h3').1
  · injection eq with _ eq
    subst eq
    exact absurd h3 (not_stuck args_noeof ⟨_, h3'⟩ h4')
  · cases eq
  · injection eq with eq _; subst eq; exact absurd h1 (h1' _)
  · exact absurd h2' ((name eq h1 h1') ▸ h2)
  · injection eq with _ eq
    subst eq
    exact absurd h3' (not_stuck args_noeof ⟨_, h3⟩ h4)
  · have hn := name eq h1 h1'
    subst hn
    injection eq with _ eq
    have := args_unique h3 h4 h3' h4' eq
    subst this
    rcases h5 with ⟨h5, rfl⟩ | ⟨h5, h6⟩ <;> rcases h5' with ⟨h5', rfl⟩ | ⟨h5', h6'⟩
    · rfl
    · exact absurd h5 h5'
    · exact absurd h5' h5
    · exact unnamed_unique h6 h6'

theorem header_right {ds l n params x p} (h : HeaderSyntax (words l) n params) (h1 : ¬ Mnemonic n) (h2 : params.Nodup)
    (h3 : ∀ d ∈ ds, ¬ (d.name = n ∧ d.arity = params.length)) : ¬ HeaderError ds l x p := by
  intro he
  obtain ⟨w, e, hl, h4, h5⟩ := h
  rcases headerError_cases he with ⟨m, rfl, rfl⟩ | ⟨m, u, r, rfl, g1, rfl⟩ | ⟨m, u, k, r, rfl, g1, g2, rfl⟩ | ⟨m, u, k, r, rfl, g1, g2, g3⟩ |
      ⟨m, u, k, w', args, e', rfl, g1, g2, g3, g4, g5⟩
  · injection hl with _ hl; cases hl
  · injection hl with _ hl; injection hl with hl _; exact g1 _ hl
  · injection hl with _ hl
    injection hl with hl _
    rw [g1] at hl
    injection hl with hl
    subst hl
    exact h1 g2
  · injection hl with _ hl
    injection hl with _ hl
    obtain ⟨w', e', rfl, rfl, rfl⟩ := toks_append hl
    exact not_stuck args_noeof ⟨_, h4⟩ h5 g3
  · injection hl with _ hl
    injection hl with hn hl
    rw [g1] at hn
    injection hn with hn
    subst hn
    obtain ⟨rfl, _⟩ := listed_unique reads_arg g3 g4 h4 h5 ((words_append w' e').symm.trans hl)
    rcases g5 with ⟨⟨d, hd, g6, g7⟩, _⟩ | ⟨_, g6⟩
    · exact h3 d hd ⟨g6, g7.trans (List.length_map _)⟩
    · exact unnamed_params g6 rfl h2

/-! ### The lines of a macro -/

theorem labels_cases {w : List Token} (h : Labels w) :
    w = [] ∨ ∃ a c, w = [a, c] ∧ c.tok = .colon ∧ ∃ n, a.tok = .name n ∨ a.tok = .macroLabel n := by
  obtain ⟨ss, h⟩ := h
  generalize hw : words w = k at h
  cases h with
  | none => exact .inl (toks_nil hw)
  | @label n =>
    obtain ⟨a, w1, rfl, ha, hw⟩ := toks_cons hw
    obtain ⟨c, w2, rfl, hc, hw⟩ := toks_cons hw
    have := toks_nil hw
    subst this
    exact .inr ⟨a, c, rfl, hc, n, .inl ha⟩
  | @macroLabel n =>
    obtain ⟨a, w1, rfl, ha, hw⟩ := toks_cons hw
    obtain ⟨c, w2, rfl, hc, hw⟩ := toks_cons hw
    have := toks_nil hw
    subst this
    exact .inr ⟨a, c, rfl, hc, n, .inr ha⟩

/-- What is wrong with the part `t :: rest` of a line of a macro after the label, which may be missing -/
def BodyFault (none : Prop) (t : Token) (rest : List Token) (x : Err) (p : Place) : Prop :=
  (∃ n, t.tok = .name n ∧ Dotted n ∧ (none → rest ≠ []) ∧ x = .unknownInstruction n) ∨
  (∃ n, t.tok = .name n ∧ ¬ Dotted n ∧ Stuck Args rest x p) ∨
  ((∀ n, t.tok ≠ .name n) ∧ t.tok ≠ .eof ∧ (none → ∀ n, t.tok = .macroLabel n → Dotted n → rest ≠ []) ∧ x = .unexpectedToken)

theorem bodyError_cases {l x p} (h : BodyError l x p) :
    (∃ t rest, l = t :: rest ∧ BodyFault True t rest x p ∧
      ∀ n, t.tok = .name n ∨ t.tok = .macroLabel n → ∀ c r, rest = c :: r → c.tok ≠ .colon) ∨
    (∃ a c t rest n, l = a :: c :: t :: rest ∧ c.tok = .colon ∧ (a.tok = .name n ∨ a.tok = .macroLabel n) ∧
      BodyFault False t rest x p) := by
  cases h with
  | dotted h1 h2 h3 h4 h5 =>
    rcases labels_cases h1 with rfl | ⟨a, c, rfl, hc, n, ha⟩
    · exact .inl ⟨_, _, rfl, .inl ⟨_, h2, h3, fun _ => h4 rfl, rfl⟩, fun _ _ c r e => h5 c r e rfl⟩
    · exact .inr ⟨a, c, _, _, n, rfl, hc, ha, .inl ⟨_, h2, h3, fun h => h.elim, rfl⟩⟩
  | args h1 h2 h3 h4 h5 =>
    rcases labels_cases h1 with rfl | ⟨a, c, rfl, hc, n, ha⟩
    · exact .inl ⟨_, _, rfl, .inr (.inl ⟨_, h2, h3, h5⟩), fun _ _ c r e => h4 c r e rfl⟩
    · exact .inr ⟨a, c, _, _, n, rfl, hc, ha, .inr (.inl ⟨_, h2, h3, h5⟩)⟩
  | excess h1 h2 h3 h4 =>
    rcases labels_cases h1 with rfl | ⟨a, c, rfl, hc, n, ha⟩
    · refine .inl ⟨_, _, rfl, .inr (.inr ⟨h2, h3, fun _ n hn => (h4 n rfl hn).1, rfl⟩), fun n hn c r e => ?_⟩
      rcases hn with hn | hn
      · exact absurd hn (h2 n)
      · exact (h4 n rfl hn).2 c r e
    · exact .inr ⟨a, c, _, _, n, rfl, hc, ha, .inr (.inr ⟨h2, h3, fun h => h.elim, rfl⟩)⟩

theorem bodyFault_unique {N t rest x p x' p'} (h : BodyFault N t rest x p) (h' : BodyFault N t rest x' p') : x = x' := by
  rcases h with ⟨n, h1, h2, h3, rfl⟩ | ⟨n, h1, h2, h3⟩ | ⟨h1, h2, h3, rfl⟩ <;>
    rcases h' with ⟨n', h1', h2', h3', rfl⟩ | ⟨n', h1', h2', h3'⟩ | ⟨h1', h2', h3', rfl⟩
  · rw [h1] at h1'; injection h1' with h1'; rw [h1']
  · rw [h1] at h1'; injection h1' with h1'; exact absurd (h1' ▸ h2) h2'
  · exact absurd h1 (h1' _)
  · rw [h1] at h1'; injection h1' with h1'; exact absurd (h1' ▸ h2') h2
  · exact (stuck_unique h3 h3').1
  · exact absurd h1 (h1' _)
  · exact absurd h1' (h1 _)
  · exact absurd h1' (h1 _)
  · rfl

theorem bodyError_unique {l x p x' p'} (h : BodyError l x p) (h' : BodyError l x' p') : x = x' := by
  rcases bodyError_cases h with ⟨t, r, rfl, h1, h2⟩ | ⟨a, c, t, r, n, rfl, h1, h2, h3⟩ <;>
    rcases bodyError_cases h' with ⟨t', r', e, h1', h2'⟩ | ⟨a', c', t', r', n', e, h1', h2', h3'⟩
  · injection e with e1 e2
    subst e1 e2
    exact bodyFault_unique h1 h1'
  · injection e with e1 e2
    subst e1
    exact absurd h1' (h2 _ h2' _ _ e2)
  · injection e with e1 e2
    subst e1
    exact absurd h1 (h2' _ h2 _ _ e2.symm)
  · injection e with _ e
    injection e with _ e
    injection e with e1 e2
    subst e1 e2
    exact bodyFault_unique h3 h3'

theorem fault_instr {N : Prop} {t : Token} {rest : List Token} {x p} {w e : List Tok} {ss} (h : BodyFault N t rest x p)
    (hi : MacroInstrSyntax w ss) (he : LineEnd e) (eq : t.tok :: words rest = w ++ e) : False := by
  cases hi with
  | none =>
    rw [List.nil_append] at eq
    subst eq
    rcases he with he | ⟨_, he⟩
    · cases he
    · injection he with he _
      rcases h with ⟨n, h1, _⟩ | ⟨n, h1, _⟩ | ⟨_, h1, _⟩
      · rw [he] at h1; cases h1
      · rw [he] at h1; cases h1
      · exact h1 he
  | instr hd ha =>
    injection eq with e1 e2
    rcases h with ⟨n, h1, h2, _⟩ | ⟨n, h1, h2, h3⟩ | ⟨h1, _⟩
    · rw [e1] at h1; injection h1 with h1; subst h1; exact hd h2
    · obtain ⟨w', e', rfl, rfl, rfl⟩ := toks_append e2
      exact not_stuck args_noeof ⟨_, ha⟩ he h3
    · exact h1 _ e1

theorem body_right {l ss x p} (h : MacroLine (words l) ss) : ¬ BodyError l x p := by
  intro hb
  generalize hl : words l = k at h
  cases h with
  | @mk w ss' w' ss'' e h1 h2 h3 =>
    cases h1 with
    | none =>
      rw [List.nil_append] at hl
      rcases bodyError_cases hb with ⟨t, r, rfl, h4, h5⟩ | ⟨a, c, t, r, n, rfl, h4, h5, h6⟩
      · exact fault_instr h4 h2 h3 hl
      · cases h2 with
        | none =>
          rw [List.nil_append] at hl
          subst hl
          rcases h3 with h3 | ⟨_, h3⟩
          · cases h3
          · injection h3 with h3 _
            rcases h5 with h5 | h5 <;> rw [h3] at h5 <;> cases h5
        | @instr n' w1 args hd ha =>
          injection hl with _ hl
          cases w1 with
          | nil =>
            replace hl : words (c :: t :: r) = e := hl
            subst hl
            rcases h3 with h3 | ⟨_, h3⟩
            · cases h3
            · injection h3 with h3 _; rw [h4] at h3; cases h3
          | cons k w1 =>
            injection hl with hl _
            exact (optListed_head ha).1 (by rw [← h4]; exact congrArg some hl.symm)
    | @label n' =>
      rcases bodyError_cases hb with ⟨t, r, rfl, h4, h5⟩ | ⟨a, c, t, r, n, rfl, h4, h5, h6⟩
      · injection hl with e1 e2
        obtain ⟨c, r, rfl, hc, _⟩ := toks_cons e2
        exact h5 _ (.inl e1) _ _ rfl hc
      · injection hl with _ hl
        injection hl with _ hl
        exact fault_instr h6 h2 h3 hl
    | @macroLabel n' =>
      rcases bodyError_cases hb with ⟨t, r, rfl, h4, h5⟩ | ⟨a, c, t, r, n, rfl, h4, h5, h6⟩
      · injection hl with e1 e2
        obtain ⟨c, r, rfl, hc, _⟩ := toks_cons e2
        exact h5 _ (.inr e1) _ _ rfl hc
      · injection hl with _ hl
        injection hl with _ hl
        exact fault_instr h6 h2 h3 hl
  | @localLabel n' hd =>
    rcases bodyError_cases hb with ⟨t, r, rfl, h4, h5⟩ | ⟨a, c, t, r, n, rfl, h4, h5, h6⟩
    · injection hl with e1 e2
      have := toks_nil e2
      subst this
      rcases h4 with ⟨n, _, _, h, _⟩ | ⟨n, h1, h2, _⟩ | ⟨h1, _⟩
      · exact h trivial rfl
      · rw [e1] at h1; injection h1 with h1; subst h1; exact h2 hd
      · exact h1 _ e1
    · injection hl with _ hl; cases hl
  | @localMacroLabel n' hd =>
    rcases bodyError_cases hb with ⟨t, r, rfl, h4, h5⟩ | ⟨a, c, t, r, n, rfl, h4, h5, h6⟩
    · injection hl with e1 e2
      have := toks_nil e2
      subst this
      rcases h4 with ⟨n, h1, _⟩ | ⟨n, h1, _⟩ | ⟨h1, _, h2, _⟩
      · rw [e1] at h1; cases h1
      · rw [e1] at h1; cases h1
      · exact h2 trivial _ e1 hd rfl
    · injection hl with _ hl; cases hl

/-! ### Programs -/

/-- The lines `os` come before those of the outcome. -/
def front (os : List (List Token)) (y : List (List Token) × Macros) : Res (List (List Token) × Macros) := .ok (os ++ y.1, y.2)

theorem front_front (r : Res (List (List Token) × Macros)) (os os' : List (List Token)) :
    ((r >>= front os') >>= front os) = r >>= front (os ++ os') := by
  cases r with
  | ok y => show Res.ok _ = Res.ok _; rw [List.append_assoc]
  | err e => rfl
  | panic => rfl
  | loop => rfl

theorem front_nil (r : Res (List (List Token) × Macros)) : (r >>= front []) = r := by
  cases r <;> rfl

theorem header_params {M ds l n params} (hk : Keys M ds) (h : HeaderSyntax (words l) n params) (h1 : ¬ Mnemonic n) (h2 : params.Nodup)
    (h3 : ∀ d ∈ ds, ¬ (d.name = n ∧ d.arity = params.length)) :
    ∃ m u rest ps, l = m :: u :: rest ∧ parseMacroHeader M l = .ok (u.span, n, ps) ∧ ps.map Prod.snd = params := by
  have hs : (words l).head? = some (.macroIdent "%macro".toList) := by obtain ⟨w, e, hl, _⟩ := h; rw [hl]; rfl
  rcases erase_cases (erase_parseMacroHeader M l) (macroHeader_fine _ _) with ⟨⟨s, n', ps⟩, hp⟩ | ⟨y, q, hp⟩
  · obtain ⟨m, u, rest, e, rfl, h4, _, _, _⟩ := header_ok hk hs hp
    obtain ⟨w, e1, hl, h5, h6⟩ := h
    obtain ⟨w', e1', hl', h5', h6'⟩ := h4
    rw [hl] at hl'
    injection hl' with _ hl'
    injection hl' with hn hl'
    injection hn with hn
    subst hn
    have := arg_map_inj (listed_unique reads_arg h5 h6 h5' h6' hl').1
    exact ⟨m, u, rest, ps, e, hp, this.symm⟩
  · exact absurd (header_err' hk hs hp) (header_right h h1 h2 h3)

/-- The macro pass over lines whose macro definitions are right. -/
theorem after_pass {ls os ds inside} (h : After ls os ds inside) : ∃ cur M, State M cur ds ∧ cur.isSome = inside ∧
    ∀ rest, macroPass [] none (ls ++ rest) = macroPass M cur rest >>= front os := by
  have hsnoc : ∀ (ls rest : List (List Token)) l', ls ++ [l'] ++ rest = ls ++ l' :: rest := fun ls rest l' => by simp
  induction h with
  | nil => exact ⟨none, [], rfl, rfl, fun rest => (front_nil _).symm⟩
  | @line ls os ds l _ hm ih =>
    obtain ⟨cur, M, h1, h2, h3⟩ := ih
    cases cur with
    | some d => cases h2
    | none =>
      refine ⟨none, M, h1, rfl, fun rest => ?_⟩
      have hn : ¬ startsMacro (words l) = true := fun h => hm (Verif.startsMacro_iff.mp h)
      rw [hsnoc, h3, ← front_front]
      congr 1
      rw [macroPass]
      dsimp only
      rw [if_neg hn]
      rfl
  | @first ls os ds m u rest' n params _ h4 h5 h6 h7 ih =>
    obtain ⟨cur, M, h1, h2, h3⟩ := ih
    cases cur with
    | some d => cases h2
    | none =>
      obtain ⟨m', u', r', ps, e, hp, rfl⟩ := header_params h1 h4 h5 h6 h7
      injection e with _ e
      injection e with e _
      subst e
      refine ⟨some ⟨u.span, n, ps, []⟩, M, keys_cons h1, rfl, fun rest => ?_⟩
      have hn : startsMacro (words (m :: u :: rest')) = true := Verif.startsMacro_iff.mpr (by
        obtain ⟨w, e, hl, _⟩ := h4; rw [hl]; rfl)
      rw [hsnoc, h3]
      congr 1
      rw [macroPass]
      dsimp only
      rw [if_pos hn, hp]
      rfl
  | @body ls os ds l ss _ h4 h5 ih =>
    obtain ⟨cur, M, h1, h2, h3⟩ := ih
    cases cur with
    | none => cases h2
    | some d =>
      have hp := erase_parseMacroStatement l
      rw [macroStatement_complete h5] at hp
      cases hs : parseMacroStatement l with
      | err => rw [hs] at hp; cases hp
      | panic => rw [hs] at hp; cases hp
      | loop => rw [hs] at hp; cases hp
      | ok ss' =>
        refine ⟨some { d with body := d.body ++ ss' }, M, h1, rfl, fun rest => ?_⟩
        have hn : ¬ endsMacro (words l) = true := fun h => h4 (Verif.endsMacro_iff.mp h)
        rw [hsnoc, h3]
        congr 1
        rw [macroPass]
        rw [if_neg hn, hs]
        rfl
  | @last ls os ds m e _ h4 h5 ih =>
    obtain ⟨cur, M, h1, h2, h3⟩ := ih
    cases cur with
    | none => cases h2
    | some d =>
      refine ⟨none, _, h1, rfl, fun rest => ?_⟩
      have hn : endsMacro (words (m :: e)) = true := Verif.endsMacro_iff.mpr (congrArg some h4)
      have he : atEnd ((m :: e).drop 1) = true := ended_iff.mpr h5
      rw [hsnoc, h3]
      congr 1
      rw [macroPass]
      rw [if_pos hn, if_pos he]

theorem right_parse {l} (h : Right l) : ∃ ss, parseLine l = .ok ss := by
  obtain ⟨w, e, ss, h1, h2, h3⟩ := h
  have := erase_parseLine l
  rw [show toks l = w ++ e from h1, line_complete h2 h3] at this
  cases hp : parseLine l with
  | ok ss => exact ⟨ss, rfl⟩
  | err => rw [hp] at this; cases this
  | panic => rw [hp] at this; cases this
  | loop => rw [hp] at this; cases this

theorem lines_first {before l after x q} (h : ∀ o ∈ before, Right o) (hl : parseLine l = .err ⟨x, q⟩) :
    parseLines (before ++ l :: after) = .err ⟨x, q⟩ := by
  induction before with
  | nil => rw [List.nil_append, parseLines, hl]; rfl
  | cons o before ih =>
    obtain ⟨ss, hs⟩ := right_parse (h o List.mem_cons_self)
    rw [List.cons_append, parseLines, hs, Res.ok_bind, ih fun o' ho => h o' (List.mem_cons_of_mem _ ho)]
    rfl

/-- The error for a program is the one that is reported. -/
theorem syntaxError_parse {tokens x p} (h : SyntaxError tokens x p) : ∃ q, parse tokens = .err ⟨x, q⟩ := by
  obtain ⟨ls, h1, h⟩ := h
  have hls := lines_iff.mpr h1
  have hpass : ∀ {q}, macroPass [] none ls = .err ⟨x, q⟩ → ∃ q, parse tokens = .err ⟨x, q⟩ := fun {q} h => by
    refine ⟨q, ?_⟩
    unfold parse
    rw [hls, h]
    rfl
  clear h1
  cases h with
  | @header ls os ds l ls' _ _ ha hm he =>
    obtain ⟨cur, M, h1, h2, h3⟩ := after_pass ha
    cases cur with
    | some d => cases h2
    | none =>
      have hn := Verif.startsMacro_iff.mpr hm
      rcases erase_cases (erase_parseMacroHeader M l) (macroHeader_fine _ _) with ⟨⟨s, n', ps⟩, hp⟩ | ⟨y, q, hp⟩
      · obtain ⟨m, u, rest, e, rfl, h4, h5, h6, h7⟩ := header_ok h1 hm hp
        exact absurd he (header_right h4 h5 h6 h7)
      · have := headerError_unique (header_err' h1 hm hp) he
        subst this
        refine hpass (q := q) ?_
        rw [h3, macroPass]
        dsimp only
        rw [if_pos hn, hp]
        rfl
  | @body ls os ds l ls' _ _ ha hm he =>
    obtain ⟨cur, M, h1, h2, h3⟩ := after_pass ha
    cases cur with
    | none => cases h2
    | some d =>
      have hn : ¬ endsMacro (words l) = true := fun h => hm (Verif.endsMacro_iff.mp h)
      rcases erase_cases (erase_parseMacroStatement l) (macroStatement_fine _) with ⟨ss, hp⟩ | ⟨y, q, hp⟩
      · have hs := erase_parseMacroStatement l
        rw [hp] at hs
        exact absurd he (body_right (macroStatement_sound hs.symm))
      · have := bodyError_unique (body_err hp) he
        subst this
        refine hpass (q := q) ?_
        rw [h3, macroPass]
        rw [if_neg hn, hp]
        rfl
  | @ending ls os ds m u rest ls' ha hm hu =>
    obtain ⟨cur, M, h1, h2, h3⟩ := after_pass ha
    cases cur with
    | none => cases h2
    | some d =>
      have hn : endsMacro (words (m :: u :: rest)) = true := Verif.endsMacro_iff.mpr (congrArg some hm)
      have he : ¬ atEnd ((m :: u :: rest).drop 1) = true := fun h => hu ((atEnd_cons _ _).mp h)
      refine hpass (q := .span u.span) ?_
      rw [h3, macroPass]
      rw [if_pos hn, if_neg he]
      rfl
  | @line ls before l after ds inside _ _ ha hb he =>
    obtain ⟨cur, M, h1, h2, h3⟩ := after_pass ha
    obtain ⟨q, hq, _⟩ := lineError_parse he
    refine ⟨q, ?_⟩
    have := h3 []
    rw [List.append_nil] at this
    unfold parse
    rw [hls, this]
    have hm : ∃ M', macroPass M cur [] = .ok ([], M') := by
      cases cur <;> exact ⟨_, rfl⟩
    obtain ⟨M', hm⟩ := hm
    rw [hm, Res.ok_bind, front, Res.ok_bind, List.append_nil]
    dsimp only
    rw [lines_first hb hq]
    rfl

end Verif.Located
