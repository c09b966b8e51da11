import Verif.Lemmas.ParseDir
/-
Lines, macro definitions and programs: the parser reads exactly the grammar.
-/
namespace Verif
open Spec

theorem isDotted_iff {n : Text} : isDotted n = true ↔ Dotted n := by
  unfold isDotted Dotted
  cases n with
  | nil => simp
  | cons c cs => simp

theorem mnemonic_iff {n : Text} : instrExists n = true ↔ Mnemonic n := instrExists_iff

theorem mnemonic_not_dotted {n : Text} (h : Mnemonic n) : ¬ Dotted n := by
  obtain ⟨f, rfl⟩ := h
  rw [← isDotted_iff]
  cases f <;> decide

theorem writes_mnemonic {n args i} (h : Writes n args i) : Mnemonic n := ⟨_, h.1⟩

theorem directive_dotted {n : Text} (h : n ∈ directives.map String.toList) : Dotted n := by
  rw [← isDotted_iff]
  simp only [directives, List.map_cons, List.map_nil, List.mem_cons, List.not_mem_nil, or_false] at h
  rcases h with rfl | rfl | rfl | rfl | rfl | rfl | rfl <;> decide

theorem instrOrCall_ok {n args s} : instrOrCall n args = .ok s ↔
    (∃ i, Writes n args i ∧ s = .instr i) ∨ (¬ Mnemonic n ∧ s = .macroCall n args) := by
  unfold instrOrCall
  split
  next h =>
    constructor
    · intro h'
      obtain ⟨i, h1, h2⟩ := Res.bind_eq_ok.mp h'
      cases h2
      exact .inl ⟨i, makeInstr_ok_iff.mp h1, rfl⟩
    · rintro (⟨i, h1, rfl⟩ | ⟨h1, -⟩)
      · rw [makeInstr_ok_iff.mpr h1]; rfl
      · exact absurd (mnemonic_iff.mp h) h1
  next h =>
    constructor
    · intro h'
      cases h'
      exact .inr ⟨fun hm => h (mnemonic_iff.mpr hm), rfl⟩
    · rintro (⟨i, h1, -⟩ | ⟨h1, rfl⟩)
      · exact absurd (mnemonic_iff.mpr (writes_mnemonic h1)) h
      · rfl

theorem makeInstr_fine (n args) : Fine (makeInstr n args) := by
  unfold makeInstr
  split
  · split <;> simp [Fine]
  · simp [Fine]

theorem instrOrCall_fine (n args) : Fine (instrOrCall n args) := by
  unfold instrOrCall
  split
  · exact .bind (makeInstr_fine _ _) fun _ _ => .ok _
  · exact .ok _

theorem parseInstr_name (n : Text) (ts : List Tok) (h : ¬ Dotted n) :
    parseInstr (.name n :: ts) = (do
      let ((name, args), ts) ← parseGenInstr (.name n :: ts)
      let s ← instrOrCall name args
      .ok (some (s, ts))) := by
  rw [parseInstr, if_neg]
  rw [← isDotted_iff] at h
  simp [h]

theorem parseInstr_dotted (n : Text) (ts : List Tok) (h : Dotted n) : parseInstr (.name n :: ts) = .ok none := by
  rw [parseInstr, if_pos]
  have hm : instrExists n = false := by
    cases e : instrExists n with
    | false => rfl
    | true => exact absurd h (mnemonic_not_dotted (mnemonic_iff.mp e))
  simp [hm, isDotted_iff.mpr h]

theorem genInstr_sound {ts name args rest} (h : parseGenInstr ts = .ok ((name, args), rest)) :
    ∃ w, ts = .name name :: (w ++ rest) ∧ OptListed ArgSyntax w args ∧ LineEnd rest := by
  obtain ⟨⟨n, r⟩, h1, h⟩ := Res.bind_eq_ok.mp h
  obtain ⟨⟨as, r'⟩, h2, h⟩ := Res.bind_eq_ok.mp h
  cases h
  rw [readName_ok] at h1
  obtain ⟨w, e, s, l⟩ := list_sound reads_arg h2
  exact ⟨w, by rw [h1, e], s, l⟩

theorem genInstr_complete {w name args rest} (h : OptListed ArgSyntax w args) (hl : LineEnd rest) :
    parseGenInstr (.name name :: (w ++ rest)) = .ok ((name, args), rest) := by
  simp only [parseGenInstr, Toks.readName, Res.ok_bind, parseArgs, list_complete reads_arg h hl]

theorem genInstr_fine (ts) : Fine (parseGenInstr ts) :=
  .bind (readName_fine ts) fun _ _ => .bind (list_safe reads_arg _) fun _ _ => .ok _

theorem instr_sound {ts s rest} (h : parseInstr ts = .ok (some (s, rest))) :
    ∃ w, ts = w ++ rest ∧ InstrSyntax w s ∧ LineEnd rest := by
  cases ts with
  | nil => cases h
  | cons t ts =>
    cases t with
    | name n =>
      by_cases hd : Dotted n
      · rw [parseInstr_dotted n ts hd] at h; cases h
      · rw [parseInstr_name n ts hd] at h
        obtain ⟨⟨⟨name, args⟩, r⟩, h1, h⟩ := Res.bind_eq_ok.mp h
        obtain ⟨st, h2, h⟩ := Res.bind_eq_ok.mp h
        cases h
        obtain ⟨w, e, s1, l⟩ := genInstr_sound h1
        cases e
        refine ⟨.name n :: w, rfl, ?_, l⟩
        rcases instrOrCall_ok.mp h2 with ⟨i, hw, rfl⟩ | ⟨hm, rfl⟩
        · exact .instr s1 hw
        · exact .call hm hd s1
    | _ => cases h

theorem instr_complete {w s rest} (h : InstrSyntax w s) (hl : LineEnd rest) :
    parseInstr (w ++ rest) = .ok (some (s, rest)) := by
  cases h with
  | instr h hw =>
    rw [List.cons_append, parseInstr_name _ _ (mnemonic_not_dotted (writes_mnemonic hw)), genInstr_complete h hl]
    simp only [Res.ok_bind, instrOrCall_ok.mpr (.inl ⟨_, hw, rfl⟩)]
  | call hm hd h =>
    rw [List.cons_append, parseInstr_name _ _ hd, genInstr_complete h hl]
    simp only [Res.ok_bind, instrOrCall_ok.mpr (.inr ⟨hm, rfl⟩)]

theorem instr_fine (ts) : Fine (parseInstr ts) := by
  cases ts with
  | nil => exact .ok _
  | cons t ts =>
    cases t with
    | name n =>
      rw [parseInstr]
      split
      · exact .ok _
      · exact .bind (genInstr_fine _) fun _ _ => .bind (instrOrCall_fine _ _) fun _ _ => .ok _
    | _ => exact .ok _

theorem parseInstr_name_some {n ts} (hd : ¬ Dotted n) : parseInstr (.name n :: ts) ≠ .ok none := by
  rw [parseInstr_name n ts hd]
  intro h
  obtain ⟨⟨⟨name, args⟩, r⟩, h1, h⟩ := Res.bind_eq_ok.mp h
  obtain ⟨st, h2, h⟩ := Res.bind_eq_ok.mp h
  cases h

/-! ### Statements -/

theorem parseDirective_name (n : Text) (ts : List Tok) :
    parseDirective (.name n :: ts) = (match directiveParser n with
      | some p => do
        let (d, ts) ← p ts
        .ok (some (.dir d, ts))
      | none => .ok none) := rfl

theorem other_sound {t ts s rest} (h : parseOther t ts = .ok (s, rest)) (hn : ∀ n, t = .name n → directiveParser n = none) :
    ∃ w, t :: ts = w ++ rest ∧ LineSyntax w [s] ∧ (s.isLabel = true → LineEnd rest) := by
  cases t with
  | name n =>
    have hdir : n ∉ directives.map String.toList := by
      intro hm
      have := hn n rfl
      simp only [directives, List.map_cons, List.map_nil, List.mem_cons, List.not_mem_nil, or_false] at hm
      rcases hm with rfl | rfl | rfl | rfl | rfl | rfl | rfl <;> cases this
    unfold parseOther at h
    dsimp only at h
    split at h
    next he =>
      cases h
      simp only [Bool.and_eq_true] at he
      exact ⟨[.name n], rfl, .localLabel (isDotted_iff.mp he.2) hdir, fun _ => isEmpty_iff.mp he.1⟩
    next =>
      split at h
      next x xs =>
        split at h
        next hx =>
          subst hx
          obtain ⟨⟨e, r⟩, h1, h2⟩ := Res.bind_eq_ok.mp h
          cases h2
          obtain ⟨w, e, s, -⟩ := parseExpr_iff.mp h1
          exact ⟨_ :: _ :: w, by rw [e]; rfl, .alias hdir s, by simp [Stmt.isLabel]⟩
        next =>
          split at h
          next hx =>
            subst hx
            obtain ⟨⟨e, r⟩, h1, h2⟩ := Res.bind_eq_ok.mp h
            cases h2
            obtain ⟨w, e, s, -⟩ := parseExpr_iff.mp h1
            exact ⟨_ :: _ :: w, by rw [e]; rfl, .variable hdir s, by simp [Stmt.isLabel]⟩
          next => split at h <;> cases h
      next => split at h <;> cases h
  | _ => cases h

theorem other_fine (t ts) : Fine (parseOther t ts) := by
  cases t with
  | name n =>
    unfold parseOther
    dsimp only
    split
    · exact .ok _
    · split
      · split
        · exact .bind (reads_expr.safe _) fun _ _ => .ok _
        · split
          · exact .bind (reads_expr.safe _) fun _ _ => .ok _
          · split <;> exact .err _
      · split <;> exact .err _
  | _ => exact .err _

theorem parseDirective_fine (ts) : Fine (parseDirective ts) := by
  cases ts with
  | nil => exact .ok _
  | cons t ts =>
    cases t with
    | name n =>
      rw [parseDirective_name]
      split
      next p hp => exact .bind (directive_fine hp _) fun _ _ => .ok _
      next => exact .ok _
    | _ => exact .ok _

theorem dirOrOther_fine (ts) : Fine (parseDirOrOther ts) := by
  refine .bind (parseDirective_fine ts) fun a _ => ?_
  cases a with
  | some r => exact .ok _
  | none =>
    cases ts with
    | nil => exact .err _
    | cons t ts => exact other_fine t ts

theorem dirSyntax_first {w d} (h : DirSyntax w d) : ∃ n w', w = .name n :: w' ∧ n ∈ directives.map String.toList := by
  cases h <;> exact ⟨_, _, rfl, by decide⟩

theorem dirOrOther_sound {ts s rest} (h : parseDirOrOther ts = .ok (s, rest)) :
    ∃ w, ts = w ++ rest ∧ LineSyntax w [s] ∧ (s.isLabel = true → LineEnd rest) := by
  obtain ⟨a, h1, h2⟩ := Res.bind_eq_ok.mp h
  cases a with
  | some r =>
    cases h2
    cases ts with
    | nil => cases h1
    | cons t ts =>
      cases t with
      | name n =>
        rw [parseDirective_name] at h1
        split at h1
        next p hp =>
          obtain ⟨⟨d, r⟩, h3, h4⟩ := Res.bind_eq_ok.mp h1
          cases h4
          obtain ⟨w, e, sx⟩ := directive_sound hp h3
          exact ⟨w, e, .directive sx, by simp [Stmt.isLabel]⟩
        next => cases h1
      | _ => cases h1
  | none =>
    cases ts with
    | nil => cases h2
    | cons t ts =>
      refine other_sound h2 ?_
      rintro n rfl
      rw [parseDirective_name] at h1
      split at h1
      next p hp =>
        obtain ⟨⟨d, r⟩, h3, h4⟩ := Res.bind_eq_ok.mp h1
        cases h4
      next hp => exact hp

theorem dirOrOther_dir {w d rest} (h : DirSyntax w d) (hl : LineEnd rest) :
    parseDirOrOther (w ++ rest) = .ok (.dir d, rest) := by
  obtain ⟨n, w', p, rfl, hp, hx⟩ := directive_complete h hl
  unfold parseDirOrOther
  rw [List.cons_append, parseDirective_name, hp]
  dsimp only
  rw [hx]; rfl

theorem dirOrOther_other {n ts} (h : n ∉ directives.map String.toList) :
    parseDirOrOther (.name n :: ts) = parseOther (.name n) ts := by
  unfold parseDirOrOther
  rw [parseDirective_name, directiveParser_none h]; rfl

theorem parseStatement_colon (n : Text) (ts : List Tok) : parseStatement (.name n :: .colon :: ts) = .ok (.label n, ts) := rfl

theorem parseStatement_name {n : Text} {ts : List Tok} (h : ∀ r, ts ≠ .colon :: r) :
    parseStatement (.name n :: ts) = (if definesNext ts || isDotted n then parseDirOrOther (.name n :: ts)
      else do
        let r ← parseInstr (.name n :: ts)
        match r with
        | some r => .ok r
        | none => parseDirOrOther (.name n :: ts)) := by
  cases ts with
  | nil => rfl
  | cons t ts =>
    cases t with
    | colon => exact absurd rfl (h ts)
    | _ => rfl

theorem parseStatement_other {t : Tok} {ts : List Tok} (h : ∀ n, t ≠ .name n) :
    parseStatement (t :: ts) = parseDirOrOther (t :: ts) := by
  cases t with
  | name n => exact absurd rfl (h n)
  | _ => rfl

theorem definesNext_iff {ts : List Tok} : definesNext ts = true ↔
    ∃ t r, ts = t :: r ∧ (t = .name "equ".toList ∨ t = .equals) := by
  cases ts with
  | nil => simp [definesNext]
  | cons t ts => simp [definesNext]

theorem statement_sound {ts s rest} (h : parseStatement ts = .ok (s, rest)) :
    (∃ n, ts = .name n :: .colon :: rest ∧ s = .label n) ∨
    ∃ w, ts = w ++ rest ∧ LineSyntax w [s] ∧ (s.isLabel = true → LineEnd rest) := by
  cases ts with
  | nil => exact .inr (dirOrOther_sound h)
  | cons t ts =>
    by_cases ht : ∃ n, t = .name n
    · obtain ⟨n, rfl⟩ := ht
      by_cases hc : ∃ r, ts = .colon :: r
      · obtain ⟨r, rfl⟩ := hc
        cases h
        exact .inl ⟨n, rfl, rfl⟩
      · rw [parseStatement_name (by simpa using hc)] at h
        split at h
        next => exact .inr (dirOrOther_sound h)
        next hcond =>
          simp only [Bool.or_eq_true, not_or] at hcond
          obtain ⟨r, h1, h2⟩ := Res.bind_eq_ok.mp h
          cases r with
          | some r =>
            cases h2
            obtain ⟨w, e, si, l⟩ := instr_sound h1
            refine .inr ⟨w, e, .instr si ?_, fun _ => l⟩
            intro hw
            apply hcond.1
            rw [definesNext_iff]
            cases w with
            | nil => simp at hw
            | cons x w =>
              cases w with
              | nil => simp at hw
              | cons y w =>
                simp at hw
                simp at e
                exact ⟨y, _, e.2, .inl hw⟩
          | none => exact .inr (dirOrOther_sound h2)
    · rw [parseStatement_other (by simpa using ht)] at h
      exact .inr (dirOrOther_sound h)

theorem statement_fine (ts) : Fine (parseStatement ts) := by
  cases ts with
  | nil => exact dirOrOther_fine _
  | cons t ts =>
    by_cases ht : ∃ n, t = .name n
    · obtain ⟨n, rfl⟩ := ht
      by_cases hc : ∃ r, ts = .colon :: r
      · obtain ⟨r, rfl⟩ := hc
        exact .ok _
      · rw [parseStatement_name (by simpa using hc)]
        split
        · exact dirOrOther_fine _
        · refine .bind (instr_fine _) fun a _ => ?_
          cases a with
          | some r => exact .ok _
          | none => exact dirOrOther_fine _
    · rw [parseStatement_other (by simpa using ht)]
      exact dirOrOther_fine _

/-! ### Lines -/

theorem line_sound {ts ss} (h : parseLine ts = .ok ss) : ∃ w e, ts = w ++ e ∧ LineSyntax w ss ∧ LineEnd e := by
  rw [parseLine] at h
  split at h
  next he => cases h; exact ⟨[], ts, rfl, .empty, isEmpty_iff.mp he⟩
  next =>
    obtain ⟨⟨s, r⟩, h1, h⟩ := Res.bind_eq_ok.mp h
    dsimp only at h
    have finish : ∀ {l r}, endOfLine l r = .ok ss → ss = l ∧ LineEnd r := by
      intro l r h
      unfold endOfLine at h
      split at h
      next he => cases h; exact ⟨rfl, isEmpty_iff.mp he⟩
      next => cases h
    split at h
    next hc =>
      simp only [Bool.and_eq_true, Bool.not_eq_true'] at hc
      rcases statement_sound h1 with ⟨n, e, rfl⟩ | ⟨w, e, s1, l⟩
      · obtain ⟨a, h2, h⟩ := Res.bind_eq_ok.mp h
        cases a with
        | none => cases h
        | some q =>
          obtain ⟨i, r'⟩ := q
          obtain ⟨w, e', si, l⟩ := instr_sound h2
          obtain ⟨rfl, l'⟩ := finish h
          exact ⟨.name n :: .colon :: w, r', by rw [e, e']; rfl, .labelled si, l'⟩
      · have := isEmpty_iff.mpr (l hc.1)
        simp [this] at hc
    next hc =>
      obtain ⟨rfl, l⟩ := finish h
      rcases statement_sound h1 with ⟨n, e, rfl⟩ | ⟨w, e, s1, -⟩
      · exact ⟨[.name n, .colon], r, e, .label, l⟩
      · exact ⟨w, r, e, s1, l⟩

theorem instrSyntax_first {w s} (h : InstrSyntax w s) :
    ∃ n w' as, w = .name n :: w' ∧ ¬ Dotted n ∧ OptListed ArgSyntax w' as := by
  cases h with
  | instr h hw => exact ⟨_, _, _, rfl, mnemonic_not_dotted (writes_mnemonic hw), h⟩
  | call _ hd h => exact ⟨_, _, _, rfl, hd, h⟩

theorem argSyntax_first {w a} (h : ArgSyntax w a) : ∃ t w', w = t :: w' ∧ t ≠ .colon ∧ t ≠ .equals := by
  cases h with
  | im h => cases h <;> exact ⟨_, _, rfl, by simp⟩
  | imm h => exact ⟨_, _, rfl, by simp⟩
  | param h => obtain ⟨t, w', e, h⟩ := h.first; exact ⟨t, w', e, h.2.2.2.2.2, h.2.2.2.2.1⟩
  | ex h _ => obtain ⟨t, w', e, h⟩ := h.first; exact ⟨t, w', e, h.2.2.2.2.2, h.2.2.2.2.1⟩

theorem optListed_first {w as} (h : OptListed ArgSyntax w as) : w = [] ∨ ∃ t w', w = t :: w' ∧ t ≠ .colon ∧ t ≠ .equals := by
  rcases h with ⟨rfl, -⟩ | h
  · exact .inl rfl
  · obtain ⟨w1, a, w2, as', rfl, rfl, s1, s2⟩ := tail_of_listed h
    obtain ⟨t, w', rfl, h1, h2⟩ := argSyntax_first s1
    exact .inr ⟨t, _, rfl, h1, h2⟩

theorem endOfLine_ok {l r} (h : LineEnd r) : endOfLine l r = .ok l := by
  unfold endOfLine; rw [if_pos (isEmpty_iff.mpr h)]

theorem lineEnd_not_colon {e : List Tok} (h : LineEnd e) : ∀ r, e ≠ .colon :: r := by
  rintro r rfl
  rcases h with h | ⟨_, h⟩ <;> cases h

theorem definesNext_end {e : List Tok} (h : LineEnd e) : definesNext e = false := by
  rcases h with rfl | ⟨_, rfl⟩ <;> rfl

theorem byteSyntax_first {w v} (h : ByteSyntax w v) : ∃ t w', w = t :: w' ∧ t ≠ .colon := by
  cases h with
  | str => exact ⟨_, _, rfl, by simp⟩
  | expr h => obtain ⟨t, w', e, h⟩ := h.first; exact ⟨t, w', e, h.2.2.2.2.2⟩

theorem dirSyntax_second {n w d} (h : DirSyntax (.name n :: w) d) (e : List Tok) : ∀ r, w ++ e ≠ .colon :: r := by
  cases h with
  | byte h =>
    obtain ⟨w1, a, w2, as', rfl, rfl, s1, s2⟩ := tail_of_listed h
    obtain ⟨t, w', rfl, ht⟩ := byteSyntax_first s1
    intro r hr; cases hr; exact ht rfl
  | word h =>
    obtain ⟨w1, a, w2, as', rfl, rfl, s1, s2⟩ := tail_of_listed h
    obtain ⟨t, w', rfl, ht⟩ := s1.first
    intro r hr; cases hr; exact ht.2.2.2.2.2 rfl
  | cnop h h' =>
    obtain ⟨t, w', rfl, ht⟩ := h.first
    intro r hr; cases hr; exact ht.2.2.2.2.2 rfl
  | _ => intro r hr; cases hr

/-- A line that is one statement, not a label. -/
theorem line_of_statement {ts s e} (h : parseStatement ts = .ok (s, e)) (hl : LineEnd e) (hne : Toks.isEmpty ts = false) :
    parseLine ts = .ok [s] := by
  rw [parseLine, if_neg (by simp [hne]), h, Res.ok_bind]
  dsimp only
  rw [if_neg (by simp [isEmpty_iff.mpr hl]), endOfLine_ok hl]

theorem line_complete {w ss e} (h : LineSyntax w ss) (hl : LineEnd e) : parseLine (w ++ e) = .ok ss := by
  cases h with
  | empty => rw [List.nil_append, parseLine, if_pos (isEmpty_iff.mpr hl)]
  | @label n => exact line_of_statement (parseStatement_colon n e) hl rfl
  | @labelled n w s h =>
    simp only [List.cons_append]
    rw [parseLine, if_neg (by simp [Toks.isEmpty]), parseStatement_colon, Res.ok_bind]
    dsimp only
    obtain ⟨m, w', as, rfl, hd, ho⟩ := instrSyntax_first h
    rw [if_pos (by simp [Stmt.isLabel, Toks.isEmpty]), instr_complete h hl, Res.ok_bind]
    exact endOfLine_ok hl
  | @localLabel n hd hn =>
    refine line_of_statement (e := e) ?_ hl rfl
    rw [List.singleton_append, parseStatement_name (lineEnd_not_colon hl),
      if_pos (by simp [isDotted_iff.mpr hd]), dirOrOther_other hn]
    unfold parseOther
    simp [isEmpty_iff.mpr hl, isDotted_iff.mpr hd]
  | @instr w s h he =>
    obtain ⟨m, w', as, rfl, hd, ho⟩ := instrSyntax_first h
    refine line_of_statement (e := e) ?_ hl rfl
    have hi := instr_complete h hl
    rw [List.cons_append] at hi ⊢
    have hcolon : ∀ r, w' ++ e ≠ .colon :: r := by
      rcases optListed_first ho with rfl | ⟨t, w'', rfl, h1, -⟩
      · exact lineEnd_not_colon hl
      · intro r hr; cases hr; exact h1 rfl
    have hdef : definesNext (w' ++ e) = false := by
      rcases optListed_first ho with rfl | ⟨t, w'', rfl, -, h2⟩
      · exact definesNext_end hl
      · simp at he
        simp [definesNext, he, h2]
    rw [parseStatement_name hcolon, if_neg, hi]
    · rfl
    · simp only [hdef, Bool.false_or, isDotted_iff]; exact hd
  | directive h =>
    obtain ⟨n, w', rfl, hm⟩ := dirSyntax_first h
    refine line_of_statement (e := e) ?_ hl rfl
    have hx := dirOrOther_dir h hl
    rw [List.cons_append] at hx ⊢
    have hcolon : ∀ r, w' ++ e ≠ .colon :: r := dirSyntax_second h e
    rw [parseStatement_name hcolon, if_pos (by simp [isDotted_iff.mpr (directive_dotted hm)]), hx]
  | alias hn h =>
    refine line_of_statement (e := e) ?_ hl rfl
    simp only [List.cons_append]
    rw [parseStatement_name (by simp), if_pos (by simp [definesNext]), dirOrOther_other hn]
    unfold parseOther
    simp [Toks.isEmpty, reads_expr.complete _ _ _ h (LineEnd.noOperator hl)]
  | «variable» hn h =>
    refine line_of_statement (e := e) ?_ hl rfl
    simp only [List.cons_append]
    rw [parseStatement_name (by simp), if_pos (by simp [definesNext]), dirOrOther_other hn]
    unfold parseOther
    simp [Toks.isEmpty, reads_expr.complete _ _ _ h (LineEnd.noOperator hl)]

theorem line_fine (ts) : Fine (parseLine ts) := by
  have fin : ∀ l r, Fine (endOfLine l r) := by
    intro l r; unfold endOfLine; split
    · exact .ok _
    · exact .err _
  rw [parseLine]
  split
  · exact .ok _
  · refine .bind (statement_fine _) fun a _ => ?_
    obtain ⟨s, r⟩ := a
    dsimp only
    split
    · refine .bind (instr_fine _) fun b _ => ?_
      cases b with
      | none => exact .err _
      | some q => exact fin _ _
    · exact fin _ _

theorem line_iff {ts ss} : parseLine ts = .ok ss ↔ ∃ w e, ts = w ++ e ∧ LineSyntax w ss ∧ LineEnd e := by
  constructor
  · exact line_sound
  · rintro ⟨w, e, rfl, h, hl⟩; exact line_complete h hl

end Verif
