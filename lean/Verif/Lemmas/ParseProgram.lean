import Verif.Lemmas.ParseLine
/-
Line splitting, macro definitions and whole programs.
-/
namespace Verif
open Spec

/-! ### Lines -/

theorem dropWhile_head {α : Type} {p : α → Bool} {l : List α} {x xs} (h : l.dropWhile p = x :: xs) : p x = false := by
  induction l with
  | nil => cases h
  | cons y ys ih =>
    rw [List.dropWhile_cons] at h
    split at h
    · exact ih h
    next hy => cases h; simpa using hy

theorem dropWhile_length {α : Type} (p : α → Bool) (l : List α) : (l.dropWhile p).length ≤ l.length := by
  induction l with
  | nil => simp
  | cons y ys ih =>
    rw [List.dropWhile_cons]
    split
    · simp only [List.length_cons]; omega
    · exact Nat.le_refl _

theorem sameLine_iff {t x : Token} : sameLine t x = true ↔ x.start.line = t.stop.line ∧ x.start.file = t.stop.file := by
  simp only [sameLine, Bool.and_eq_true, beq_iff_eq]
  exact ⟨fun h => ⟨h.1.symm, h.2.symm⟩, fun h => ⟨h.1.symm, h.2.symm⟩⟩

theorem linesLoop_splits (f : Nat) : ∀ ts : List Token, ts.length ≤ f → SplitsInto ts (linesLoop f ts) := by
  induction f with
  | zero => intro ts h; cases ts with
    | nil => exact .nil
    | cons _ _ => simp at h
  | succ f ih =>
    intro ts h
    cases ts with
    | nil => exact .nil
    | cons t ts =>
      rw [linesLoop]
      have e : t :: ts = t :: ts.takeWhile (sameLine t) ++ ts.dropWhile (sameLine t) := by
        simp [List.takeWhile_append_dropWhile]
      conv => arg 1; rw [e]
      refine .cons ?_ ?_ (ih _ ?_)
      · intro x hx
        exact sameLine_iff.mp (List.all_eq_true.mp List.all_takeWhile x hx)
      · intro x xs hr hx
        have := dropWhile_head hr
        rw [sameLine_iff.mpr hx] at this; cases this
      · have := dropWhile_length (sameLine t) ts
        simp at h; omega

theorem lines_splits (ts : List Token) : SplitsInto ts (lines ts) := linesLoop_splits _ ts (Nat.le_refl _)

theorem takeWhile_all {α : Type} {p : α → Bool} {l rest : List α} (h : ∀ x ∈ l, p x = true)
    (hr : ∀ x xs, rest = x :: xs → p x = false) :
    (l ++ rest).takeWhile p = l ∧ (l ++ rest).dropWhile p = rest := by
  induction l with
  | nil =>
    cases rest with
    | nil => simp
    | cons x xs => simp [List.takeWhile_cons, List.dropWhile_cons, hr x xs rfl]
  | cons y ys ih =>
    have hy := h y (by simp)
    have := ih (fun x hx => h x (by simp [hx]))
    simp [List.takeWhile_cons, List.dropWhile_cons, hy, this]

theorem splits_unique {ts : List Token} {ls} (h : SplitsInto ts ls) : ∀ f, ts.length ≤ f → linesLoop f ts = ls := by
  induction h with
  | nil => intro f _; cases f <;> rfl
  | @cons t l rest ls h1 h2 _ ih =>
    intro f hf
    cases f with
    | zero => simp at hf
    | succ f =>
      have h2' : ∀ x xs, rest = x :: xs → sameLine t x = false := by
        intro x xs e
        cases hs : sameLine t x with
        | false => rfl
        | true => exact absurd (sameLine_iff.mp hs) (h2 x xs e)
      obtain ⟨e1, e2⟩ := takeWhile_all (p := sameLine t) (fun x hx => sameLine_iff.mpr (h1 x hx)) h2'
      rw [List.cons_append, linesLoop, e1, e2, ih f (by simp at hf; omega)]

theorem lines_iff {ts : List Token} {ls} : lines ts = ls ↔ SplitsInto ts ls :=
  ⟨fun h => h ▸ lines_splits ts, fun h => splits_unique h _ (Nat.le_refl _)⟩

/-! ### Macro lines -/

theorem macroLineLabel_none {ts : List Tok} (h1 : ∀ n r, ts ≠ .name n :: .colon :: r)
    (h2 : ∀ n r, ts ≠ .macroLabel n :: .colon :: r) (h3 : ∀ n, ts = [.name n] → ¬ Dotted n)
    (h4 : ∀ n, ts = [.macroLabel n] → ¬ Dotted n) : macroLineLabel ts = ([], ts) := by
  unfold macroLineLabel
  split
  · exact absurd rfl (h1 _ _)
  · exact absurd rfl (h2 _ _)
  · have := h3 _ rfl
    rw [← isDotted_iff] at this
    rw [if_neg this]
  · have := h4 _ rfl
    rw [← isDotted_iff] at this
    rw [if_neg this]
  · rfl

theorem macroLineInstr_sound {ts ss rest} (h : macroLineInstr ts = .ok (ss, rest)) :
    ∃ w, ts = w ++ rest ∧ MacroInstrSyntax w ss := by
  by_cases hn : ∃ n r, ts = .name n :: r
  · obtain ⟨n, r, rfl⟩ := hn
    rw [macroLineInstr] at h
    split at h
    next => cases h
    next hd =>
      obtain ⟨⟨⟨name, args⟩, r'⟩, h1, h⟩ := Res.bind_eq_ok.mp h
      cases h
      obtain ⟨w, e, s, -⟩ := genInstr_sound h1
      cases e
      exact ⟨.name n :: w, rfl, .instr (by rwa [← isDotted_iff]) s⟩
  · have e : macroLineInstr ts = .ok ([], ts) := by
      cases ts with
      | nil => rfl
      | cons t ts =>
        cases t with
        | name n => exact absurd ⟨n, ts, rfl⟩ hn
        | _ => rfl
    rw [e] at h
    cases h
    exact ⟨[], rfl, .none⟩

theorem macroLineInstr_complete {w ss rest} (h : MacroInstrSyntax w ss) (hl : LineEnd rest) :
    macroLineInstr (w ++ rest) = .ok (ss, rest) := by
  cases h with
  | none => rcases hl with rfl | ⟨_, rfl⟩ <;> rfl
  | instr hd h =>
    rw [← isDotted_iff] at hd
    rw [List.cons_append, macroLineInstr, if_neg hd, genInstr_complete h hl]; rfl

theorem macroLineInstr_fine (ts) : Fine (macroLineInstr ts) := by
  unfold macroLineInstr
  split
  · split
    · exact .err _
    · exact .bind (genInstr_fine _) fun _ _ => .ok _
  · exact .ok _

theorem macroStatement_ok {ts ss} : parseMacroStatement ts = .ok ss ↔
    ∃ i rest, macroLineInstr (macroLineLabel ts).2 = .ok (i, rest) ∧ LineEnd rest ∧ ss = (macroLineLabel ts).1 ++ i := by
  unfold parseMacroStatement
  constructor
  · intro h
    obtain ⟨⟨i, r⟩, h1, h⟩ := Res.bind_eq_ok.mp h
    dsimp only at h
    split at h
    next he => cases h; exact ⟨i, r, h1, isEmpty_iff.mp he, rfl⟩
    next => cases h
  · rintro ⟨i, r, h1, hl, rfl⟩
    simp only [h1, Res.ok_bind, isEmpty_iff.mpr hl, if_true]

theorem macroStatement_fine (ts) : Fine (parseMacroStatement ts) := by
  refine .bind (macroLineInstr_fine _) fun a _ => ?_
  dsimp only
  split
  · exact .ok _
  · exact .err _

theorem macroStatement_sound {ts ss} (h : parseMacroStatement ts = .ok ss) : MacroLine ts ss := by
  obtain ⟨i, rest, h1, hl, rfl⟩ := macroStatement_ok.mp h
  unfold macroLineLabel at h1 ⊢
  split at h1
  · obtain ⟨w, e, s⟩ := macroLineInstr_sound h1
    simp only at e; subst e
    exact MacroLine.mk (w := [_, _]) .label s hl
  · obtain ⟨w, e, s⟩ := macroLineInstr_sound h1
    simp only at e; subst e
    exact MacroLine.mk (w := [_, _]) .macroLabel s hl
  · split at h1
    next hd =>
      cases h1
      simp only [hd, if_true]
      exact .localLabel (isDotted_iff.mp hd)
    next hd =>
      obtain ⟨w, e, s⟩ := macroLineInstr_sound h1
      simp only [hd, if_false]
      simp only at e; rw [e]
      exact MacroLine.mk (w := []) .none s hl
  · split at h1
    next hd =>
      cases h1
      simp only [hd, if_true]
      exact .localMacroLabel (isDotted_iff.mp hd)
    next hd =>
      obtain ⟨w, e, s⟩ := macroLineInstr_sound h1
      simp only [hd, if_false]
      simp only at e; rw [e]
      exact MacroLine.mk (w := []) .none s hl
  · obtain ⟨w, e, s⟩ := macroLineInstr_sound h1
    simp only at e; subst e
    exact MacroLine.mk (w := []) .none s hl

theorem macroStatement_complete {ts ss} (h : MacroLine ts ss) : parseMacroStatement ts = .ok ss := by
  rw [macroStatement_ok]
  cases h with
  | @mk w ss w' ss' e h1 h2 hl =>
    cases h1 with
    | label => exact ⟨_, _, macroLineInstr_complete h2 hl, hl, rfl⟩
    | macroLabel => exact ⟨_, _, macroLineInstr_complete h2 hl, hl, rfl⟩
    | none =>
      have key : macroLineLabel ([] ++ w' ++ e) = ([], w' ++ e) := by
        rw [List.nil_append]
        apply macroLineLabel_none
        · rintro n r he
          cases h2 with
          | none => rcases hl with rfl | ⟨_, rfl⟩ <;> cases he
          | instr hd h =>
            rw [List.cons_append] at he
            have he := (List.cons.inj he).2
            rcases optListed_first h with rfl | ⟨t, w'', rfl, h1, -⟩
            · exact lineEnd_not_colon hl _ he
            · cases he; exact h1 rfl
        · rintro n r he
          cases h2 with
          | none => rcases hl with rfl | ⟨_, rfl⟩ <;> cases he
          | instr hd h => cases he
        · rintro n he
          cases h2 with
          | none => rcases hl with rfl | ⟨_, rfl⟩ <;> cases he
          | instr hd h =>
            rw [List.cons_append] at he
            cases (List.cons.inj he).1
            exact hd
        · rintro n he
          cases h2 with
          | none => rcases hl with rfl | ⟨_, rfl⟩ <;> cases he
          | instr hd h => cases he
      rw [key]
      exact ⟨_, _, macroLineInstr_complete h2 hl, hl, rfl⟩
  | @localLabel n hd =>
    have : macroLineLabel [.name n] = ([.label n], []) := by
      simp [macroLineLabel, isDotted_iff.mpr hd]
    rw [this]
    exact ⟨[], [], rfl, .inl rfl, rfl⟩
  | @localMacroLabel n hd =>
    have : macroLineLabel [.macroLabel n] = ([.macroLabel n], []) := by
      simp [macroLineLabel, isDotted_iff.mpr hd]
    rw [this]
    exact ⟨[], [], rfl, .inl rfl, rfl⟩

/-! ### Macro headers -/

theorem paramNames_ok {seen args ps} : paramNames seen args = .ok ps ↔
    args = ps.map .macroArg ∧ ps.Nodup ∧ ∀ p ∈ ps, p ∉ seen := by
  induction args generalizing seen ps with
  | nil =>
    constructor
    · intro h; cases h; simp
    · rintro ⟨h, -⟩
      cases ps with
      | nil => rfl
      | cons _ _ => cases h
  | cons a args ih =>
    cases a with
    | macroArg n =>
      rw [paramNames]
      split
      next hn =>
        constructor
        · intro h; cases h
        · rintro ⟨h, -, hs⟩
          cases ps with
          | nil => cases h
          | cons p ps => cases h; exact absurd hn (hs n (by simp))
      next hn =>
        constructor
        · intro h
          obtain ⟨ns, h1, h2⟩ := Res.bind_eq_ok.mp h
          cases h2
          obtain ⟨rfl, hnd, hs⟩ := ih.mp h1
          refine ⟨rfl, List.nodup_cons.mpr ⟨fun hm => hs n hm (by simp), hnd⟩, ?_⟩
          intro p hp
          rcases List.mem_cons.mp hp with rfl | hp
          · exact hn
          · exact fun hm => hs p hp (List.mem_cons_of_mem _ hm)
        · rintro ⟨h, hnd, hs⟩
          cases ps with
          | nil => cases h
          | cons p ps =>
            cases h
            obtain ⟨h1, h2⟩ := List.nodup_cons.mp hnd
            have := ih (seen := n :: seen) (ps := ps)
            rw [this.mpr ⟨rfl, h2, ?_⟩]
            · rfl
            · intro p hp hm
              rcases List.mem_cons.mp hm with rfl | hm
              · exact h1 hp
              · exact hs p (List.mem_cons_of_mem _ hp) hm
    | _ =>
      constructor
      · intro h; cases h
      · rintro ⟨h, -⟩
        cases ps with
        | nil => cases h
        | cons _ _ => cases h

theorem paramNames_fine (seen args) : Fine (paramNames seen args) := by
  induction args generalizing seen with
  | nil => exact .ok _
  | cons a args ih =>
    cases a with
    | macroArg n =>
      rw [paramNames]
      split
      · exact .err _
      · exact .bind (ih _) fun _ _ => .ok _
    | _ => exact .err _

/-- The table of the macros defined so far. -/
def keyed (ms : List MacroDef) : Macros := ms.map fun d => ((d.name, d.args.length), d)

theorem keyed_lookup_none {ms name k} : (keyed ms).lookup (name, k) = none ↔
    ∀ d ∈ ms, ¬ (d.name = name ∧ d.args.length = k) := by
  induction ms with
  | nil => simp [keyed]
  | cons d ms ih =>
    simp only [keyed, List.map_cons, List.lookup, List.mem_cons, forall_eq_or_imp]
    by_cases h : d.name = name ∧ d.args.length = k
    · obtain ⟨rfl, rfl⟩ := h; simp
    · have : ((name, k) == (d.name, d.args.length)) = false := by
        simp only [beq_eq_false_iff_ne, ne_eq, Prod.mk.injEq]
        exact fun e => h ⟨e.1.symm, e.2.symm⟩
      simp only [this, h, not_false_iff, true_and]
      exact ih

theorem macroHeader_fine (M l) : Fine (parseMacroHeader M l) := by
  refine .bind (readMacroName_fine _) fun a _ => .bind (readName_fine _) fun b _ => ?_
  try dsimp only
  split
  · exact .err _
  · refine .bind (list_safe reads_arg _) fun c _ => ?_
    try dsimp only
    split
    · exact .err _
    · refine .bind (paramNames_fine _ _) fun d _ => ?_
      split
      · exact .ok _
      · exact .err _

theorem header_sound {ms l name params} (hs : startsMacro l = true)
    (h : parseMacroHeader (keyed ms) l = .ok (name, params)) : HeaderSyntax l name params ∧ Definable ms name params := by
  obtain ⟨⟨m, r1⟩, h1, h⟩ := Res.bind_eq_ok.mp h
  obtain ⟨⟨n, r2⟩, h2, h⟩ := Res.bind_eq_ok.mp h
  dsimp only at h2 h
  split at h
  next => cases h
  next hm =>
    obtain ⟨⟨args, r3⟩, h3, h⟩ := Res.bind_eq_ok.mp h
    dsimp only at h
    split at h
    next => cases h
    next hk =>
      obtain ⟨ps, h4, h⟩ := Res.bind_eq_ok.mp h
      split at h
      next he =>
        cases h
        rw [readMacroName_ok] at h1
        rw [readName_ok] at h2
        subst h1 h2
        simp [startsMacro] at hs
        subst hs
        obtain ⟨w, e, s, l⟩ := list_sound reads_arg h3
        obtain ⟨rfl, hnd, -⟩ := paramNames_ok.mp h4
        refine ⟨⟨w, r3, by rw [e]; rfl, s, l⟩, fun hx => hm (mnemonic_iff.mpr hx), hnd, ?_⟩
        have := keyed_lookup_none.mp hk
        simpa using this
      next => cases h

theorem header_complete {ms l name params} (h : HeaderSyntax l name params) (hd : Definable ms name params) :
    startsMacro l = true ∧ parseMacroHeader (keyed ms) l = .ok (name, params) := by
  obtain ⟨w, e, rfl, h, hl⟩ := h
  obtain ⟨hm, hnd, hk⟩ := hd
  refine ⟨by simp [startsMacro], ?_⟩
  simp only [parseMacroHeader, Toks.readMacroName, Toks.readName, Res.ok_bind]
  rw [if_neg (fun hx => hm (mnemonic_iff.mp hx))]
  simp only [parseArgs, list_complete reads_arg h hl, Res.ok_bind]
  have e1 : (keyed ms).lookup (name, (params.map Arg.macroArg).length) = none := by
    rw [keyed_lookup_none]; simpa using hk
  rw [e1]
  have e2 : paramNames [] (params.map Arg.macroArg) = .ok params := paramNames_ok.mpr ⟨rfl, hnd, by simp⟩
  simp only [e2, Res.ok_bind, isEmpty_iff.mpr hl, if_true]

/-! ### Programs -/

theorem endsMacro_iff {l : List Tok} : endsMacro l = true ↔ l.head? = some (.macroIdent "%end".toList) := by
  simp [endsMacro]

theorem startsMacro_iff {l : List Tok} : startsMacro l = true ↔ l.head? = some (.macroIdent "%macro".toList) := by
  simp [startsMacro]

theorem body_pass {M} {d : MacroDef} {ls body} (h : BodySyntax ls body) : ∀ B ls',
    macroPass M (some { d with body := B }) (ls ++ ls') = macroPass M (some { d with body := B ++ body }) ls' := by
  induction h with
  | nil => intro B ls'; simp
  | @cons l ss ls rest he hm _ ih =>
    intro B ls'
    rw [List.cons_append, macroPass]
    try simp only
    rw [if_neg (by rw [endsMacro_iff]; exact he), macroStatement_complete hm, Res.ok_bind, ih, List.append_assoc]

theorem parseLines_cons {l ls ss} : parseLines (l :: ls) = .ok ss ↔
    ∃ s1 s2, parseLine l = .ok s1 ∧ parseLines ls = .ok s2 ∧ ss = s1 ++ s2 := by
  rw [parseLines]
  constructor
  · intro h
    obtain ⟨s1, h1, h⟩ := Res.bind_eq_ok.mp h
    obtain ⟨s2, h2, h⟩ := Res.bind_eq_ok.mp h
    cases h
    exact ⟨s1, s2, h1, h2, rfl⟩
  · rintro ⟨s1, s2, h1, h2, rfl⟩
    rw [h1, h2]; rfl

theorem program_complete {ms ls ss ms'} (h : ProgramSyntax ms ls ss ms') :
    ∃ rest, macroPass (keyed ms) none ls = .ok (rest, keyed ms') ∧ parseLines rest = .ok ss := by
  induction h with
  | nil => exact ⟨[], rfl, rfl⟩
  | @line ms w e ls ss rest ms' hn hs hl _ ih =>
    obtain ⟨r, h1, h2⟩ := ih
    refine ⟨(w ++ e) :: r, ?_, parseLines_cons.mpr ⟨ss, rest, line_complete hs hl, h2, rfl⟩⟩
    rw [macroPass]
    try simp only
    rw [if_neg (by rw [startsMacro_iff]; exact hn), h1]; rfl
  | @defn ms l name params ls body e ls' ss ms' hh hd hb hl _ ih =>
    obtain ⟨r, h1, h2⟩ := ih
    refine ⟨r, ?_, h2⟩
    obtain ⟨a, b⟩ := header_complete hh hd
    rw [List.cons_append, macroPass]
    try simp only
    rw [if_pos a, b]
    simp only [Res.ok_bind]
    rw [body_pass (d := ⟨name, params, []⟩) hb, macroPass]
    simp only [List.nil_append]
    rw [if_pos (endsMacro_iff.mpr rfl), List.drop_one, List.tail_cons, if_pos (isEmpty_iff.mpr hl)]
    exact h1
  | @last ms l name params ls body hh hd hb =>
    obtain ⟨a, b⟩ := header_complete hh hd
    refine ⟨[], ?_, rfl⟩
    rw [macroPass]
    try simp only
    rw [if_pos a, b]
    simp only [Res.ok_bind]
    have := body_pass (M := keyed ms) (d := ⟨name, params, []⟩) hb [] []
    rw [List.append_nil] at this
    rw [this]
    rfl

theorem program_sound (ls : List (List Tok)) :
    (∀ ms rest M ss, macroPass (keyed ms) none ls = .ok (rest, M) → parseLines rest = .ok ss →
      ∃ ms', M = keyed ms' ∧ ProgramSyntax ms ls ss ms') ∧
    (∀ ms d rest M ss, macroPass (keyed ms) (some d) ls = .ok (rest, M) → parseLines rest = .ok ss →
      (∃ ls1 body e ls2 ms', ls = ls1 ++ (.macroIdent "%end".toList :: e) :: ls2 ∧ BodySyntax ls1 body ∧ LineEnd e ∧
        ProgramSyntax ({ d with body := d.body ++ body } :: ms) ls2 ss ms' ∧ M = keyed ms') ∨
      (∃ body, BodySyntax ls body ∧ ss = [] ∧ M = keyed ({ d with body := d.body ++ body } :: ms))) := by
  induction ls with
  | nil =>
    refine ⟨?_, ?_⟩
    · intro ms rest M ss h hp
      cases h; cases hp
      exact ⟨ms, rfl, .nil⟩
    · intro ms d rest M ss h hp
      cases h; cases hp
      exact .inr ⟨[], .nil, rfl, by simp [keyed]⟩
  | cons l ls ih =>
    obtain ⟨ih1, ih2⟩ := ih
    refine ⟨?_, ?_⟩
    · intro ms rest M ss h hp
      rw [macroPass] at h
      try simp only at h
      split at h
      next hs =>
        obtain ⟨⟨name, params⟩, h1, h⟩ := Res.bind_eq_ok.mp h
        obtain ⟨hh, hd⟩ := header_sound hs h1
        rcases ih2 _ _ _ _ _ h hp with ⟨ls1, body, e, ls2, ms', rfl, hb, hl, hps, rfl⟩ | ⟨body, hb, rfl, rfl⟩
        · exact ⟨ms', rfl, .defn hh hd hb hl hps⟩
        · exact ⟨_, rfl, .last hh hd hb⟩
      next hs =>
        obtain ⟨⟨r, M'⟩, h1, h⟩ := Res.bind_eq_ok.mp h
        cases h
        obtain ⟨s1, s2, h3, h4, rfl⟩ := parseLines_cons.mp hp
        obtain ⟨ms', rfl, hps⟩ := ih1 _ _ _ _ h1 h4
        obtain ⟨w, e, rfl, hls, hl⟩ := line_sound h3
        exact ⟨ms', rfl, .line (fun hx => hs (startsMacro_iff.mpr hx)) hls hl hps⟩
    · intro ms d rest M ss h hp
      rw [macroPass] at h
      try simp only at h
      split at h
      next he =>
        split at h
        next hl =>
          obtain ⟨ms', rfl, hps⟩ := ih1 (d :: ms) _ _ _ h hp
          rw [endsMacro_iff] at he
          cases l with
          | nil => cases he
          | cons t e =>
            cases he
            refine .inl ⟨[], [], e, ls, ms', rfl, .nil, isEmpty_iff.mp hl, ?_, rfl⟩
            simpa using hps
        next => cases h
      next he =>
        obtain ⟨s1, h1, h⟩ := Res.bind_eq_ok.mp h
        have hne : l.head? ≠ some (.macroIdent "%end".toList) := fun hx => he (endsMacro_iff.mpr hx)
        have hm := macroStatement_sound h1
        rcases ih2 _ _ _ _ _ h hp with ⟨ls1, body, e, ls2, ms', rfl, hb, hl, hps, rfl⟩ | ⟨body, hb, rfl, rfl⟩
        · refine .inl ⟨l :: ls1, s1 ++ body, e, ls2, ms', rfl, .cons hne hm hb, hl, ?_, rfl⟩
          simpa using hps
        · refine .inr ⟨s1 ++ body, .cons hne hm hb, rfl, ?_⟩
          simp

theorem parseTokLines_iff {ls : List (List Tok)} {p : Program} : parseTokLines ls = .ok p ↔
    ∃ ms, ProgramSyntax [] ls p.stmts ms ∧ p.macros = keyed ms := by
  unfold parseTokLines
  constructor
  · intro h
    obtain ⟨⟨r, M⟩, h1, h⟩ := Res.bind_eq_ok.mp h
    obtain ⟨ss, h2, h⟩ := Res.bind_eq_ok.mp h
    cases h
    obtain ⟨ms, e, hps⟩ := (program_sound ls).1 [] _ _ _ h1 h2
    exact ⟨ms, hps, e⟩
  · rintro ⟨ms, hps, e⟩
    obtain ⟨r, h1, h2⟩ := program_complete hps
    have : macroPass [] none ls = .ok (r, keyed ms) := h1
    rw [this, Res.ok_bind]
    simp only [h2, Res.ok_bind, ← e]

theorem parseLines_fine (ls) : Fine (parseLines ls) := by
  induction ls with
  | nil => exact .ok _
  | cons l ls ih => exact .bind (line_fine l) fun _ _ => .bind ih fun _ _ => .ok _

theorem macroPass_fine (ls : List Toks) : ∀ M cur, Fine (macroPass M cur ls) := by
  induction ls with
  | nil => intro M cur; cases cur <;> exact .ok _
  | cons l ls ih =>
    intro M cur
    cases cur with
    | none =>
      rw [macroPass]
      try simp only
      split
      · exact .bind (macroHeader_fine _ _) fun _ _ => ih _ _
      · exact .bind (ih _ _) fun _ _ => .ok _
    | some d =>
      rw [macroPass]
      try simp only
      split
      · split
        · exact ih _ _
        · exact .err _
      · exact .bind (macroStatement_fine _) fun _ _ => ih _ _

theorem parseTokLines_fine (ls) : Fine (parseTokLines ls) :=
  .bind (macroPass_fine ls _ _) fun _ _ => .bind (parseLines_fine _) fun _ _ => .ok _

/-! ### Where a bad definition is met -/

theorem macrosAfter_pass {ms pre ms'} (h : MacrosAfter ms pre ms') : ∀ post r, macroPass (keyed ms') none post = .err r →
    macroPass (keyed ms) none (pre ++ post) = .err r := by
  induction h with
  | nil => intro post r h; exact h
  | @line ms l ls ms' hn _ ih =>
    intro post r h
    rw [List.cons_append, macroPass]
    try simp only
    rw [if_neg (fun hx => hn (startsMacro_iff.mp hx)), ih post r h]; rfl
  | @defn ms l name params ls body e ls' ms' hh hd hb hl _ ih =>
    intro post r h
    obtain ⟨a, b⟩ := header_complete hh hd
    rw [List.cons_append, List.cons_append, macroPass]
    try simp only
    rw [if_pos a, b]
    simp only [Res.ok_bind]
    rw [List.append_assoc, body_pass (d := ⟨name, params, []⟩) hb, List.cons_append, macroPass]
    simp only [List.nil_append]
    rw [if_pos (endsMacro_iff.mpr rfl), List.drop_one, List.tail_cons, if_pos (isEmpty_iff.mpr hl)]
    exact ih post r h

theorem header_err {pre ms l post r} (h : MacrosAfter [] pre ms) (hs : startsMacro l = true)
    (he : parseMacroHeader (keyed ms) l = .err r) : parseTokLines (pre ++ l :: post) = .err r := by
  have : macroPass [] none (pre ++ l :: post) = .err r := by
    refine macrosAfter_pass h _ _ ?_
    rw [macroPass]
    try simp only
    rw [if_pos hs, he]; rfl
  rw [parseTokLines, this]; rfl

theorem header_name_err {M name more} (h : Mnemonic name) :
    parseMacroHeader M (.macroIdent "%macro".toList :: .name name :: more) = .err (.macroNameConflict name) := by
  simp only [parseMacroHeader, Toks.readMacroName, Toks.readName, Res.ok_bind]
  rw [if_pos (mnemonic_iff.mpr h)]

theorem header_exists_err {ms name w args e} {d : MacroDef} (h : ¬ Mnemonic name) (hw : OptListed ArgSyntax w args)
    (hl : LineEnd e) (hd : d ∈ ms) (hn : d.name = name) (hk : d.args.length = args.length) :
    parseMacroHeader (keyed ms) (.macroIdent "%macro".toList :: .name name :: (w ++ e)) =
      .err (.macroAlreadyExists name args.length) := by
  simp only [parseMacroHeader, Toks.readMacroName, Toks.readName, Res.ok_bind]
  rw [if_neg (fun hx => h (mnemonic_iff.mp hx))]
  simp only [parseArgs, list_complete reads_arg hw hl, Res.ok_bind]
  cases hx : (keyed ms).lookup (name, args.length) with
  | none => exact absurd ⟨hn, hk⟩ (keyed_lookup_none.mp hx d hd)
  | some x => rfl

theorem paramNames_dup {a : List Text} {p : Text} {more : List Arg} (ha : a.Nodup) (hp : p ∈ a) : ∀ seen, (∀ x ∈ a, x ∉ seen) →
    paramNames seen (a.map .macroArg ++ .macroArg p :: more) = .err (.duplicateMacroArg p) := by
  have gen : ∀ (a : List Text) seen, a.Nodup → (∀ x ∈ a, x ∉ seen) → (p ∈ a ∨ p ∈ seen) →
      paramNames seen (a.map .macroArg ++ .macroArg p :: more) = .err (.duplicateMacroArg p) := by
    intro a
    induction a with
    | nil =>
      intro seen _ _ h
      have : p ∈ seen := by simpa using h
      simp [paramNames, this]
    | cons x a ih =>
      intro seen hnd hs h
      obtain ⟨h1, h2⟩ := List.nodup_cons.mp hnd
      rw [List.map_cons, List.cons_append, paramNames, if_neg (hs x (by simp)), ih (x :: seen) h2 ?_ ?_]
      · rfl
      · intro y hy hm
        rcases List.mem_cons.mp hm with rfl | hm
        · exact h1 hy
        · exact hs y (by simp [hy]) hm
      · rcases h with h | h
        · rcases List.mem_cons.mp h with rfl | h
          · exact .inr (by simp)
          · exact .inl h
        · exact .inr (by simp [h])
  intro seen hs
  exact gen a seen ha hs (.inl hp)

theorem header_dup_err {ms : List MacroDef} {name w} {a : List Text} {p} {more : List Arg} {e} (h : ¬ Mnemonic name)
    (hw : OptListed ArgSyntax w (a.map .macroArg ++ .macroArg p :: more)) (hl : LineEnd e)
    (hk : ∀ d ∈ ms, ¬ (d.name = name ∧ d.args.length = a.length + 1 + more.length)) (ha : a.Nodup) (hp : p ∈ a) :
    parseMacroHeader (keyed ms) (.macroIdent "%macro".toList :: .name name :: (w ++ e)) =
      .err (.duplicateMacroArg p) := by
  simp only [parseMacroHeader, Toks.readMacroName, Toks.readName, Res.ok_bind]
  rw [if_neg (fun hx => h (mnemonic_iff.mp hx))]
  simp only [parseArgs, list_complete reads_arg hw hl, Res.ok_bind]
  have e1 : (keyed ms).lookup (name, (a.map Arg.macroArg ++ .macroArg p :: more).length) = none := by
    rw [keyed_lookup_none]
    simp only [List.length_append, List.length_map, List.length_cons]
    rwa [show a.length + (more.length + 1) = a.length + 1 + more.length by omega]
  rw [e1]
  simp only [paramNames_dup ha hp [] (by simp), Res.err_bind]

/-! ### Accepted macros -/

/-- Each macro was definable after the earlier ones. -/
def AllDefinable : List MacroDef → Prop
  | [] => True
  | d :: ms => Definable ms d.name d.args ∧ AllDefinable ms

theorem program_definable {ms ls ss ms'} (h : ProgramSyntax ms ls ss ms') (ha : AllDefinable ms) : AllDefinable ms' := by
  induction h with
  | nil => exact ha
  | line _ _ _ _ ih => exact ih ha
  | defn _ hd _ _ _ ih => exact ih ⟨hd, ha⟩
  | last _ hd _ => exact ⟨hd, ha⟩

theorem allDefinable_spec {ms} (h : AllDefinable ms) : (∀ d ∈ ms, ¬ Mnemonic d.name ∧ d.args.Nodup) ∧
    ms.Pairwise fun d d' => ¬ (d.name = d'.name ∧ d.args.length = d'.args.length) := by
  induction ms with
  | nil => simp
  | cons d ms ih =>
    obtain ⟨⟨h1, h2, h3⟩, h4⟩ := h
    obtain ⟨i1, i2⟩ := ih h4
    refine ⟨?_, List.pairwise_cons.mpr ⟨?_, i2⟩⟩
    · intro x hx
      rcases List.mem_cons.mp hx with rfl | hx
      · exact ⟨h1, h2⟩
      · exact i1 x hx
    · intro x hx hc
      exact h3 x hx ⟨hc.1.symm, hc.2.symm⟩

theorem keyed_wellFormed {ms} (h : ∀ d ∈ ms, d.args.Nodup) : WellFormed (keyed ms) := by
  intro key d hl
  have : ∀ ms : List MacroDef, (keyed ms).lookup key = some d → d ∈ ms ∧ key = (d.name, d.args.length) := by
    intro ms
    induction ms with
    | nil => intro h; cases h
    | cons x xs ih =>
      intro h
      simp only [keyed, List.map_cons, List.lookup] at h
      split at h
      next hk =>
        cases h
        exact ⟨by simp, by simpa using hk⟩
      next =>
        obtain ⟨a, b⟩ := ih h
        exact ⟨by simp [a], b⟩
  obtain ⟨a, b⟩ := this ms hl
  exact ⟨b, h d a⟩

theorem parse_iff {toks p} : parse toks = .ok p ↔ Parses toks p := by
  unfold parse
  rw [parseTokLines_iff]
  constructor
  · rintro ⟨ms, h1, h2⟩
    refine ⟨lines toks, p.stmts, ms, lines_splits toks, h1, ?_⟩
    cases p; simp only at h2; subst h2; rfl
  · rintro ⟨ls, ss, ms, h1, h2, rfl⟩
    rw [lines_iff.mpr h1]
    exact ⟨ms, h2, rfl⟩

/-! ### Minimal parentheses -/

theorem parens_append (a b) : parens (a ++ b) = parens a + parens b := by simp [parens]

theorem parens_bracket_le {a b : Level} (h : a.rank ≤ b.rank) (e w) : parens (bracket a e w) ≤ parens (bracket b e w) := by
  unfold bracket
  split
  · rw [if_pos (by omega)]
    exact Nat.le_refl _
  · split
    · simp [parens]
    · exact Nat.le_refl _

theorem parens_cons {t : Tok} (h : t ≠ .leftParen) (w) : parens (t :: w) = parens w := by
  cases t <;> simp_all [parens]

theorem parens_minimal {lv w e} (h : Sentence lv w e) : parens (bracket lv e (written e)) ≤ parens w := by
  induction h with
  | atom h => cases h <;> simp [bracket, written, levelOf]
  | @paren w e _ ih =>
    have e1 : bracket .bitwise e (written e) = written e := by simp [bracket, Level.rank]
    rw [e1] at ih
    unfold bracket
    split
    · simp only [parens, List.countP_cons, List.countP_append] at ih ⊢
      simp only [List.countP_nil]; omega
    · simp only [parens, List.countP_cons, List.countP_append] at ih ⊢; omega
  | @pre t f w e hp _ ih =>
    cases hp <;>
      (simp only [bracket, levelOf, Level.rank, written, Nat.lt_irrefl, if_false]
       rw [parens_cons (by simp), parens_cons (by simp)]; exact ih)
  | @binary t lv f w l w' r hb _ _ ih1 ih2 =>
    cases hb <;>
      (rw [bracket, if_neg (by simp [levelOf]), written, parens_append, parens_append, parens_cons (by simp),
         parens_cons (by simp)]; exact Nat.add_le_add ih1 ih2)
  | @tight lv w e _ ih =>
    exact Nat.le_trans (parens_bracket_le (by cases lv <;> simp [Level.tighter, Level.rank]) _ _) ih

end Verif
