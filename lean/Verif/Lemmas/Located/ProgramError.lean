import Verif.Lemmas.Located.LineError
/-
What is wrong with macro definitions and with programs that are not parsed.
-/
namespace Verif.Located
open Verif.Spec Verif.Spec.Syntax

variable {α β : Type}

/-! ### Parameters -/

theorem param_words {lv w e r} (h : Places.Highlights lv w e r) {n} (he : e = .macroArg n) :
    ∃ w1 v w2, w = w1 ++ v :: w2 ∧ v.tok = .macroIdent n ∧ r = ⟨v.start, v.stop⟩ ∧
      ∀ t ∈ w1 ++ w2, t.tok = .leftParen ∨ t.tok = .rightParen := by
  induction h with
  | @atom t e ha =>
    subst he
    refine ⟨[], t, [], rfl, ?_, rfl, by simp⟩
    generalize t.tok = k at ha
    cases ha
    rfl
  | @paren a b w e r ha hb _ ih =>
    obtain ⟨w1, v, w2, rfl, h1, h2, h3⟩ := ih he
    refine ⟨a :: w1, v, w2 ++ [b], by simp, h1, h2, fun t ht => ?_⟩
    simp only [List.cons_append, List.mem_cons, List.mem_append, List.not_mem_nil, or_false] at ht
    rcases ht with rfl | ht | ht | rfl
    · exact .inl ha
    · exact h3 t (by simp [ht])
    · exact h3 t (by simp [ht])
    · exact .inr hb
  | @pre t f w e r hp _ _ =>
    generalize t.tok = k' at hp
    cases hp <;> cases he
  | @binary t lv f w l r w' l' r' hp _ _ _ _ =>
    generalize t.tok = k' at hp
    cases hp <;> cases he
  | tight _ ih => exact ih he

/-- The token of a parameter -/
def ParamAt (w : List Token) (n : Text) (v : Token) : Prop :=
  ∃ w1 w2, w = w1 ++ v :: w2 ∧ v.tok = .macroIdent n ∧ ∀ t ∈ w1 ++ w2, t.tok = .leftParen ∨ t.tok = .rightParen

theorem no_ident {w : List Token} (h : ∀ t ∈ w, t.tok = .leftParen ∨ t.tok = .rightParen) (k : Text) :
    (words w).count (.macroIdent k) = 0 := by
  rw [List.count_eq_zero]
  intro hm
  obtain ⟨t, ht, e⟩ := List.mem_map.mp hm
  rcases h t ht with h | h <;> (rw [h] at e; cases e)

theorem ParamAt.count {w n v} (h : ParamAt w n v) (k : Text) : (words w).count (.macroIdent k) = [n].count k := by
  obtain ⟨w1, w2, rfl, hv, hp⟩ := h
  rw [show words (w1 ++ v :: w2) = words w1 ++ v.tok :: words w2 from List.map_append, List.count_append,
    no_ident (fun t ht => hp t (by simp [ht])), List.count_cons, no_ident (fun t ht => hp t (by simp [ht])), hv,
    List.count_singleton]
  by_cases hk : n = k
  · subst hk; simp
  · simp [hk]

/-- What is highlighted for an argument -/
def ArgLit (w : List Token) (a : Arg) : Prop := ArgPlace w a.erase a.span.range ∧ a.span.parents = []

theorem arg_param {w : List Token} {s n} (h : ArgLit w (.macroArg s n)) : ∃ v, ParamAt w n v ∧ s = v.span := by
  obtain ⟨h, hp⟩ := h
  generalize he : (Arg.macroArg s n).erase = a at h
  generalize hr : (Arg.macroArg s n).span.range = r at h
  cases h with
  | param h =>
    cases he
    obtain ⟨w1, v, w2, rfl, h1, rfl, h3⟩ := param_words h rfl
    refine ⟨v, ⟨w1, w2, rfl, h1, h3⟩, ?_⟩
    obtain ⟨a, b, ps⟩ := s
    cases hr
    cases hp
    rfl
  | mode => cases he
  | immediate => cases he
  | expr => cases he

theorem ListAt.split {Q : List Token → α → Prop} {w bs} {a : α} {cs} (h : ListAt Q w (bs ++ a :: cs)) :
    ∃ w1 w2 w3, w = w1 ++ w2 ++ w3 ∧ Q w2 a ∧ Between w1 w3 ∧
      ((bs = [] ∧ w1 = []) ∨ ∃ w0 c, w1 = w0 ++ [c] ∧ c.tok = .comma ∧ ListAt Q w0 bs) := by
  induction bs generalizing w with
  | nil =>
    generalize hl : [] ++ a :: cs = l at h
    cases h with
    | one hw => cases hl; exact ⟨[], _, [], by simp, hw, ⟨.inl rfl, .inl rfl⟩, .inl ⟨rfl, rfl⟩⟩
    | @cons w _ c w' _ hw hc _ =>
      cases hl
      exact ⟨[], w, c :: w', by simp, hw, ⟨.inl rfl, .inr (congrArg some hc)⟩, .inl ⟨rfl, rfl⟩⟩
  | cons b bs ih =>
    generalize hl : b :: bs ++ a :: cs = l at h
    cases h with
    | one hw =>
      have := congrArg List.length hl
      simp at this
    | @cons w _ c w' as hw hc h =>
      rw [List.cons_append] at hl
      injection hl with e1 e2
      subst e1 e2
      obtain ⟨w1, w2, w3, rfl, h1, ⟨h2, h3⟩, h4⟩ := ih h
      refine ⟨w ++ c :: w1, w2, w3, by simp, h1, ⟨.inr ?_, h3⟩, .inr ?_⟩
      · rcases h2 with rfl | h2
        · rw [List.getLast?_append, List.getLast?_singleton]; exact congrArg some hc
        · rw [List.getLast?_append]
          cases w1 with
          | nil => cases h2
          | cons d w1 => rw [List.getLast?_cons_cons, Option.or_of_isSome (by simp)]; exact h2
      · rcases h4 with ⟨rfl, rfl⟩ | ⟨w0, d, rfl, hd, h4⟩
        · exact ⟨w, c, rfl, hc, .one hw⟩
        · exact ⟨w ++ c :: w0, d, by simp, hd, .cons hw hc h4⟩

/-- Parameters with these names -/
def Params (bs : List Arg) (names : List Text) : Prop := bs.map Arg.erase = names.map .macroArg

theorem params_count {w bs names} (h : ListAt ArgLit w bs) (hb : Params bs names) (k : Text) :
    (words w).count (.macroIdent k) = names.count k := by
  induction h generalizing names with
  | one hw =>
    cases names with
    | nil => cases hb
    | cons n names =>
      injection hb with e1 e2
      cases names with
      | cons _ _ => cases e2
      | nil =>
        rename_i a
        cases a with
        | macroArg s m =>
          cases e1
          obtain ⟨v, hv, _⟩ := arg_param hw
          exact hv.count k
        | _ => cases e1
  | @cons w a c w' as hw hc _ ih =>
    cases names with
    | nil => cases hb
    | cons n names =>
      injection hb with e1 e2
      cases a with
      | macroArg s m =>
        cases e1
        obtain ⟨v, hv, _⟩ := arg_param hw
        rw [show words (w ++ c :: w') = words w ++ c.tok :: words w' from List.map_append, List.count_append, List.count_cons,
          hv.count k, ih e2, hc, List.count_singleton, List.count_cons]
        simp
        omega
      | _ => cases e1

theorem paramNames_err {seen args x p} (h : paramNames seen args = .err ⟨x, p⟩) :
    ∃ bs a cs names, args = bs ++ a :: cs ∧ Params bs names ∧ names.Nodup ∧ (∀ n ∈ names, n ∉ seen) ∧
      ((∃ s n, a = .macroArg s n ∧ (n ∈ names ∨ n ∈ seen) ∧ x = .duplicateMacroArg n ∧ p = .span s) ∨
        ((∀ s n, a ≠ .macroArg s n) ∧ x = .invalidMacroParam ∧ p = .span a.span)) := by
  induction args generalizing seen with
  | nil => cases h
  | cons a args ih =>
    by_cases ha : ∃ s n, a = .macroArg s n
    · obtain ⟨s, n, rfl⟩ := ha
      unfold paramNames at h
      split at h
      next hs => cases h; exact ⟨[], _, args, [], rfl, rfl, .nil, by simp, .inl ⟨s, n, rfl, .inr hs, rfl, rfl⟩⟩
      next hs =>
        rcases Res.bind_eq_err.mp h with h | ⟨_, _, h⟩
        · obtain ⟨bs, a, cs, names, rfl, h1, h2, h3, h4⟩ := ih h
          refine ⟨.macroArg s n :: bs, a, cs, n :: names, rfl, ?_, ?_, ?_, ?_⟩
          · exact congrArg (Verif.Arg.macroArg n :: ·) h1
          · exact List.nodup_cons.mpr ⟨fun hn => h3 n hn (by simp), h2⟩
          · intro m hm
            rcases List.mem_cons.mp hm with rfl | hm
            · exact hs
            · exact fun hx => h3 m hm (by simp [hx])
          · rcases h4 with ⟨s', n', h5, h6, h7⟩ | h4
            · refine .inl ⟨s', n', h5, ?_, h7⟩
              rcases h6 with h6 | h6
              · exact .inl (by simp [h6])
              · rcases List.mem_cons.mp h6 with rfl | h6
                · exact .inl (by simp)
                · exact .inr h6
            · exact .inr h4
        · cases h
    · have : paramNames seen (a :: args) = .fail .invalidMacroParam a.span := by
        cases a with
        | macroArg s n => exact (ha ⟨s, n, rfl⟩).elim
        | _ => rfl
      rw [this] at h
      cases h
      exact ⟨[], a, args, [], rfl, rfl, .nil, by simp, .inr ⟨fun s n e => ha ⟨s, n, e⟩, rfl, rfl⟩⟩

theorem names_ok {seen args ps} (h : paramNames seen args = .ok ps) :
    Params args (ps.map Prod.snd) ∧ (ps.map Prod.snd).Nodup := by
  have he := erase_paramNames seen args
  rw [h] at he
  obtain ⟨h1, h2, _⟩ := Verif.paramNames_ok.mp he.symm
  exact ⟨h1, h2⟩

/-! ### The first line of a macro definition -/

/-- The macros that are stored are these. -/
def Keys (M : Macros) (ds : List Named) : Prop :=
  M.map (fun e => (e.1, e.2.span)) = ds.map fun d => ((d.name, d.arity), d.token.span)

theorem keys_some {M ds n k d} (h : Keys M ds) (hl : M.lookup (n, k) = some d) :
    ∃ e ∈ ds, e.name = n ∧ e.arity = k ∧ e.token.span = d.span := by
  have hm : ((n, k), d) ∈ M := by
    clear h
    induction M with
    | nil => cases hl
    | cons y M ih =>
      obtain ⟨k', v'⟩ := y
      rw [List.lookup_cons] at hl
      split at hl
      next he => cases hl; rw [eq_of_beq he]; exact List.mem_cons_self
      next => exact List.mem_cons_of_mem _ (ih hl)
  have : ((n, k), d.span) ∈ M.map (fun e => (e.1, e.2.span)) := List.mem_map.mpr ⟨_, hm, rfl⟩
  rw [h] at this
  obtain ⟨e, he, h⟩ := List.mem_map.mp this
  injection h with h1 h2
  injection h1 with h1 h3
  exact ⟨e, he, h1, h3, h2⟩

theorem keys_none {M ds n k} (h : Keys M ds) (hl : M.lookup (n, k) = none) : ∀ e ∈ ds, ¬ (e.name = n ∧ e.arity = k) := by
  intro e he ⟨h1, h2⟩
  have hm : ((e.name, e.arity), e.token.span) ∈ M.map (fun e => (e.1, e.2.span)) := by
    rw [h]; exact List.mem_map.mpr ⟨e, he, rfl⟩
  obtain ⟨⟨k', d⟩, hd, he⟩ := List.mem_map.mp hm
  injection he with he _
  dsimp only at he
  subst h1 h2 he
  exact absurd hl (by
    intro hl
    have := List.lookup_eq_none_iff.mp hl _ hd
    simp at this)

theorem header_err' {M ds l x p} (hk : Keys M ds) (hs : (words l).head? = some (.macroIdent "%macro".toList))
    (h : parseMacroHeader M l = .err ⟨x, p⟩) : HeaderError ds l x p := by
  cases l with
  | nil => cases hs
  | cons m l =>
    have hm : m.tok = .macroIdent "%macro".toList := Option.some.inj hs
    have hr : readMacroName (m :: l) = .ok ((m.span, "%macro".toList), l) := by unfold readMacroName; dsimp only; rw [hm]
    unfold parseMacroHeader at h
    rw [hr, Res.ok_bind] at h
    dsimp only at h
    cases l with
    | nil => cases h; exact .short
    | cons u l =>
      by_cases hu : ∃ n, u.tok = .name n
      · obtain ⟨n, hu⟩ := hu
        have hr : readName (u :: l) = .ok ((u.span, n), l) := by unfold readName; dsimp only; rw [hu]
        rw [hr, Res.ok_bind] at h
        dsimp only at h
        split at h
        next hi => cases h; exact .conflict hu (mnemonic_iff.mp hi)
        next hi =>
          have hn : ¬ Mnemonic n := fun hx => hi (mnemonic_iff.mpr hx)
          rcases Res.bind_eq_err.mp h with h' | ⟨⟨args, e⟩, ha, h'⟩
          · exact .args hu hn (args_stuck h')
          · clear h hr
            have h := h'
            clear h'
            unfold parseArgs at ha
            dsimp only at h
            obtain ⟨w, rfl, hw, he⟩ := list_read steady_arg erase_parseArg reads_arg ha
            obtain ⟨_, w', e', hl⟩ := list_listAt (Q := ArgLit) steady_arg (fun _ _ _ => parseArg_lit) ha
            have := List.append_cancel_right e'
            subst this
            have hl1 : ∀ args : List Arg, (args.map Arg.erase).length = args.length := fun _ => List.length_map ..
            split at h
            next d hd =>
              cases h
              obtain ⟨e, h1, h2, h3, h4⟩ := keys_some hk hd
              rw [← h4]
              have := HeaderError.exists (m := m) hu hn hw (ended_iff.mp he) h1 h2 (by rw [h3, hl1])
              rwa [hl1] at this
            next hd =>
              have hnone := keys_none hk hd
              rcases Res.bind_eq_err.mp h with h | ⟨ps, _, h⟩
              · obtain ⟨bs, a, cs, names, rfl, h1, h2, _, h4⟩ := paramNames_err h
                have hb : bs.length = names.length := by
                  have := congrArg List.length h1
                  rwa [List.length_map, List.length_map] at this
                have hnone' : ∀ e ∈ ds, ¬ (e.name = n ∧ e.arity = names.length + 1 + (cs.map Arg.erase).length) := by
                  intro e he hx
                  refine hnone e he ⟨hx.1, ?_⟩
                  rw [hx.2, List.length_append, List.length_cons, hb, List.length_map]
                  omega
                have hw' : OptListed ArgSyntax (words w) (names.map .macroArg ++ a.erase :: cs.map Arg.erase) := by
                  have : (bs ++ a :: cs).map Arg.erase = names.map .macroArg ++ a.erase :: cs.map Arg.erase := by
                    rw [List.map_append, List.map_cons, h1]
                  rw [← this]; exact hw
                have hl : ListAt ArgLit w (bs ++ a :: cs) := by
                  rcases hl with ⟨_, he⟩ | hl
                  · simp at he
                  · exact hl
                obtain ⟨w1, w2, w3, rfl, h5, h6, h7⟩ := hl.split
                rcases h4 with ⟨s, k, rfl, h8, rfl, rfl⟩ | ⟨h8, rfl, rfl⟩
                · have h8 : k ∈ names := by simpa using h8
                  obtain ⟨v, ⟨v1, v2, rfl, hv, hp⟩, rfl⟩ := arg_param h5
                  refine .duplicate (w1 := w1 ++ v1) (v := v) (w2 := v2 ++ w3) hu hn hw' (ended_iff.mp he) hnone' h2 h8 (by simp) hv ?_
                  rcases h7 with ⟨rfl, _⟩ | ⟨w0, c, rfl, hc, h7⟩
                  · cases names with
                    | nil => cases h8
                    | cons _ _ => cases hb
                  · rw [show words (w0 ++ [c] ++ v1) = words w0 ++ [c.tok] ++ words v1 by simp [words], List.count_append,
                      List.count_append, params_count h7 h1, no_ident (fun t ht => hp t (by simp [ht])), hc]
                    have := List.nodup_iff_count.mp h2 k
                    have h9 := List.count_pos_iff.mpr h8
                    have h10 : List.count (Tok.macroIdent k) [Tok.comma] = 0 := by simp
                    omega
                · refine .invalid (s := a.span) hu hn hw' (ended_iff.mp he) hnone' h2 (fun k hx => ?_) h6 h5.1 h5.2
                  cases a with
                  | macroArg s n => exact h8 s n rfl
                  | _ => cases hx
              · split at h
                · cases h
                next hx => exact absurd he hx
      · have hr : readName (u :: l) = .fail (.expectedTokenNotFound "Name".toList) u.span := by
          unfold readName
          dsimp only
          split
          next n hn => exact (hu ⟨n, hn⟩).elim
          · rfl
        rw [hr] at h
        cases h
        exact .name fun n hn => hu ⟨n, hn⟩

theorem header_ok {M ds l s n ps} (hk : Keys M ds) (hs : (words l).head? = some (.macroIdent "%macro".toList))
    (h : parseMacroHeader M l = .ok (s, n, ps)) :
    ∃ m u rest, l = m :: u :: rest ∧ s = u.span ∧ HeaderSyntax (words l) n (ps.map Prod.snd) ∧ ¬ Mnemonic n ∧
      (ps.map Prod.snd).Nodup ∧ ∀ d ∈ ds, ¬ (d.name = n ∧ d.arity = (ps.map Prod.snd).length) := by
  cases l with
  | nil => cases hs
  | cons m l =>
    have hm : m.tok = .macroIdent "%macro".toList := Option.some.inj hs
    have hr : readMacroName (m :: l) = .ok ((m.span, "%macro".toList), l) := by unfold readMacroName; dsimp only; rw [hm]
    unfold parseMacroHeader at h
    rw [hr, Res.ok_bind] at h
    dsimp only at h
    cases l with
    | nil => cases h
    | cons u l =>
      by_cases hu : ∃ n, u.tok = .name n
      · obtain ⟨n', hu⟩ := hu
        have hr : readName (u :: l) = .ok ((u.span, n'), l) := by unfold readName; dsimp only; rw [hu]
        rw [hr, Res.ok_bind] at h
        dsimp only at h
        split at h
        · cases h
        next hi =>
          obtain ⟨⟨args, e⟩, ha, h'⟩ := Res.bind_eq_ok.mp h
          clear h hr
          have h := h'
          clear h'
          unfold parseArgs at ha
          dsimp only at h
          obtain ⟨w, rfl, hw, he⟩ := list_read steady_arg erase_parseArg reads_arg ha
          split at h
          · cases h
          next hd =>
            obtain ⟨ps', hp, h⟩ := Res.bind_eq_ok.mp h
            split at h
            · cases h
              obtain ⟨h1, h2⟩ := names_ok hp
              refine ⟨m, u, w ++ e, rfl, rfl, ⟨words w, words e, ?_, ?_, ended_iff.mp he⟩,
                fun hx => hi (mnemonic_iff.mpr hx), h2, ?_⟩
              · rw [show words (m :: u :: (w ++ e)) = m.tok :: u.tok :: words (w ++ e) from rfl, hm, hu,
                  show words (w ++ e) = words w ++ words e from List.map_append]
              · rw [← show args.map Arg.erase = _ from h1]; exact hw
              · have := keys_none hk hd
                have hlen := congrArg List.length h1
                rw [List.length_map, List.length_map (f := Verif.Arg.macroArg)] at hlen
                rw [← hlen]
                exact this
            next hx => exact absurd he hx
      · have hr : readName (u :: l) = .fail (.expectedTokenNotFound "Name".toList) u.span := by
          unfold readName
          dsimp only
          split
          next n hn => exact (hu ⟨n, hn⟩).elim
          · rfl
        rw [hr] at h
        cases h

/-! ### The lines of a macro -/

theorem lineLabel_cases (ts : List Token) :
    (∃ t, ts = [t] ∧ (macroLineLabel ts).2 = []) ∨
    (∃ t c r, ts = t :: c :: r ∧ Labels [t, c] ∧ (macroLineLabel ts).2 = r) ∨
    ((macroLineLabel ts).2 = ts ∧ ∀ t r, ts = t :: r →
      (∀ n, t.tok = .name n ∨ t.tok = .macroLabel n → (Dotted n → r ≠ []) ∧ ∀ c r', r = c :: r' → c.tok ≠ .colon)) := by
  cases ts with
  | nil => exact .inr (.inr ⟨rfl, fun t r h => by cases h⟩)
  | cons t ts =>
    cases ts with
    | nil =>
      unfold macroLineLabel
      dsimp only
      split
      next n hn =>
        split
        · exact .inl ⟨t, rfl, rfl⟩
        next hd =>
          refine .inr (.inr ⟨rfl, fun t' r e m hm => ?_⟩)
          injection e with e1 e2
          subst e1 e2
          rw [hn] at hm
          rcases hm with hm | hm <;> cases hm
          exact ⟨fun h => absurd (isDotted_iff.mpr h) hd, fun c r' e => by cases e⟩
      next n hn =>
        split
        · exact .inl ⟨t, rfl, rfl⟩
        next hd =>
          refine .inr (.inr ⟨rfl, fun t' r e m hm => ?_⟩)
          injection e with e1 e2
          subst e1 e2
          rw [hn] at hm
          rcases hm with hm | hm <;> cases hm
          exact ⟨fun h => absurd (isDotted_iff.mpr h) hd, fun c r' e => by cases e⟩
      next h1 h2 =>
        refine .inr (.inr ⟨rfl, fun t' r e m hm => ?_⟩)
        injection e with e1 e2
        subst e1 e2
        rcases hm with hm | hm
        · exact absurd hm (h1 m)
        · exact absurd hm (h2 m)
    | cons c ts =>
      unfold macroLineLabel
      dsimp only
      split
      next hc =>
        split
        next n hn =>
          exact .inr (.inl ⟨t, c, ts, rfl, ⟨[.label n], by rw [show words [t, c] = [t.tok, c.tok] from rfl, hn, hc]; exact .label⟩, rfl⟩)
        next n hn =>
          exact .inr (.inl ⟨t, c, ts, rfl, ⟨[.macroLabel n], by
            rw [show words [t, c] = [t.tok, c.tok] from rfl, hn, hc]; exact .macroLabel⟩, rfl⟩)
        next h1 h2 =>
          refine .inr (.inr ⟨rfl, fun t' r e m hm => ?_⟩)
          injection e with e1 e2
          subst e1 e2
          rcases hm with hm | hm
          · exact absurd hm (h1 m)
          · exact absurd hm (h2 m)
      next hc =>
        refine .inr (.inr ⟨rfl, fun t' r e m hm => ?_⟩)
        injection e with e1 e2
        subst e1 e2
        exact ⟨fun _ h => (by cases h), fun c' r' e => by injection e with e1 _; subst e1; exact hc⟩

theorem body_err {l x p} (h : parseMacroStatement l = .err ⟨x, p⟩) : BodyError l x p := by
  have key : ∀ w r, Labels w → l = w ++ r →
      (∀ t r', r = t :: r' → w = [] → ∀ n, t.tok = .name n ∨ t.tok = .macroLabel n →
        (Dotted n → r' ≠ []) ∧ ∀ c r'', r' = c :: r'' → c.tok ≠ .colon) →
      (macroLineLabel l).2 = r → BodyError l x p := by
    intro w r hw hl hc hr
    unfold parseMacroStatement at h
    dsimp only at h
    rw [hr] at h
    subst hl
    cases r with
    | nil =>
      rw [show macroLineInstr [] = .ok ([], []) from rfl, Res.ok_bind] at h
      cases h
    | cons t r =>
      have hc := hc t r rfl
      rcases Res.bind_eq_err.mp h with h | ⟨⟨ss, rest⟩, h1, h⟩
      · unfold macroLineInstr at h
        dsimp only at h
        split at h
        next n hn =>
          have hc' : ∀ c r', r = c :: r' → w = [] → c.tok ≠ .colon := fun c r' e hw => (hc hw n (.inl hn)).2 c r' e
          split at h
          next hd => cases h; exact .dotted hw hn (isDotted_iff.mp hd) (fun hw => (hc hw n (.inl hn)).1 (isDotted_iff.mp hd)) hc'
          next hd =>
            have hp : parseGenInstr (t :: r) = parseList parseArg r >>= fun y =>
                .ok ((spanTo t.span (y.1.map Arg.span), n, y.1), y.2) := by
              unfold parseGenInstr readName
              dsimp only
              rw [hn]
              rfl
            rw [hp] at h
            rcases Res.bind_eq_err.mp h with h | ⟨_, _, h⟩
            · rcases Res.bind_eq_err.mp h with h | ⟨_, _, h⟩
              · exact .args hw hn (fun h => hd (isDotted_iff.mpr h)) hc' (args_stuck h)
              · cases h
            · cases h
        · cases h
      · dsimp only at h
        split at h
        · cases h
        next he =>
          obtain ⟨u, us, rfl, hu⟩ := not_atEnd he
          cases h
          unfold macroLineInstr at h1
          dsimp only at h1
          split at h1
          next n hn =>
            split at h1
            · cases h1
            · obtain ⟨⟨⟨s, n', args⟩, r1⟩, h2, h1⟩ := Res.bind_eq_ok.mp h1
              cases h1
              have hp : parseGenInstr (t :: r) = parseList parseArg r >>= fun y =>
                  .ok ((spanTo t.span (y.1.map Arg.span), n, y.1), y.2) := by
                unfold parseGenInstr readName
                dsimp only
                rw [hn]
                rfl
              rw [hp] at h2
              obtain ⟨⟨as, r2⟩, h3, h2⟩ := Res.bind_eq_ok.mp h2
              cases h2
              exact absurd ((atEnd_cons _ _).mp (unit_list_ended steady_arg (unit_of h3))) hu
          next hn =>
            cases h1
            exact .excess hw hn hu fun n hw' hm => hc hw' n (.inr hm)
  rcases lineLabel_cases l with ⟨t, rfl, hr⟩ | ⟨t, c, r, rfl, hl, hr⟩ | ⟨hr, hc⟩
  · unfold parseMacroStatement at h
    dsimp only at h
    rw [hr] at h
    cases h
  · exact key [t, c] r hl rfl (fun _ _ _ h => by cases h) hr
  · exact key [] l ⟨[], .none⟩ rfl (fun t r e _ => hc t r e) hr

/-! ### Programs -/

/-- What the macro pass knows -/
def State (M : Macros) : Option MacroDef → List Named → Prop
  | none, ds => Keys M ds
  | some d, ds => Keys (((d.name, d.args.length), d) :: M) ds

theorem keys_cons {M ds} (h : Keys M ds) {u : Token} {n : Text} {ps : List (Span × Text)} {b} :
    Keys (((n, ps.length), ⟨u.span, n, ps, b⟩) :: M) (⟨u, n, (ps.map Prod.snd).length⟩ :: ds) := by
  unfold Keys at h ⊢
  rw [List.map_cons, List.map_cons, List.length_map, h]

theorem pass_after (rest : List (List Token)) : ∀ {ls os ds cur M}, After ls os ds cur.isSome → State M cur ds →
    (∀ x p, macroPass M cur rest = .err ⟨x, p⟩ → ProgramError (ls ++ rest) x p) ∧
    (∀ os' M', macroPass M cur rest = .ok (os', M') → ∃ ds' inside, After (ls ++ rest) (os ++ os') ds' inside) := by
  induction rest with
  | nil =>
    intro ls os ds cur M ha hs
    unfold macroPass
    rw [List.append_nil]
    cases cur with
    | none => exact ⟨fun x p h => (by cases h), fun os' M' h => by cases h; rw [List.append_nil]; exact ⟨_, _, ha⟩⟩
    | some d => exact ⟨fun x p h => (by cases h), fun os' M' h => by cases h; rw [List.append_nil]; exact ⟨_, _, ha⟩⟩
  | cons l rest ih =>
    intro ls os ds cur M ha hs
    have hsnoc : ∀ l', ls ++ l' :: rest = ls ++ [l'] ++ rest := fun l' => by simp
    unfold macroPass
    cases cur with
    | none =>
      dsimp only
      by_cases hm : startsMacro (words l) = true
      · rw [if_pos hm]
        rw [Verif.startsMacro_iff] at hm
        constructor
        · intro x p h
          rcases Res.bind_eq_err.mp h with h | ⟨⟨s, n, ps⟩, h1, h⟩
          · exact .header ha hm (header_err' hs hm h)
          · obtain ⟨m, u, r, rfl, rfl, h2, h3, h4, h5⟩ := header_ok hs hm h1
            dsimp only at h
            rw [hsnoc]
            refine (ih (cur := some _) (.first ha h2 h3 h4 h5) ?_).1 x p h
            exact keys_cons hs
        · intro os' M' h
          obtain ⟨⟨s, n, ps⟩, h1, h⟩ := Res.bind_eq_ok.mp h
          obtain ⟨m, u, r, rfl, rfl, h2, h3, h4, h5⟩ := header_ok hs hm h1
          dsimp only at h
          rw [hsnoc]
          refine (ih (cur := some _) (.first ha h2 h3 h4 h5) ?_).2 os' M' h
          exact keys_cons hs
      · rw [if_neg hm]
        rw [Verif.startsMacro_iff] at hm
        have := ih (cur := none) (.line ha hm) hs
        rw [hsnoc]
        constructor
        · intro x p h
          rcases Res.bind_eq_err.mp h with h | ⟨_, _, h⟩
          · exact this.1 x p h
          · cases h
        · intro os' M' h
          obtain ⟨⟨os1, M1⟩, h1, h⟩ := Res.bind_eq_ok.mp h
          cases h
          have := this.2 _ _ h1
          rwa [show os ++ [l] ++ os1 = os ++ l :: os1 by simp] at this
    | some d =>
      dsimp only
      by_cases hm : endsMacro (words l) = true
      · rw [if_pos hm]
        rw [Verif.endsMacro_iff] at hm
        cases l with
        | nil => cases hm
        | cons m e =>
          replace hm : m.tok = .macroIdent "%end".toList := Option.some.inj hm
          rw [show (m :: e).drop 1 = e from rfl]
          by_cases he : atEnd e = true
          · rw [if_pos he, hsnoc]
            exact ih (cur := none) (.last ha hm (ended_iff.mp he)) hs
          · rw [if_neg he]
            obtain ⟨u, us, rfl, hu⟩ := not_atEnd he
            refine ⟨fun x p h => ?_, fun os' M' h => (by cases h)⟩
            cases h
            exact .ending ha hm hu
      · rw [if_neg hm]
        rw [Verif.endsMacro_iff] at hm
        constructor
        · intro x p h
          rcases Res.bind_eq_err.mp h with h | ⟨ss, h1, h⟩
          · exact .body ha hm (body_err h)
          · have he := erase_parseMacroStatement l
            rw [h1] at he
            rw [hsnoc]
            exact (ih (cur := some { d with body := d.body ++ ss }) (.body ha hm (macroStatement_sound he.symm)) hs).1 x p h
        · intro os' M' h
          obtain ⟨ss, h1, h⟩ := Res.bind_eq_ok.mp h
          have he := erase_parseMacroStatement l
          rw [h1] at he
          rw [hsnoc]
          exact (ih (cur := some { d with body := d.body ++ ss }) (.body ha hm (macroStatement_sound he.symm)) hs).2 os' M' h

theorem line_right {l ss} (h : parseLine l = .ok ss) : Right l := by
  have he := erase_parseLine l
  rw [h] at he
  obtain ⟨w, e, h1, h2, h3⟩ := line_sound he.symm
  exact ⟨w, e, _, h1, h2, h3⟩

theorem lines_err {os x p} (h : parseLines os = .err ⟨x, p⟩) :
    ∃ before l after, os = before ++ l :: after ∧ (∀ o ∈ before, Right o) ∧ LineError l x p := by
  induction os with
  | nil => cases h
  | cons l os ih =>
    rcases Res.bind_eq_err.mp h with h | ⟨ss, h1, h⟩
    · exact ⟨[], l, os, rfl, by simp, line_err h⟩
    · rcases Res.bind_eq_err.mp h with h | ⟨_, _, h⟩
      · obtain ⟨before, l', after, rfl, h2, h3⟩ := ih h
        refine ⟨l :: before, l', after, rfl, fun o ho => ?_, h3⟩
        rcases List.mem_cons.mp ho with rfl | ho
        · exact line_right h1
        · exact h2 o ho
      · cases h

theorem parse_err {tokens x p} (h : parse tokens = .err ⟨x, p⟩) : SyntaxError tokens x p := by
  refine ⟨lines tokens, lines_splits tokens, ?_⟩
  have := pass_after (lines tokens) (cur := none) (M := []) .nil rfl
  rcases Res.bind_eq_err.mp h with h | ⟨⟨os, M⟩, h1, h⟩
  · exact this.1 x p h
  · obtain ⟨ds, inside, ha⟩ := this.2 _ _ h1
    rcases Res.bind_eq_err.mp h with h | ⟨_, _, h⟩
    · obtain ⟨before, l, after, rfl, h2, h3⟩ := lines_err h
      exact .line ha h2 h3
    · cases h

end Verif.Located
