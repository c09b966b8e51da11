import Verif.Spec.SourceErrors
import Verif.Lemmas.Located.OneError
import Verif.Lemmas.Located.EraseRead
import Verif.Lemmas.SourcesMore
/-
Which error reading the source files gives.
-/
namespace Verif
open Spec

/-! ### Characters of C headers -/

theorem creaches_text {b t b' t' : Text} (h : CReaches b t b' t') : b ++ t = b' ++ t' := by
  induction h with
  | here => rfl
  | token _ _ _ ih => rw [← ih]; simp

theorem clexLoop_err {seg : Seg} {file : Nat} {e : Err} : ∀ (fuel : Nat) (before text : Text), text.length < fuel → Plain seg text →
    (∀ c ∈ text, c.toNat < 128) → lexLoop seg (skipCBlank seg) fuel (inputAt file before text) = .err e →
    ∃ b r, CReaches before text b r ∧ CNoToken r ∧ e = charError file b := by
  intro fuel
  induction fuel with
  | zero => intro _ text h; exact absurd h (Nat.not_lt_zero _)
  | succ fuel ih =>
    intro before text hlen hp ha h
    obtain ⟨g, rest, rfl, hg, hskip⟩ := skipCBlank_ascii file before text hp ha
    rw [lexLoop_step_of hp hskip] at h
    split at h
    · cases h
    · rename_i hr
      cases hm : matchToken rest with
      | none =>
        rw [hm] at h
        cases h
        refine ⟨before, _, .here, ⟨g, rest, rfl, hg, hr, ?_⟩, rfl⟩
        rintro w rest' rfl
        constructor
        · intro k hk
          rw [matchToken_complete hk] at hm
          cases hm
        · intro v radix hn
          rw [matchToken_number hn] at hm
          cases hm
      | some x =>
        obtain ⟨w, conv⟩ := x
        rw [hm] at h
        obtain ⟨rest', rfl, hr'⟩ := matchToken_sound hm
        rcases hr' with ⟨k, rfl, hk⟩ | ⟨v, radix, rfl, hn, hv⟩
        · have hw : 0 < w.length := List.length_pos_iff.mpr (spells_ne_nil hk)
          simp only [Res.ok_bind, List.drop_left] at h
          rcases Res.bind_eq_err.mp h with h | ⟨_, _, h⟩
          · obtain ⟨b, r, h1, h2⟩ := ih (before ++ g ++ w) rest' (by simp only [List.length_append] at hlen; omega)
              hp.suffix.suffix (ascii_suffix (ascii_suffix ha)) h
            rw [← List.append_assoc]
            exact ⟨b, r, .token hg hk h1, h2⟩
          · cases h
        · cases h

theorem creaches_stops {seg : Seg} {file : Nat} {before text b t : Text} (h : CReaches before text b t)
    (hp : Plain seg text) (ha : ∀ c ∈ text, c.toNat < 128) (hno : CNoToken t) :
    ∀ fuel, text.length < fuel → lexLoop seg (skipCBlank seg) fuel (inputAt file before text) = .err (charError file b) := by
  induction h with
  | @here before text =>
    obtain ⟨g, rest, rfl, hg, hr, hno⟩ := hno
    intro fuel hf
    obtain ⟨fuel, rfl⟩ : ∃ n, fuel = n + 1 := ⟨fuel - 1, by omega⟩
    rw [lexLoop_step_of hp (skipCBlank_gap file hp ha hg), if_neg hr]
    cases hm : matchToken rest with
    | none => rfl
    | some x =>
      obtain ⟨w, conv⟩ := x
      obtain ⟨rest', rfl, hr'⟩ := matchToken_sound hm
      obtain ⟨h1, h2⟩ := hno w rest' rfl
      rcases hr' with ⟨k, rfl, hk⟩ | ⟨v, radix, rfl, hn, hv⟩
      · exact absurd hk (h1 k)
      · exact absurd hn (h2 v radix)
  | @token before g w rest k b t hg hk _ ih =>
    intro fuel hf
    obtain ⟨fuel, rfl⟩ : ∃ n, fuel = n + 1 := ⟨fuel - 1, by omega⟩
    have hw : w ≠ [] := spells_ne_nil hk
    have hl := List.length_pos_iff.mpr hw
    rw [List.append_assoc] at hp ha ⊢
    rw [lexLoop_step_of hp (skipCBlank_gap file hp ha hg), if_neg (by simp [hw]), matchToken_complete hk]
    simp only [Res.ok_bind, List.drop_left]
    rw [ih hp.suffix.suffix (ascii_suffix (ascii_suffix ha)) hno fuel (by simp only [List.length_append] at hf; omega)]
    rfl

theorem clex_err_iff {seg : Seg} (hs : AsciiSeg seg) {file : Nat} {text : Text} (ha : ∀ c ∈ text, c.toNat < 128) {e : Err} :
    lexForWs seg (skipCBlank seg) (Input.new file text) = .err e ↔
      ∃ b r, CReaches [] text b r ∧ CNoToken r ∧ e = charError file b := by
  unfold lexForWs
  rw [input_new]
  constructor
  · exact clexLoop_err _ _ _ (by show text.length < text.length + 2; omega) (plain_of_ascii hs ha) ha
  · rintro ⟨b, r, h1, h2, rfl⟩
    exact creaches_stops h1 (plain_of_ascii hs ha) ha h2 _ (by show text.length < text.length + 2; omega)

end Verif

namespace Verif.Located
open Verif.Spec Verif.Spec.Syntax

/-! ### Definitions in C headers -/

/-- What is read after `#define` -/
def readDefine (ts : List Token) : Res (Expr × List Token) := readName ts >>= fun x => parseExpr x.2

theorem define_at (ts : List Token) : SteadyAt readDefine (Upto 0) ts :=
  .bind (g := fun _ => parseExpr) (steady_name.at_ ts) (fun _ _ _ => trivial) (fun _ _ _ => steady_expr.at_ _)
    (fun _ => by
      obtain ⟨m, ms, a, _, _, h⟩ := steady_expr.sample
      exact ⟨m :: ms, a, fun rest hr => ⟨trivial, h rest hr⟩⟩) (fun _ _ _ _ _ => trivial)

theorem readName_inv {ts : List Token} {x rest} (h : readName ts = .ok (x, rest)) : ∃ t, ts = t :: rest ∧ t.tok = .name x.2 := by
  cases ts with
  | nil => cases h
  | cons t ts =>
    obtain ⟨k, a, b⟩ := t
    cases k <;> cases h
    exact ⟨_, rfl, rfl⟩

theorem define_ok {ts : List Token} {e rest} (h : readDefine ts = .ok (e, rest)) :
    ∃ w, ts = w ++ rest ∧ Definition (words w) ∧ headPrec (toks rest) = 0 := by
  obtain ⟨⟨x, ts'⟩, h1, h2⟩ := Res.bind_eq_ok.mp h
  obtain ⟨t, rfl, ht⟩ := readName_inv h1
  obtain ⟨_, _, _, hn⟩ := parseExpr_iff.mp (read_sound erase_parseExpr (expr_steady _) h2).1
  obtain ⟨w, rfl, hw⟩ := expr_read h2
  exact ⟨t :: w, rfl, ⟨x.2, words w, _, by rw [words, List.map_cons, ht], hw⟩, noOperator_iff.mp hn⟩

theorem define_complete {w r : List Token} (h : Definition (words w)) (hr : Upto 0 r) : ∃ e, readDefine (w ++ r) = .ok (e, r) := by
  obtain ⟨n, w', e, h1, h2⟩ := h
  cases w with
  | nil => cases h1
  | cons t w =>
    injection h1 with h1 h3
    subst h3
    obtain ⟨e', he⟩ := expr_scan h2 hr
    refine ⟨e', ?_⟩
    obtain ⟨k, a, b⟩ := t
    cases h1
    exact he

theorem define_stuck {ts : List Token} {x p} (h : readDefine ts = .err ⟨x, p⟩) : Syntax.Stuck Definition ts x p := by
  refine stuck_of (F := Upto 0) (ended_upto ended_nil) (fun ts a h => ?_) (fun w r hw hr => define_complete hw (ended_upto hr)) (define_at ts) h
  obtain ⟨w, e, hw, _⟩ := define_ok h
  rw [List.append_nil] at e
  subst e
  exact hw

/-- What can follow a definition that is complete is an operator. -/
theorem define_follow {w : List Tok} {t more} (h : Definition w) (h' : Definition (w ++ t :: more)) : infixPrec t ≠ 0 := by
  intro ht
  have e1 := define_complete (w := w.map bare) (r := bare t :: more.map bare) (by rw [words_map_bare]; exact h) (by
    show infixPrec t ≤ 0
    rw [ht]; exact Nat.le_refl _)
  have e2 := define_complete (w := w.map bare ++ bare t :: more.map bare) (r := []) (by
    rw [words, List.map_append]
    show Definition (words (w.map bare) ++ t :: words (more.map bare))
    rw [words_map_bare, words_map_bare]; exact h') (ended_upto ended_nil)
  obtain ⟨e, e1⟩ := e1
  obtain ⟨e', e2⟩ := e2
  rw [List.append_nil] at e2
  rw [e2] at e1
  cases e1

theorem wanted_prec {x : Err} {t : Tok} (h : Wanted x t) : infixPrec t = 0 := by cases h <;> rfl

/-- A definition with something after it that is no operator is not stuck. -/
theorem define_not_stuck {w rest : List Token} {x p} (hw : Definition (words w)) (hr : headPrec (toks rest) = 0) :
    ¬ Syntax.Stuck Definition (w ++ rest) x p := by
  have long : ∀ {u more v}, rest = u :: more → ¬ Definition (words (w ++ u :: more) ++ v) := by
    rintro u more v rfl h
    rw [words_append, List.append_assoc] at h
    exact define_follow hw h hr
  intro h
  rcases stuck_viable h with ⟨w', t, r, e, ⟨⟨u, hu, m, hf⟩, -⟩, -, hn, -⟩ | ⟨-, -, ⟨u, m, hf⟩, hn⟩
  · rcases List.append_eq_append_iff.mp e with ⟨a, rfl, h2⟩ | ⟨a, rfl, h2⟩
    · cases a with
      | nil =>
        rw [List.append_nil] at hf
        exact define_follow hw hf (wanted_prec hu)
      | cons c a =>
        rw [List.cons_append] at h2
        refine long (u := c) (more := a ++ t :: r) h2 (v := u :: m) ?_
        subst h2
        exfalso
        rw [words_append, List.append_assoc] at hf
        exact define_follow hw hf hr
    · cases a with
      | nil =>
        rw [List.append_nil] at hw
        exact define_follow hw hf (wanted_prec hu)
      | cons c a =>
        injection h2 with h2 _
        subst h2
        exact hn (follow_of (v := []) (by rw [List.append_nil]; exact hw))
  · cases rest with
    | nil => rw [List.append_nil] at hn; exact hn hw
    | cons c a => exact long rfl hf

theorem define_err_iff {ts : List Token} {x p} : readDefine ts = .err ⟨x, p⟩ ↔ Syntax.Stuck Definition ts x p := by
  refine ⟨define_stuck, fun h => ?_⟩
  have hat := define_at ts
  unfold SteadyAt at hat
  cases hr : readDefine ts with
  | err e =>
    obtain ⟨rfl, rfl⟩ := stuck_unique (define_stuck (x := e.err) (p := e.place) hr) h
    rfl
  | panic => rw [hr] at hat; exact hat.elim
  | loop => rw [hr] at hat; exact hat.elim
  | ok y =>
    obtain ⟨e, rest⟩ := y
    obtain ⟨w, rfl, hw, hn⟩ := define_ok hr
    exact absurd h (define_not_stuck hw hn)

theorem headerLine_eq {h d : Token} {l : List Token} (hh : h.tok = .hash) (hd : d.tok = .name "define".toList) :
    headerLine (h :: d :: l) = readDefine l >>= fun _ =>
      match l with
      | name :: more => .ok (name :: ⟨.name "equ".toList, h.start, d.stop⟩ :: more)
      | [] => .panic := by
  unfold headerLine readDefine
  dsimp only
  rw [if_pos ⟨hh, hd⟩]
  cases readName l <;> rfl

theorem headerLine_other {l : List Token} (h : ∀ r, words l ≠ .hash :: .name "define".toList :: r) : headerLine l = .ok l := by
  unfold headerLine
  split
  · rename_i a b r
    rw [if_neg]
    rintro ⟨h1, h2⟩
    exact h (words r) (by simp [words, h1, h2])
  · rfl

/-- The two kinds of lines -/
theorem define_or (l : List Token) : (∃ h d r, l = h :: d :: r ∧ h.tok = .hash ∧ d.tok = .name "define".toList) ∨
    ∀ r, words l ≠ .hash :: .name "define".toList :: r := by
  match l with
  | [] => exact .inr (by simp [words])
  | [_] => exact .inr (by simp [words])
  | h :: d :: r =>
    by_cases hc : h.tok = .hash ∧ d.tok = .name "define".toList
    · exact .inl ⟨h, d, r, rfl, hc⟩
    · refine .inr fun r' e => hc ?_
      simp only [words, List.map_cons, List.cons.injEq] at e
      exact ⟨e.1, e.2.1⟩

theorem headerLine_fine_iff {l : List Token} : (∃ out, headerLine l = .ok out) ↔ HeaderFine l := by
  constructor
  · rintro ⟨out, h⟩
    rcases define_or l with ⟨a, d, r, rfl, ha, hd⟩ | hn
    · rw [headerLine_eq ha hd] at h
      obtain ⟨⟨e, rest⟩, h1, -⟩ := Res.bind_eq_ok.mp h
      obtain ⟨w, rfl, ⟨n, w', e', h2, h3⟩, h4⟩ := define_ok h1
      refine ⟨.name n :: .name "equ".toList :: (w' ++ words rest), ?_⟩
      rw [show words (a :: d :: (w ++ rest)) = .hash :: .name "define".toList :: .name n :: (w' ++ words rest) by
        rw [words, List.map_cons, List.map_cons, ha, hd, List.map_append]
        show _ :: _ :: (words w ++ _) = _
        rw [h2]; rfl]
      exact .define h3 (noOperator_iff.mpr h4)
    · exact ⟨_, .other hn⟩
  · rintro ⟨out, h⟩
    obtain ⟨l', h1, -⟩ := headerLine_complete h
    rw [← erase_headerLine] at h1
    cases hr : headerLine l with
    | ok a => exact ⟨a, rfl⟩
    | _ => rw [hr] at h1; cases h1

theorem headerLine_err_iff {l : List Token} {x p} : headerLine l = .err ⟨x, p⟩ ↔
    ∃ h d r, l = h :: d :: r ∧ h.tok = .hash ∧ d.tok = .name "define".toList ∧ Syntax.Stuck Definition r x p := by
  constructor
  · intro h
    rcases define_or l with ⟨a, d, r, rfl, ha, hd⟩ | hn
    · rw [headerLine_eq ha hd] at h
      refine ⟨a, d, r, rfl, ha, hd, define_err_iff.mp ?_⟩
      rcases Res.bind_eq_err.mp h with h | ⟨y, _, h⟩
      · exact h
      · cases r <;> cases h
    · rw [headerLine_other hn] at h
      cases h
  · rintro ⟨a, d, r, rfl, ha, hd, h⟩
    rw [headerLine_eq ha hd, define_err_iff.mpr h]
    rfl

theorem headerLines_ok_iff {ls : List (List Token)} : (∃ out, headerLines ls = .ok out) ↔ ∀ l ∈ ls, HeaderFine l := by
  induction ls with
  | nil => exact ⟨nofun, fun _ => ⟨_, rfl⟩⟩
  | cons l ls ih =>
    constructor
    · rintro ⟨out, h⟩
      obtain ⟨a, h1, h⟩ := Res.bind_eq_ok.mp h
      obtain ⟨b, h2, h⟩ := Res.bind_eq_ok.mp h
      intro o ho
      rcases List.mem_cons.mp ho with rfl | ho
      · exact headerLine_fine_iff.mp ⟨a, h1⟩
      · exact ih.mp ⟨b, h2⟩ o ho
    · intro h
      obtain ⟨a, h1⟩ := headerLine_fine_iff.mpr (h l (by simp))
      obtain ⟨b, h2⟩ := ih.mpr fun o ho => h o (by simp [ho])
      exact ⟨a ++ b, by rw [headerLines, h1, Res.ok_bind, h2]; rfl⟩

theorem headerLines_err_iff {ls : List (List Token)} {e} : headerLines ls = .err e ↔
    ∃ before l after, ls = before ++ l :: after ∧ (∀ o ∈ before, HeaderFine o) ∧ headerLine l = .err e := by
  induction ls with
  | nil => exact ⟨nofun, fun ⟨b, _, _, h, _⟩ => by cases b <;> cases h⟩
  | cons l ls ih =>
    constructor
    · intro h
      rcases Res.bind_eq_err.mp h with h | ⟨a, h1, h⟩
      · exact ⟨[], l, ls, rfl, nofun, h⟩
      · rcases Res.bind_eq_err.mp h with h | ⟨_, _, h⟩
        · obtain ⟨b, l', c, rfl, h2, h3⟩ := ih.mp h
          refine ⟨l :: b, l', c, rfl, fun o ho => ?_, h3⟩
          rcases List.mem_cons.mp ho with rfl | ho
          · exact headerLine_fine_iff.mp ⟨a, h1⟩
          · exact h2 o ho
        · cases h
    · rintro ⟨b, l', c, e1, h2, h3⟩
      cases b with
      | nil =>
        injection e1 with e1 e2
        subst e1 e2
        rw [headerLines, h3]; rfl
      | cons o b =>
        injection e1 with e1 e2
        subst e1 e2
        obtain ⟨a, h1⟩ := headerLine_fine_iff.mpr (h2 _ List.mem_cons_self)
        rw [headerLines, h1, Res.ok_bind, ih.mpr ⟨b, l', c, rfl, fun o ho => h2 o (by simp [ho]), h3⟩]
        rfl

/-! ### C headers -/

theorem lexed_err {α : Type} {n : Nat} {b : Text} : lexed (α := α) n (.err (charError n b)) = .err ⟨charError n b, .location (placeIn n b)⟩ :=
  rfl

/-- Reading a C header that is text -/
theorem lexHeader_ok {seg : Seg} (hs : AsciiSeg seg) {fs : FS} {q : Path} {n : Nat} {t : Text} (hr : fs.read q = some (utf8 t))
    (ha : Ascii t) {out} (h : lexHeader seg (Input.new n t) = .ok out) : ∃ ls, HeaderTokens fs n q ls ∧ ∀ l ∈ ls, HeaderFine l := by
  obtain ⟨raw, h1, h2⟩ := Res.bind_eq_ok.mp h
  have h3 : lexForWs seg (skipCBlank seg) (Input.new n t) = .ok raw := by
    rw [← erase_lexed n (lexForWs _ _ _), show lexed n _ = _ from h1]; rfl
  exact ⟨lines raw, ⟨t, raw, hr, (clex_ok_iff hs ha).mp h3, lines_splits raw⟩, headerLines_ok_iff.mp ⟨_, h2⟩⟩

theorem lexHeader_err {seg : Seg} (hs : AsciiSeg seg) {fs : FS} {q : Path} {n : Nat} {t : Text} (hr : fs.read q = some (utf8 t))
    (ha : Ascii t) {x p} (h : lexHeader seg (Input.new n t) = .err ⟨x, p⟩) : HeaderFails fs n q x p := by
  rcases Res.bind_eq_err.mp h with h | ⟨raw, h1, h2⟩
  · change lexed n _ = _ at h
    cases h3 : lexForWs seg (skipCBlank seg) (Input.new n t) with
    | err e =>
      obtain ⟨b, r, h4, h5, rfl⟩ := (clex_err_iff hs ha).mp h3
      rw [h3, lexed_err] at h
      cases h
      exact .character hr h4 h5
    | _ => rw [h3] at h; cases h
  · have h3 : lexForWs seg (skipCBlank seg) (Input.new n t) = .ok raw := by
      rw [← erase_lexed n (lexForWs _ _ _), show lexed n _ = _ from h1]; rfl
    obtain ⟨before, l, after, h4, h5, h6⟩ := headerLines_err_iff.mp h2
    obtain ⟨a, d, r, rfl, ha', hd, h7⟩ := headerLine_err_iff.mp h6
    exact .define ⟨t, raw, hr, (clex_ok_iff hs ha).mp h3, h4 ▸ lines_splits raw⟩ h5 ha' hd h7

end Verif.Located
