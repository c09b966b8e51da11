import Verif.Lemmas.ParseProgram
import Verif.Spec.Include
/-
The parser does not care about tokens for the end of a file at the ends of lines.
-/
namespace Verif
open Spec

/-! ### No line contains such a token -/

theorem sentence_noeof {lv w e} (h : Sentence lv w e) : Tok.eof ∉ w := by
  induction h with
  | atom h => cases h <;> simp
  | paren _ ih => simpa using ih
  | pre h _ ih => cases h <;> simpa using ih
  | binary h _ _ ih1 ih2 => cases h <;> simp [ih1, ih2]
  | tight _ ih => exact ih

theorem listed_noeof {α : Type} {R : List Tok → α → Prop} (hR : ∀ w a, R w a → Tok.eof ∉ w) {w as} (h : Listed R w as) :
    Tok.eof ∉ w := by
  induction h with
  | one h => exact hR _ _ h
  | cons h _ ih => simp [hR _ _ h, ih]

theorem optListed_noeof {α : Type} {R : List Tok → α → Prop} (hR : ∀ w a, R w a → Tok.eof ∉ w) {w as}
    (h : OptListed R w as) : Tok.eof ∉ w := by
  rcases h with ⟨rfl, _⟩ | h
  · simp
  · exact listed_noeof hR h

theorem arg_noeof {w a} (h : ArgSyntax w a) : Tok.eof ∉ w := by
  cases h with
  | im h => cases h <;> simp
  | imm h => simpa using sentence_noeof h
  | param h => exact sentence_noeof h
  | ex h _ => exact sentence_noeof h

theorem byte_noeof {w a} (h : ByteSyntax w a) : Tok.eof ∉ w := by
  cases h with
  | str => simp
  | expr h => exact sentence_noeof h

theorem prop_noeof {w a} (h : PropSyntax w a) : Tok.eof ∉ w := by
  cases h with
  | mk h => simpa using byte_noeof h

theorem dir_noeof {w d} (h : DirSyntax w d) : Tok.eof ∉ w := by
  cases h with
  | byte h => simpa using listed_noeof (fun _ _ => byte_noeof) h
  | word h => simpa using listed_noeof (fun _ _ => sentence_noeof) h
  | org => simp
  | text => simp
  | string => simp
  | cnop h1 h2 => simp [sentence_noeof h1, sentence_noeof h2]
  | incl => simp
  | asm => simp
  | bytes => simp
  | cpp => simp
  | icon h => simpa using optListed_noeof (fun _ _ => prop_noeof) h
  | sprite h => simpa using optListed_noeof (fun _ _ => prop_noeof) h

theorem instr_noeof {w s} (h : InstrSyntax w s) : Tok.eof ∉ w := by
  cases h with
  | instr h _ => simpa using optListed_noeof (fun _ _ => arg_noeof) h
  | call _ _ h => simpa using optListed_noeof (fun _ _ => arg_noeof) h

theorem line_noeof {w ss} (h : LineSyntax w ss) : Tok.eof ∉ w := by
  cases h with
  | empty => simp
  | label => simp
  | labelled h => simpa using instr_noeof h
  | localLabel => simp
  | instr h _ => exact instr_noeof h
  | directive h => exact dir_noeof h
  | alias _ h => simpa using sentence_noeof h
  | «variable» _ h => simpa using sentence_noeof h

theorem macroLabel_noeof {w ss} (h : MacroLabelSyntax w ss) : Tok.eof ∉ w := by
  cases h <;> simp

theorem macroInstr_noeof {w ss} (h : MacroInstrSyntax w ss) : Tok.eof ∉ w := by
  cases h with
  | none => simp
  | instr _ h => simpa using optListed_noeof (fun _ _ => arg_noeof) h

/-! ### One line -/

/-- Only tokens for the end of a file. -/
def Eofs (t : List Tok) : Prop := ∀ x ∈ t, x = .eof

theorem eofs_lineEnd {t : List Tok} (h : Eofs t) : LineEnd t := by
  cases t with
  | nil => exact .inl rfl
  | cons x t => exact .inr ⟨t, by rw [h x List.mem_cons_self]⟩

theorem eof_cut {l t w e : List Tok} (hl : Tok.eof ∉ l) (ht : Eofs t) (hw : Tok.eof ∉ w) (he : LineEnd e)
    (h : l ++ t = w ++ e) : w = l := by
  rw [List.append_eq_append_iff] at h
  rcases h with ⟨m, rfl, rfl⟩ | ⟨m, rfl, rfl⟩
  · cases m with
    | nil => simp
    | cons x m =>
      exfalso
      have := ht x (by simp)
      subst this
      exact hw (by simp)
  · cases m with
    | nil => simp
    | cons x m =>
      exfalso
      rcases he with h | ⟨more, h⟩
      · cases h
      · simp only [List.cons_append, List.cons.injEq] at h
        rw [h.1] at hl
        exact hl (by simp)

theorem lineEnd_noeof {l e : List Tok} {w} (hl : Tok.eof ∉ l) (h : l = w ++ e) (he : LineEnd e) : e = [] := by
  rcases he with rfl | ⟨more, rfl⟩
  · rfl
  · rw [h] at hl; exact absurd (by simp) hl

theorem parseLine_eofs {l t : List Tok} (hl : Tok.eof ∉ l) (ht : Eofs t) {ss} :
    parseLine (l ++ t) = .ok ss ↔ parseLine l = .ok ss := by
  constructor
  · intro h
    obtain ⟨w, e, h1, h2, h3⟩ := line_sound h
    have := eof_cut hl ht (line_noeof h2) h3 h1
    subst this
    have := line_complete h2 (e := []) (.inl rfl)
    rwa [List.append_nil] at this
  · intro h
    obtain ⟨w, e, h1, h2, h3⟩ := line_sound h
    have := lineEnd_noeof hl h1 h3
    subst this
    rw [List.append_nil] at h1
    subst h1
    exact line_complete h2 (eofs_lineEnd ht)

theorem header_eofs {l t : List Tok} (hl : Tok.eof ∉ l) (ht : Eofs t) {name params} :
    HeaderSyntax (l ++ t) name params ↔ HeaderSyntax l name params := by
  constructor
  · rintro ⟨w, e, h1, h2, h3⟩
    have := eof_cut (w := .macroIdent "%macro".toList :: .name name :: w) hl ht
      (by simpa using optListed_noeof (fun _ _ => arg_noeof) h2) h3 h1
    subst this
    exact ⟨w, [], by simp, h2, .inl rfl⟩
  · rintro ⟨w, e, h1, h2, h3⟩
    have := lineEnd_noeof (w := .macroIdent "%macro".toList :: .name name :: w) hl h1 h3
    subst this
    rw [List.append_nil] at h1
    subst h1
    exact ⟨w, t, rfl, h2, eofs_lineEnd ht⟩

theorem macroLine_eofs {l t : List Tok} (hn : l ≠ []) (hl : Tok.eof ∉ l) (ht : Eofs t) {ss} (h : MacroLine (l ++ t) ss) :
    MacroLine l ss := by
  generalize he : l ++ t = x at h
  have bare : ∀ y, l ++ t = [y] → l = [y] := by
    intro y h
    cases l with
    | nil => exact absurd rfl hn
    | cons z l =>
      simp only [List.cons_append, List.cons.injEq, List.append_eq_nil_iff] at h
      simp [h]
  cases h with
  | @mk w ss w' ss' e h1 h2 h3 =>
    have := eof_cut (w := w ++ w') hl ht (by simp [macroLabel_noeof h1, macroInstr_noeof h2]) h3 he
    subst this
    have := MacroLine.mk h1 h2 (e := []) (.inl rfl)
    rwa [List.append_nil] at this
  | localLabel h => rw [bare _ he]; exact .localLabel h
  | localMacroLabel h => rw [bare _ he]; exact .localMacroLabel h

theorem macroLine_eofs' {l t : List Tok} (hl : Tok.eof ∉ l) (ht : Eofs t) (hb : ¬ Bare l) {ss} (h : MacroLine l ss) :
    MacroLine (l ++ t) ss := by
  cases h with
  | @mk w ss w' ss' e h1 h2 h3 =>
    have := lineEnd_noeof (w := w ++ w') hl rfl h3
    subst this
    rw [List.append_nil]
    exact .mk h1 h2 (eofs_lineEnd ht)
  | @localLabel n h => exact absurd ⟨n, h, .inl rfl⟩ hb
  | @localMacroLabel n h => exact absurd ⟨n, h, .inr rfl⟩ hb

theorem macroLine_blank {t : List Tok} (ht : Eofs t) : MacroLine t [] := by
  have := MacroLine.mk .none .none (eofs_lineEnd ht)
  simpa using this

theorem parseLine_blank {t : List Tok} (ht : Eofs t) : parseLine t = .ok [] := line_complete (w := []) .empty (eofs_lineEnd ht)

theorem head_eofs {l t : List Tok} (hn : l ≠ []) : (l ++ t).head? = l.head? := by
  cases l with
  | nil => exact absurd rfl hn
  | cons x l => rfl

theorem starts_eofs {l t : List Tok} (hn : l ≠ []) : startsMacro (l ++ t) = startsMacro l := by
  unfold startsMacro; rw [head_eofs hn]

theorem ends_eofs {l t : List Tok} (hn : l ≠ []) : endsMacro (l ++ t) = endsMacro l := by
  unfold endsMacro; rw [head_eofs hn]

theorem starts_blank {t : List Tok} (ht : Eofs t) : ¬ startsMacro t = true := by
  rw [startsMacro_iff]
  cases t with
  | nil => simp
  | cons x t => rw [ht x List.mem_cons_self]; simp

theorem ends_blank {t : List Tok} (ht : Eofs t) : ¬ endsMacro t = true := by
  rw [endsMacro_iff]
  cases t with
  | nil => simp
  | cons x t => rw [ht x List.mem_cons_self]; simp

theorem drop_eofs {l t : List Tok} (hn : l ≠ []) (hl : Tok.eof ∉ l) (ht : Eofs t) :
    Toks.isEmpty ((l ++ t).drop 1) = Toks.isEmpty (l.drop 1) := by
  cases l with
  | nil => exact absurd rfl hn
  | cons x l =>
    simp only [List.cons_append, List.drop_succ_cons, List.drop_zero]
    cases l with
    | nil => rw [List.nil_append, isEmpty_iff.mpr (eofs_lineEnd ht)]; rfl
    | cons y l => cases y <;> first | rfl | simp at hl

/-! ### Lines -/

/-- `Undec ls K`: without tokens for the end of a file at the ends of lines and lines of such tokens only, the lines
`ls` are `K`. -/
inductive Undec : List (List Tok) → List (List Tok) → Prop where
  | nil : Undec [] []
  | line {l t ls K} : l ≠ [] → Eofs t → Undec ls K → Undec ((l ++ t) :: ls) (l :: K)
  | blank {t ls K} : Eofs t → Undec ls K → Undec (t :: ls) K

theorem Undec.append {a b K M} (h1 : Undec a K) (h2 : Undec b M) : Undec (a ++ b) (K ++ M) := by
  induction h1 with
  | nil => exact h2
  | line h ht _ ih => exact .line h ht ih
  | blank ht _ ih => exact .blank ht ih

theorem Undec.refl {K : List (List Tok)} (h : ∀ l ∈ K, l ≠ []) : Undec K K := by
  induction K with
  | nil => exact .nil
  | cons l K ih =>
    have := Undec.line (t := []) (h l List.mem_cons_self) (fun x hx => nomatch hx) (ih fun l' h' => h l' (List.mem_cons_of_mem _ h'))
    rwa [List.append_nil] at this

/-- One more token for the end of the file. -/
theorem Undec.snoc {a K} {l : List Tok} (h : Undec (a ++ [l]) K) : Undec (a ++ [l ++ [.eof]]) K := by
  induction a generalizing K with
  | nil =>
    generalize hx : ([] : List (List Tok)) ++ [l] = x at h
    cases h with
    | nil => cases hx
    | @line l' t ls K h ht hr =>
      simp only [List.nil_append, List.cons.injEq] at hx
      obtain ⟨rfl, rfl⟩ := hx
      rw [List.nil_append, List.append_assoc]
      refine .line h ?_ hr
      intro x hx
      rcases List.mem_append.mp hx with hx | hx
      · exact ht x hx
      · simpa using hx
    | @blank t ls K ht hr =>
      simp only [List.nil_append, List.cons.injEq] at hx
      obtain ⟨rfl, rfl⟩ := hx
      refine .blank ?_ hr
      intro x hx
      rcases List.mem_append.mp hx with hx | hx
      · exact ht x hx
      · simpa using hx
  | cons y a ih =>
    generalize hx : y :: a ++ [l] = x at h
    cases h with
    | nil => cases hx
    | @line l' t ls K h ht hr =>
      simp only [List.cons_append, List.cons.injEq] at hx
      obtain ⟨rfl, rfl⟩ := hx
      exact .line h ht (ih hr)
    | @blank t ls K ht hr =>
      simp only [List.cons_append, List.cons.injEq] at hx
      obtain ⟨rfl, rfl⟩ := hx
      exact .blank ht (ih hr)

theorem undec_lines {ls K : List (List Tok)} (h : Undec ls K) (hK : ∀ l ∈ K, Tok.eof ∉ l) {ss} :
    parseLines ls = .ok ss ↔ parseLines K = .ok ss := by
  induction h generalizing ss with
  | nil => rfl
  | line hn ht _ ih =>
    have ih := fun {s} => @ih (fun l hl => hK l (List.mem_cons_of_mem _ hl)) s
    rw [parseLines_cons, parseLines_cons]
    simp only [parseLine_eofs (hK _ List.mem_cons_self) ht, ih]
  | blank ht _ ih =>
    rw [parseLines_cons, ← ih hK, parseLine_blank ht]
    constructor
    · rintro ⟨s1, s2, h1, h2, rfl⟩
      cases h1
      exact h2
    · intro h
      exact ⟨[], _, rfl, h, rfl⟩

theorem undec_pass {ls K : List (List Tok)} (h : Undec ls K) (hK : ∀ l ∈ K, Tok.eof ∉ l) :
    ∀ ms cur rest M, macroPass (keyed ms) cur ls = .ok (rest, M) →
      ∃ rest', macroPass (keyed ms) cur K = .ok (rest', M) ∧ Undec rest rest' ∧ ∀ l ∈ rest', l ∈ K := by
  induction h with
  | nil =>
    intro ms cur rest M h
    refine ⟨rest, h, ?_⟩
    cases cur <;> (cases h; exact ⟨.nil, by simp⟩)
  | @line l t ls K hn ht _ ih =>
    intro ms cur rest M h
    have ih := ih (fun l hl => hK l (List.mem_cons_of_mem _ hl))
    have hl := hK l List.mem_cons_self
    cases cur with
    | none =>
      rw [macroPass] at h ⊢
      try simp only at h ⊢
      rw [starts_eofs hn] at h
      split at h
      next hs =>
        rw [if_pos hs]
        obtain ⟨⟨name, params⟩, h1, h⟩ := Res.bind_eq_ok.mp h
        obtain ⟨hh, hd⟩ := header_sound (by rw [starts_eofs hn]; exact hs) h1
        obtain ⟨-, h2⟩ := header_complete ((header_eofs hl ht).mp hh) hd
        obtain ⟨r, a, b, c⟩ := ih _ _ _ _ h
        exact ⟨r, by rw [h2, Res.ok_bind]; exact a, b, fun l hl => List.mem_cons_of_mem _ (c l hl)⟩
      next hs =>
        rw [if_neg hs]
        obtain ⟨⟨r, M'⟩, h1, h⟩ := Res.bind_eq_ok.mp h
        cases h
        obtain ⟨r', a, b, c⟩ := ih _ _ _ _ h1
        refine ⟨l :: r', by rw [a]; rfl, .line hn ht b, ?_⟩
        intro x hx
        rcases List.mem_cons.mp hx with rfl | hx
        · exact List.mem_cons_self
        · exact List.mem_cons_of_mem _ (c x hx)
    | some d =>
      rw [macroPass] at h ⊢
      try simp only at h ⊢
      rw [ends_eofs hn, drop_eofs hn hl ht] at h
      split at h
      next hs =>
        rw [if_pos hs]
        split at h
        next he =>
          rw [if_pos he]
          obtain ⟨r, a, b, c⟩ := ih (d :: ms) _ _ _ h
          exact ⟨r, a, b, fun l hl => List.mem_cons_of_mem _ (c l hl)⟩
        next => cases h
      next hs =>
        rw [if_neg hs]
        obtain ⟨s, h1, h⟩ := Res.bind_eq_ok.mp h
        obtain ⟨r, a, b, c⟩ := ih _ _ _ _ h
        have := macroStatement_complete (macroLine_eofs hn hl ht (macroStatement_sound h1))
        exact ⟨r, by rw [this, Res.ok_bind]; exact a, b, fun l hl => List.mem_cons_of_mem _ (c l hl)⟩
  | @blank t ls K ht _ ih =>
    intro ms cur rest M h
    cases cur with
    | none =>
      rw [macroPass] at h
      try simp only at h
      rw [if_neg (starts_blank ht)] at h
      obtain ⟨⟨r, M'⟩, h1, h⟩ := Res.bind_eq_ok.mp h
      cases h
      obtain ⟨r', a, b, c⟩ := ih hK _ _ _ _ h1
      exact ⟨r', a, .blank ht b, c⟩
    | some d =>
      rw [macroPass] at h
      try simp only at h
      rw [if_neg (ends_blank ht), macroStatement_complete (macroLine_blank ht), Res.ok_bind, List.append_nil] at h
      exact ih hK _ _ _ _ h

theorem undec_pass' {ls K : List (List Tok)} (h : Undec ls K) (hK : ∀ l ∈ K, Tok.eof ∉ l) :
    ∀ ms cur rest M, ((∀ l ∈ K, ¬ Bare l) ∨ (cur = none ∧ ∀ l ∈ K, l.head? ≠ some (.macroIdent "%macro".toList))) →
      macroPass (keyed ms) cur K = .ok (rest, M) →
      ∃ rest', macroPass (keyed ms) cur ls = .ok (rest', M) ∧ Undec rest' rest ∧ ∀ l ∈ rest, l ∈ K := by
  induction h with
  | nil =>
    intro ms cur rest M _ h
    refine ⟨rest, h, ?_⟩
    cases cur <;> (cases h; exact ⟨.nil, by simp⟩)
  | @line l t ls K hn ht _ ih =>
    intro ms cur rest M hb h
    have ih := ih (fun l hl => hK l (List.mem_cons_of_mem _ hl))
    have hl := hK l List.mem_cons_self
    have hb' : (∀ l ∈ K, ¬ Bare l) ∨ (cur = none ∧ ∀ l ∈ K, l.head? ≠ some (.macroIdent "%macro".toList)) := by
      rcases hb with h | ⟨h, h'⟩
      · exact .inl fun l hl => h l (List.mem_cons_of_mem _ hl)
      · exact .inr ⟨h, fun l hl => h' l (List.mem_cons_of_mem _ hl)⟩
    cases cur with
    | none =>
      rw [macroPass] at h ⊢
      try simp only at h ⊢
      rw [starts_eofs hn]
      split at h
      next hs =>
        rw [if_pos hs]
        obtain ⟨⟨name, params⟩, h1, h⟩ := Res.bind_eq_ok.mp h
        obtain ⟨hh, hd⟩ := header_sound hs h1
        obtain ⟨-, h2⟩ := header_complete ((header_eofs hl ht).mpr hh) hd
        have hb'' : ∀ l ∈ K, ¬ Bare l := by
          rcases hb with h | ⟨_, h⟩
          · exact fun l hl => h l (List.mem_cons_of_mem _ hl)
          · exact absurd (startsMacro_iff.mp hs) (h l List.mem_cons_self)
        obtain ⟨r, a, b, c⟩ := ih _ _ _ _ (.inl hb'') h
        exact ⟨r, by rw [h2, Res.ok_bind]; exact a, b, fun l hl => List.mem_cons_of_mem _ (c l hl)⟩
      next hs =>
        rw [if_neg hs]
        obtain ⟨⟨r, M'⟩, h1, h⟩ := Res.bind_eq_ok.mp h
        cases h
        obtain ⟨r', a, b, c⟩ := ih _ _ _ _ hb' h1
        refine ⟨(l ++ t) :: r', by rw [a]; rfl, .line hn ht b, ?_⟩
        intro x hx
        rcases List.mem_cons.mp hx with rfl | hx
        · exact List.mem_cons_self
        · exact List.mem_cons_of_mem _ (c x hx)
    | some d =>
      have hb' : ∀ l ∈ K, ¬ Bare l := hb'.resolve_right (fun h => nomatch h.1)
      have hbl : ¬ Bare l := (hb.resolve_right (fun h => nomatch h.1)) l List.mem_cons_self
      rw [macroPass] at h ⊢
      try simp only at h ⊢
      rw [ends_eofs hn, drop_eofs hn hl ht]
      split at h
      next hs =>
        rw [if_pos hs]
        split at h
        next he =>
          rw [if_pos he]
          obtain ⟨r, a, b, c⟩ := ih (d :: ms) _ _ _ (.inl hb') h
          exact ⟨r, a, b, fun l hl => List.mem_cons_of_mem _ (c l hl)⟩
        next => cases h
      next hs =>
        rw [if_neg hs]
        obtain ⟨s, h1, h⟩ := Res.bind_eq_ok.mp h
        obtain ⟨r, a, b, c⟩ := ih _ _ _ _ (.inl hb') h
        have := macroStatement_complete (macroLine_eofs' hl ht hbl (macroStatement_sound h1))
        exact ⟨r, by rw [this, Res.ok_bind]; exact a, b, fun l hl => List.mem_cons_of_mem _ (c l hl)⟩
  | @blank t ls K ht _ ih =>
    intro ms cur rest M hb h
    obtain ⟨r', a, b, c⟩ := ih hK _ _ _ _ hb h
    cases cur with
    | none =>
      refine ⟨t :: r', ?_, .blank ht b, c⟩
      rw [macroPass]
      try simp only
      rw [if_neg (starts_blank ht), a]
      rfl
    | some d =>
      refine ⟨r', ?_, b, c⟩
      rw [macroPass]
      try simp only
      rw [if_neg (ends_blank ht), macroStatement_complete (macroLine_blank ht), Res.ok_bind, List.append_nil]
      exact a

/-- What is read with tokens for the end of a file is also read without. -/
theorem parse_undec {ls K : List (List Tok)} (h : Undec ls K) (hK : ∀ l ∈ K, Tok.eof ∉ l) {p : Program}
    (hp : parseTokLines ls = .ok p) : parseTokLines K = .ok p := by
  unfold parseTokLines at *
  obtain ⟨⟨r, M⟩, h1, hp⟩ := Res.bind_eq_ok.mp hp
  obtain ⟨ss, h2, hp⟩ := Res.bind_eq_ok.mp hp
  obtain ⟨r', a, b, c⟩ := undec_pass h hK [] none r M h1
  have a : macroPass [] none K = .ok (r', M) := a
  rw [a, Res.ok_bind]
  dsimp only
  rw [(undec_lines b fun l hl => hK l (c l hl)).mp h2]
  exact hp

theorem parse_undec_iff {ls K : List (List Tok)} (h : Undec ls K) (hK : ∀ l ∈ K, Tok.eof ∉ l)
    (hb : (∀ l ∈ K, ¬ Bare l) ∨ ∀ l ∈ K, l.head? ≠ some (.macroIdent "%macro".toList)) {p : Program} :
    parseTokLines ls = .ok p ↔ parseTokLines K = .ok p := by
  refine ⟨parse_undec h hK, fun hp => ?_⟩
  unfold parseTokLines at *
  obtain ⟨⟨r, M⟩, h1, hp⟩ := Res.bind_eq_ok.mp hp
  obtain ⟨ss, h2, hp⟩ := Res.bind_eq_ok.mp hp
  obtain ⟨r', a, b, c⟩ := undec_pass' h hK [] none r M (hb.imp id fun h => ⟨rfl, h⟩) h1
  have a : macroPass [] none ls = .ok (r', M) := a
  rw [a, Res.ok_bind]
  dsimp only
  rw [(undec_lines b fun l hl => hK l (c l hl)).mpr h2]
  exact hp

end Verif
