import Verif.Lemmas.PrintInstr
/-
Printed statements read back: the statements.
-/
namespace Verif
open Verif.Spec

theorem row_names (f : Form) : (∀ c ∈ (row f).name.toList.head?, c.isAlpha = true) ∧ (row f).name.toList ≠ [] ∧
    (∀ c ∈ (row f).name.toList, (c.isAlpha = true ∨ c.isDigit = true) ∧ c.toLower = c) ∧
    (row f).name.toList.length < 6 := by
  cases f <;> decide +kernel

theorem row_ident (f : Form) : Ident (row f).name.toList := by
  obtain ⟨h1, h2, h3, _⟩ := row_names f
  generalize (row f).name.toList = t at *
  cases t with
  | nil => exact absurd rfl h2
  | cons c cs =>
    refine ⟨c, cs, rfl, .inl (h1 c rfl), fun d hd => ?_⟩
    rcases (h3 d (List.mem_cons_of_mem _ hd)).1 with h | h
    · exact .inl (.inl h)
    · exact .inr (.inl h)

theorem row_lower (f : Form) : lower (row f).name.toList = (row f).name.toList := by
  obtain ⟨_, _, h3, _⟩ := row_names f
  generalize (row f).name.toList = t at *
  exact (List.map_congr_left (g := id) fun c hc => (h3 c hc).2).trans (List.map_id t)

theorem paren_name {b w x} (h : Tok.name x ∈ parenToks b w) : Tok.name x ∈ w := by
  cases b
  · exact h
  · simpa [parenToks] using h

theorem printedToks_name {e : Expr} {x : Text} (h : Tok.name x ∈ printedToks e) : ∃ n ∈ namesIn e, x = lower n := by
  have bin : ∀ {l r : Expr} {k : Tok}, (∀ y, k ≠ .name y) → (Tok.name x ∈ printedToks l → ∃ n ∈ namesIn l, x = lower n) →
      (Tok.name x ∈ printedToks r → ∃ n ∈ namesIn r, x = lower n) →
      Tok.name x ∈ parenToks l.complex (printedToks l) ++ k :: parenToks r.complex (printedToks r) →
      ∃ n ∈ namesIn l ++ namesIn r, x = lower n := by
    intro l r k hk h1 h2 h
    rcases List.mem_append.mp h with h | h
    · obtain ⟨n, a, b⟩ := h1 (paren_name h); exact ⟨n, List.mem_append_left _ a, b⟩
    · rcases List.mem_cons.mp h with h | h
      · exact absurd h.symm (hk x)
      · obtain ⟨n, a, b⟩ := h2 (paren_name h); exact ⟨n, List.mem_append_right _ a, b⟩
  have un : ∀ {l : Expr} {k : Tok}, (∀ y, k ≠ .name y) → (Tok.name x ∈ printedToks l → ∃ n ∈ namesIn l, x = lower n) →
      Tok.name x ∈ k :: parenToks l.complex (printedToks l) → ∃ n ∈ namesIn l, x = lower n := by
    intro l k hk h1 h
    rcases List.mem_cons.mp h with h | h
    · exact absurd h.symm (hk x)
    · exact h1 (paren_name h)
  induction e with
  | bxor l r hl hr => exact bin (fun _ => by simp) hl hr h
  | band l r hl hr => exact bin (fun _ => by simp) hl hr h
  | bor l r hl hr => exact bin (fun _ => by simp) hl hr h
  | plus l r hl hr => exact bin (fun _ => by simp) hl hr h
  | minus l r hl hr => exact bin (fun _ => by simp) hl hr h
  | times l r hl hr => exact bin (fun _ => by simp) hl hr h
  | divide l r hl hr => exact bin (fun _ => by simp) hl hr h
  | uminus e ih => exact un (l := e) (fun _ => by simp) ih h
  | upperByte e ih => exact un (l := e) (fun _ => by simp) ih h
  | lowerByte e ih => exact un (l := e) (fun _ => by simp) ih h
  | name n => simp [printedToks] at h; exact ⟨n, by simp [namesIn], h⟩
  | macroLabel n => simp [printedToks] at h
  | macroArg n => simp [printedToks] at h
  | number v radix => simp only [printedToks] at h; split at h <;> simp at h

theorem closed_lower {e : Expr} (h : closed e = true) : closed (lowerExpr e) = true := by
  induction e <;> simp_all [closed, lowerExpr]

/-- The operands of a clean instruction. -/
def CleanOperand : Sum Expr IM → Prop
  | .inl e => Clean e ∧ closed e = true ∧ ∀ n ∈ namesIn e, lower n ≠ "equ".toList
  | .inr _ => True

theorem arg_piece {o : Sum Expr IM} (h : CleanOperand o) (k : Kind) : ∃ w, Piece (writtenAs k o).print w ∧
    ArgSyntax w (writtenAs k (lowerOperand o)) ∧ Ascii (writtenAs k o).print ∧ Tok.name "equ".toList ∉ w := by
  cases o with
  | inr r =>
    obtain ⟨t, h1, h2⟩ := piece_mode r
    have e : ∀ x : IM, writtenAs k (.inr x) = .im x := fun x => by cases k <;> rfl
    rw [e, show lowerOperand (.inr r) = .inr r from rfl, e]
    refine ⟨_, h2, .im h1, ?_, ?_⟩
    · show Ascii r.print
      unfold Ascii
      cases r <;> decide
    · cases h1 <;> simp
  | inl e =>
    obtain ⟨hc, hcl, hn⟩ := h
    have hne : Tok.name "equ".toList ∉ printedToks e := by
      intro hm
      obtain ⟨n, a, b⟩ := printedToks_name hm
      exact hn n a b.symm
    by_cases hk : k = .i8
    · subst hk
      exact ⟨_, piece_hash (piece_expr hc.1), .imm (clean_syntax hc), .cons (by decide) (ascii_print hc.1), fun hm => by
        rcases List.mem_cons.mp hm with hm | hm
        · cases hm
        · exact hne hm⟩
    · have e' : ∀ x : Expr, writtenAs k (.inl x) = .ex x := fun x => by cases k <;> first | rfl | exact absurd rfl hk
      rw [e', show lowerOperand (.inl e) = .inl (lowerExpr e) from rfl, e']
      refine ⟨_, piece_expr hc.1, .ex (clean_syntax hc) ?_, ascii_print hc.1, hne⟩
      intro n he
      have := closed_lower hcl
      rw [he] at this
      simp [closed] at this

theorem args_pieces (ks : List Kind) : ∀ {os : List (Sum Expr IM)}, (∀ o ∈ os, CleanOperand o) →
    ∃ ws, EachLine Piece ((List.zipWith writtenAs ks os).map Arg.print) ws ∧
      EachLine ArgSyntax ws (List.zipWith writtenAs ks (os.map lowerOperand)) ∧
      (∀ t ∈ (List.zipWith writtenAs ks os).map Arg.print, Ascii t) ∧ ∀ w ∈ ws, Tok.name "equ".toList ∉ w := by
  induction ks with
  | nil => intro os _; exact ⟨[], by simpa using .nil, by simpa using .nil, by simp, by simp⟩
  | cons k ks ih =>
    intro os h
    cases os with
    | nil => exact ⟨[], by simpa using .nil, by simpa using .nil, by simp, by simp⟩
    | cons o os =>
      obtain ⟨w, a1, a2, a3, a4⟩ := arg_piece (h o List.mem_cons_self) k
      obtain ⟨ws, b1, b2, b3, b4⟩ := ih (os := os) fun x hx => h x (List.mem_cons_of_mem _ hx)
      refine ⟨w :: ws, .cons a1 b1, .cons a2 b2, ?_, ?_⟩
      · intro t ht
        simp only [List.zipWith_cons_cons, List.map_cons] at ht
        rcases List.mem_cons.mp ht with rfl | ht
        · exact a3
        · exact b3 t ht
      · intro x hx
        rcases List.mem_cons.mp hx with rfl | hx
        · exact a4
        · exact b4 x hx

theorem ascii_spaces (n : Nat) : Ascii (List.replicate n ' ') := by
  intro c hc
  rw [(List.mem_replicate.mp hc).2]
  decide

theorem ascii_join {sep : Text} (hs : Ascii sep) {ts : List Text} (h : ∀ t ∈ ts, Ascii t) : Ascii (joinWith sep ts) := by
  induction ts with
  | nil => exact .nil
  | cons t ts ih =>
    have h1 := h t List.mem_cons_self
    have h2 := ih fun x hx => h x (List.mem_cons_of_mem _ hx)
    cases ts with
    | nil => exact h1
    | cons u ts => exact (h1.append hs).append h2

theorem commaToks_mem {ws : List (List Tok)} {n : Text} (h : Tok.name n ∈ commaToks ws) : ∃ w ∈ ws, Tok.name n ∈ w := by
  induction ws with
  | nil => simp [commaToks] at h
  | cons w ws ih =>
    cases ws with
    | nil => exact ⟨w, by simp, h⟩
    | cons v ws =>
      rcases List.mem_append.mp h with h | h
      · exact ⟨w, by simp, h⟩
      · rcases List.mem_cons.mp h with h | h
        · cases h
        · obtain ⟨x, hx, hn⟩ := ih h
          exact ⟨x, List.mem_cons_of_mem _ hx, hn⟩

theorem eachLine_length {α β : Type} {R : α → β → Prop} {a : List α} {b : List β} (h : EachLine R a b) : a.length = b.length := by
  induction h with
  | nil => rfl
  | cons _ _ ih => simp [ih]

theorem instr_piece {i : Instr Expr IM} (h : ∀ o ∈ operands i, CleanOperand o) : ∃ w, Piece i.print w ∧ Ascii i.print ∧
    InstrSyntax w (.instr (i.mapE lowerExpr)) ∧ w[1]? ≠ some (.name "equ".toList) := by
  obtain ⟨ws, a1, a2, a3, a4⟩ := args_pieces (kinds i.form) h
  rw [display_eq]
  have hi := row_ident i.form
  refine ⟨.name (lower (row i.form).name.toList) :: commaToks ws, ?_, ?_, ?_, ?_⟩
  · unfold instrText
    split
    · rename_i he
      have := eachLine_length a1
      rw [he] at this
      obtain rfl : ws = [] := by
        cases ws with
        | nil => rfl
        | cons => simp at this
      exact piece_name hi
    · have hl := (row_names i.form).2.2.2
      obtain ⟨k, hk⟩ : ∃ k, 6 - (row i.form).name.toList.length = k + 1 := ⟨5 - (row i.form).name.toList.length, by omega⟩
      rw [hk, List.replicate_succ, List.cons_append]
      exact piece_cons (piece_name hi) (piece_space (piece_spaces (piece_join a1) k)) (by decide)
  · unfold instrText
    split
    · exact ascii_ident hi
    · refine (ascii_ident hi).append ((ascii_spaces _).append (ascii_join (.cons (by decide) (ascii_spaces _)) a3))
  · rw [row_lower]
    refine .instr (optListed_comma a2) ⟨by rw [mapE_form], ?_⟩
    rw [mapE_form, mapE_operands]
    have : lowerOperand = mapOperand lowerExpr := by funext o; cases o <;> rfl
    rw [this]
  · intro he
    rw [List.getElem?_cons_succ] at he
    obtain ⟨w, hw, hn⟩ := commaToks_mem (List.mem_of_getElem? he)
    exact a4 w hw hn

/-! Whole lines -/

/-- The text of a line up to its end or a comment. -/
def LineText (t : Text) (ks : List Tok) : Prop := '\n' ∉ t ∧ ∀ file before rest L, rest = [] ∨ rest.head? = some '\n' ∨ rest.head? = some ' ' →
  Lx file (before ++ t) rest L → Lx file before (t ++ rest) (ks.map (·, lineAt before) ++ L)

theorem Piece.line {t ks} (h : Piece t ks) : LineText t ks := by
  refine ⟨h.1, fun file before rest L hr hl => h.2 file before rest L ?_ hl⟩
  rcases hr with rfl | hr | hr
  · exact boundary_nil
  · cases rest with
    | nil => cases hr
    | cons c rest => cases hr; exact boundary_cons (by decide)
  · cases rest with
    | nil => cases hr
    | cons c rest => cases hr; exact boundary_cons (by decide)

theorem line_label {n : Text} (h : Ident n) : LineText (n ++ ":".toList) [.name (lower n), .colon] := by
  refine ⟨by simp [ident_no_newline h], ?_⟩
  intro file before rest L hr hl
  have a1 := lx_sym (file := file) (before := before ++ n) (w := ":".toList) (k := .colon) (rest := rest) (L := L) (by decide)
    (.inr (by rcases hr with rfl | hr | hr
              · simp
              · rw [hr]; decide
              · rw [hr]; decide)) (fun e => absurd e (by decide)) (by simpa using hl)
  have a2 := lx_name (file := file) (before := before) h (boundary_cons (c := ':') (by decide)) a1
  rw [lineAt_append (ident_no_newline h)] at a2
  simpa using a2

theorem splits_one {T : List Token} (hne : T ≠ []) {l f : Nat} (h : ∀ t ∈ T, t.start.line = l ∧ t.stop.line = l ∧ t.start.file = f ∧ t.stop.file = f) :
    SplitsInto T [T] := by
  cases T with
  | nil => exact absurd rfl hne
  | cons t T =>
    have ht := h t List.mem_cons_self
    have := SplitsInto.cons (t := t) (l := T) (rest := []) (ls := []) (fun x hx => ?_) (fun x xs e => by cases e) .nil
    · simpa using this
    · have hx := h x (List.mem_cons_of_mem _ hx)
      exact ⟨by rw [hx.1, ht.2.1], by rw [hx.2.2.1, ht.2.2.2]⟩

theorem lx_reads {text : Text} {ks : List Tok} (h : Lx 0 [] text (ks.map (·, 1))) (hne : ks ≠ []) : ReadsAs text [ks] := by
  obtain ⟨toks, e, h1, h2, h3, h4, h5, h6⟩ := h
  have hk : toks.map (·.tok) = ks := by
    have := congrArg (List.map Prod.fst) h4
    simpa [Function.comp_def] using this
  refine ⟨[toks], ⟨e, by simpa using h1, ?_⟩, by rw [← hk]; rfl⟩
  have hT : toks ≠ [] := by rintro rfl; exact hne hk.symm
  rw [List.flatten_cons, List.flatten_nil, List.append_nil]
  refine splits_one hT (l := 1) (f := 0) fun t ht => ?_
  obtain ⟨a, b, c⟩ := h5 t ht
  have : (t.tok, t.start.line) ∈ ks.map (·, 1) := h4 ▸ List.mem_map_of_mem ht
  obtain ⟨k, _, e⟩ := List.mem_map.mp this
  have e : 1 = t.start.line := congrArg Prod.snd e
  exact ⟨e.symm, by rw [a, ← e], b, c⟩

theorem lx_reads_nil {text : Text} (h : Lx 0 [] text []) : ReadsAs text [] := by
  obtain ⟨toks, e, h1, h2, h3, h4, h5, h6⟩ := h
  cases toks with
  | nil => exact ⟨[], ⟨e, h1, .nil⟩, rfl⟩
  | cons t toks => simp at h4

/-- What may end a line: nothing, or a comment. -/
def LineTail (c : Text) : Prop := c = [] ∨ ∃ u, c = " ; ".toList ++ u ∧ '\n' ∉ u

theorem lx_tail {file before c} (h : LineTail c) : Lx file before (c ++ ['\n']) [] := by
  rcases h with rfl | ⟨u, rfl, hu⟩
  · exact lx_space (by decide) (lx_nil _ _)
  · have h1 : Lx file (before ++ [' '] ++ ';' :: ' ' :: u) ['\n'] [] := lx_space (by decide) (lx_nil _ _)
    have h2 := lx_comment (file := file) (before := before ++ [' ']) (t := ' ' :: u) (rest := ['\n']) (L := []) (by simp [hu]) (.inr (.inl rfl)) h1
    have h3 := lx_space (file := file) (before := before) (c := ' ') (by decide) h2
    simpa using h3

theorem line_reads {t c : Text} {ks : List Tok} (h : LineText t ks) (hne : ks ≠ []) (hc : LineTail c) : ReadsAs (t ++ c ++ ['\n']) [ks] := by
  refine lx_reads ?_ hne
  have := h.2 0 [] (c ++ ['\n']) [] (by
    rcases hc with rfl | ⟨u, rfl, hu⟩
    · exact .inr (.inl rfl)
    · exact .inr (.inr rfl)) (lx_tail hc)
  simpa [lineAt] using this

theorem lx_blanks {t : Text} (h : ∀ c ∈ t, isSpace c = true) : ∀ {file before rest}, Lx file (before ++ t) rest [] → Lx file before (t ++ rest) [] := by
  induction t with
  | nil => intro file before rest hl; simpa using hl
  | cons c t ih =>
    intro file before rest hl
    exact lx_space (h c List.mem_cons_self) (ih (fun d hd => h d (List.mem_cons_of_mem _ hd)) (by simpa using hl))

end Verif
