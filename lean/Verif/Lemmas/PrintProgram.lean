import Verif.Lemmas.PrintStmt
/-
Printed programs read back.
-/
namespace Verif
open Verif.Spec

theorem item_piece {v : ByteValue} (h : CleanItem v) : ∃ t w, v.print = .ok t ∧ Piece t w ∧ (AsciiItem v → Ascii t) ∧ ByteSyntax w (lowerItem v) := by
  cases h with
  | @expr e h => exact ⟨_, _, rfl, piece_expr h.1, fun _ => ascii_print h.1, .expr (clean_syntax h)⟩
  | @str s h =>
    obtain ⟨src, h1, h2, h3, h4⟩ := escapeString_quotable h
    refine ⟨'"' :: (src ++ ['"']), [.string s], ?_, piece_string h4 h2,
      fun ha => .cons (by decide) ((h3 (ascii_of_utf8 ha)).append (.cons (by decide) .nil)), ?_⟩
    · simp only [ByteValue.print, h1, Res.ok_bind]
    · have := ByteSyntax.str (s := s)
      rwa [utf8_eq] at this

theorem items_pieces {vs : List ByteValue} (h : ∀ v ∈ vs, CleanItem v) : ∃ ts ws, printBytes vs = .ok ts ∧ EachLine Piece ts ws ∧
    ((∀ v ∈ vs, AsciiItem v) → ∀ t ∈ ts, Ascii t) ∧ EachLine ByteSyntax ws (vs.map lowerItem) := by
  induction vs with
  | nil => exact ⟨[], [], rfl, .nil, by simp, .nil⟩
  | cons v vs ih =>
    obtain ⟨t, w, a1, a2, a3, a4⟩ := item_piece (h v List.mem_cons_self)
    obtain ⟨ts, ws, b1, b2, b3, b4⟩ := ih fun x hx => h x (List.mem_cons_of_mem _ hx)
    refine ⟨t :: ts, w :: ws, ?_, .cons a2 b2, ?_, .cons a4 b4⟩
    · simp only [printBytes, a1, b1, Res.ok_bind]
    · intro ha x hx
      rcases List.mem_cons.mp hx with rfl | hx
      · exact a3 (ha v List.mem_cons_self)
      · exact b3 (fun v hv => ha v (List.mem_cons_of_mem _ hv)) x hx

theorem exprs_pieces {es : List Expr} (h : ∀ e ∈ es, Clean e) : EachLine Piece (es.map Expr.print) (es.map printedToks) ∧
    (∀ t ∈ es.map Expr.print, Ascii t) ∧ EachLine ExprSyntax (es.map printedToks) (es.map lowerExpr) := by
  induction es with
  | nil => exact ⟨.nil, by simp, .nil⟩
  | cons e es ih =>
    obtain ⟨a, b, c⟩ := ih fun x hx => h x (List.mem_cons_of_mem _ hx)
    have he := h e List.mem_cons_self
    refine ⟨.cons (piece_expr he.1) a, ?_, .cons (clean_syntax he) c⟩
    intro t ht
    rcases List.mem_cons.mp ht with rfl | ht
    · exact ascii_print he.1
    · exact b t ht

theorem ident_of {t : Text} (h : ∃ c cs, t = c :: cs ∧ (c.isAlpha = true ∨ c = '_' ∨ c = '.') ∧ ∀ d ∈ cs, d.isAlpha = true) : Ident t := by
  obtain ⟨c, cs, h1, h2, h3⟩ := h
  exact ⟨c, cs, h1, h2, fun d hd => .inl (.inl (h3 d hd))⟩

theorem piece_dir {name : String} {t ks} (hi : Ident name.toList) (hl : lower name.toList = name.toList) (h : Piece t ks) :
    Piece (' ' :: ' ' :: (name.toList ++ ' ' :: t)) (.name name.toList :: ks) := by
  have := piece_cons (piece_name hi) (piece_space h) (by decide)
  rw [hl] at this
  exact piece_space (piece_space this)

theorem ascii_dir {name : String} {t : Text} (hi : Ident name.toList) (h : Ascii t) :
    Ascii (' ' :: ' ' :: (name.toList ++ ' ' :: t)) :=
  .cons (by decide) (.cons (by decide) ((ascii_ident hi).append (.cons (by decide) h)))

theorem ident_byte : Ident ".byte".toList := ident_of ⟨'.', "byte".toList, by decide, by decide, by decide⟩
theorem ident_word : Ident ".word".toList := ident_of ⟨'.', "word".toList, by decide, by decide, by decide⟩
theorem ident_org : Ident ".org".toList := ident_of ⟨'.', "org".toList, by decide, by decide, by decide⟩
theorem ident_cnop : Ident ".cnop".toList := ident_of ⟨'.', "cnop".toList, by decide, by decide, by decide⟩
theorem ident_equ : Ident "EQU".toList := ident_of ⟨'E', "QU".toList, by decide, by decide, by decide⟩

/-- A statement that is not a comment is printed on one line and read back. -/
theorem clean_line {s : Stmt} (h : CleanStmt s) (hc : ∀ t, s ≠ .comment t) : ∃ t ks s', s.print = .ok t ∧ LineText t ks ∧ ks ≠ [] ∧
    (AsciiStmt s → Ascii t) ∧ LineSyntax ks [s'] ∧ Lowers s s' := by
  cases h with
  | blank => exact absurd rfl (hc _)
  | comment => exact absurd rfl (hc _)
  | @label n h _ =>
    exact ⟨_, _, _, rfl, line_label h, by simp, fun _ => (ascii_ident h).append (.cons (by decide) .nil), .label, .label⟩
  | @instr i h =>
    obtain ⟨w, a1, a2, a3, a4⟩ := instr_piece (i := i) (by
      intro o ho
      cases o with
      | inl e => exact h e ho
      | inr r => trivial)
    refine ⟨_, w, _, rfl, (piece_space (piece_space a1)).line, ?_, fun _ => .cons (by decide) (.cons (by decide) a2), .instr a3 a4,
      .instr (mapE_form _ _) ?_⟩
    · cases a3; simp
    · rw [mapE_operands]
      congr 1
  | @byte vs hne h =>
    obtain ⟨ts, ws, a1, a2, a3, a4⟩ := items_pieces h
    have hj := piece_join (n := 0) a2
    refine ⟨_, _, _, ?_, (piece_dir (name := ".byte") ident_byte (by decide) hj).line, by simp,
      fun ha => ascii_dir ident_byte (ascii_join (.cons (by decide) .nil) (a3 ha)), .directive (.byte (listed_comma a4 ?_)), .byte⟩
    · simp only [Stmt.print, Directive.print, a1, Res.ok_bind]
      rfl
    · rintro rfl
      cases vs with
      | nil => exact hne rfl
      | cons => cases a4
  | @word es hne h =>
    obtain ⟨a1, a2, a3⟩ := exprs_pieces h
    have hj := piece_join (n := 1) a1
    refine ⟨_, _, _, ?_, (piece_dir (name := ".word") ident_word (by decide) hj).line, by simp,
      fun _ => ascii_dir ident_word (ascii_join (.cons (by decide) (.cons (by decide) .nil)) a2), .directive (.word (listed_comma a3 ?_)), .word⟩
    · rfl
    · simpa using hne
  | @org n h =>
    have hu : unsigned (n : Int) = n := by simp only [unsigned]; omega
    by_cases h0 : n = 0
    · subst h0
      have hp : Piece (digitsOf 10 0) [.number (0 : Nat) .decimal] :=
        ⟨digits_no_newline digitsLoop_chars, fun _ _ _ _ hr hl => lx_decimal (n := 0) (by omega) hr hl⟩
      refine ⟨_, _, .dir (.org 0), rfl, (piece_dir (name := ".org") ident_org (by decide) hp).line, by simp,
        fun _ => ascii_dir ident_org (ascii_digits digitsLoop_chars), ?_, .org⟩
      exact .directive .org
    · have hp : Piece ('$' :: zeroPad 4 (digitsOf 16 n)) [.number n .hex] := by
        refine ⟨?_, fun _ _ _ _ hr hl => lx_padded (by decide) (by decide) (by decide) (by decide) h hr hl⟩
        intro hx
        rcases List.mem_cons.mp hx with hx | hx
        · cases hx
        · exact digits_no_newline zeroPad_chars hx
      refine ⟨_, _, .dir (.org n), ?_, (piece_dir (name := ".org") ident_org (by decide) hp).line, by simp,
        fun _ => ascii_dir ident_org (.cons (by decide) (ascii_digits zeroPad_chars)), ?_, .org⟩
      · simp only [Stmt.print, Directive.print, h0, ↓reduceIte]
        rfl
      · have := DirSyntax.org (v := n) (radix := .hex)
        rw [hu] at this
        exact .directive this
  | @cnop a k ha hk =>
    have hp := piece_cons (piece_expr ha.1) (piece_comma (piece_space (piece_expr hk.1))) (by decide)
    refine ⟨_, _, _, ?_, (piece_dir (name := ".cnop") ident_cnop (by decide) hp).line, by simp,
      fun _ => ascii_dir ident_cnop ((ascii_print ha.1).append (.cons (by decide) (.cons (by decide) (ascii_print hk.1)))),
      .directive (.cnop (clean_syntax ha) (clean_syntax hk)), .cnop⟩
    simp [Stmt.print, Directive.print]
  | @«variable» n e hi hd h =>
    have hp := piece_cons (piece_name hi) (piece_space (piece_equals (piece_space (piece_expr h.1)))) (by decide)
    refine ⟨_, _, _, ?_, hp.line, by simp,
      fun _ => (ascii_ident hi).append (.cons (by decide) (.cons (by decide) (.cons (by decide) (ascii_print h.1)))),
      .variable hd (clean_syntax h), .variable⟩
    simp [Stmt.print]
  | @alias n e hi hd h =>
    have hp := piece_cons (piece_name hi) (piece_space (piece_cons (piece_name ident_equ) (piece_space (piece_expr h.1)) (by decide))) (by decide)
    have he : lower "EQU".toList = "equ".toList := by decide
    rw [he] at hp
    refine ⟨_, _, _, ?_, hp.line, by simp,
      fun _ => (ascii_ident hi).append (.cons (by decide) ((ascii_ident ident_equ).append (.cons (by decide) (ascii_print h.1)))),
      .alias hd (clean_syntax h), .alias⟩
    simp [Stmt.print]

/-- A comment is printed as blank text. -/
theorem clean_comment {t : Text} (h : CleanStmt (.comment t)) : ∃ u, Stmt.print (.comment t) = .ok u ∧ (Ascii t → Ascii u) ∧ ∀ c, LineTail c →
    ReadsAs (u ++ c ++ ['\n']) [] := by
  have blank : (∀ c ∈ t, isSpace c = true) → ∃ u, Stmt.print (.comment t) = .ok u ∧ (Ascii t → Ascii u) ∧ ∀ c, LineTail c →
    ReadsAs (u ++ c ++ ['\n']) [] := by
    intro hb
    refine ⟨t, ?_, fun h => h, fun c hc => ?_⟩
    · have : t.all isSpace = true := List.all_eq_true.mpr hb
      simp only [Stmt.print, this, ↓reduceIte]
    · rw [List.append_assoc]
      exact lx_reads_nil (lx_blanks hb (lx_tail hc))
  cases h with
  | blank h => exact blank h
  | @comment _ u hn ht =>
    by_cases hb : t.all isSpace = true
    · exact blank (List.all_eq_true.mp hb)
    · have hall : ∀ (before c : Text), LineTail c → Lx 0 before ("  ;; ".toList ++ u ++ c ++ ['\n']) [] := by
        intro before c hc
        have hnc : '\n' ∉ c := by
          rcases hc with rfl | ⟨v, rfl, hv⟩
          · simp
          · simp [hv]
        have h1 : Lx 0 (before ++ [' ', ' '] ++ ';' :: (';' :: ' ' :: u ++ c)) ['\n'] [] := lx_space (by decide) (lx_nil _ _)
        have h2 := lx_comment (file := 0) (before := before ++ [' ', ' ']) (t := ';' :: ' ' :: u ++ c) (rest := ['\n']) (L := [])
          (by simp [hn, hnc]) (.inr (.inl rfl)) h1
        have h3 := lx_blanks (t := [' ', ' ']) (by decide) h2
        simpa using h3
      rcases ht with rfl | rfl
      · refine ⟨"  ;; ".toList ++ t, ?_, fun ha => .append (by unfold Ascii; decide) ha, fun c hc => lx_reads_nil (hall [] c hc)⟩
        cases t with
        | nil => exact absurd rfl hb
        | cons x t =>
          have hx : x ≠ '\n' := fun e => hn (by simp [e])
          simp only [Stmt.print, hb]
          split
          · rename_i e; cases e
          · split
            · rename_i e; injection e with e1 e2; exact absurd e1 hx
            · rfl
      · refine ⟨"\n  ;; ".toList ++ u, ?_, fun ha => .append (by unfold Ascii; decide) fun c hc => ha c (List.mem_cons_of_mem _ hc), fun c hc => lx_reads_nil ?_⟩
        · simp only [Stmt.print, hb]
          rfl
        · exact lx_space (by decide) (hall _ c hc)

/-- One printed statement, with what follows it on its line. -/
theorem clean_reads {s : Stmt} (h : CleanStmt s) : ∃ t, s.print = .ok t ∧ (AsciiStmt s → Ascii t) ∧ ∀ c, LineTail c →
    ∃ K sss, ReadsAs (t ++ c ++ ['\n']) K ∧ EachLine LineSyntax K sss ∧ Reread [s] sss.flatten := by
  by_cases hc : ∃ t, s = .comment t
  · obtain ⟨t, rfl⟩ := hc
    obtain ⟨u, h1, h2, h3⟩ := clean_comment h
    exact ⟨u, h1, h2, fun c hc => ⟨[], [], h3 c hc, .nil, .comment .nil⟩⟩
  · obtain ⟨t, ks, s', h1, h2, h3, h4, h5, h6⟩ := clean_line h fun t e => hc ⟨t, e⟩
    exact ⟨t, h1, h4, fun c hc => ⟨[ks], [[s']], line_reads h2 h3 hc, .cons h5 .nil, .cons h6 .nil⟩⟩

theorem Spec.Reread.append {a b c d : List Stmt} (h : Reread a b) (h' : Reread c d) : Reread (a ++ c) (b ++ d) := by
  induction h with
  | nil => exact h'
  | comment _ ih => exact .comment ih
  | cons h1 _ ih => exact .cons h1 ih

/-- The lines of printed statements, each with something after it. -/
theorem lines_read {ls : List (Stmt × Text)} (h : ∀ l ∈ ls, CleanStmt l.1 ∧ LineTail l.2) :
    ∃ ts K sss, printEach (ls.map (·.1)) = .ok ts ∧ ((∀ l ∈ ls, AsciiStmt l.1) → ∀ t ∈ ts, Ascii t) ∧
      ReadsAs (List.flatten (List.zipWith (fun t c => t ++ c ++ ['\n']) ts (ls.map (·.2)))) K ∧
      EachLine LineSyntax K sss ∧ Reread (ls.map (·.1)) sss.flatten := by
  induction ls with
  | nil => exact ⟨[], [], [], rfl, by simp, readsAs_nil, .nil, .nil⟩
  | cons l ls ih =>
    obtain ⟨ts, K, sss, a1, a2, a3, a4, a5⟩ := ih fun x hx => h x (List.mem_cons_of_mem _ hx)
    obtain ⟨hc, ht⟩ := h l List.mem_cons_self
    obtain ⟨t, b1, b2, b3⟩ := clean_reads hc
    obtain ⟨K', sss', c1, c2, c3⟩ := b3 l.2 ht
    refine ⟨t :: ts, K' ++ K, sss' ++ sss, ?_, ?_, ?_, eachLine_join c2 a4, ?_⟩
    · simp only [List.map_cons, printEach, b1, a1, Res.ok_bind]
    · intro ha x hx
      rcases List.mem_cons.mp hx with rfl | hx
      · exact b2 (ha l List.mem_cons_self)
      · exact a2 (fun l hl => ha l (List.mem_cons_of_mem _ hl)) x hx
    · exact readsAs_append c1 a3
    · rw [List.flatten_append]
      exact c3.append a5

/-- A text of such lines is read as their statements. -/
theorem text_parses {seg : Seg} {t : Text} (ha : Plain seg t) {K : List (List Tok)} {sss : List (List Stmt)}
    (h1 : ReadsAs t K) (h2 : EachLine LineSyntax K sss) (f : Nat) :
    (lexInput seg (Input.new f t) >>= parse) = .ok ⟨[], sss.flatten⟩ := by
  obtain ⟨toks, e1, e2⟩ := readsAs_lex h1 ha f
  rw [e1, Res.ok_bind]
  refine (parse_undec_iff e2 (readsAs_noeof h1) (.inr (lineSyntax_noMacro h2))).mpr (parseTokLines_iff.mpr ⟨[], program_of_lines h2 [], rfl⟩)

theorem join_lines (ts : List Text) (h : ts ≠ []) : joinWith "\n".toList ts ++ ['\n'] =
    List.flatten (List.zipWith (fun t c => t ++ c ++ ['\n']) ts (ts.map fun _ => [])) := by
  induction ts with
  | nil => exact absurd rfl h
  | cons t ts ih =>
    cases ts with
    | nil => simp [joinWith]
    | cons u ts =>
      have := ih (by simp)
      simp only [joinWith, List.append_assoc, this]
      simp

/-- Printed programs read back. -/
theorem printed_reads {ss : List Stmt} (h : ∀ s ∈ ss, CleanStmt s) : ∃ t K sss, printStatements ss = .ok t ∧ ((∀ s ∈ ss, AsciiStmt s) → Ascii t) ∧
    ReadsAs (t ++ ['\n']) K ∧ EachLine LineSyntax K sss ∧ Reread ss sss.flatten := by
  cases ss with
  | nil => exact ⟨[], [], [], rfl, fun _ => .nil, readsAs_newline readsAs_nil, .nil, .nil⟩
  | cons s ss =>
    obtain ⟨ts, K, sss, h1, h2, h3, h4, h5⟩ := lines_read (ls := (s :: ss).map fun x => (x, [])) (by
      intro l hl
      obtain ⟨x, hx, rfl⟩ := List.mem_map.mp hl
      exact ⟨h x hx, .inl rfl⟩)
    have e1 : ((s :: ss).map fun x => (x, ([] : Text))).map (·.1) = s :: ss := by simp [Function.comp_def]
    rw [e1] at h1 h5
    have hlen : ∀ {ss : List Stmt} {ts}, printEach ss = .ok ts → ts.length = ss.length := by
      intro ss
      induction ss with
      | nil => intro ts h; cases h; rfl
      | cons s ss ih =>
        intro ts h
        obtain ⟨t, _, h⟩ := Res.bind_eq_ok.mp h
        obtain ⟨us, h', h⟩ := Res.bind_eq_ok.mp h
        cases h
        simp [ih h']
    have hl := hlen h1
    have hne : ts ≠ [] := by rintro rfl; simp at hl
    have e2 : ((s :: ss).map fun x => (x, ([] : Text))).map (·.2) = ts.map fun _ => [] := by
      rw [List.map_map, show ((fun (x : Stmt × Text) => x.2) ∘ fun x => (x, ([] : Text))) = fun _ => [] from rfl, List.map_const',
        List.map_const', hl]
    rw [e2, ← join_lines ts hne] at h3
    refine ⟨_, K, sss, ?_, fun ha => ascii_join (by unfold Ascii; decide) (h2 ?_), h3, h4, h5⟩
    · simp only [printStatements, h1, Res.ok_bind]
    · intro l hl
      obtain ⟨x, hx, rfl⟩ := List.mem_map.mp hl
      exact ha x hx

end Verif
