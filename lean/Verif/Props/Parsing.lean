import Verif.Lemmas.ParseProgram
import Verif.Lemmas.LexSwap
/-
C13, C14, C42, C43 and C45: parsing.  The specification is the grammar in Spec/Grammar.lean, given by
inductive relations between token lists and syntax trees.
-/
namespace Verif.Props
open Verif.Spec

/-! C13: operator precedence and associativity -/

/-- **C13**: the tokens of an expression, written with only the parentheses its operators need, and followed by
anything that is not an operator, are read as exactly that expression, and the rest is left alone. -/
theorem C13_precedence (e : Expr) (rest : List Tok) (h : NoOperator rest) :
    parseExpr (written e ++ rest) = .ok (e, rest) :=
  parseExpr_iff.mpr ⟨_, rfl, written_syntax e, h⟩

/-- **C13**: `written` uses no parentheses that could be left out: no other way of writing the expression has
fewer. -/
theorem C13_minimal {e : Expr} {w : List Tok} (h : ExprSyntax w e) : parens (written e) ≤ parens w := by
  have := parens_minimal h
  have e1 : bracket .bitwise e (written e) = written e := by simp [bracket, Level.rank]
  rwa [e1] at this

/-- **C13**: extra parentheses are allowed and mean nothing: every way of writing the expression is read as it. -/
theorem C13_any_spelling {e : Expr} {w rest : List Tok} (h : ExprSyntax w e) (hr : NoOperator rest) :
    parseExpr (w ++ rest) = .ok (e, rest) :=
  parseExpr_iff.mpr ⟨_, rfl, h, hr⟩

/-- `1 - 2 - 3 * -(4 + 5) & 6` -/
example : parseExpr [.number 1 .decimal, .minus, .number 2 .decimal, .minus, .number 3 .decimal, .times, .minus,
      .leftParen, .number 4 .decimal, .plus, .number 5 .decimal, .rightParen, .ampersand, .number 6 .decimal, .comma] =
    .ok (.band (.minus (.minus (.number 1 .decimal) (.number 2 .decimal)) (.times (.number 3 .decimal) (.uminus (.plus (.number 4 .decimal) (.number 5 .decimal))))) (.number 6 .decimal), [.comma])
    ∧ NoOperator [.comma] := by
  refine ⟨by decide +kernel, ?_⟩
  intro t ts lv f e h
  cases e; cases h

/-! C14: the expression parser accepts only the grammar -/

/-- **C14**: whenever an expression is read, the tokens taken are a sentence of the grammar for it, the remaining
tokens are the untouched rest, and they do not go on with an operator. -/
theorem C14_sound {ts rest : List Tok} {e : Expr} (h : parseExpr ts = .ok (e, rest)) :
    ∃ w, ts = w ++ rest ∧ ExprSyntax w e ∧ NoOperator rest :=
  parseExpr_iff.mp h

/-- **C14**: the grammar is unambiguous. -/
theorem C14_unambiguous {w : List Tok} {e e' : Expr} (h : ExprSyntax w e) (h' : ExprSyntax w e') : e = e' :=
  exprSyntax_unique h h'

/-- **C14**: everything else is answered with an error; the parser neither panics nor runs for ever. -/
theorem C14_total (ts : List Tok) (h : ¬ ∃ w rest e, ts = w ++ rest ∧ ExprSyntax w e ∧ NoOperator rest) :
    ∃ er, parseExpr ts = .err er := by
  cases hr : parseExpr ts with
  | ok a =>
    obtain ⟨w, h1, h2, h3⟩ := parseExpr_iff.mp (show parseExpr ts = .ok (a.1, a.2) from hr)
    exact absurd ⟨w, a.2, a.1, h1, h2, h3⟩ h
  | err er => exact ⟨er, rfl⟩
  | loop => exact absurd hr (parseExpr_not_loop ts)
  | panic => exact absurd hr (parseExpr_not_panic ts)

/-- `( 1 + ) 2` is no expression. -/
example : ∃ er, parseExpr [.leftParen, .number 1 .decimal, .plus, .rightParen, .number 2 .decimal] = .err er :=
  ⟨.invalidExpression, by decide +kernel⟩

/-! C42: lines partition the tokens -/

/-- **C42**: the lines are non-empty and their concatenation is the token sequence. -/
theorem C42_partition (ts : List Token) : (lines ts).flatten = ts ∧ ∀ l ∈ lines ts, l ≠ [] := by
  have := lines_splits ts
  generalize lines ts = ls at this
  induction this with
  | nil => simp
  | @cons t l rest ls h1 h2 _ ih =>
    refine ⟨by simp [ih.1], ?_⟩
    intro x hx
    rcases List.mem_cons.mp hx with rfl | hx
    · simp
    · exact ih.2 x hx

/-- **C42**: all tokens of a line begin on the line of its first token (more exactly the line where that one
ends, for a string with line breaks in it), in the same file. -/
theorem C42_same_line {ts : List Token} {t : Token} {l : List Token} (h : t :: l ∈ lines ts) :
    ∀ x ∈ l, x.start.line = t.stop.line ∧ x.start.file = t.stop.file := by
  have hs := lines_splits ts
  generalize lines ts = ls at hs h
  induction hs with
  | nil => cases h
  | @cons t' l' rest ls h1 h2 _ ih =>
    rcases List.mem_cons.mp h with e | h
    · cases e; exact h1
    · exact ih h

/-- **C42**: the lines are as long as possible, and so they are determined by the tokens: they are the only way of
splitting them like that. -/
theorem C42_unique {ts : List Token} {ls : List (List Token)} : lines ts = ls ↔ SplitsInto ts ls := lines_iff

/-- Three tokens on line 1 and one on line 2. -/
example : (lines [⟨.name ['a'], ⟨0, 0, 1, 0⟩, ⟨0, 1, 1, 1⟩⟩, ⟨.colon, ⟨0, 1, 1, 1⟩, ⟨0, 2, 1, 2⟩⟩,
    ⟨.name ['b'], ⟨0, 3, 1, 3⟩, ⟨0, 4, 1, 4⟩⟩, ⟨.name ['c'], ⟨0, 5, 2, 0⟩, ⟨0, 6, 2, 1⟩⟩]).map (·.length) = [3, 1] := by
  decide +kernel

/-! C43: nothing on a line is ignored -/

/-- **C43**: a line is accepted with these statements exactly when the grammar gives it these statements, up to the
end of the line. -/
theorem C43_line {ts : List Tok} {ss : List Stmt} :
    parseLine ts = .ok ss ↔ ∃ w e, ts = w ++ e ∧ LineSyntax w ss ∧ LineEnd e := line_iff

/-- **C43**: any other line is answered with an error. -/
theorem C43_line_error {ts : List Tok} (h : ¬ ∃ w e ss, ts = w ++ e ∧ LineSyntax w ss ∧ LineEnd e) :
    ∃ er, parseLine ts = .err er := by
  rcases (line_fine ts).cases with ⟨ss, h1⟩ | h1
  · obtain ⟨w, e, h2, h3, h4⟩ := line_iff.mp h1
    exact absurd ⟨w, e, ss, h2, h3, h4⟩ h
  · exact h1

/-- **C43**: a line has only one meaning. -/
theorem C43_unambiguous {w : List Tok} {ss ss' : List Stmt} (h : LineSyntax w ss) (h' : LineSyntax w ss') : ss = ss' := by
  have a := line_complete h (.inl rfl)
  have b := line_complete h' (.inl rfl)
  rw [a] at b
  exact Res.ok.inj b

/-- **C43**: a program is accepted exactly when the grammar accepts all its lines. -/
theorem C43_program {toks : List Token} {p : Program} : parse toks = .ok p ↔ Parses toks p := parse_iff

/-- **C43**: any other program is answered with an error; the parser neither panics nor runs for ever. -/
theorem C43_program_error {toks : List Token} (h : ¬ ∃ p, Parses toks p) : ∃ er, parse toks = .err er := by
  rcases (parseTokLines_fine ((lines toks).map (·.map Token.tok))).cases with ⟨p, h1⟩ | h1
  · exact absurd ⟨p, parse_iff.mp h1⟩ h
  · exact h1

theorem lexesTo_eof {file before text toks} (h : LexesTo file before text toks) :
    ∃ ks, tokKinds toks = ks ++ [.eof] ∧ .eof ∉ ks := by
  induction h with
  | done _ => exact ⟨[], rfl, by simp⟩
  | @token before g w rest k toks _ hs _ ih =>
    obtain ⟨ks, h1, h2⟩ := ih
    refine ⟨k :: ks, by simp only [tokKinds, List.map_cons] at h1 ⊢; rw [h1]; rfl, ?_⟩
    have hk : k ≠ .eof := by
      rintro rfl
      cases hs with
      | symbol h _ => simp [symbols] at h
    simp [h2, hk.symm]

/-- **C43**: in the tokens of a source text the end of the file comes last, so the end of a line has nothing behind
it that could be skipped. -/
theorem C43_line_end {seg : Seg} {file : Nat} {text : Text} (hp : Plain seg text)
    {toks : List Token} (h : lexInput seg (Input.new file text) = .ok toks) :
    ∀ l ∈ lines toks, ∀ w e, tokKinds l = w ++ e → LineEnd e → e = [] ∨ e = [.eof] := by
  obtain ⟨ks, h1, h2⟩ := lexesTo_eof ((lexInput_ok_iff hp).mp h)
  intro l hl w e he hle
  rcases hle with rfl | ⟨more, rfl⟩
  · exact .inl rfl
  · right
    obtain ⟨as, bs, hab⟩ := List.append_of_mem hl
    have hf := (C42_partition toks).1
    rw [hab, List.flatten_append, List.flatten_cons] at hf
    have hk : tokKinds as.flatten ++ (w ++ .eof :: (more ++ tokKinds bs.flatten)) = ks ++ [.eof] := by
      rw [← h1, ← hf]
      simp only [tokKinds, List.map_append] at he ⊢
      rw [he]
      simp
    rw [← List.append_assoc] at hk
    have hm : more ++ tokKinds bs.flatten = [] := by
      cases hx : more ++ tokKinds bs.flatten with
      | nil => rfl
      | cons x xs =>
        exfalso
        rw [hx] at hk
        have := congrArg List.dropLast hk
        rw [List.dropLast_concat, List.dropLast_append_of_ne_nil (by simp)] at this
        apply h2
        rw [← this]
        simp
    rw [List.append_eq_nil_iff] at hm
    rw [hm.1]

/-- `x: mov #1, b` is accepted, `x: mov #1, b 2` is not. -/
example : parseLine [.name ['x'], .colon, .name "mov".toList, .hash, .number 1 .decimal, .comma, .name ['b']] =
      .ok [.label ['x'], .instr (.Mov_d9 (.number 1 .decimal) (.name ['b']))] ∧
    parseLine [.name ['x'], .colon, .name "mov".toList, .hash, .number 1 .decimal, .comma, .name ['b'], .number 2 .decimal] =
      .err (.expectedTokenNotFound "','".toList) := by
  constructor <;> decide +kernel

/-! C45: macro definitions are checked -/

/-- **C45**: the macros of an accepted program are not named like instructions, have distinct parameters, and no
two of them have the same name and number of parameters. -/
theorem C45_checked {toks : List Token} {p : Program} (h : parse toks = .ok p) :
    ∃ ms, p = programOf p.stmts ms ∧ (∀ d ∈ ms, ¬ Mnemonic d.name ∧ d.args.Nodup) ∧
      ms.Pairwise fun d d' => ¬ (d.name = d'.name ∧ d.args.length = d'.args.length) := by
  obtain ⟨ls, ss, ms, -, h2, rfl⟩ := parse_iff.mp h
  exact ⟨ms, rfl, allDefinable_spec (program_definable h2 trivial)⟩

/-- **C45**: so the macros are as the theorems about macro expansion (C31–C36) want them. -/
theorem C45_wellFormed {toks : List Token} {p : Program} (h : parse toks = .ok p) : WellFormed p.macros := by
  obtain ⟨ms, e, h1, -⟩ := C45_checked h
  rw [e]
  exact keyed_wellFormed fun d hd => (h1 d hd).2

/-- The lines of a program. -/
def tokLines (toks : List Token) : List (List Tok) := (lines toks).map (·.map Token.tok)

/-- **C45**: a macro named like an instruction is rejected, whatever comes after the name and whatever the other
lines are. -/
theorem C45_instruction_name {toks : List Token} {pre post : List (List Tok)} {ms : List MacroDef} {name : Text}
    {more : List Tok} (h : tokLines toks = pre ++ (.macroIdent "%macro".toList :: .name name :: more) :: post)
    (hp : MacrosAfter [] pre ms) (hn : Mnemonic name) : parse toks = .err (.macroNameConflict name) := by
  unfold tokLines at h
  rw [parse, h]
  exact header_err hp (startsMacro_iff.mpr rfl) (header_name_err hn)

/-- **C45**: a macro with the name and the number of parameters of an earlier macro is rejected. -/
theorem C45_same_macro {toks : List Token} {pre post : List (List Tok)} {ms : List MacroDef} {name : Text}
    {w e : List Tok} {args : List Arg}
    (h : tokLines toks = pre ++ (.macroIdent "%macro".toList :: .name name :: (w ++ e)) :: post)
    (hp : MacrosAfter [] pre ms) (hn : ¬ Mnemonic name) (hw : OptListed ArgSyntax w args) (he : LineEnd e)
    (hd : ∃ d ∈ ms, d.name = name ∧ d.args.length = args.length) :
    parse toks = .err (.macroAlreadyExists name args.length) := by
  obtain ⟨d, hd, h1, h2⟩ := hd
  unfold tokLines at h
  rw [parse, h]
  exact header_err hp (startsMacro_iff.mpr rfl) (header_exists_err hn hw he hd h1 h2)

/-- **C45**: a macro with a repeated parameter is rejected, and the first parameter that is given again is named. -/
theorem C45_repeated_parameter {toks : List Token} {pre post : List (List Tok)} {ms : List MacroDef} {name : Text}
    {w e : List Tok} {a : List Text} {p : Text} {more : List Arg}
    (h : tokLines toks = pre ++ (.macroIdent "%macro".toList :: .name name :: (w ++ e)) :: post)
    (hp : MacrosAfter [] pre ms) (hn : ¬ Mnemonic name)
    (hw : OptListed ArgSyntax w (a.map .macroArg ++ .macroArg p :: more)) (he : LineEnd e)
    (hk : ∀ d ∈ ms, ¬ (d.name = name ∧ d.args.length = a.length + 1 + more.length)) (ha : a.Nodup) (hr : p ∈ a) :
    parse toks = .err (.duplicateMacroArg p) := by
  unfold tokLines at h
  rw [parse, h]
  exact header_err hp (startsMacro_iff.mpr rfl) (header_dup_err hn hw he hk ha hr)

/-- Parsing a source text, for the examples. -/
def parsed (text : String) : Res Program := do
  let toks ← lexInput plainSeg (Input.new 0 text.toList)
  parse toks

example : parsed "%macro foo %a, %b\n ld %a\n%end\n%macro foo %a\n%end\n foo 1, 2" = .ok (programOf
    [.macroCall "foo".toList [.ex (.number 1 .decimal), .ex (.number 2 .decimal)]]
    [⟨"foo".toList, ["%a".toList], []⟩,
     ⟨"foo".toList, ["%a".toList, "%b".toList], [.instr "ld".toList [.macroArg "%a".toList]]⟩]) := by decide +kernel

example : parsed "%macro foo %a, %b\n%end\n%macro add %a\n%end" = .err (.macroNameConflict "add".toList) ∧
    parsed "%macro foo %a, %b\n%end\n%macro foo %c, %d\n%end" = .err (.macroAlreadyExists "foo".toList 2) ∧
    parsed "%macro foo %a, %b, %a\n%end" = .err (.duplicateMacroArg "%a".toList) := by decide +kernel

/-- The macros before a line, as the three theorems above want them. -/
example : MacrosAfter [] [[.name "ld".toList, .number 3 .decimal], [.macroIdent "%macro".toList, .name "foo".toList,
      .macroIdent "%a".toList], [.name "st".toList, .macroIdent "%a".toList], [.macroIdent "%end".toList]]
    [⟨"foo".toList, ["%a".toList], [.instr "st".toList [.macroArg "%a".toList]]⟩] := by
  have ha : ArgSyntax [.macroIdent "%a".toList] (.macroArg "%a".toList) :=
    .param (.tight (.tight (.tight (.tight (.atom .param)))))
  refine .line (by simp) (.defn (params := ["%a".toList]) (ls := [[.name "st".toList, .macroIdent "%a".toList]]) (e := [])
    ⟨[.macroIdent "%a".toList], [], rfl, .inr (.one ha), .inl rfl⟩ ⟨?_, by simp, by simp⟩ ?_ (.inl rfl) .nil)
  · rw [← mnemonic_iff]; decide +kernel
  · exact .cons (ss := [_]) (rest := []) (by simp) (.mk (w := []) (ss := []) (w' := [.name "st".toList, .macroIdent "%a".toList])
      (ss' := [.instr "st".toList [.macroArg "%a".toList]]) (e := []) .none
      (.instr (by rintro ⟨_, h⟩; cases h) (.inr (.one ha))) (.inl rfl)) .nil

end Verif.Props
