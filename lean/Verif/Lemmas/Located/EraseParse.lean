import Verif.Lemmas.Located.EraseMake
/-
Forgetting the spans of what the parser reads.
-/
namespace Verif.Located

/-- Tokens without spans -/
abbrev toks (ts : List Token) : Toks := ts.map Token.tok

/-- What was parsed without spans, with the tokens left -/
abbrev parsed {α β : Type} (f : α → β) (x : α × List Token) : β × Toks := (f x.1, toks x.2)

theorem Res.erase_ite {α β : Type} {g : α → β} {c : Prop} [Decidable c] {a b : Res α} {a' b' : Verif.Res β}
    (ha : c → a.erase g = a') (hb : ¬c → b.erase g = b') : (if c then a else b).erase g = if c then a' else b' := by
  split
  · exact ha ‹_›
  · exact hb ‹_›

/-! ### Token streams -/

theorem erase_failNext {α β : Type} (f : α → β) {e : Err} {ts : List Token} (h : atEnd ts = false) :
    (failNext e ts : Res α).erase f = .err e := by
  cases ts with
  | nil => exact absurd h (by decide)
  | cons t ts => rfl

theorem erase_consume (k : Tok) (what : Text) (ts : List Token) :
    (consume k what ts).erase toks = Toks.consume k what (toks ts) := by
  cases ts with
  | nil => rfl
  | cons t ts =>
    simp only [consume, toks, List.map_cons, Toks.consume]
    by_cases h : t.tok = k <;> simp [h]

theorem erase_readName (ts : List Token) : (readName ts).erase (parsed Prod.snd) = Toks.readName (toks ts) := by
  cases ts with
  | nil => rfl
  | cons t ts =>
    obtain ⟨k, a, b⟩ := t
    cases k <;> rfl

theorem erase_readMacroName (ts : List Token) :
    (readMacroName ts).erase (parsed Prod.snd) = Toks.readMacroName (toks ts) := by
  cases ts with
  | nil => rfl
  | cons t ts =>
    obtain ⟨k, a, b⟩ := t
    cases k <;> rfl

theorem erase_readNumber (ts : List Token) : (readNumber ts).erase (parsed Prod.snd) = Toks.readNumber (toks ts) := by
  cases ts with
  | nil => rfl
  | cons t ts =>
    obtain ⟨k, a, b⟩ := t
    cases k <;> rfl

theorem erase_readString (ts : List Token) : (readString ts).erase (parsed Prod.snd) = Toks.readString (toks ts) := by
  cases ts with
  | nil => rfl
  | cons t ts =>
    obtain ⟨k, a, b⟩ := t
    cases k <;> rfl

theorem erase_readIncludeType (ts : List Token) :
    (readIncludeType ts).erase (parsed IncludeType.erase) = Toks.readIncludeType (toks ts) := by
  cases ts with
  | nil => rfl
  | cons t ts =>
    simp only [readIncludeType, toks, List.map_cons, Toks.readIncludeType]
    split
    · rfl
    · split
      · rfl
      · split <;> rfl

/-! ### Expressions -/

theorem erase_binaryExpr (t : Tok) (l r : Expr) :
    (binaryExpr t l r).map Expr.erase = Verif.binaryExpr t l.erase r.erase := by cases t <;> rfl

theorem erase_atomExpr (t : Token) : (atomExpr t).map Expr.erase = Verif.atomExpr t.tok := by
  obtain ⟨k, a, b⟩ := t
  cases k <;> rfl

theorem erase_prefixExpr (t : Token) :
    (prefixExpr t = none ∧ Verif.prefixExpr t.tok = none) ∨
      ∃ f g, prefixExpr t = some f ∧ Verif.prefixExpr t.tok = some g ∧ ∀ e, (f e).erase = g e.erase := by
  obtain ⟨k, a, b⟩ := t
  cases k <;> first
    | exact .inl ⟨rfl, rfl⟩
    | exact .inr ⟨_, _, rfl, rfl, fun _ => rfl⟩

theorem erase_exprs (fuel : Nat) :
    (∀ prec ts, (parseExprPrec fuel prec ts).erase (parsed Expr.erase) = Verif.parseExprPrec fuel prec (toks ts)) ∧
    (∀ tok ts, (parsePrefix fuel tok ts).erase (parsed Expr.erase) = Verif.parsePrefix fuel tok.tok (toks ts)) ∧
    (∀ prec l ts, (parseInfix fuel prec l ts).erase (parsed Expr.erase) =
      Verif.parseInfix fuel prec l.erase (toks ts)) := by
  induction fuel with
  | zero => exact ⟨fun _ _ => by simp only [parseExprPrec, Verif.parseExprPrec, Res.erase_loop],
      fun _ _ => by simp only [parsePrefix, Verif.parsePrefix, Res.erase_loop],
      fun _ _ _ => by simp only [parseInfix, Verif.parseInfix, Res.erase_loop]⟩
  | succ fuel ih =>
    obtain ⟨h1, h2, h3⟩ := ih
    refine ⟨fun prec ts => ?_, fun tok ts => ?_, fun prec l ts => ?_⟩
    · cases ts with
      | nil => simp only [parseExprPrec, toks, List.map_nil, Verif.parseExprPrec]; rfl
      | cons t ts =>
        simp only [parseExprPrec, toks, List.map_cons, Verif.parseExprPrec]
        exact Res.erase_bind (h2 t ts) fun ⟨l, ts⟩ => h3 prec l ts
    · simp only [parsePrefix, Verif.parsePrefix]
      rw [← erase_atomExpr]
      cases ha : atomExpr tok with
      | some e => rfl
      | none =>
        dsimp only [Option.map]
        rcases erase_prefixExpr tok with ⟨hl, hr⟩ | ⟨f, g, hl, hr, hfg⟩
        · rw [hl, hr]
          dsimp only
          by_cases hp : tok.tok = .leftParen
          · rw [if_pos hp, if_pos hp]
            exact Res.erase_bind (h1 0 ts) fun ⟨e, ts⟩ => Res.erase_bind (erase_consume _ _ ts) fun ts => rfl
          · rw [if_neg hp, if_neg hp]
            rfl
        · rw [hl, hr]
          dsimp only
          refine Res.erase_bind (h1 prefixPrec ts) fun ⟨e, ts⟩ => ?_
          simp [hfg]
    · cases ts with
      | nil => simp only [parseInfix, toks, List.map_nil, Verif.parseInfix]; rfl
      | cons t ts =>
        simp only [parseInfix, toks, List.map_cons, Verif.parseInfix]
        by_cases hp : prec < infixPrec t.tok
        · rw [if_pos hp, if_pos hp]
          refine Res.erase_bind (h1 _ ts) fun ⟨r, ts⟩ => ?_
          dsimp only
          rw [← erase_binaryExpr]
          cases binaryExpr t.tok l r with
          | none => rfl
          | some e => exact h3 prec e ts
        · rw [if_neg hp, if_neg hp]
          rfl

theorem erase_parseExpr (ts : List Token) :
    (parseExpr ts).erase (parsed Expr.erase) = Verif.parseExpr (toks ts) := by
  unfold parseExpr Verif.parseExpr
  rw [(erase_exprs _).1]
  simp [toks]

/-! ### Lists and arguments -/

theorem erase_parseListLoop {α β : Type} {f : α → β} {item : List Token → Res (α × List Token)}
    {item' : Toks → Verif.Res (β × Toks)} (hi : ∀ ts, (item ts).erase (parsed f) = item' (toks ts)) (fuel : Nat)
    (ts : List Token) :
    (parseListLoop item fuel ts).erase (parsed (List.map f)) = Verif.parseListLoop item' fuel (toks ts) := by
  induction fuel generalizing ts with
  | zero => rfl
  | succ fuel ih =>
    refine Res.erase_ite (c := Toks.isEmpty (toks ts) = true) (fun _ => rfl) fun _ => ?_
    refine Res.erase_bind (erase_consume _ _ ts) fun ts => ?_
    refine Res.erase_bind (hi ts) fun ⟨v, ts⟩ => ?_
    exact Res.erase_bind (ih ts) fun ⟨vs, ts⟩ => rfl

theorem erase_parseList {α β : Type} {f : α → β} {item : List Token → Res (α × List Token)}
    {item' : Toks → Verif.Res (β × Toks)} (hi : ∀ ts, (item ts).erase (parsed f) = item' (toks ts)) (ts : List Token) :
    (parseList item ts).erase (parsed (List.map f)) = Verif.parseList item' (toks ts) := by
  refine Res.erase_ite (c := Toks.isEmpty (toks ts) = true) (fun _ => rfl) fun _ => ?_
  · refine Res.erase_bind (hi ts) fun ⟨v, ts⟩ => ?_
    refine Res.erase_bind (h := parsed (List.map f)) ?_ fun ⟨vs, ts⟩ => rfl
    rw [erase_parseListLoop hi]
    simp [toks]

theorem erase_argOf (e : Expr) : (argOf e).erase = Verif.argOf e.erase := by cases e <;> rfl

theorem erase_parseExprArg (ts : List Token) :
    (parseExprArg ts).erase (parsed Arg.erase) = Verif.parseExprArg (toks ts) :=
  Res.erase_bind (erase_parseExpr ts) fun ⟨e, ts⟩ => by simp [erase_argOf]

theorem erase_parseArg (ts : List Token) : (parseArg ts).erase (parsed Arg.erase) = Verif.parseArg (toks ts) := by
  cases ts with
  | nil => rfl
  | cons t ts =>
    simp only [parseArg, toks, List.map_cons, Verif.parseArg]
    cases imOf t.tok with
    | some r => rfl
    | none =>
      dsimp only
      split
      · exact Res.erase_bind (erase_parseExpr ts) fun ⟨e, ts⟩ => rfl
      · exact erase_parseExprArg (t :: ts)

theorem erase_parseArgs (ts : List Token) :
    (parseArgs ts).erase (parsed (List.map Arg.erase)) = Verif.parseArgs (toks ts) :=
  erase_parseList erase_parseArg ts

theorem erase_parseExprByte (ts : List Token) :
    (parseExprByte ts).erase (parsed ByteValue.erase) =
      (Verif.parseExpr (toks ts) >>= fun x => .ok (.expr x.1, x.2)) :=
  Res.erase_bind (erase_parseExpr ts) fun ⟨_, _⟩ => rfl

theorem erase_parseByteValue (ts : List Token) :
    (parseByteValue ts).erase (parsed ByteValue.erase) = Verif.parseByteValue (toks ts) := by
  cases ts with
  | nil => exact erase_parseExprByte []
  | cons t ts =>
    obtain ⟨k, a, b⟩ := t
    cases k <;> first
      | rfl
      | exact erase_parseExprByte (⟨_, a, b⟩ :: ts)

/-- A key and its value without spans -/
abbrev keyVal (x : Text × ByteValue) : Text × Verif.ByteValue := (x.1, x.2.erase)

theorem erase_parseKeyVal (ts : List Token) :
    (parseKeyVal ts).erase (parsed keyVal) = Verif.parseKeyVal (toks ts) := by
  cases ts with
  | nil => rfl
  | cons t ts =>
    obtain ⟨k, a, b⟩ := t
    cases k
    case name n =>
      cases ts with
      | nil => rfl
      | cons u us =>
        obtain ⟨k, c, d⟩ := u
        cases k <;> first
          | rfl
          | (simp only [parseKeyVal, readName, Res.ok_bind, parseVal, if_true, toks, List.map_cons, Verif.parseKeyVal]
             exact Res.erase_bind (erase_parseByteValue us) fun ⟨v, ts⟩ => rfl)
    all_goals rfl

theorem erase_parseKeyVals (ts : List Token) :
    (parseKeyVals ts).erase (parsed (List.map keyVal)) = Verif.parseKeyVals (toks ts) :=
  Res.erase_bind (erase_parseList erase_parseKeyVal ts) fun ⟨v, ts⟩ => by simp

/-! ### Directives -/

theorem keyVal_lookup (props : List (Text × ByteValue)) (n : Text) :
    (props.map keyVal).lookup n = (props.lookup n).map ByteValue.erase := lookup_map_snd ByteValue.erase props n

theorem erase_iconSpeed (props : List (Text × ByteValue)) :
    (iconSpeed props).erase (Option.map Expr.erase) = Verif.iconSpeed (props.map keyVal) := by
  simp only [iconSpeed, Verif.iconSpeed, keyVal_lookup]
  generalize props.lookup "speed".toList = p
  rcases p with _ | _ | _ <;> rfl

theorem erase_spriteTypeOf (props : List (Text × ByteValue)) :
    (spriteTypeOf props).erase (fun a => a) = Verif.spriteTypeOf (props.map keyVal) := by
  simp only [spriteTypeOf, Verif.spriteTypeOf, keyVal_lookup]
  generalize props.lookup "type".toList = p
  rcases p with _ | _ | _
  · rfl
  · rfl
  · dsimp only [Option.map, ByteValue.erase]
    split
    · rfl
    · split <;> rfl

theorem erase_spriteHeaderOf (props : List (Text × ByteValue)) :
    (spriteHeaderOf props).erase (fun a => a) = Verif.spriteHeaderOf (props.map keyVal) := by
  simp only [spriteHeaderOf, Verif.spriteHeaderOf, keyVal_lookup]
  generalize props.lookup "header".toList = p
  rcases p with _ | _ | _
  · rfl
  · rfl
  · dsimp only [Option.map, ByteValue.erase]
    split
    · rfl
    · split <;> rfl

theorem erase_parseByteDir (s : Span) (ts : List Token) :
    (parseByteDir s ts).erase (parsed Directive.erase) = Verif.parseByteDir (toks ts) := by
  refine Res.erase_bind (erase_parseList erase_parseByteValue ts) fun ⟨vs, ts⟩ => ?_
  cases vs <;> rfl

theorem erase_parseOrgDir (s : Span) (ts : List Token) :
    (parseOrgDir s ts).erase (parsed Directive.erase) = Verif.parseOrgDir (toks ts) :=
  Res.erase_bind (erase_readNumber ts) fun ⟨⟨_, _⟩, ts⟩ => rfl

theorem erase_parseWordDir (s : Span) (ts : List Token) :
    (parseWordDir s ts).erase (parsed Directive.erase) = Verif.parseWordDir (toks ts) := by
  refine Res.erase_bind (erase_parseList erase_parseExpr ts) fun ⟨vs, ts⟩ => ?_
  cases vs <;> rfl

theorem erase_parseSized (s : Span) (ts : List Token) :
    (parseSized s ts).erase (parsed Prod.snd) = Verif.parseSized (toks ts) :=
  Res.erase_bind (erase_readNumber ts) fun ⟨⟨_, _⟩, ts⟩ => Res.erase_bind (erase_readString ts) fun ⟨⟨_, _⟩, ts⟩ => rfl

theorem erase_parseIconInclude (ts : List Token) :
    (parseIconInclude ts).erase (parsed Directive.erase) = Verif.parseIconInclude (toks ts) := by
  refine Res.erase_bind (erase_readString ts) fun ⟨⟨s, path⟩, ts⟩ =>
    Res.erase_bind (erase_parseKeyVals ts) fun ⟨props, ts⟩ =>
      Res.erase_bind (erase_iconSpeed props) fun speed => ?_
  simp [Directive.erase, IncludeType.erase, keyVal_lookup]

theorem erase_parseSpriteInclude (ts : List Token) :
    (parseSpriteInclude ts).erase (parsed Directive.erase) = Verif.parseSpriteInclude (toks ts) :=
  Res.erase_bind (erase_readString ts) fun ⟨⟨s, path⟩, ts⟩ =>
    Res.erase_bind (erase_parseKeyVals ts) fun ⟨props, ts⟩ =>
      Res.erase_bind (erase_spriteTypeOf props) fun t => Res.erase_bind (erase_spriteHeaderOf props) fun h => rfl

theorem erase_parseTypedInclude (s : Span) (ts : List Token) :
    (parseTypedInclude s ts).erase (parsed Directive.erase) = Verif.parseTypedInclude (toks ts) :=
  Res.erase_bind (erase_readIncludeType ts) fun ⟨t, ts⟩ => Res.erase_bind (erase_readString ts) fun ⟨⟨_, _⟩, ts⟩ => rfl

theorem erase_parseIncludeDir (s : Span) (ts : List Token) :
    (parseIncludeDir s ts).erase (parsed Directive.erase) = Verif.parseIncludeDir (toks ts) := by
  cases ts with
  | nil => exact erase_parseTypedInclude s []
  | cons t ts =>
    obtain ⟨k, a, b⟩ := t
    cases k <;> first
      | rfl
      | exact erase_parseTypedInclude s (⟨_, a, b⟩ :: ts)
      | skip
    case name n =>
      simp only [parseIncludeDir, toks, List.map_cons, Verif.parseIncludeDir]
      split
      · exact erase_parseIconInclude ts
      · split
        · exact erase_parseSpriteInclude ts
        · exact erase_parseTypedInclude s (⟨.name n, a, b⟩ :: ts)

theorem erase_parseCnopDir (s : Span) (ts : List Token) :
    (parseCnopDir s ts).erase (parsed Directive.erase) = Verif.parseCnopDir (toks ts) :=
  Res.erase_bind (erase_parseExpr ts) fun ⟨_, ts⟩ => Res.erase_bind (erase_consume _ _ ts) fun ts =>
    Res.erase_bind (erase_parseExpr ts) fun ⟨_, ts⟩ => rfl

theorem erase_directiveParser (n : Text) :
    (directiveParser n = none ∧ Verif.directiveParser n = none) ∨
      ∃ p q, directiveParser n = some p ∧ Verif.directiveParser n = some q ∧
        ∀ s ts, (p s ts).erase (parsed Directive.erase) = q (toks ts) := by
  unfold directiveParser Verif.directiveParser
  split
  · exact .inr ⟨_, _, rfl, rfl, erase_parseByteDir⟩
  split
  · exact .inr ⟨_, _, rfl, rfl, erase_parseOrgDir⟩
  split
  · exact .inr ⟨_, _, rfl, rfl, erase_parseWordDir⟩
  split
  · exact .inr ⟨_, _, rfl, rfl, fun s ts => Res.erase_bind (erase_parseSized s ts) fun ⟨⟨_, _, _⟩, ts⟩ => rfl⟩
  split
  · exact .inr ⟨_, _, rfl, rfl, fun s ts => Res.erase_bind (erase_parseSized s ts) fun ⟨⟨_, _, _⟩, ts⟩ => rfl⟩
  split
  · exact .inr ⟨_, _, rfl, rfl, erase_parseIncludeDir⟩
  split
  · exact .inr ⟨_, _, rfl, rfl, erase_parseCnopDir⟩
  · exact .inl ⟨rfl, rfl⟩

theorem erase_parseDirective (ts : List Token) :
    (parseDirective ts).erase (Option.map (parsed Stmt.erase)) = Verif.parseDirective (toks ts) := by
  cases ts with
  | nil => rfl
  | cons t ts =>
    obtain ⟨k, a, b⟩ := t
    cases k <;> first
      | rfl
      | skip
    case name n =>
      simp only [parseDirective, toks, List.map_cons, Verif.parseDirective]
      rcases erase_directiveParser n with ⟨hl, hr⟩ | ⟨p, q, hl, hr, h⟩
      · rw [hl, hr]; rfl
      · rw [hl, hr]
        exact Res.erase_bind (h _ ts) fun ⟨d, ts⟩ => rfl

/-! ### Statements -/

/-- What parse_gen_instr reads, without spans -/
abbrev genInstr (x : Span × Text × List Arg) : Text × List Verif.Arg := (x.2.1, x.2.2.map Arg.erase)

theorem erase_parseGenInstr (ts : List Token) :
    (parseGenInstr ts).erase (parsed genInstr) = Verif.parseGenInstr (toks ts) :=
  Res.erase_bind (erase_readName ts) fun ⟨⟨_, _⟩, ts⟩ => Res.erase_bind (erase_parseArgs ts) fun ⟨_, _⟩ => rfl

theorem erase_instrOrCall (s : Span) (n : Text) (args : List Arg) :
    (instrOrCall s n args).erase Stmt.erase = Verif.instrOrCall n (args.map Arg.erase) := by
  unfold instrOrCall Verif.instrOrCall
  split
  · exact Res.erase_bind (erase_makeInstr s n args) fun i => rfl
  · rfl

theorem erase_parseInstr (ts : List Token) :
    (parseInstr ts).erase (Option.map (parsed Stmt.erase)) = Verif.parseInstr (toks ts) := by
  cases ts with
  | nil => rfl
  | cons t ts =>
    obtain ⟨k, a, b⟩ := t
    cases k <;> first
      | rfl
      | skip
    case name n =>
      simp only [parseInstr, toks, List.map_cons, Verif.parseInstr]
      split
      · rfl
      · exact Res.erase_bind (erase_parseGenInstr (⟨.name n, a, b⟩ :: ts)) fun ⟨⟨s, n, args⟩, ts⟩ =>
          Res.erase_bind (erase_instrOrCall s n args) fun st => rfl

theorem erase_parseOther (tok : Token) (ts : List Token) :
    (parseOther tok ts).erase (parsed Stmt.erase) = Verif.parseOther tok.tok (toks ts) := by
  obtain ⟨k, a, b⟩ := tok
  cases k <;> first
    | rfl
    | skip
  case name n =>
    simp only [parseOther, Verif.parseOther, atEnd]
    split
    · rfl
    · cases ts with
      | nil => simp only [toks, List.map_nil]; split <;> rfl
      | cons t ts =>
        simp only [toks, List.map_cons]
        split
        · exact Res.erase_bind (erase_parseExpr ts) fun ⟨_, _⟩ => rfl
        split
        · exact Res.erase_bind (erase_parseExpr ts) fun ⟨_, _⟩ => rfl
        split <;> rfl

theorem erase_parseDirOrOther (ts : List Token) :
    (parseDirOrOther ts).erase (parsed Stmt.erase) = Verif.parseDirOrOther (toks ts) := by
  refine Res.erase_bind (erase_parseDirective ts) fun d => ?_
  cases d with
  | some r => rfl
  | none =>
    cases ts with
    | nil => rfl
    | cons t ts => exact erase_parseOther t ts

theorem erase_parseNamed (t : Token) (n : Text) (ht : t.tok = .name n) (ts : List Token)
    (hc : (toks ts).head? ≠ some .colon) :
    (parseNamed t n ts).erase (parsed Stmt.erase) = Verif.parseStatement (toks (t :: ts)) := by
  have hs : Verif.parseStatement (toks (t :: ts)) =
      (if definesNext (toks ts) || isDotted n then Verif.parseDirOrOther (.name n :: toks ts)
        else do
          let r ← Verif.parseInstr (.name n :: toks ts)
          match r with
          | some r => .ok r
          | none => Verif.parseDirOrOther (.name n :: toks ts)) := by
    simp only [toks, List.map_cons, ht]
    cases ts with
    | nil => rfl
    | cons c cs =>
      obtain ⟨k, a, b⟩ := c
      cases k <;> first
        | rfl
        | exact absurd rfl hc
  rw [hs]
  unfold parseNamed
  have e1 := erase_parseDirOrOther (t :: ts)
  have e2 := erase_parseInstr (t :: ts)
  simp only [toks, List.map_cons, ht] at e1 e2
  split
  · exact e1
  · refine Res.erase_bind e2 fun r => ?_
    cases r with
    | some r => rfl
    | none => exact e1

theorem erase_parseStatement (ts : List Token) :
    (parseStatement ts).erase (parsed Stmt.erase) = Verif.parseStatement (toks ts) := by
  cases ts with
  | nil => exact erase_parseDirOrOther []
  | cons t ts =>
    obtain ⟨k, a, b⟩ := t
    cases k <;> first
      | exact erase_parseDirOrOther (⟨_, a, b⟩ :: ts)
      | skip
    case name n =>
      cases ts with
      | nil => exact erase_parseNamed ⟨.name n, a, b⟩ n rfl [] (by simp)
      | cons c cs =>
        simp only [parseStatement]
        by_cases hc : c.tok = .colon
        · rw [if_pos hc]
          simp only [toks, List.map_cons, hc]
          rfl
        · rw [if_neg hc]
          exact erase_parseNamed ⟨.name n, a, b⟩ n rfl (c :: cs) (by simpa using hc)

theorem erase_isLabel (s : Stmt) : s.isLabel = s.erase.isLabel := by cases s <;> rfl

theorem erase_endOfLine (ss : List Stmt) (ts : List Token) :
    (endOfLine ss ts).erase (List.map Stmt.erase) = Verif.endOfLine (ss.map Stmt.erase) (toks ts) := by
  unfold endOfLine Verif.endOfLine
  cases h : atEnd ts with
  | true =>
    have h' : Toks.isEmpty (toks ts) = true := h
    rw [h']; rfl
  | false =>
    have h' : Toks.isEmpty (toks ts) = false := h
    rw [h']
    exact erase_failNext _ h

theorem erase_parseLine (ts : List Token) :
    (parseLine ts).erase (List.map Stmt.erase) = Verif.parseLine (toks ts) := by
  refine Res.erase_ite (c := Toks.isEmpty (toks ts) = true) (fun _ => rfl) fun _ => ?_
  refine Res.erase_bind (erase_parseStatement ts) fun ⟨s, ts⟩ => ?_
  dsimp only [parsed]
  rw [erase_isLabel]
  refine Res.erase_ite (c := (s.erase.isLabel && !Toks.isEmpty (toks ts)) = true) (fun h => ?_) fun _ =>
    erase_endOfLine [s] ts
  refine Res.erase_bind (erase_parseInstr ts) fun r => ?_
  cases r with
  | some r =>
    obtain ⟨i, ts⟩ := r
    exact erase_endOfLine [s, i] ts
  | none => exact erase_failNext _ (by simpa [atEnd] using (Bool.and_eq_true_iff.1 h).2)

theorem erase_parseLines (ls : List (List Token)) :
    (parseLines ls).erase (List.map Stmt.erase) = Verif.parseLines (ls.map toks) := by
  induction ls with
  | nil => rfl
  | cons l ls ih =>
    refine Res.erase_bind (erase_parseLine l) fun ss => Res.erase_bind ih fun rest => ?_
    simp

/-! ### Macro definitions -/

theorem eraseMacros_lookup (m : Macros) (k : Text × Nat) :
    (eraseMacros m).lookup k = (m.lookup k).map MacroDef.erase := lookup_map_snd MacroDef.erase m k

theorem erase_macroLineLabel (ts : List Token) :
    ((macroLineLabel ts).1.map MacroStmt.erase, toks (macroLineLabel ts).2) = Verif.macroLineLabel (toks ts) := by
  cases ts with
  | nil => rfl
  | cons t ts =>
    obtain ⟨k, a, b⟩ := t
    cases ts with
    | nil =>
      cases k <;> first
        | rfl
        | (simp only [macroLineLabel, toks, List.map_cons, List.map_nil, Verif.macroLineLabel]
           split <;> rfl)
    | cons c cs =>
      simp only [macroLineLabel]
      by_cases hc : c.tok = .colon
      · rw [if_pos hc]
        simp only [toks, List.map_cons, hc]
        cases k <;> simp [Verif.macroLineLabel, MacroStmt.erase, hc]
      · rw [if_neg hc]
        obtain ⟨k', a', b'⟩ := c
        cases k <;> first
          | rfl
          | (cases k' <;> first
              | rfl
              | exact absurd rfl hc)

theorem erase_macroLineInstr (ts : List Token) :
    (macroLineInstr ts).erase (parsed (List.map MacroStmt.erase)) = Verif.macroLineInstr (toks ts) := by
  cases ts with
  | nil => rfl
  | cons t ts =>
    obtain ⟨k, a, b⟩ := t
    cases k <;> first
      | rfl
      | skip
    case name n =>
      simp only [macroLineInstr, toks, List.map_cons, Verif.macroLineInstr]
      split
      · rfl
      · exact Res.erase_bind (erase_parseGenInstr (⟨.name n, a, b⟩ :: ts)) fun ⟨⟨s, n, args⟩, ts⟩ => rfl

theorem erase_parseMacroStatement (ts : List Token) :
    (parseMacroStatement ts).erase (List.map MacroStmt.erase) = Verif.parseMacroStatement (toks ts) := by
  unfold parseMacroStatement Verif.parseMacroStatement
  rw [← erase_macroLineLabel]
  obtain ⟨label, ts⟩ := macroLineLabel ts
  refine Res.erase_bind (erase_macroLineInstr ts) fun ⟨instr, ts⟩ => ?_
  dsimp only [parsed]
  cases h : atEnd ts with
  | true =>
    have h' : Toks.isEmpty (toks ts) = true := h
    simp [h']
  | false =>
    have h' : Toks.isEmpty (toks ts) = false := h
    rw [h']
    exact erase_failNext _ h

theorem erase_paramNames (seen : List Text) (args : List Arg) :
    (paramNames seen args).erase (List.map Prod.snd) = Verif.paramNames seen (args.map Arg.erase) := by
  induction args generalizing seen with
  | nil => rfl
  | cons a args ih =>
    cases a <;> first
      | rfl
      | skip
    case macroArg s n =>
      simp only [paramNames, List.map_cons, Arg.erase, Verif.paramNames]
      split
      · rfl
      · exact Res.erase_bind (ih (n :: seen)) fun ns => rfl

/-- A macro header without spans -/
abbrev header (x : Span × Text × List (Span × Text)) : Text × List Text := (x.2.1, x.2.2.map Prod.snd)

theorem erase_parseMacroHeader (macros : Macros) (ts : List Token) :
    (parseMacroHeader macros ts).erase header = Verif.parseMacroHeader (eraseMacros macros) (toks ts) := by
  refine Res.erase_bind (erase_readMacroName ts) fun ⟨⟨_, _⟩, ts⟩ =>
    Res.erase_bind (erase_readName ts) fun ⟨⟨s, name⟩, ts⟩ => ?_
  dsimp only [parsed]
  split
  · rfl
  · refine Res.erase_bind (erase_parseArgs ts) fun ⟨args, ts⟩ => ?_
    dsimp only [parsed]
    rw [eraseMacros_lookup, List.length_map]
    cases macros.lookup (name, args.length) with
    | some d => rfl
    | none =>
      refine Res.erase_bind (erase_paramNames [] args) fun params => ?_
      cases h : atEnd ts with
      | true =>
        have h' : Toks.isEmpty (toks ts) = true := h
        rw [h']; rfl
      | false =>
        have h' : Toks.isEmpty (toks ts) = false := h
        rw [h']
        exact erase_failNext _ h

/-- What parse_macros finds, without spans -/
abbrev passed (x : List (List Token) × Macros) : List Toks × Verif.Macros := (x.1.map toks, eraseMacros x.2)

theorem erase_macroPass (macros : Macros) (current : Option MacroDef) (ls : List (List Token)) :
    (macroPass macros current ls).erase passed =
      Verif.macroPass (eraseMacros macros) (current.map MacroDef.erase) (ls.map toks) := by
  induction ls generalizing macros current with
  | nil =>
    cases current with
    | none => rfl
    | some d => simp [macroPass, Verif.macroPass, eraseMacros, MacroDef.erase]
  | cons l ls ih =>
    cases current with
    | none =>
      simp only [macroPass, List.map_cons, Verif.macroPass, Option.map]
      split
      · exact Res.erase_bind (erase_parseMacroHeader macros l) fun ⟨s, n, ps⟩ => ih macros (some ⟨s, n, ps, []⟩)
      · exact Res.erase_bind (ih macros none) fun ⟨rest, ms⟩ => rfl
    | some d =>
      simp only [macroPass, List.map_cons, Verif.macroPass, Option.map]
      split
      · rw [← List.map_drop]
        cases h : atEnd (l.drop 1) with
        | true =>
          have h' : Toks.isEmpty ((l.drop 1).map Token.tok) = true := h
          rw [h']
          have := ih (((d.name, d.args.length), d) :: macros) none
          simpa [eraseMacros, MacroDef.erase] using this
        | false =>
          have h' : Toks.isEmpty ((l.drop 1).map Token.tok) = false := h
          rw [h']
          exact erase_failNext _ h
      · refine Res.erase_bind (erase_parseMacroStatement l) fun ss => ?_
        rw [ih macros]
        simp [MacroDef.erase]

/-- Forgetting the spans of a parsed program gives the program of the plain model. -/
theorem erase_parse (tokens : List Token) : (parse tokens).erase Program.erase = Verif.parse tokens :=
  Res.erase_bind (erase_macroPass [] none (lines tokens)) fun ⟨ls, ms⟩ =>
    Res.erase_bind (erase_parseLines ls) fun ss => rfl

end Verif.Located
