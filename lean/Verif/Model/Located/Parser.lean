import Verif.Model.Located.Instr
/-
The parser (src/parser.rs) with spans.  A `TokenStream` (758–915) is the list of the tokens from its position on.
-/
namespace Verif.Located

/-! ### Token streams -/

/-- TokenStream::is_empty, src/parser.rs 783–785 -/
def atEnd (ts : List Token) : Bool := Toks.isEmpty (ts.map Token.tok)

/-- An error at the current token: `TokenStream::next()?` or `current()?` before the error, src/parser.rs 865–876 -/
def failNext {α : Type} (e : Err) : List Token → Res α
  | [] => .lift (.err .unexpectedEof)
  | t :: _ => .fail e t.span

/-- TokenStream::consume, src/parser.rs 878–881, with assert, 904–914 -/
def consume (k : Tok) (what : Text) : List Token → Res (List Token)
  | [] => .lift (.err .unexpectedEof)
  | t :: ts => if t.tok = k then .ok ts else .fail (.expectedTokenNotFound what) t.span

/-- TokenStream::read_name, src/parser.rs 833–843 -/
def readName : List Token → Res ((Span × Text) × List Token)
  | [] => .lift (.err .unexpectedEof)
  | t :: ts =>
    match t.tok with
    | .name n => .ok ((t.span, n), ts)
    | _ => .fail (.expectedTokenNotFound "Name".toList) t.span

/-- TokenStream::read_macro_name, src/parser.rs 845–858 -/
def readMacroName : List Token → Res ((Span × Text) × List Token)
  | [] => .lift (.err .unexpectedEof)
  | t :: ts =>
    match t.tok with
    | .macroIdent n => .ok ((t.span, n), ts)
    | _ => .fail (.expectedTokenNotFound "Macro Ident".toList) t.span

/-- TokenStream::read_number, src/parser.rs 821–831 -/
def readNumber : List Token → Res ((Span × Int) × List Token)
  | [] => .lift (.err .unexpectedEof)
  | t :: ts =>
    match t.tok with
    | .number v _ => .ok ((t.span, v), ts)
    | _ => .fail (.expectedTokenNotFound "Number".toList) t.span

/-- TokenStream::read_string, src/parser.rs 809–819 -/
def readString : List Token → Res ((Span × Text) × List Token)
  | [] => .lift (.err .unexpectedEof)
  | t :: ts =>
    match t.tok with
    | .string s => .ok ((t.span, s), ts)
    | _ => .fail (.expectedTokenNotFound "String".toList) t.span

/-- TokenStream::read_include_type, src/parser.rs 787–807; its span is not used. -/
def readIncludeType : List Token → Res (IncludeType × List Token)
  | [] => .lift (.err .unexpectedEof)
  | t :: ts =>
    if t.tok = .name "asm".toList then .ok (.asm, ts)
    else if t.tok = .name "bytes".toList then .ok (.bytes, ts)
    else if t.tok = .name "cpp".toList then .ok (.cHeader, ts)
    else .fail (.expectedTokenNotFound "Include Type".toList) t.span

/-! ### Expressions -/

/-- BinaryOperatorParselet::parse, src/parser.rs 1364–1408: the span joins those of the operands. -/
def binaryExpr (t : Tok) (l r : Expr) : Option Expr :=
  match t with
  | .plus => some (.plus (.from l.span r.span) l r)
  | .times => some (.times (.from l.span r.span) l r)
  | .minus => some (.minus (.from l.span r.span) l r)
  | .divide => some (.divide (.from l.span r.span) l r)
  | .caret => some (.bxor (.from l.span r.span) l r)
  | .ampersand => some (.band (.from l.span r.span) l r)
  | .pipe => some (.bor (.from l.span r.span) l r)
  | _ => none

/-- The prefix operators, src/parser.rs 117–130, 1319–1328: the span is that of the operator. -/
def prefixExpr (t : Token) : Option (Expr → Expr) :=
  match t.tok with
  | .minus => some (.uminus t.span)
  | .upperByte => some (.upperByte t.span)
  | .lowerByte => some (.lowerByte t.span)
  | _ => none

/-- Name, MacroLabel, MacroArg and Number parselets, src/parser.rs 1228–1303 -/
def atomExpr (t : Token) : Option Expr :=
  match t.tok with
  | .name n => some (.name t.span n)
  | .macroLabel n => some (.macroLabel t.span n)
  | .macroIdent n => some (.macroArg t.span n)
  | .number v radix => some (.number t.span v radix)
  | _ => none

mutual
/-- ExprParser::parse, src/parser.rs 1138–1152 -/
def parseExprPrec : Nat → Nat → List Token → Res (Expr × List Token)
  | 0, _, _ => .loop
  | _ + 1, _, [] => .lift (.err .unexpectedEof)
  | fuel + 1, prec, tok :: ts => do
    let (left, ts) ← parsePrefix fuel tok ts
    parseInfix fuel prec left ts

/-- The prefix parselets, src/parser.rs 1201–1334.  A token that starts no expression is an error at its start
(1121–1127, 1141–1143). -/
def parsePrefix : Nat → Token → List Token → Res (Expr × List Token)
  | 0, _, _ => .loop
  | fuel + 1, tok, ts =>
    match atomExpr tok with
    | some e => .ok (e, ts)
    | none =>
      match prefixExpr tok with
      | some f => do
        let (e, ts) ← parseExprPrec fuel prefixPrec ts
        .ok (f e, ts)
      | none =>
        if tok.tok = .leftParen then do
          let (e, ts) ← parseExprPrec fuel 0 ts
          let ts ← consume .rightParen rightParenName ts
          .ok (e, ts)
        else .err ⟨.invalidExpression, .location tok.start⟩

/-- The loop of ExprParser::parse, src/parser.rs 1145–1150 -/
def parseInfix : Nat → Nat → Expr → List Token → Res (Expr × List Token)
  | 0, _, _, _ => .loop
  | _ + 1, _, left, [] => .ok (left, [])
  | fuel + 1, prec, left, tok :: ts =>
    if prec < infixPrec tok.tok then do
      let (right, ts) ← parseExprPrec fuel (infixPrec tok.tok) ts
      match binaryExpr tok.tok left right with
      | some e => parseInfix fuel prec e ts
      | none => .fail (.expectedTokenNotFound "Binary Operator".toList) tok.span
    else .ok (left, tok :: ts)
end

/-- parse_expr, src/parser.rs 732–734 -/
def parseExpr (ts : List Token) : Res (Expr × List Token) := parseExprPrec (2 * ts.length + 2) 0 ts

/-! ### Lists and arguments -/

/-- The loop of parse_list, src/parser.rs 535–539 -/
def parseListLoop {α : Type} (item : List Token → Res (α × List Token)) : Nat → List Token → Res (List α × List Token)
  | 0, _ => .loop
  | fuel + 1, ts =>
    if atEnd ts then .ok ([], ts)
    else do
      let ts ← consume .comma commaName ts
      let (v, ts) ← item ts
      let (vs, ts) ← parseListLoop item fuel ts
      .ok (v :: vs, ts)

/-- parse_list, src/parser.rs 525–542 -/
def parseList {α : Type} (item : List Token → Res (α × List Token)) (ts : List Token) : Res (List α × List Token) :=
  if atEnd ts then .ok ([], ts)
  else do
    let (v, ts) ← item ts
    let (vs, ts) ← parseListLoop item (ts.length + 1) ts
    .ok (v :: vs, ts)

/-- The argument an expression is, src/parser.rs 724–728 -/
def argOf : Expr → Arg
  | .macroArg s n => .macroArg s n
  | e => .ex e

/-- The last case of parse_arg, src/parser.rs 724–728 -/
def parseExprArg (ts : List Token) : Res (Arg × List Token) := do
  let (e, ts) ← parseExpr ts
  .ok (argOf e, ts)

/-- parse_arg, src/parser.rs 717–730, with parse_i8, 736–739, and parse_im, 741–756 -/
def parseArg : List Token → Res (Arg × List Token)
  | [] => .lift (.err .unexpectedEof)
  | t :: ts =>
    match imOf t.tok with
    | some r => .ok (.im t.span r, ts)
    | none =>
      if t.tok = .hash then do
        let (e, ts) ← parseExpr ts
        .ok (.imm e, ts)
      else parseExprArg (t :: ts)

/-- parse_args, src/parser.rs 481–483 -/
def parseArgs (ts : List Token) : Res (List Arg × List Token) := parseList parseArg ts

/-- The last case of parse_byte_value, src/parser.rs 549 -/
def parseExprByte (ts : List Token) : Res (ByteValue × List Token) := do
  let (e, ts) ← parseExpr ts
  .ok (.expr e, ts)

/-- parse_byte_value, src/parser.rs 544–551 -/
def parseByteValue : List Token → Res (ByteValue × List Token)
  | [] => parseExprByte []
  | t :: ts =>
    match t.tok with
    | .string s => .ok (.str t.span (utf8 s), ts)
    | _ => parseExprByte (t :: ts)

/-- parse_keyval_pair, src/parser.rs 493–511, after the key -/
def parseVal (n : Text) : List Token → Res ((Text × ByteValue) × List Token)
  | [] => .lift (.err .unexpectedEof)
  | t :: ts =>
    if t.tok = .equals then do
      let (v, ts) ← parseByteValue ts
      .ok ((n, v), ts)
    else .fail (.expectedTokenNotFound "=".toList) t.span

/-- parse_keyval_pair, src/parser.rs 493–511; the span of the key is not used. -/
def parseKeyVal (ts : List Token) : Res ((Text × ByteValue) × List Token) := do
  let ((_, n), ts) ← readName ts
  parseVal n ts

/-- parse_keyval_pairs, src/parser.rs 513–523 -/
def parseKeyVals (ts : List Token) : Res (List (Text × ByteValue) × List Token) := do
  let (pairs, ts) ← parseList parseKeyVal ts
  .ok (pairs.reverse, ts)

/-! ### Directives -/

/-- The property `speed` of an icon, src/parser.rs 615–623 -/
def iconSpeed (props : List (Text × ByteValue)) : Res (Option Expr) :=
  match props.lookup "speed".toList with
  | some (.expr e) => .ok (some e)
  | some (.str s _) => .err ⟨.invalidExpression, .location s.start⟩
  | none => .ok none

/-- The property `type` of a sprite, src/parser.rs 635–656 -/
def spriteTypeOf (props : List (Text × ByteValue)) : Res SpriteType :=
  match props.lookup "type".toList with
  | some (.str sp s) =>
    if s = utf8 "simple".toList then .ok .simple
    else if s = utf8 "masked".toList then .ok .masked
    else .fail (.invalidSpriteType (stringText s)) sp
  | some (.expr e) => .fail (.invalidSpriteType e.erase.print) e.span
  | none => .ok .simple

/-- The property `header` of a sprite, src/parser.rs 657–678 -/
def spriteHeaderOf (props : List (Text × ByteValue)) : Res Bool :=
  match props.lookup "header".toList with
  | some (.str sp s) =>
    if s = utf8 "yes".toList then .ok true
    else if s = utf8 "no".toList then .ok false
    else .fail (.invalidSpriteHeader (stringText s)) sp
  | some (.expr e) => .fail (.invalidSpriteHeader e.erase.print) e.span
  | none => .ok true

/-- `Span::from(first, &items.last().unwrap().span())`, e.g. src/parser.rs 476–477, for the spans of the items; without
items it is `first`. -/
def spanTo (first : Span) (items : List Span) : Span :=
  match items.getLast? with
  | some last => .from first last
  | none => first

/-- `.byte`, src/parser.rs 560–568; `ident` is the span of the directive's name. -/
def parseByteDir (ident : Span) (ts : List Token) : Res (Directive × List Token) := do
  let (vs, ts) ← parseList parseByteValue ts
  if vs.isEmpty then .fail .missingBytes ident else .ok (.byte (spanTo ident (vs.map ByteValue.span)) vs, ts)

/-- `.org`, src/parser.rs 569–576 -/
def parseOrgDir (ident : Span) (ts : List Token) : Res (Directive × List Token) := do
  let ((s, v), ts) ← readNumber ts
  .ok (.org (.from ident s) (toUsize v), ts)

/-- `.word`, src/parser.rs 577–585 -/
def parseWordDir (ident : Span) (ts : List Token) : Res (Directive × List Token) := do
  let (es, ts) ← parseList parseExpr ts
  if es.isEmpty then .fail .missingWords ident else .ok (.word (spanTo ident (es.map Expr.span)) es, ts)

/-- The operands of `.text` and `.string`, src/parser.rs 586–605, with the span of the statement -/
def parseSized (ident : Span) (ts : List Token) : Res ((Span × Nat × List UInt8) × List Token) := do
  let ((_, v), ts) ← readNumber ts
  let ((sp, s), ts) ← readString ts
  .ok ((.from ident sp, toUsize v, utf8 s), ts)

/-- `.include icon`, src/parser.rs 617–635, after the word `icon`: the span is that of the path. -/
def parseIconInclude (ts : List Token) : Res (Directive × List Token) := do
  let ((sp, path), ts) ← readString ts
  let (props, ts) ← parseKeyVals ts
  let speed ← iconSpeed props
  .ok (.incl sp (.icon speed (props.lookup "eyecatch".toList)) path, ts)

/-- `.include sprite`, src/parser.rs 636–690, after the word `sprite`: the span is that of the path. -/
def parseSpriteInclude (ts : List Token) : Res (Directive × List Token) := do
  let ((sp, path), ts) ← readString ts
  let (props, ts) ← parseKeyVals ts
  let typ ← spriteTypeOf props
  let header ← spriteHeaderOf props
  .ok (.incl sp (.sprite typ header) path, ts)

/-- `.include` with an include type, src/parser.rs 691–700 -/
def parseTypedInclude (ident : Span) (ts : List Token) : Res (Directive × List Token) := do
  let (t, ts) ← readIncludeType ts
  let ((sp, path), ts) ← readString ts
  .ok (.incl (.from ident sp) t path, ts)

/-- `.include`, src/parser.rs 606–702 -/
def parseIncludeDir (ident : Span) : List Token → Res (Directive × List Token)
  | [] => parseTypedInclude ident []
  | t :: ts =>
    match t.tok with
    | .string s => .ok (.incl (.from ident t.span) .asm s, ts)
    | .name n =>
      if n = "icon".toList then parseIconInclude ts
      else if n = "sprite".toList then parseSpriteInclude ts
      else parseTypedInclude ident (t :: ts)
    | _ => parseTypedInclude ident (t :: ts)

/-- `.cnop`, src/parser.rs 703–711 -/
def parseCnopDir (ident : Span) (ts : List Token) : Res (Directive × List Token) := do
  let (first, ts) ← parseExpr ts
  let ts ← consume .comma commaName ts
  let (second, ts) ← parseExpr ts
  .ok (.cnop (.from ident second.span) first second, ts)

/-- The directive with this name, src/parser.rs 553–715: how its operands are parsed -/
def directiveParser (n : Text) : Option (Span → List Token → Res (Directive × List Token)) :=
  if n = ".byte".toList then some parseByteDir
  else if n = ".org".toList then some parseOrgDir
  else if n = ".word".toList then some parseWordDir
  else if n = ".text".toList then some fun ident ts => do
    let ((sp, size, s), ts) ← parseSized ident ts
    .ok (.text sp size s, ts)
  else if n = ".string".toList then some fun ident ts => do
    let ((sp, size, s), ts) ← parseSized ident ts
    .ok (.string sp size s, ts)
  else if n = ".include".toList then some parseIncludeDir
  else if n = ".cnop".toList then some parseCnopDir
  else none

/-- parse_directive, src/parser.rs 553–715 -/
def parseDirective : List Token → Res (Option (Stmt × List Token))
  | [] => .ok none
  | t :: ts =>
    match t.tok with
    | .name n =>
      match directiveParser n with
      | some p => do
        let (d, ts) ← p t.span ts
        .ok (some (.dir d, ts))
      | none => .ok none
    | _ => .ok none

/-! ### Statements -/

/-- parse_gen_instr, src/parser.rs 467–479 -/
def parseGenInstr (ts : List Token) : Res ((Span × Text × List Arg) × List Token) := do
  let ((s, name), ts) ← readName ts
  let (args, ts) ← parseArgs ts
  .ok ((spanTo s (args.map Arg.span), name, args), ts)

/-- The statement made of a name and its arguments, src/parser.rs 451–461 -/
def instrOrCall (s : Span) (name : Text) (args : List Arg) : Res Stmt :=
  if instrExists name then do
    let i ← makeInstr s name args
    .ok (.instr s i)
  else .ok (.macroCall s name args)

/-- parse_instr, src/parser.rs 448–465 -/
def parseInstr : List Token → Res (Option (Stmt × List Token))
  | [] => .ok none
  | t :: ts =>
    match t.tok with
    | .name n =>
      if !instrExists n && isDotted n then .ok none
      else do
        let ((s, name, args), ts) ← parseGenInstr (t :: ts)
        let st ← instrOrCall s name args
        .ok (some (st, ts))
    | _ => .ok none

/-- The end of parse_statement, src/parser.rs 407–445, after its first token -/
def parseOther (tok : Token) (ts : List Token) : Res (Stmt × List Token) :=
  match tok.tok with
  | .name n =>
    if atEnd ts && isDotted n then .ok (.label tok.span n, ts)
    else
      match ts with
      | t :: ts' =>
        if t.tok = .name "equ".toList then do
          let (e, ts) ← parseExpr ts'
          .ok (.alias (.from tok.span e.span) n e, ts)
        else if t.tok = .equals then do
          let (e, ts) ← parseExpr ts'
          .ok (.variable (.from tok.span e.span) n e, ts)
        else if isDotted n then .fail (.unknownDirective n) tok.span
        else .fail (.unknownInstruction n) tok.span
      | [] => if isDotted n then .fail (.unknownDirective n) tok.span else .fail (.unknownInstruction n) tok.span
  | _ => .fail .unexpectedToken tok.span

/-- parse_statement from the directives on, src/parser.rs 402–445 -/
def parseDirOrOther (ts : List Token) : Res (Stmt × List Token) := do
  let d ← parseDirective ts
  match d with
  | some r => .ok r
  | none =>
    match ts with
    | [] => .lift (.err .unexpectedEof)
    | tok :: ts => parseOther tok ts

/-- parse_statement, src/parser.rs 393–401, for a line that starts with the name token `t` (with the name `n`) and no
label -/
def parseNamed (t : Token) (n : Text) (ts : List Token) : Res (Stmt × List Token) :=
  if definesNext (ts.map Token.tok) || isDotted n then parseDirOrOther (t :: ts)
  else do
    let r ← parseInstr (t :: ts)
    match r with
    | some r => .ok r
    | none => parseDirOrOther (t :: ts)

/-- parse_statement, src/parser.rs 382–445 -/
def parseStatement : List Token → Res (Stmt × List Token)
  | [] => parseDirOrOther []
  | t :: ts =>
    match t.tok, ts with
    | .name n, [] => parseNamed t n []
    | .name n, c :: cs => if c.tok = .colon then .ok (.label (.from t.span c.span) n, cs) else parseNamed t n (c :: cs)
    | _, _ => parseDirOrOther (t :: ts)

/-- Statement::is_label, src/ast.rs 446–451 -/
def Stmt.isLabel : Stmt → Bool
  | .label _ _ => true
  | _ => false

/-- The end of a line, src/parser.rs 374–376 -/
def endOfLine (stmts : List Stmt) (ts : List Token) : Res (List Stmt) :=
  if atEnd ts then .ok stmts else failNext .unexpectedToken ts

/-- parse_line, src/parser.rs 356–380: the statements it appends -/
def parseLine (ts : List Token) : Res (List Stmt) :=
  if atEnd ts then .ok []
  else do
    let (s, ts) ← parseStatement ts
    if s.isLabel && !atEnd ts then do
      let r ← parseInstr ts
      match r with
      | some (i, ts) => endOfLine [s, i] ts
      | none => failNext .invalidInstruction ts
    else endOfLine [s] ts

/-- The lines of parse, src/parser.rs 346–354 -/
def parseLines : List (List Token) → Res (List Stmt)
  | [] => .ok []
  | l :: ls => do
    let ss ← parseLine l
    let rest ← parseLines ls
    .ok (ss ++ rest)

/-! ### Macro definitions -/

/-- src/ast.rs 22–27 -/
inductive MacroStmt where
  | instr (s : Span) (name : Text) (args : List Arg)
  | label (s : Span) (name : Text)
  | macroLabel (s : Span) (name : Text)
  deriving DecidableEq, Repr

/-- MacroDefinition, src/ast.rs 29–66 -/
structure MacroDef where
  span : Span
  name : Text
  args : List (Span × Text)
  body : List MacroStmt
  deriving DecidableEq, Repr

/-- `HashMap<MacroIdentifier, MacroDefinition>`, src/ast.rs 9–20 -/
abbrev Macros := List ((Text × Nat) × MacroDef)

/-- Statements, src/ast.rs 530–534 -/
structure Program where
  macros : Macros
  stmts : List Stmt
  deriving DecidableEq, Repr

/-- The label at the start of a macro line, src/parser.rs 185–213 -/
def macroLineLabel : List Token → List MacroStmt × List Token
  | [] => ([], [])
  | [t] =>
    match t.tok with
    | .name n => if isDotted n then ([.label t.span n], []) else ([], [t])
    | .macroLabel n => if isDotted n then ([.macroLabel t.span n], []) else ([], [t])
    | _ => ([], [t])
  | t :: c :: ts =>
    if c.tok = .colon then
      match t.tok with
      | .name n => ([.label (.from t.span c.span) n], ts)
      | .macroLabel n => ([.macroLabel (.from t.span c.span) n], ts)
      | _ => ([], t :: c :: ts)
    else ([], t :: c :: ts)

/-- The instruction of a macro line, src/parser.rs 215–226 -/
def macroLineInstr : List Token → Res (List MacroStmt × List Token)
  | [] => .ok ([], [])
  | t :: ts =>
    match t.tok with
    | .name n =>
      if isDotted n then .fail (.unknownInstruction n) t.span
      else do
        let ((s, name, args), ts) ← parseGenInstr (t :: ts)
        .ok ([.instr s name args], ts)
    | _ => .ok ([], t :: ts)

/-- parse_macro_statement, src/parser.rs 180–233 -/
def parseMacroStatement (ts : List Token) : Res (List MacroStmt) := do
  let (label, ts) := macroLineLabel ts
  let (instr, ts) ← macroLineInstr ts
  if atEnd ts then .ok (label ++ instr) else failNext .unexpectedToken ts

/-- The loop of parse_macro_header, src/parser.rs 258–274 -/
def paramNames (seen : List Text) : List Arg → Res (List (Span × Text))
  | [] => .ok []
  | .macroArg s n :: rest =>
    if n ∈ seen then .fail (.duplicateMacroArg n) s
    else do
      let ns ← paramNames (n :: seen) rest
      .ok ((s, n) :: ns)
  | a :: _ => .fail .invalidMacroParam a.span

/-- parse_macro_header, src/parser.rs 235–281 -/
def parseMacroHeader (macros : Macros) (ts : List Token) : Res (Span × Text × List (Span × Text)) := do
  let (_, ts) ← readMacroName ts
  let ((s, name), ts) ← readName ts
  if instrExists name then .fail (.macroNameConflict name) s
  else do
    let (args, ts) ← parseArgs ts
    match macros.lookup (name, args.length) with
    | some d => .err ⟨.macroAlreadyExists name args.length, .spans s d.span⟩
    | none => do
      let params ← paramNames [] args
      if atEnd ts then .ok (s, name, params) else failNext .unexpectedToken ts

/-- parse_macros, src/parser.rs 283–344 -/
def macroPass (macros : Macros) (current : Option MacroDef) : List (List Token) → Res (List (List Token) × Macros)
  | [] =>
    match current with
    | none => .ok ([], macros)
    | some d => .ok ([], ((d.name, d.args.length), d) :: macros)
  | l :: ls =>
    match current with
    | none =>
      if startsMacro (l.map Token.tok) then do
        let (s, name, params) ← parseMacroHeader macros l
        macroPass macros (some ⟨s, name, params, []⟩) ls
      else do
        let (rest, macros) ← macroPass macros none ls
        .ok (l :: rest, macros)
    | some d =>
      if endsMacro (l.map Token.tok) then
        if atEnd (l.drop 1) then macroPass (((d.name, d.args.length), d) :: macros) none ls
        else failNext .unexpectedToken (l.drop 1)
      else do
        let ss ← parseMacroStatement l
        macroPass macros (some { d with body := d.body ++ ss }) ls

/-- Parser::parse, src/parser.rs 346–354 -/
def parse (tokens : List Token) : Res Program := do
  let (ls, macros) ← macroPass [] none (lines tokens)
  let stmts ← parseLines ls
  .ok ⟨macros, stmts⟩

end Verif.Located
