import Verif.Model.Lexer
import Verif.Model.Macro
import Verif.Model.Asm
import Verif.Model.PrintExpr
/-
The parser (src/parser.rs).  A `TokenStream` (758–915) is the list of the tokens from its position on;
a parsing function returns its result and the tokens left.  Spans are dropped.
-/
namespace Verif

/-! ### Lines -/

/-- Whether `next` is on the line of `first`: the condition of the loop of LineIterator::next,
src/parser.rs 57–59 -/
def sameLine (first next : Token) : Bool :=
  first.stop.line == next.start.line && first.stop.file == next.start.file

/-- The lines of LineIterator::next, src/parser.rs 48–69.  Every line has a token, so the number of
tokens is enough fuel. -/
def linesLoop : Nat → List Token → List (List Token)
  | 0, _ => []
  | _ + 1, [] => []
  | fuel + 1, t :: ts => (t :: ts.takeWhile (sameLine t)) :: linesLoop fuel (ts.dropWhile (sameLine t))

/-- lines, src/parser.rs 73–78 -/
def lines (tokens : List Token) : List (List Token) := linesLoop tokens.length tokens

/-! ### Token streams -/

/-- What is left of a token stream -/
abbrev Toks := List Tok

/-- TokenStream::is_empty, src/parser.rs 783–785 -/
def Toks.isEmpty : Toks → Bool
  | [] => true
  | .eof :: _ => true
  | _ => false

/-- TokenStream::current, src/parser.rs 865–870 -/
def Toks.current : Toks → Res Tok
  | [] => .err .unexpectedEof
  | t :: _ => .ok t

/-- TokenStream::next, src/parser.rs 872–876 -/
def Toks.next : Toks → Res (Tok × Toks)
  | [] => .err .unexpectedEof
  | t :: ts => .ok (t, ts)

/-- TokenType::name, src/lexer.rs 45–75, for the tokens that are consumed -/
def commaName : Text := "','".toList
def rightParenName : Text := "')'".toList

/-- TokenStream::consume, src/parser.rs 878–881, with assert, 904–914 -/
def Toks.consume (k : Tok) (what : Text) : Toks → Res Toks
  | [] => .err .unexpectedEof
  | t :: ts => if t = k then .ok ts else .err (.expectedTokenNotFound what)

/-- TokenStream::read_name, src/parser.rs 833–843 -/
def Toks.readName : Toks → Res (Text × Toks)
  | [] => .err .unexpectedEof
  | .name n :: ts => .ok (n, ts)
  | _ => .err (.expectedTokenNotFound "Name".toList)

/-- TokenStream::read_macro_name, src/parser.rs 845–858 -/
def Toks.readMacroName : Toks → Res (Text × Toks)
  | [] => .err .unexpectedEof
  | .macroIdent n :: ts => .ok (n, ts)
  | _ => .err (.expectedTokenNotFound "Macro Ident".toList)

/-- TokenStream::read_number, src/parser.rs 821–831 -/
def Toks.readNumber : Toks → Res (Int × Toks)
  | [] => .err .unexpectedEof
  | .number v _ :: ts => .ok (v, ts)
  | _ => .err (.expectedTokenNotFound "Number".toList)

/-- TokenStream::read_string, src/parser.rs 809–819 -/
def Toks.readString : Toks → Res (Text × Toks)
  | [] => .err .unexpectedEof
  | .string s :: ts => .ok (s, ts)
  | _ => .err (.expectedTokenNotFound "String".toList)

/-- TokenStream::read_include_type, src/parser.rs 787–807 -/
def Toks.readIncludeType : Toks → Res (IncludeType × Toks)
  | [] => .err .unexpectedEof
  | t :: ts =>
    if t = .name "asm".toList then .ok (.asm, ts)
    else if t = .name "bytes".toList then .ok (.bytes, ts)
    else if t = .name "cpp".toList then .ok (.cHeader, ts)
    else .err (.expectedTokenNotFound "Include Type".toList)

/-- Rust `n as usize` for an `i32`, on a 64-bit machine -/
def toUsize (v : Int) : Nat := (v % 18446744073709551616).toNat

/-- The bytes of a string: `str::bytes` -/
def utf8 (t : Text) : List UInt8 := t.flatMap String.utf8EncodeChar

/-- `String::from_utf8` -/
def decodeUtf8 (bs : List UInt8) : Option Text := (String.fromUTF8? ⟨bs.toArray⟩).map String.toList

/-! ### Expressions -/

/-- The precedence of an infix operator, src/parser.rs 136–166, 1112–1118; tokens that are none have
precedence 0 (ExprParser::precedence, 1154–1168). -/
def infixPrec : Tok → Nat
  | .plus => 3
  | .minus => 3
  | .times => 4
  | .divide => 4
  | .caret => 1
  | .ampersand => 1
  | .pipe => 1
  | _ => 0

/-- BinaryOperatorParselet::parse, src/parser.rs 1364–1408: the tree made for an operator token -/
def binaryExpr : Tok → Expr → Expr → Option Expr
  | .plus, l, r => some (.plus l r)
  | .times, l, r => some (.times l r)
  | .minus, l, r => some (.minus l r)
  | .divide, l, r => some (.divide l r)
  | .caret, l, r => some (.bxor l r)
  | .ampersand, l, r => some (.band l r)
  | .pipe, l, r => some (.bor l r)
  | _, _, _ => none

/-- The prefix operators, src/parser.rs 117–130, 1319–1328: the tree made for an operator token -/
def prefixExpr : Tok → Option (Expr → Expr)
  | .minus => some .uminus
  | .upperByte => some .upperByte
  | .lowerByte => some .lowerByte
  | _ => none

/-- Name, MacroLabel, MacroArg and Number parselets, src/parser.rs 1228–1303 -/
def atomExpr : Tok → Option Expr
  | .name n => some (.name n)
  | .macroLabel n => some (.macroLabel n)
  | .macroIdent n => some (.macroArg n)
  | .number v radix => some (.number v radix)
  | _ => none

/-- Precedence::Prefix, src/parser.rs 1117 -/
def prefixPrec : Nat := 6

mutual
/-- ExprParser::parse, src/parser.rs 1138–1152.  Every recursive call consumes a token, see
`C14_total` for the fuel. -/
def parseExprPrec : Nat → Nat → Toks → Res (Expr × Toks)
  | 0, _, _ => .loop
  | _ + 1, _, [] => .err .unexpectedEof
  | fuel + 1, prec, tok :: ts => do
    let (left, ts) ← parsePrefix fuel tok ts
    parseInfix fuel prec left ts

/-- The prefix parselets, src/parser.rs 1201–1334 -/
def parsePrefix : Nat → Tok → Toks → Res (Expr × Toks)
  | 0, _, _ => .loop
  | fuel + 1, tok, ts =>
    match atomExpr tok with
    | some e => .ok (e, ts)
    | none =>
      match prefixExpr tok with
      | some f => do
        let (e, ts) ← parseExprPrec fuel prefixPrec ts
        .ok (f e, ts)
      | none =>
        if tok = .leftParen then do
          let (e, ts) ← parseExprPrec fuel 0 ts
          let ts ← Toks.consume .rightParen rightParenName ts
          .ok (e, ts)
        else .err .invalidExpression

/-- The loop of ExprParser::parse, src/parser.rs 1145–1150 -/
def parseInfix : Nat → Nat → Expr → Toks → Res (Expr × Toks)
  | 0, _, _, _ => .loop
  | _ + 1, _, left, [] => .ok (left, [])
  | fuel + 1, prec, left, tok :: ts =>
    if prec < infixPrec tok then do
      let (right, ts) ← parseExprPrec fuel (infixPrec tok) ts
      match binaryExpr tok left right with
      | some e => parseInfix fuel prec e ts
      | none => .err (.expectedTokenNotFound "Binary Operator".toList)
    else .ok (left, tok :: ts)
end

/-- parse_expr, src/parser.rs 732–734 -/
def parseExpr (ts : Toks) : Res (Expr × Toks) := parseExprPrec (2 * ts.length + 2) 0 ts

/-! ### Lists and arguments -/

/-- The loop of parse_list, src/parser.rs 535–539; every round consumes a comma. -/
def parseListLoop {α : Type} (item : Toks → Res (α × Toks)) : Nat → Toks → Res (List α × Toks)
  | 0, _ => .loop
  | fuel + 1, ts =>
    if ts.isEmpty then .ok ([], ts)
    else do
      let ts ← Toks.consume .comma commaName ts
      let (v, ts) ← item ts
      let (vs, ts) ← parseListLoop item fuel ts
      .ok (v :: vs, ts)

/-- parse_list, src/parser.rs 525–542 -/
def parseList {α : Type} (item : Toks → Res (α × Toks)) (ts : Toks) : Res (List α × Toks) :=
  if ts.isEmpty then .ok ([], ts)
  else do
    let (v, ts) ← item ts
    let (vs, ts) ← parseListLoop item (ts.length + 1) ts
    .ok (v :: vs, ts)

/-- parse_im, src/parser.rs 741–756, for the tokens that is_indirection_mode accepts -/
def imOf : Tok → Option IM
  | .r0 => some .R0
  | .r1 => some .R1
  | .r2 => some .R2
  | .r3 => some .R3
  | _ => none

/-- The argument an expression is, src/parser.rs 724–728 -/
def argOf : Expr → Arg
  | .macroArg n => .macroArg n
  | e => .ex e

/-- The last case of parse_arg, src/parser.rs 724–728 -/
def parseExprArg (ts : Toks) : Res (Arg × Toks) := do
  let (e, ts) ← parseExpr ts
  .ok (argOf e, ts)

/-- parse_arg, src/parser.rs 717–730, with parse_i8, 736–739 -/
def parseArg : Toks → Res (Arg × Toks)
  | [] => .err .unexpectedEof
  | t :: ts =>
    match imOf t with
    | some r => .ok (.im r, ts)
    | none =>
      if t = .hash then do
        let (e, ts) ← parseExpr ts
        .ok (.imm e, ts)
      else parseExprArg (t :: ts)

/-- parse_args, src/parser.rs 481–483 -/
def parseArgs (ts : Toks) : Res (List Arg × Toks) := parseList parseArg ts

/-- parse_byte_value, src/parser.rs 544–551 -/
def parseByteValue : Toks → Res (ByteValue × Toks)
  | .string s :: ts => .ok (.str (utf8 s), ts)
  | ts => do
    let (e, ts) ← parseExpr ts
    .ok (.expr e, ts)

/-- parse_keyval_pair, src/parser.rs 493–511 -/
def parseKeyVal : Toks → Res ((Text × ByteValue) × Toks)
  | .name n :: .equals :: ts => do
    let (v, ts) ← parseByteValue ts
    .ok ((n, v), ts)
  | .name _ :: [] => .err .unexpectedEof
  | .name _ :: _ => .err (.expectedTokenNotFound "=".toList)
  | [] => .err .unexpectedEof
  | _ => .err (.expectedTokenNotFound "Name".toList)

/-- parse_keyval_pairs, src/parser.rs 513–523: the map as a list, the last pair of a key first -/
def parseKeyVals (ts : Toks) : Res (List (Text × ByteValue) × Toks) := do
  let (pairs, ts) ← parseList parseKeyVal ts
  .ok (pairs.reverse, ts)

/-! ### Directives -/

/-- The property `speed` of an icon, src/parser.rs 615–623 -/
def iconSpeed (props : List (Text × ByteValue)) : Res (Option Expr) :=
  match props.lookup "speed".toList with
  | some (.expr e) => .ok (some e)
  | some (.str _) => .err .invalidExpression
  | none => .ok none

/-- `std::str::from_utf8(value).unwrap()`, src/parser.rs 637 and 659.  The bytes are those of a string of the source, so
that they are always text; they are taken to be an empty text if they are not. -/
def stringText (bs : List UInt8) : Text := (decodeUtf8 bs).getD []

/-- The property `type` of a sprite, src/parser.rs 635–656 -/
def spriteTypeOf (props : List (Text × ByteValue)) : Res SpriteType :=
  match props.lookup "type".toList with
  | some (.str s) =>
    if s = utf8 "simple".toList then .ok .simple
    else if s = utf8 "masked".toList then .ok .masked
    else .err (.invalidSpriteType (stringText s))
  | some (.expr e) => .err (.invalidSpriteType e.print)
  | none => .ok .simple

/-- The property `header` of a sprite, src/parser.rs 657–678 -/
def spriteHeaderOf (props : List (Text × ByteValue)) : Res Bool :=
  match props.lookup "header".toList with
  | some (.str s) =>
    if s = utf8 "yes".toList then .ok true
    else if s = utf8 "no".toList then .ok false
    else .err (.invalidSpriteHeader (stringText s))
  | some (.expr e) => .err (.invalidSpriteHeader e.print)
  | none => .ok true

/-- `.byte`, src/parser.rs 560–568 -/
def parseByteDir (ts : Toks) : Res (Directive × Toks) := do
  let (vs, ts) ← parseList parseByteValue ts
  if vs.isEmpty then .err .missingBytes else .ok (.byte vs, ts)

/-- `.org`, src/parser.rs 569–576 -/
def parseOrgDir (ts : Toks) : Res (Directive × Toks) := do
  let (v, ts) ← ts.readNumber
  .ok (.org (toUsize v), ts)

/-- `.word`, src/parser.rs 577–585 -/
def parseWordDir (ts : Toks) : Res (Directive × Toks) := do
  let (es, ts) ← parseList parseExpr ts
  if es.isEmpty then .err .missingWords else .ok (.word es, ts)

/-- The operands of `.text` and `.string`, src/parser.rs 586–605 -/
def parseSized (ts : Toks) : Res ((Nat × List UInt8) × Toks) := do
  let (v, ts) ← ts.readNumber
  let (s, ts) ← ts.readString
  .ok ((toUsize v, utf8 s), ts)

/-- `.include icon`, src/parser.rs 617–635, after the word `icon` -/
def parseIconInclude (ts : Toks) : Res (Directive × Toks) := do
  let (path, ts) ← ts.readString
  let (props, ts) ← parseKeyVals ts
  let speed ← iconSpeed props
  .ok (.incl (.icon speed (props.lookup "eyecatch".toList)) path, ts)

/-- `.include sprite`, src/parser.rs 636–690, after the word `sprite` -/
def parseSpriteInclude (ts : Toks) : Res (Directive × Toks) := do
  let (path, ts) ← ts.readString
  let (props, ts) ← parseKeyVals ts
  let typ ← spriteTypeOf props
  let header ← spriteHeaderOf props
  .ok (.incl (.sprite typ header) path, ts)

/-- `.include` with an include type, src/parser.rs 691–700 -/
def parseTypedInclude (ts : Toks) : Res (Directive × Toks) := do
  let (t, ts) ← ts.readIncludeType
  let (path, ts) ← ts.readString
  .ok (.incl t path, ts)

/-- `.include`, src/parser.rs 606–702 -/
def parseIncludeDir : Toks → Res (Directive × Toks)
  | .string s :: ts => .ok (.incl .asm s, ts)
  | .name n :: ts =>
    if n = "icon".toList then parseIconInclude ts
    else if n = "sprite".toList then parseSpriteInclude ts
    else parseTypedInclude (.name n :: ts)
  | ts => parseTypedInclude ts

/-- `.cnop`, src/parser.rs 703–711 -/
def parseCnopDir (ts : Toks) : Res (Directive × Toks) := do
  let (first, ts) ← parseExpr ts
  let ts ← Toks.consume .comma commaName ts
  let (second, ts) ← parseExpr ts
  .ok (.cnop first second, ts)

/-- The directive with this name, src/parser.rs 553–715: how its operands are parsed -/
def directiveParser (n : Text) : Option (Toks → Res (Directive × Toks)) :=
  if n = ".byte".toList then some parseByteDir
  else if n = ".org".toList then some parseOrgDir
  else if n = ".word".toList then some parseWordDir
  else if n = ".text".toList then some fun ts => do
    let ((size, s), ts) ← parseSized ts
    .ok (.text size s, ts)
  else if n = ".string".toList then some fun ts => do
    let ((size, s), ts) ← parseSized ts
    .ok (.string size s, ts)
  else if n = ".include".toList then some parseIncludeDir
  else if n = ".cnop".toList then some parseCnopDir
  else none

/-- parse_directive, src/parser.rs 553–715 -/
def parseDirective : Toks → Res (Option (Stmt × Toks))
  | .name n :: ts =>
    match directiveParser n with
    | some p => do
      let (d, ts) ← p ts
      .ok (some (.dir d, ts))
    | none => .ok none
  | _ => .ok none

/-! ### Statements -/

/-- parse_gen_instr, src/parser.rs 467–479 -/
def parseGenInstr (ts : Toks) : Res ((Text × List Arg) × Toks) := do
  let (name, ts) ← ts.readName
  let (args, ts) ← parseArgs ts
  .ok ((name, args), ts)

/-- The statement made of a name and its arguments, src/parser.rs 451–461 -/
def instrOrCall (name : Text) (args : List Arg) : Res Stmt :=
  if instrExists name then do
    let i ← makeInstr name args
    .ok (.instr i)
  else .ok (.macroCall name args)

/-- parse_instr, src/parser.rs 448–465 -/
def parseInstr : Toks → Res (Option (Stmt × Toks))
  | .name n :: ts =>
    if !instrExists n && isDotted n then .ok none
    else do
      let ((name, args), ts) ← parseGenInstr (.name n :: ts)
      let s ← instrOrCall name args
      .ok (some (s, ts))
  | _ => .ok none

/-- `tokens.check_at(1, equ)` etc., src/parser.rs 393–394: whether this is the rest of a definition -/
def definesNext : Toks → Bool
  | t :: _ => t == .name "equ".toList || t == .equals
  | [] => false

/-- The end of parse_statement, src/parser.rs 407–445, after its first token -/
def parseOther (tok : Tok) (ts : Toks) : Res (Stmt × Toks) :=
  match tok with
  | .name n =>
    if ts.isEmpty && isDotted n then .ok (.label n, ts)
    else
      match ts with
      | t :: ts' =>
        if t = .name "equ".toList then do
          let (e, ts) ← parseExpr ts'
          .ok (.alias n e, ts)
        else if t = .equals then do
          let (e, ts) ← parseExpr ts'
          .ok (.variable n e, ts)
        else if isDotted n then .err (.unknownDirective n)
        else .err (.unknownInstruction n)
      | [] => if isDotted n then .err (.unknownDirective n) else .err (.unknownInstruction n)
  | _ => .err .unexpectedToken

/-- parse_statement from the directives on, src/parser.rs 402–445 -/
def parseDirOrOther (ts : Toks) : Res (Stmt × Toks) := do
  let d ← parseDirective ts
  match d with
  | some r => .ok r
  | none => do
    let (tok, ts) ← ts.next
    parseOther tok ts

/-- parse_statement, src/parser.rs 382–445 -/
def parseStatement : Toks → Res (Stmt × Toks)
  | .name n :: .colon :: ts => .ok (.label n, ts)
  | .name n :: ts =>
    if definesNext ts || isDotted n then parseDirOrOther (.name n :: ts)
    else do
      let r ← parseInstr (.name n :: ts)
      match r with
      | some r => .ok r
      | none => parseDirOrOther (.name n :: ts)
  | ts => parseDirOrOther ts

/-- Statement::is_label, src/ast.rs 446–451 -/
def Stmt.isLabel : Stmt → Bool
  | .label _ => true
  | _ => false

/-- The end of a line, src/parser.rs 374–376 -/
def endOfLine (stmts : List Stmt) (ts : Toks) : Res (List Stmt) :=
  if ts.isEmpty then .ok stmts else .err .unexpectedToken

/-- parse_line, src/parser.rs 356–380: the statements it appends -/
def parseLine (ts : Toks) : Res (List Stmt) :=
  if ts.isEmpty then .ok []
  else do
    let (s, ts) ← parseStatement ts
    if s.isLabel && !ts.isEmpty then do
      let r ← parseInstr ts
      match r with
      | some (i, ts) => endOfLine [s, i] ts
      | none => .err .invalidInstruction
    else endOfLine [s] ts

/-- The lines of parse, src/parser.rs 346–354 -/
def parseLines : List Toks → Res (List Stmt)
  | [] => .ok []
  | l :: ls => do
    let ss ← parseLine l
    let rest ← parseLines ls
    .ok (ss ++ rest)

/-! ### Macro definitions -/

/-- The label at the start of a macro line, src/parser.rs 185–213 -/
def macroLineLabel : Toks → List MacroStmt × Toks
  | .name n :: .colon :: ts => ([.label n], ts)
  | .macroLabel n :: .colon :: ts => ([.macroLabel n], ts)
  | [.name n] => if isDotted n then ([.label n], []) else ([], [.name n])
  | [.macroLabel n] => if isDotted n then ([.macroLabel n], []) else ([], [.macroLabel n])
  | ts => ([], ts)

/-- The instruction of a macro line, src/parser.rs 215–226 -/
def macroLineInstr : Toks → Res (List MacroStmt × Toks)
  | .name n :: ts =>
    if isDotted n then .err (.unknownInstruction n)
    else do
      let ((name, args), ts) ← parseGenInstr (.name n :: ts)
      .ok ([.instr name args], ts)
  | ts => .ok ([], ts)

/-- parse_macro_statement, src/parser.rs 180–233 -/
def parseMacroStatement (ts : Toks) : Res (List MacroStmt) := do
  let (label, ts) := macroLineLabel ts
  let (instr, ts) ← macroLineInstr ts
  if ts.isEmpty then .ok (label ++ instr) else .err .unexpectedToken

/-- The loop of parse_macro_header, src/parser.rs 258–274; `seen` are the names so far. -/
def paramNames (seen : List Text) : List Arg → Res (List Text)
  | [] => .ok []
  | .macroArg n :: rest =>
    if n ∈ seen then .err (.duplicateMacroArg n)
    else do
      let ns ← paramNames (n :: seen) rest
      .ok (n :: ns)
  | _ => .err .invalidMacroParam

/-- parse_macro_header, src/parser.rs 235–281 -/
def parseMacroHeader (macros : Macros) (ts : Toks) : Res (Text × List Text) := do
  let (_, ts) ← ts.readMacroName
  let (name, ts) ← ts.readName
  if instrExists name then .err (.macroNameConflict name)
  else do
    let (args, ts) ← parseArgs ts
    match macros.lookup (name, args.length) with
    | some _ => .err (.macroAlreadyExists name args.length)
    | none => do
      let params ← paramNames [] args
      if ts.isEmpty then .ok (name, params) else .err .unexpectedToken

/-- `tok.has_macro_name("%macro")`, src/parser.rs 301 -/
def startsMacro (ts : Toks) : Bool := ts.head? == some (.macroIdent "%macro".toList)

/-- `tok.has_macro_name("%end")`, src/parser.rs 310 -/
def endsMacro (ts : Toks) : Bool := ts.head? == some (.macroIdent "%end".toList)

/-- parse_macros, src/parser.rs 283–344: the lines outside macro definitions, and the macros.  The two
nested loops are one recursion over the lines; `current` is the definition being read, with its
statements so far.  A definition that is still open at the end is stored (322–325). -/
def macroPass (macros : Macros) (current : Option MacroDef) : List Toks → Res (List Toks × Macros)
  | [] =>
    match current with
    | none => .ok ([], macros)
    | some d => .ok ([], ((d.name, d.args.length), d) :: macros)
  | l :: ls =>
    match current with
    | none =>
      if startsMacro l then do
        let (name, params) ← parseMacroHeader macros l
        macroPass macros (some ⟨name, params, []⟩) ls
      else do
        let (rest, macros) ← macroPass macros none ls
        .ok (l :: rest, macros)
    | some d =>
      if endsMacro l then
        if Toks.isEmpty (l.drop 1) then macroPass (((d.name, d.args.length), d) :: macros) none ls
        else .err .unexpectedToken
      else do
        let ss ← parseMacroStatement l
        macroPass macros (some { d with body := d.body ++ ss }) ls

/-- Parser::parse, src/parser.rs 346–354, on the lines of the tokens -/
def parseTokLines (ls : List Toks) : Res Program := do
  let (ls, macros) ← macroPass [] none ls
  let stmts ← parseLines ls
  .ok ⟨macros, stmts⟩

/-- Parser::parse, src/parser.rs 346–354 -/
def parse (tokens : List Token) : Res Program := parseTokLines ((lines tokens).map (·.map Token.tok))

end Verif
