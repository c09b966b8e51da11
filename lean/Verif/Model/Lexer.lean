import Verif.Model.Expr
/-
Source positions (src/location.rs), the character input (src/input.rs) and the lexer (src/lexer.rs).
-/
namespace Verif

/-- src/location.rs 4–10; a file id is a number. -/
structure Loc where
  file : Nat
  pos : Nat
  line : Nat
  column : Nat
  deriving DecidableEq, Repr

/-- TokenType, src/lexer.rs 15–43 -/
inductive Tok where
  | ampersand | caret | pipe | leftParen | rightParen | hash | comma | colon | doubleColon
  | name (n : Text)
  | number (v : Int) (radix : Radix)
  | equals | plus | times | minus | divide | upperByte | lowerByte
  | string (s : Text)
  | macroIdent (n : Text)
  | macroLabel (n : Text)
  | r0 | r1 | r2 | r3
  | eof
  deriving DecidableEq, Repr

/-- Token, src/lexer.rs 78–82, with its span (src/location.rs 50–55; lexing sets no parent). -/
structure Token where
  tok : Tok
  start : Loc
  stop : Loc
  deriving DecidableEq, Repr

/-- Grapheme segmentation (the crate unicode-segmentation) as a parameter: the number of characters of
the first grapheme cluster of a non-empty text.  Simplification: iterating over the clusters of a text
is modelled as repeatedly taking the first cluster of what is left. -/
abbrev Seg := Text → Nat

/-- The number of bytes of a text in UTF-8. -/
def byteLen (t : Text) : Nat := (t.map Char.utf8Size).sum

/-- Input, src/input.rs 8–15: `done` is the text before the position, `rest` the text after it. -/
structure Input where
  file : Nat
  done : Text
  rest : Text
  line : Nat
  column : Nat
  deriving DecidableEq, Repr

/-- Input::new, src/input.rs 18–26 -/
def Input.new (file : Nat) (text : Text) : Input := ⟨file, [], text, 1, 0⟩

/-- Input::pos, src/input.rs 68–70 -/
def Input.pos (i : Input) : Nat := byteLen i.done

/-- Input::location, src/input.rs 44–46 -/
def Input.location (i : Input) : Loc := ⟨i.file, i.pos, i.line, i.column⟩

/-- Input::start_of_line, src/input.rs 28–30 -/
def Input.startOfLine (i : Input) : Bool :=
  match i.done.getLast? with
  | none => true
  | some c => c == '\n'

/-- One step of the loop of Input::update, src/input.rs 92–103: move over the cluster `g`. -/
def Input.over (i : Input) (g rest : Text) : Input :=
  if g = ['\r', '\n'] ∨ g = ['\n'] then ⟨i.file, i.done ++ g, rest, i.line + 1, 0⟩
  else ⟨i.file, i.done ++ g, rest, i.line, i.column + 1⟩

/-- The loop of Input::update, src/input.rs 90–106; `n` is what is left of `num_bytes`.  Every step
removes at least one character, so the length of the text is enough fuel. -/
def Input.updateLoop (seg : Seg) : Nat → Nat → Input → Input
  | 0, _, i => i
  | fuel + 1, n, i =>
    match i.rest with
    | [] => i
    | rest =>
      let g := rest.take (seg rest)
      if byteLen g > n then i
      else updateLoop seg fuel (n - byteLen g) (i.over g (rest.drop (seg rest)))

/-- Input::update, src/input.rs 86–108 -/
def Input.update (seg : Seg) (numBytes : Nat) (i : Input) : Input := i.updateLoop seg i.rest.length numBytes

/-- `\s` of the regex crate: the Unicode property White_Space. -/
def isSpace (c : Char) : Bool :=
  let n := c.toNat
  (9 ≤ n ∧ n ≤ 13) || n = 0x20 || n = 0x85 || n = 0xA0 || n = 0x1680 || (0x2000 ≤ n ∧ n ≤ 0x200A) ||
  n = 0x2028 || n = 0x2029 || n = 0x202F || n = 0x205F || n = 0x3000

/-- Input::skip_whitespace, src/input.rs 72–82 -/
def Input.skipWhitespace (seg : Seg) (i : Input) : Input :=
  i.update seg (byteLen (i.rest.takeWhile isSpace))

/-- The characters before the end of the line: end_of_line and the loop of skip_to_eol,
src/lexer.rs 351–366.  The code counts bytes; `\n` and `\r` are never part of a longer character.  On an
empty text `text.len() - 1` would underflow, but both callers have seen a first character. -/
def toEol : Text → Text
  | [] => []
  | c :: cs =>
    if c = '\n' ∨ (c = '\r' ∧ cs.head? = some '\n') then []
    else c :: toEol cs

/-- skip_to_eol, src/lexer.rs 359–366 -/
def skipToEol (seg : Seg) (i : Input) : Input := i.update seg (byteLen (toEol i.rest))

/-- skip_star_comment, src/lexer.rs 368–374 -/
def skipStarComment (seg : Seg) (i : Input) : Input :=
  if i.startOfLine && i.rest.head? == some '*' then skipToEol seg i else i

/-- skip_comment, src/lexer.rs 376–382 -/
def skipComment (seg : Seg) (i : Input) : Input :=
  if i.rest.head? == some ';' then skipToEol seg i else i

/-- The loop of skip_whitespace_and_comments, src/lexer.rs 384–399: repeat until nothing is skipped.
Every repetition removes a character, so one more than the length of the text is enough fuel. -/
def skipBlankLoop (seg : Seg) : Nat → Input → Input
  | 0, i => i
  | fuel + 1, i =>
    let next := skipComment seg (skipStarComment seg (i.skipWhitespace seg))
    if next.pos > i.pos then skipBlankLoop seg fuel next else next

/-- skip_whitespace_and_comments, src/lexer.rs 384–399 -/
def skipBlank (seg : Seg) (i : Input) : Input := skipBlankLoop seg (i.rest.length + 1) i

/-- The argument of lex_for_ws in lex_input, src/lexer.rs 520–522; other such functions can panic. -/
def asmSkip (seg : Seg) (i : Input) : Res Input := .ok (skipBlank seg i)

/-- `[a-zA-Z_\.]`, src/lexer.rs 434 -/
def isIdentStart (c : Char) : Bool := c.isAlpha || c == '_' || c == '.'

/-- `[a-zA-Z\$0-9_\.]`, src/lexer.rs 434 -/
def isIdentChar (c : Char) : Bool := c.isAlphanum || c == '$' || c == '_' || c == '.'

/-- The regex `ident`, src/lexer.rs 434 -/
def matchIdent : Text → Option Text
  | [] => none
  | c :: cs => if isIdentStart c then some (c :: cs.takeWhile isIdentChar) else none

/-- `[0-9]` etc.: the digits of a radix, src/lexer.rs 437–442 -/
def digitValue (c : Char) : Option Nat :=
  if c.isDigit then some (c.toNat - 48)
  else if 'a' ≤ c ∧ c ≤ 'f' then some (c.toNat - 87)
  else if 'A' ≤ c ∧ c ≤ 'F' then some (c.toNat - 55)
  else none

/-- `c` is a digit in this base. -/
def isDigitOf (base : Nat) (c : Char) : Bool :=
  match digitValue c with
  | some d => d < base
  | none => false

/-- `(?:'{digit}|{digit})*`, src/lexer.rs 429–431 -/
def matchDigits (base : Nat) : Text → Text
  | '\'' :: c :: cs => if isDigitOf base c then '\'' :: c :: matchDigits base cs else []
  | c :: cs => if isDigitOf base c then c :: matchDigits base cs else []
  | [] => []

/-- `{digit}(?:'{digit}|{digit})*`, src/lexer.rs 427–433 -/
def matchNumber (base : Nat) : Text → Option Text
  | [] => none
  | c :: cs => if isDigitOf base c then some (c :: matchDigits base cs) else none

/-- The number the digits stand for, as computed by `i32::from_str_radix`; the separators are skipped
(src/lexer.rs 401–419 removes them first). -/
def numValue (base acc : Nat) (w : Text) : Nat :=
  w.foldl (fun acc c => match digitValue c with
    | some d => acc * base + d
    | none => acc) acc

/-- `i32::from_str_radix(..).unwrap()` on digits with separators removed, src/lexer.rs 401–419: a value
that is no `i32` panics. -/
def toNumber (base : Nat) (radix : Radix) (digits : Text) : Res Tok :=
  let v := numValue base 0 digits
  if v ≤ 2147483647 then .ok (.number v radix) else .panic

/-- `(\\.|[^"\\])*"`, src/lexer.rs 464: the text up to and including the closing quote; `.` does not
match a newline. -/
def matchStringBody : Text → Option Text
  | [] => none
  | '"' :: _ => some ['"']
  | '\\' :: c :: cs => if c = '\n' then none else (matchStringBody cs).map (fun w => '\\' :: c :: w)
  | '\\' :: [] => none
  | c :: cs => (matchStringBody cs).map (c :: ·)

/-- The byte an escape sequence stands for, src/lexer.rs 284–299 -/
def unescape (c : Char) : Char :=
  match c with
  | 'r' => '\r'
  | 'n' => '\n'
  | 't' => '\t'
  | 'b' => Char.ofNat 8
  | '0' => Char.ofNat 0
  | c => c

/-- The loop of clean_str, src/lexer.rs 278–310, on the text between the quotes.  The code works on
bytes; only ASCII bytes are treated specially, so working on characters is the same. -/
def cleanLoop : Bool → Text → Text
  | escape, [] => if escape then ['\\'] else []
  | true, c :: cs => unescape c :: cleanLoop false cs
  | false, c :: cs => if c = '\\' then cleanLoop true cs else c :: cleanLoop false cs

/-- clean_str, src/lexer.rs 278–310: without the first and the last character -/
def cleanStr (t : Text) : Text := cleanLoop false (t.drop 1).dropLast

/-- What a Matcher does, src/lexer.rs 310–337: the text its regular expression matches at the start of
the input and the token this is converted to.  The conversion can panic. -/
abbrev Matcher := Text → Option (Text × Res Tok)

/-- A matcher for a fixed text -/
def fixed (s : Text) (k : Tok) : Matcher := fun t =>
  if s.isPrefixOf t then some (s, .ok k) else none

/-- The matcher for `%{ident}`, src/lexer.rs 445–447 -/
def macroIdentMatcher : Matcher := fun t =>
  match t with
  | '%' :: cs => (matchIdent cs).map fun w => ('%' :: w, .ok (.macroIdent (lower ('%' :: w))))
  | _ => none

/-- The matcher for `{ident}%`, src/lexer.rs 448–450.  An identifier contains no `%`, so the longest
identifier is the only one that can be followed by it. -/
def macroLabelMatcher : Matcher := fun t =>
  match matchIdent t with
  | some w =>
    if (t.drop w.length).head? = some '%' then some (w ++ ['%'], .ok (.macroLabel (lower (w ++ ['%'])))) else none
  | none => none

/-- The matcher for strings, src/lexer.rs 467–469 -/
def stringMatcher : Matcher := fun t =>
  match t with
  | '"' :: cs => (matchStringBody cs).map fun w => ('"' :: w, .ok (.string (cleanStr ('"' :: w))))
  | _ => none

/-- The matcher for names, src/lexer.rs 471 -/
def nameMatcher : Matcher := fun t => (matchIdent t).map fun w => (w, .ok (.name (lower w)))

/-- The matchers for numbers with these alternative prefixes, src/lexer.rs 427–441, 472–477 -/
def numberMatcher (ps : List Text) (base : Nat) (radix : Radix) : Matcher := fun t =>
  match ps.find? (·.isPrefixOf t) with
  | some p => (matchNumber base (t.drop p.length)).map fun w => (p ++ w, toNumber base radix w)
  | none => none

/-- The matcher list of read_token, src/lexer.rs 444–478; `@[rR][0123]` (470) with to_indr_mode
(340–348) is written as eight fixed texts. -/
def matchers : List Matcher := [
  macroIdentMatcher,
  macroLabelMatcher,
  fixed ['('] .leftParen,
  fixed [')'] .rightParen,
  fixed ['#'] .hash,
  fixed [','] .comma,
  fixed [':', ':'] .doubleColon,
  fixed [':'] .colon,
  fixed ['='] .equals,
  fixed ['+'] .plus,
  fixed ['*'] .times,
  fixed ['-'] .minus,
  fixed ['/'] .divide,
  fixed ['&'] .ampersand,
  fixed ['|'] .pipe,
  fixed ['^'] .caret,
  fixed ['>'] .upperByte,
  fixed ['<'] .lowerByte,
  stringMatcher,
  fixed ['@', 'R', '0'] .r0, fixed ['@', 'R', '1'] .r1, fixed ['@', 'R', '2'] .r2, fixed ['@', 'R', '3'] .r3,
  fixed ['@', 'r', '0'] .r0, fixed ['@', 'r', '1'] .r1, fixed ['@', 'r', '2'] .r2, fixed ['@', 'r', '3'] .r3,
  nameMatcher,
  numberMatcher [['$']] 16 .hex,
  numberMatcher [['0', 'o'], ['0', 'O']] 8 .octal,
  numberMatcher [['0', 'x'], ['0', 'X']] 16 .hex,
  numberMatcher [['%']] 2 .binary,
  numberMatcher [['0', 'b'], ['0', 'B']] 2 .binary,
  numberMatcher [[]] 10 .decimal]

/-- The loop over the matchers, src/lexer.rs 486–492: the first one that matches -/
def matchToken (t : Text) : Option (Text × Res Tok) := matchers.findSome? (· t)

/-- read_token, src/lexer.rs 421–494, with Matcher::do_match, 325–337 -/
def readToken (seg : Seg) (skipWs : Input → Res Input) (i : Input) : Res (Option (Input × Token)) := do
  let i ← skipWs i
  match i.rest with
  | [] => .ok (some (i, ⟨.eof, i.location, i.location⟩))
  | t =>
    match matchToken t with
    | none => .ok none
    | some (w, conv) => do
      let k ← conv
      let next := i.update seg (byteLen w)
      .ok (some (next, ⟨k, i.location, next.location⟩))

/-- The loop of lex_for_ws, src/lexer.rs 496–518; `i` is the input after the last token.  A token that
does not move the position is read for ever, so more steps than there are characters means that the loop
does not end. -/
def lexLoop (seg : Seg) (skipWs : Input → Res Input) : Nat → Input → Res (List Token)
  | 0, _ => .loop
  | fuel + 1, i => do
    let r ← readToken seg skipWs i
    match r with
    | none => .err (.unexpectedChar i.pos i.line i.column)
    | some (next, token) =>
      if token.tok = .eof then .ok [⟨.eof, i.location, i.location⟩]
      else do
        let rest ← lexLoop seg skipWs fuel next
        .ok (token :: rest)

/-- lex_for_ws, src/lexer.rs 496–518 -/
def lexForWs (seg : Seg) (skipWs : Input → Res Input) (i : Input) : Res (List Token) :=
  lexLoop seg skipWs (i.rest.length + 2) i

/-- lex_input, src/lexer.rs 520–522 -/
def lexInput (seg : Seg) (i : Input) : Res (List Token) := lexForWs seg (asmSkip seg) i

end Verif
