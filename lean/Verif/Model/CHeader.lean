import Verif.Model.Parser
/-
C headers (src/cheader.rs).
-/
namespace Verif

/-- The loop of skip_multiline_comment, src/cheader.rs 15–22: what is skipped after `/*`.  The code advances byte by
byte and slices the text at every byte, so it panics after the first byte of a longer character. -/
def blockRest : Text → Res Text
  | [] => .ok []
  | '*' :: '/' :: _ => .ok ['*', '/']
  | c :: cs =>
    if c.utf8Size > 1 then .panic
    else do
      let r ← blockRest cs
      .ok (c :: r)

/-- skip_multiline_comment, src/cheader.rs 10–25 -/
def skipBlock (seg : Seg) (i : Input) : Res Input :=
  match i.rest with
  | '/' :: '*' :: t => do
    let r ← blockRest t
    .ok (i.update seg (2 + byteLen r))
  | _ => .ok i

/-- skip_line_comment, src/cheader.rs 27–33 -/
def skipLineComment (seg : Seg) (i : Input) : Input :=
  match i.rest with
  | '/' :: '/' :: _ => skipToEol seg i
  | _ => i

/-- The loop of skip_whitespace_and_comments, src/cheader.rs 35–50: repeat until nothing is skipped.
Every repetition removes a character, so one more than the length of the text is enough fuel. -/
def skipCBlankLoop (seg : Seg) : Nat → Input → Res Input
  | 0, i => .ok i
  | fuel + 1, i => do
    let next ← skipBlock seg (skipLineComment seg (i.skipWhitespace seg))
    if next.pos > i.pos then skipCBlankLoop seg fuel next else .ok next

/-- skip_whitespace_and_comments, src/cheader.rs 35–50 -/
def skipCBlank (seg : Seg) (i : Input) : Res Input := skipCBlankLoop seg (i.rest.length + 1) i

/-- The rewriting of one line, src/cheader.rs 56–76.  After read_name the line has a third token. -/
def headerLine (line : List Token) : Res (List Token) :=
  match line with
  | hash :: define :: rest =>
    if hash.tok = .hash ∧ define.tok = .name "define".toList then do
      let (_, ts) ← Toks.readName (rest.map Token.tok)
      let _ ← parseExpr ts
      match rest with
      | name :: more => .ok (name :: ⟨.name "equ".toList, hash.start, define.stop⟩ :: more)
      | [] => .panic
    else .ok line
  | _ => .ok line

/-- The loop over the lines, src/cheader.rs 56–77 -/
def headerLines : List (List Token) → Res (List Token)
  | [] => .ok []
  | l :: ls => do
    let a ← headerLine l
    let b ← headerLines ls
    .ok (a ++ b)

/-- lex_input, src/cheader.rs 52–79 -/
def lexHeader (seg : Seg) (i : Input) : Res (List Token) := do
  let raw ← lexForWs seg (skipCBlank seg) i
  headerLines (lines raw)

end Verif
