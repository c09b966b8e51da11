import Verif.Model.Lexer
/-
Specification of the lexical structure of source files: what the tokens look like, what may stand
between them, and where they are.  It does not use the matching functions of the model.
-/
namespace Verif.Spec

/-! Positions -/

/-- The characters since the last newline. -/
def column (before : Text) : Nat := (before.reverse.takeWhile (· ≠ '\n')).length

/-- The place in the file after the text `before`: byte offset, line (from 1), column (from 0). -/
def placeIn (file : Nat) (before : Text) : Loc :=
  ⟨file, byteLen before, 1 + before.count '\n', column before⟩

/-- The text `before` ends at the start of a line. -/
def lineStart (before : Text) : Bool := before.getLast?.all (· == '\n')

/-! Grapheme clusters -/

/-- Clusters of texts in which every character is a cluster of its own, except that CR LF is one. -/
def plainSeg : Seg
  | '\r' :: '\n' :: _ => 2
  | _ => 1

/-- In this text every character is a cluster of its own, except that CR LF is one: so it is for ASCII
texts (`plain_of_ascii`) and all texts without combining characters. -/
def Plain (seg : Seg) (text : Text) : Prop := ∀ pre s, text = pre ++ s → s ≠ [] → seg s = plainSeg s

/-- What Unicode says about ASCII characters (UAX #29): between two of them there is a cluster boundary,
except between CR and LF. -/
def AsciiSeg (seg : Seg) : Prop := ∀ s, s ≠ [] → (∀ c ∈ s.take 2, c.toNat < 128) → seg s = plainSeg s

/-! Between tokens -/

/-- The text starts with an end of line, or is empty. -/
def atEol (t : Text) : Prop := t = [] ∨ t.head? = some '\n' ∨ ∃ u, t = '\r' :: '\n' :: u

/-- `Blank ls g rest`: the text `g`, standing before `rest` and at the start of a line if `ls`, consists
of white space and comments.  A comment goes from `;`, or from `*` at the start of a line, to the end of
the line. -/
inductive Blank : Bool → Text → Text → Prop where
  | nil {ls rest} : Blank ls [] rest
  | space {ls c g rest} : isSpace c = true → Blank (c == '\n') g rest → Blank ls (c :: g) rest
  | comment {ls c t g rest} : c = ';' ∨ (c = '*' ∧ ls = true) → '\n' ∉ t → atEol (g ++ rest) →
      Blank false g rest → Blank ls (c :: t ++ g) rest

/-- No blank text can start here. -/
def Stuck (ls : Bool) (rest : Text) : Prop :=
  ∀ c ∈ rest.head?, isSpace c = false ∧ c ≠ ';' ∧ (ls = true → c ≠ '*')

/-- `g` is all the blank text between `before` and `rest`. -/
def Gap (before g rest : Text) : Prop := Blank (lineStart before) g rest ∧ Stuck (lineStart (before ++ g)) rest

/-! Tokens -/

/-- A letter, an underscore or a dot. -/
def identStart (c : Char) : Prop := c.isAlpha = true ∨ c = '_' ∨ c = '.'

/-- A character that can start an identifier, a digit or a dollar sign. -/
def identChar (c : Char) : Prop := identStart c ∨ c.isDigit = true ∨ c = '$'

/-- An identifier. -/
def Ident (w : Text) : Prop := ∃ c cs, w = c :: cs ∧ identStart c ∧ ∀ d ∈ cs, identChar d

/-- `c` is the digit for `d`. -/
def digit (c : Char) (d : Nat) : Prop :=
  "0123456789abcdef".toList[d]? = some c ∨ "0123456789ABCDEF".toList[d]? = some c

/-- `Digits base acc w v`: appending the digits `w`, each possibly preceded by a quote, to a number that
is `acc` so far gives `v`. -/
inductive Digits (base : Nat) : Nat → Text → Nat → Prop where
  | nil {acc} : Digits base acc [] acc
  | digit {acc c d w v} : digit c d → d < base → Digits base (acc * base + d) w v → Digits base acc (c :: w) v
  | quote {acc c d w v} : digit c d → d < base → Digits base (acc * base + d) w v →
      Digits base acc ('\'' :: c :: w) v

/-- `w` is a numeral in this base, starting with a digit, with value `v`. -/
def Numeral (base : Nat) (w : Text) (v : Nat) : Prop := Digits base 0 w v ∧ ∃ c d, w.head? = some c ∧ digit c d

/-- `rest` goes on with another digit. -/
def moreDigits (base : Nat) (rest : Text) : Prop :=
  ∃ c d, digit c d ∧ d < base ∧ (rest.head? = some c ∨ ∃ u, rest = '\'' :: c :: u)

/-- The prefixes of numerals, with base and radix. -/
def prefixes : List (Text × Nat × Radix) := [
  ("$".toList, 16, .hex), ("0x".toList, 16, .hex), ("0X".toList, 16, .hex),
  ("%".toList, 2, .binary), ("0b".toList, 2, .binary), ("0B".toList, 2, .binary),
  ("0o".toList, 8, .octal), ("0O".toList, 8, .octal),
  ("".toList, 10, .decimal)]

/-- The text is a numeral with a prefix `0x`, `0o` or `0b`. -/
def prefixed (t : Text) : Prop :=
  ∃ p base radix w v u, (p, base, radix) ∈ prefixes ∧ p.length = 2 ∧ Numeral base w v ∧ t = p ++ w ++ u

/-- What an escape sequence stands for. -/
def escapeOf (c : Char) : Char :=
  (List.lookup c [('r', '\r'), ('n', '\n'), ('t', '\t'), ('b', '\x08'), ('0', '\x00')]).getD c

/-- `Quoted src s`: between quotes, `src` stands for `s`. -/
inductive Quoted : Text → Text → Prop where
  | nil : Quoted [] []
  | plain {c w s} : c ≠ '"' → c ≠ '\\' → Quoted w s → Quoted (c :: w) (c :: s)
  | escape {c w s} : c ≠ '\n' → Quoted w s → Quoted ('\\' :: c :: w) (escapeOf c :: s)

/-- Operators and punctuation. -/
def symbols : List (Text × Tok) := [
  ("(".toList, .leftParen), (")".toList, .rightParen), ("#".toList, .hash), (",".toList, .comma),
  ("::".toList, .doubleColon), (":".toList, .colon), ("=".toList, .equals), ("+".toList, .plus),
  ("*".toList, .times), ("-".toList, .minus), ("/".toList, .divide), ("&".toList, .ampersand),
  ("|".toList, .pipe), ("^".toList, .caret), (">".toList, .upperByte), ("<".toList, .lowerByte),
  ("@R0".toList, .r0), ("@R1".toList, .r1), ("@R2".toList, .r2), ("@R3".toList, .r3),
  ("@r0".toList, .r0), ("@r1".toList, .r1), ("@r2".toList, .r2), ("@r3".toList, .r3)]

/-- `w` is a numeral token in front of `rest`, with this value: the longest possible one. -/
def NumberToken (w rest : Text) (v : Nat) (radix : Radix) : Prop :=
  ∃ p base ds, (p, base, radix) ∈ prefixes ∧ w = p ++ ds ∧ Numeral base ds v ∧ ¬ moreDigits base rest ∧
    (p = [] → ¬ prefixed (w ++ rest))

/-- `Spells w rest k`: in front of `rest`, the text `w` is the token `k`: the longest possible one. -/
inductive Spells : Text → Text → Tok → Prop where
  | symbol {w rest k} : (w, k) ∈ symbols → (k = .colon → rest.head? ≠ some ':') → Spells w rest k
  | name {w rest} : Ident w → (∀ c ∈ rest.head?, ¬ identChar c ∧ c ≠ '%') → Spells w rest (.name (lower w))
  | macroLabel {w rest} : Ident w → Spells (w ++ ['%']) rest (.macroLabel (lower (w ++ ['%'])))
  | macroIdent {w rest} : Ident w → (∀ c ∈ rest.head?, ¬ identChar c) →
      Spells ('%' :: w) rest (.macroIdent (lower ('%' :: w)))
  | string {src s rest} : Quoted src s → Spells ('"' :: src ++ ['"']) rest (.string s)
  | number {w rest v radix} : NumberToken w rest v radix → v < 2 ^ 31 → Spells w rest (.number v radix)

/-- `LexesTo file before text toks`: after `before`, the text consists of the tokens `toks`, each at its
place, with only blank text around them; the last one stands for the end of the file and is placed right
after the token before it. -/
inductive LexesTo (file : Nat) : Text → Text → List Token → Prop where
  | done {before g} : Gap before g [] →
      LexesTo file before g [⟨.eof, placeIn file before, placeIn file before⟩]
  | token {before g w rest k toks} : Gap before g (w ++ rest) → Spells w rest k →
      LexesTo file (before ++ g ++ w) rest toks →
      LexesTo file before (g ++ w ++ rest) (⟨k, placeIn file (before ++ g), placeIn file (before ++ g ++ w)⟩ :: toks)

/-- `LexReaches before text ks before' text'`: reading the tokens `ks`, and the blank text before each, takes
one from `before`, with `text` to come, to `before'`, with `text'` to come. -/
inductive LexReaches : Text → Text → List Tok → Text → Text → Prop where
  | here {before text} : LexReaches before text [] before text
  | token {before g w rest k ks before' text'} : Gap before g (w ++ rest) → Spells w rest k →
      LexReaches (before ++ g ++ w) rest ks before' text' → LexReaches before (g ++ w ++ rest) (k :: ks) before' text'

/-- The next thing is neither a token nor the end of the text. -/
def NoToken (before text : Text) : Prop :=
  ∃ g rest, text = g ++ rest ∧ Gap before g rest ∧ rest ≠ [] ∧
    ∀ w rest', rest = w ++ rest' → (∀ k, ¬ Spells w rest' k) ∧ ∀ v radix, ¬ NumberToken w rest' v radix

/-- The next thing is a numeral that is too big. -/
def TooBig (before text : Text) : Prop :=
  ∃ g w rest v radix, text = g ++ w ++ rest ∧ Gap before g (w ++ rest) ∧ NumberToken w rest v radix ∧ 2 ^ 31 ≤ v

/-- The tokKinds of the tokens, without their places. -/
def tokKinds (toks : List Token) : List Tok := toks.map (·.tok)

/-! Upper and lower case -/

/-- `Recased before text text'`: after `before`, the text `text'` differs from `text` only in the case of ASCII
letters, and not inside strings.  Behind a place where `text` cannot be read on, any letters may differ. -/
inductive Recased : Text → Text → Text → Prop where
  | done {before g g'} : Gap before g [] → lower g = lower g' → Recased before g g'
  | token {before g g' w w' rest rest' k} : Gap before g (w ++ rest) → Spells w rest k →
      lower g = lower g' → lower w = lower w' → (∀ s, k = .string s → w = w') →
      Recased (before ++ g ++ w) rest rest' → Recased before (g ++ w ++ rest) (g' ++ w' ++ rest')
  | stuck {before text text'} : NoToken before text ∨ TooBig before text → lower text = lower text' →
      Recased before text text'

end Verif.Spec
