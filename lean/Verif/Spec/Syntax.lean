import Verif.Spec.Places
/-
Specification: what is wrong with a line that does not follow the grammar, and where.

A line is read from left to right.  If it is wrong as a sequence of tokens, the error points at the first token after
which no continuation can make the line right.  The tokens before it can be continued, in the way the error says.
-/
namespace Verif.Spec.Syntax
open Verif Located

/-! ### The shape of a line -/

/-- `Shaped w`: the tokens `w` have the shape of a line.  This is the grammar `LineSyntax` without the checks of meaning:
which operands an instruction takes, how many items a directive needs, and which values the properties of images have. -/
inductive Shaped : List Tok → Prop where
  | empty : Shaped []
  | label {n} : Shaped [.name n, .colon]
  | labelled {n m w args} : ¬ Dotted m → OptListed ArgSyntax w args → Shaped (.name n :: .colon :: .name m :: w)
  | localLabel {n} : Dotted n → n ∉ directives.map String.toList → Shaped [.name n]
  | operation {n w args} : ¬ Dotted n → OptListed ArgSyntax w args → w.head? ≠ some (.name "equ".toList) →
      Shaped (.name n :: w)
  | alias {n w e} : n ∉ directives.map String.toList → ExprSyntax w e → Shaped (.name n :: .name "equ".toList :: w)
  | variable {n w e} : n ∉ directives.map String.toList → ExprSyntax w e → Shaped (.name n :: .equals :: w)
  | byte {w vs} : OptListed ByteSyntax w vs → Shaped (.name ".byte".toList :: w)
  | word {w es} : OptListed ExprSyntax w es → Shaped (.name ".word".toList :: w)
  | org {v radix} : Shaped [.name ".org".toList, .number v radix]
  | text {v radix s} : Shaped [.name ".text".toList, .number v radix, .string s]
  | string {v radix s} : Shaped [.name ".string".toList, .number v radix, .string s]
  | cnop {w a w' m} : ExprSyntax w a → ExprSyntax w' m → Shaped (.name ".cnop".toList :: (w ++ .comma :: w'))
  | incl {path} : Shaped [.name ".include".toList, .string path]
  | typed {kind path} : kind ∈ ["asm", "bytes", "cpp"].map String.toList →
      Shaped [.name ".include".toList, .name kind, .string path]
  | image {kind path w ps} : kind ∈ ["icon", "sprite"].map String.toList → OptListed PropSyntax w ps →
      Shaped (.name ".include".toList :: .name kind :: .string path :: w)

/-! ### Errors about a token -/

/-- The kinds of files that can be included -/
def kinds5 : List Text := ["asm", "bytes", "cpp", "icon", "sprite"].map String.toList

/-- `Wanted x t`: the error says that something like `t` is missing.  For an expression this is a macro parameter, which
stands nowhere else. -/
inductive Wanted : Err → Tok → Prop where
  | comma : Wanted (.expectedTokenNotFound "','".toList) .comma
  | rightParen : Wanted (.expectedTokenNotFound "')'".toList) .rightParen
  | name {n} : n ∉ kinds5 → Wanted (.expectedTokenNotFound "Name".toList) (.name n)
  | number {v radix} : Wanted (.expectedTokenNotFound "Number".toList) (.number v radix)
  | string {s} : Wanted (.expectedTokenNotFound "String".toList) (.string s)
  | equals : Wanted (.expectedTokenNotFound "=".toList) .equals
  | kind {n} : n ∈ ["asm", "bytes", "cpp"].map String.toList →
      Wanted (.expectedTokenNotFound "Include Type".toList) (.name n)
  | expression {n} : Wanted .invalidExpression (.macroIdent n)

/-- `May x t`: a token like `t` can stand where the error says something is missing. -/
inductive May : Err → Tok → Prop where
  | expression {t} : May .invalidExpression t
  | wanted {x t} : Wanted x t → May x t
  | name {n} : May (.expectedTokenNotFound "Name".toList) (.name n)
  | kind {n} : n ∈ kinds5 → May (.expectedTokenNotFound "Include Type".toList) (.name n)
  | path {s} : May (.expectedTokenNotFound "Include Type".toList) (.string s)
  | operator {x t lv f} : BinOp t lv f → May x t
  | colon {x} : May x .colon
  | eof {x} : May x .eof

/-- Where an error about the token `t` points: at its start if it should start an expression, else at all of it. -/
def about (x : Err) (t : Token) : Place :=
  if x = .invalidExpression then .location t.start else .span t.span

/-! ### What is wrong with a line -/

/-- The tokens without their places -/
abbrev words (l : List Token) : List Tok := l.map Token.tok

/-- In the language `L`, the token can come after `w`. -/
def Follow (L : List Tok → Prop) (w : List Tok) (t : Tok) : Prop := ∃ more, L (w ++ t :: more)

/-- After `w` something is missing, as the error says: such a thing can follow, and nothing but what can stand for it. -/
def Missing (L : List Tok → Prop) (w : List Tok) (x : Err) : Prop :=
  (∃ t, Wanted x t ∧ Follow L w t) ∧ ∀ t, Follow L w t → May x t

/-- `Stuck L l x p`: the tokens `l` are no sentence of the language `L`, and something is missing. -/
inductive Stuck (L : List Tok → Prop) : List Token → Err → Place → Prop where
  /-- The token `t` is the first one that cannot be there. -/
  | token {w t rest x} : Missing L (words w) x → ¬ Follow L (words w) t.tok → (t.tok = .eof → ¬ L (words w)) →
      Stuck L (w ++ t :: rest) x (about x t)
  /-- The tokens end too early. -/
  | short {l} : (∃ t, Follow L (words l) t) → ¬ L (words l) → Stuck L l .unexpectedEof .nowhere

/-- The line begins as every line does: with a name, and if this is a label and something follows, with a name for it. -/
def Begun (l : List Token) : Prop :=
  ∃ t n rest, l = t :: rest ∧ t.tok = .name n ∧
    ∀ c u more, rest = c :: u :: more → c.tok = .colon → ∃ m, u.tok = .name m ∧ ¬ Dotted m

/-- The tokens read as this argument, and this part of them is highlighted for it. -/
inductive ArgPlace : List Token → Verif.Arg → Range → Prop where
  | mode {t r} : ModeTok t.tok r → ArgPlace [t] (.im r) ⟨t.start, t.stop⟩
  | immediate {t w e r} : t.tok = .hash → Places.Highlights .bitwise w e r → ArgPlace (t :: w) (.imm e) r
  | param {w n r} : Places.Highlights .bitwise w (.macroArg n) r → ArgPlace w (.macroArg n) r
  | expr {w e r} : Places.Highlights .bitwise w e r → (∀ n, e ≠ .macroArg n) → ArgPlace w (.ex e) r

/-- What is highlighted for an instruction: the part from its name to the end of its last argument. -/
def InstrPlace (t : Token) (w : List Token) (args : List Verif.Arg) (s : Span) : Prop :=
  s.parents = [] ∧ s.start = t.start ∧
    ((w = [] ∧ s.stop = t.stop) ∨
      ∃ w1 w2 a r, w = w1 ++ w2 ∧ args.getLast? = some a ∧ ArgPlace w2 a r ∧ s.stop = r.stop)

/-- What is highlighted for the value of a property: the string, or the part of the expression. -/
def ValuePlace (w : List Token) : Verif.ByteValue → Span → Prop
  | .str b, s => ∃ u ∈ w, ∃ t, u.tok = .string t ∧ b = utf8 t ∧ s = u.span
  | .expr e, s => s.parents = [] ∧ ∃ w', w' <:+: w ∧ Places.Highlights .bitwise w' e s.range

/-- How the value of a property is written in messages: the string, or the expression as it is printed (C15). -/
def Worded : Verif.ByteValue → Text → Prop
  | .str b, x => b = utf8 x
  | .expr e, x => x = e.print

/-- A line that has the right shape, but not a meaning; it is followed by the tokens `e`. -/
inductive Meaningless : List Token → Err → Place → Prop where
  /-- The arguments of an instruction are not of the right kinds. -/
  | operands {t n w args e s} : t.tok = .name n → Mnemonic n → OptListed ArgSyntax (words w) args →
      (¬ ∃ i, Writes n args i) → LineEnd (words e) → InstrPlace t w args s →
      Meaningless (t :: (w ++ e)) (.wrongInstructionArgs n) (.span s)
  | bytes {t e} : t.tok = .name ".byte".toList → LineEnd (words e) → Meaningless (t :: e) .missingBytes (.span t.span)
  | words {t e} : t.tok = .name ".word".toList → LineEnd (words e) → Meaningless (t :: e) .missingWords (.span t.span)
  /-- The speed of an icon is a string. -/
  | speed {t k path w ps e s u} : t.tok = .name ".include".toList → k.tok = .name "icon".toList →
      (∃ s, path.tok = .string s) → OptListed PropSyntax (words w) ps → LineEnd (words e) →
      property ps "speed" = some (.str (utf8 s)) → u ∈ w → u.tok = .string s →
      Meaningless (t :: k :: path :: (w ++ e)) .invalidExpression (.location u.start)
  | spriteType {t k path w ps e v s x} : t.tok = .name ".include".toList → k.tok = .name "sprite".toList →
      (∃ s, path.tok = .string s) → OptListed PropSyntax (words w) ps → LineEnd (words e) →
      (¬ ∃ k, SpriteTypeIs ps k) → property ps "type" = some v → ValuePlace w v s → Worded v x →
      Meaningless (t :: k :: path :: (w ++ e)) (.invalidSpriteType x) (.span s)
  | spriteHeader {t k path w ps e v s x} : t.tok = .name ".include".toList → k.tok = .name "sprite".toList →
      (∃ s, path.tok = .string s) → OptListed PropSyntax (words w) ps → LineEnd (words e) →
      (∃ k, SpriteTypeIs ps k) → (¬ ∃ b, SpriteHeaderIs ps b) → property ps "header" = some v → ValuePlace w v s → Worded v x →
      Meaningless (t :: k :: path :: (w ++ e)) (.invalidSpriteHeader x) (.span s)

/-- `LineError l x p`: the line `l` is wrong, and `x` at the place `p` says what the first thing is that is wrong. -/
inductive LineError : List Token → Err → Place → Prop where
  /-- Something is missing. -/
  | stuck {l x p} : Begun l → Stuck Shaped l x p → LineError l x p
  /-- The line is complete and there is something after it. -/
  | excess {w t rest} : Shaped (words w) → t.tok ≠ .eof → ¬ Follow Shaped (words w) t.tok →
      (∀ x u, Wanted x u → ¬ Follow Shaped (words w) u) → LineError (w ++ t :: rest) .unexpectedToken (.span t.span)
  /-- The line does not start with a name. -/
  | start {t rest} : (∀ n, t.tok ≠ .name n) → t.tok ≠ .eof → LineError (t :: rest) .unexpectedToken (.span t.span)
  /-- After a label there is something else than the name of an instruction or a macro. -/
  | label {t n c u rest} : t.tok = .name n → c.tok = .colon → (∀ m, u.tok = .name m → Dotted m) → u.tok ≠ .eof →
      LineError (t :: c :: u :: rest) .invalidInstruction (.span u.span)
  /-- A name with a dot that is no directive, followed by something that is no definition. -/
  | directive {t n u rest} : t.tok = .name n → Dotted n → n ∉ directives.map String.toList →
      u.tok ≠ .colon → u.tok ≠ .equals → u.tok ≠ .name "equ".toList → u.tok ≠ .eof →
      LineError (t :: u :: rest) (.unknownDirective n) (.span t.span)
  /-- The line has the right shape, but no meaning. -/
  | meaning {l x p} : (∀ t u rest, l = t :: u :: rest → u.tok ≠ .name "equ".toList) → Meaningless l x p → LineError l x p
  | labelled {t n c l x p} : t.tok = .name n → c.tok = .colon → (∀ u, l.head? = some u → ∃ m, u.tok = .name m ∧ ¬ Dotted m) →
      Meaningless l x p → LineError (t :: c :: l) x p

/-! ### What is wrong with a program -/

/-- A line that is right -/
def Right (l : List Token) : Prop := ∃ w e ss, words l = w ++ e ∧ LineSyntax w ss ∧ LineEnd e

/-- A macro: the token where it is named, its name, and how many parameters it has -/
structure Named where
  token : Token
  name : Text
  arity : Nat

/-- `After ls os ds inside`: the macro definitions in the lines `ls` are right.  `os` are the lines outside of them, and
`ds` are the macros, latest first.  `inside` says whether the lines end inside of a macro definition. -/
inductive After : List (List Token) → List (List Token) → List Named → Bool → Prop where
  | nil : After [] [] [] false
  | line {ls os ds l} : After ls os ds false → (words l).head? ≠ some (.macroIdent "%macro".toList) →
      After (ls ++ [l]) (os ++ [l]) ds false
  | first {ls os ds m u rest n params} : After ls os ds false → HeaderSyntax (words (m :: u :: rest)) n params → ¬ Mnemonic n →
      params.Nodup → (∀ d ∈ ds, ¬ (d.name = n ∧ d.arity = params.length)) →
      After (ls ++ [m :: u :: rest]) os (⟨u, n, params.length⟩ :: ds) true
  | body {ls os ds l ss} : After ls os ds true → (words l).head? ≠ some (.macroIdent "%end".toList) → MacroLine (words l) ss →
      After (ls ++ [l]) os ds true
  | last {ls os ds m e} : After ls os ds true → m.tok = .macroIdent "%end".toList → LineEnd (words e) →
      After (ls ++ [m :: e]) os ds false

/-- The argument is in its place among the arguments: only commas separate it from what comes before and after it. -/
def Between (w1 w3 : List Token) : Prop :=
  (w1 = [] ∨ w1.getLast?.map Token.tok = some .comma) ∧ (w3 = [] ∨ w3.head?.map Token.tok = some .comma)

/-- `HeaderError ds l x p`: after the macros `ds`, something is wrong with the first line `l` of a macro definition. -/
inductive HeaderError (ds : List Named) : List Token → Err → Place → Prop where
  | short {m} : HeaderError ds [m] .unexpectedEof .nowhere
  | name {m u rest} : (∀ n, u.tok ≠ .name n) →
      HeaderError ds (m :: u :: rest) (.expectedTokenNotFound "Name".toList) (.span u.span)
  /-- The name is that of an instruction. -/
  | conflict {m u n rest} : u.tok = .name n → Mnemonic n →
      HeaderError ds (m :: u :: rest) (.macroNameConflict n) (.span u.span)
  /-- The parameters are no list of arguments. -/
  | args {m u n rest x p} : u.tok = .name n → ¬ Mnemonic n → Stuck (fun w => ∃ args, OptListed ArgSyntax w args) rest x p →
      HeaderError ds (m :: u :: rest) x p
  /-- There is such a macro already. -/
  | «exists» {m u n w args e d} : u.tok = .name n → ¬ Mnemonic n → OptListed ArgSyntax (words w) args → LineEnd (words e) →
      d ∈ ds → d.name = n → d.arity = args.length →
      HeaderError ds (m :: u :: (w ++ e)) (.macroAlreadyExists n args.length) (.spans u.span d.token.span)
  /-- The parameter `n`, after the parameters `before`, is one of them.  The token is the second one with this name. -/
  | duplicate {m u n w} {before : List Text} {after e k w1 v w2} : u.tok = .name n → ¬ Mnemonic n →
      OptListed ArgSyntax (words w) (before.map .macroArg ++ .macroArg k :: after) → LineEnd (words e) →
      (∀ d ∈ ds, ¬ (d.name = n ∧ d.arity = before.length + 1 + after.length)) → before.Nodup → k ∈ before →
      w = w1 ++ v :: w2 → v.tok = .macroIdent k → (words w1).count (.macroIdent k) = 1 →
      HeaderError ds (m :: u :: (w ++ e)) (.duplicateMacroArg k) (.span v.span)
  /-- The argument `a`, after the parameters `before`, is no parameter. -/
  | invalid {m u n} {before : List Text} {a after e w1 w2 w3 s} : u.tok = .name n → ¬ Mnemonic n →
      OptListed ArgSyntax (words (w1 ++ w2 ++ w3)) (before.map .macroArg ++ a :: after) → LineEnd (words e) →
      (∀ d ∈ ds, ¬ (d.name = n ∧ d.arity = before.length + 1 + after.length)) → before.Nodup → (∀ k, a ≠ .macroArg k) →
      Between w1 w3 → ArgPlace w2 a s.range → s.parents = [] →
      HeaderError ds (m :: u :: (w1 ++ w2 ++ w3 ++ e)) .invalidMacroParam (.span s)

/-- The label at the beginning of a line of a macro -/
def Labels (w : List Token) : Prop := ∃ ss, MacroLabelSyntax (words w) ss

/-- `BodyError l x p`: something is wrong with the line `l` in the body of a macro. -/
inductive BodyError : List Token → Err → Place → Prop where
  /-- A name with a dot where an instruction should be -/
  | dotted {w t n rest} : Labels w → t.tok = .name n → Dotted n → (w = [] → rest ≠ []) →
      (∀ c r, rest = c :: r → w = [] → c.tok ≠ .colon) →
      BodyError (w ++ t :: rest) (.unknownInstruction n) (.span t.span)
  /-- The arguments of an instruction -/
  | args {w t n rest x p} : Labels w → t.tok = .name n → ¬ Dotted n → (∀ c r, rest = c :: r → w = [] → c.tok ≠ .colon) →
      Stuck (fun w => ∃ args, OptListed ArgSyntax w args) rest x p → BodyError (w ++ t :: rest) x p
  /-- Something that is no name where an instruction should be -/
  | excess {w t rest} : Labels w → (∀ n, t.tok ≠ .name n) → t.tok ≠ .eof →
      (∀ n, w = [] → t.tok = .macroLabel n → (Dotted n → rest ≠ []) ∧ ∀ c r, rest = c :: r → c.tok ≠ .colon) →
      BodyError (w ++ t :: rest) .unexpectedToken (.span t.span)

/-- `ProgramError ls x p`: something is wrong with the lines `ls`, and `x` at the place `p` says what is reported.  Macro
definitions come before everything else. -/
inductive ProgramError : List (List Token) → Err → Place → Prop where
  | header {ls os ds l ls' x p} : After ls os ds false → (words l).head? = some (.macroIdent "%macro".toList) →
      HeaderError ds l x p → ProgramError (ls ++ l :: ls') x p
  | body {ls os ds l ls' x p} : After ls os ds true → (words l).head? ≠ some (.macroIdent "%end".toList) →
      BodyError l x p → ProgramError (ls ++ l :: ls') x p
  /-- Something after `%end` -/
  | ending {ls os ds m u rest ls'} : After ls os ds true → m.tok = .macroIdent "%end".toList → u.tok ≠ .eof →
      ProgramError (ls ++ (m :: u :: rest) :: ls') .unexpectedToken (.span u.span)
  /-- The macro definitions are right.  This is the first of the other lines that is wrong. -/
  | line {ls before l after ds inside x p} : After ls (before ++ l :: after) ds inside → (∀ o ∈ before, Right o) →
      LineError l x p → ProgramError ls x p

/-- `SyntaxError tokens x p`: the tokens are no program, and `x` at the place `p` says what is wrong. -/
def SyntaxError (tokens : List Token) (x : Err) (p : Place) : Prop := ∃ ls, SplitsInto tokens ls ∧ ProgramError ls x p

end Verif.Spec.Syntax
