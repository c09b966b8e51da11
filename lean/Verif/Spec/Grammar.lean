import Verif.Model.Parser
import Verif.Spec.Macros
/-
Specification: the grammar of expressions, lines, macro definitions and programs over tokens, as
inductive relations independent of the recursive descent in src/parser.rs.
-/
namespace Verif.Spec

/-! ### Expressions -/

/-- Binding strength, from loosest to tightest: `& | ^`, then `+ -`, then `* /`, then the prefix
operators, then names, numbers and parentheses. -/
inductive Level where
  | bitwise | sum | product | unary | atom
  deriving DecidableEq, Repr

/-- The next tighter level. -/
def Level.tighter : Level → Level
  | .bitwise => .sum
  | .sum => .product
  | .product => .unary
  | .unary => .atom
  | .atom => .atom

/-- The binary operators: token, level and meaning. -/
inductive BinOp : Tok → Level → (Expr → Expr → Expr) → Prop where
  | bxor : BinOp .caret .bitwise .bxor
  | band : BinOp .ampersand .bitwise .band
  | bor : BinOp .pipe .bitwise .bor
  | plus : BinOp .plus .sum .plus
  | minus : BinOp .minus .sum .minus
  | times : BinOp .times .product .times
  | divide : BinOp .divide .product .divide

/-- The prefix operators. -/
inductive PreOp : Tok → (Expr → Expr) → Prop where
  | minus : PreOp .minus .uminus
  | upper : PreOp .upperByte .upperByte
  | lower : PreOp .lowerByte .lowerByte

/-- The expressions of one token. -/
inductive AtomTok : Tok → Expr → Prop where
  | name {n} : AtomTok (.name n) (.name n)
  | number {v radix} : AtomTok (.number v radix) (.number v radix)
  | label {n} : AtomTok (.macroLabel n) (.macroLabel n)
  | param {n} : AtomTok (.macroIdent n) (.macroArg n)

/-- `Sentence lv w e`: the tokens `w` read as the expression `e` in a place where operators of level `lv`
or tighter may stand outside parentheses.  Binary operators group to the left: the right operand is of
the next tighter level. -/
inductive Sentence : Level → List Tok → Expr → Prop where
  | atom {t e} : AtomTok t e → Sentence .atom [t] e
  | paren {w e} : Sentence .bitwise w e → Sentence .atom (.leftParen :: (w ++ [.rightParen])) e
  | pre {t f w e} : PreOp t f → Sentence .unary w e → Sentence .unary (t :: w) (f e)
  | binary {t lv f w l w' r} : BinOp t lv f → Sentence lv w l → Sentence lv.tighter w' r →
      Sentence lv (w ++ t :: w') (f l r)
  | tight {lv w e} : Sentence lv.tighter w e → Sentence lv w e

/-- `w` reads as the expression `e`. -/
abbrev ExprSyntax (w : List Tok) (e : Expr) : Prop := Sentence .bitwise w e

/-- The tokens left do not continue an expression. -/
def NoOperator (rest : List Tok) : Prop := ∀ t ts lv f, rest = t :: ts → ¬ BinOp t lv f

/-- The level of the outermost operator of an expression. -/
def levelOf : Expr → Level
  | .bxor _ _ | .band _ _ | .bor _ _ => .bitwise
  | .plus _ _ | .minus _ _ => .sum
  | .times _ _ | .divide _ _ => .product
  | .uminus _ | .upperByte _ | .lowerByte _ => .unary
  | _ => .atom

/-- How loose a level is. -/
def Level.rank : Level → Nat
  | .bitwise => 0 | .sum => 1 | .product => 2 | .unary => 3 | .atom => 4

/-- Put in parentheses if the expression binds looser than its place asks for. -/
def bracket (place : Level) (e : Expr) (w : List Tok) : List Tok :=
  if (levelOf e).rank < place.rank then .leftParen :: (w ++ [.rightParen]) else w

/-- The tokens of an expression, with no more parentheses than needed. -/
def written : Expr → List Tok
  | .name n => [.name n]
  | .number v radix => [.number v radix]
  | .macroLabel n => [.macroLabel n]
  | .macroArg n => [.macroIdent n]
  | .bxor l r => bracket .bitwise l (written l) ++ .caret :: bracket .sum r (written r)
  | .band l r => bracket .bitwise l (written l) ++ .ampersand :: bracket .sum r (written r)
  | .bor l r => bracket .bitwise l (written l) ++ .pipe :: bracket .sum r (written r)
  | .plus l r => bracket .sum l (written l) ++ .plus :: bracket .product r (written r)
  | .minus l r => bracket .sum l (written l) ++ .minus :: bracket .product r (written r)
  | .times l r => bracket .product l (written l) ++ .times :: bracket .unary r (written r)
  | .divide l r => bracket .product l (written l) ++ .divide :: bracket .unary r (written r)
  | .uminus e => .minus :: bracket .unary e (written e)
  | .upperByte e => .upperByte :: bracket .unary e (written e)
  | .lowerByte e => .lowerByte :: bracket .unary e (written e)

/-! ### Lists, arguments, directives -/

/-- One or more items separated by commas. -/
inductive Listed {α : Type} (Item : List Tok → α → Prop) : List Tok → List α → Prop where
  | one {w a} : Item w a → Listed Item w [a]
  | cons {w a w' as} : Item w a → Listed Item w' as → Listed Item (w ++ .comma :: w') (a :: as)

/-- Nothing, or items separated by commas. -/
def OptListed {α : Type} (Item : List Tok → α → Prop) (w : List Tok) (as : List α) : Prop :=
  (w = [] ∧ as = []) ∨ Listed Item w as

/-- The indirection modes. -/
inductive ModeTok : Tok → IM → Prop where
  | r0 : ModeTok .r0 .R0
  | r1 : ModeTok .r1 .R1
  | r2 : ModeTok .r2 .R2
  | r3 : ModeTok .r3 .R3

/-- An argument: `@Rn`, `#e`, an expression, or a macro parameter. -/
inductive ArgSyntax : List Tok → Arg → Prop where
  | im {t r} : ModeTok t r → ArgSyntax [t] (.im r)
  | imm {w e} : ExprSyntax w e → ArgSyntax (.hash :: w) (.imm e)
  | param {w n} : ExprSyntax w (.macroArg n) → ArgSyntax w (.macroArg n)
  | ex {w e} : ExprSyntax w e → (∀ n, e ≠ .macroArg n) → ArgSyntax w (.ex e)

/-- A `.byte` item: a string, for its UTF-8 bytes, or an expression. -/
inductive ByteSyntax : List Tok → ByteValue → Prop where
  | str {s} : ByteSyntax [.string s] (.str (String.ofList s).toUTF8.data.toList)
  | expr {w e} : ExprSyntax w e → ByteSyntax w (.expr e)

/-- `key = value`. -/
inductive PropSyntax : List Tok → Text × ByteValue → Prop where
  | mk {key w v} : ByteSyntax w v → PropSyntax (.name key :: .equals :: w) (key, v)

/-- The value of a property: the one given last. -/
def property (ps : List (Text × ByteValue)) (key : String) : Option ByteValue :=
  (ps.filter (·.1 = key.toList)).getLast?.map (·.2)

/-- The bytes of a word. -/
def bytesOf (s : String) : List UInt8 := s.toUTF8.data.toList

/-- The sprite type the properties ask for. -/
inductive SpriteTypeIs (ps : List (Text × ByteValue)) : SpriteType → Prop where
  | default : property ps "type" = none → SpriteTypeIs ps .simple
  | simple : property ps "type" = some (.str (bytesOf "simple")) → SpriteTypeIs ps .simple
  | masked : property ps "type" = some (.str (bytesOf "masked")) → SpriteTypeIs ps .masked

/-- Whether the properties ask for a sprite header. -/
inductive SpriteHeaderIs (ps : List (Text × ByteValue)) : Bool → Prop where
  | default : property ps "header" = none → SpriteHeaderIs ps true
  | yes : property ps "header" = some (.str (bytesOf "yes")) → SpriteHeaderIs ps true
  | no : property ps "header" = some (.str (bytesOf "no")) → SpriteHeaderIs ps false

/-- The icon speed the properties give. -/
inductive IconSpeedIs (ps : List (Text × ByteValue)) : Option Expr → Prop where
  | none : property ps "speed" = none → IconSpeedIs ps none
  | some {e} : property ps "speed" = some (.expr e) → IconSpeedIs ps (some e)

/-- What a literal stands for as an unsigned 64-bit number. -/
def unsigned (v : Int) : Nat := (v % 2 ^ 64).toNat

/-- A directive, beginning with its name. -/
inductive DirSyntax : List Tok → Directive → Prop where
  | byte {w vs} : Listed ByteSyntax w vs → DirSyntax (.name ".byte".toList :: w) (.byte vs)
  | word {w es} : Listed ExprSyntax w es → DirSyntax (.name ".word".toList :: w) (.word es)
  | org {v radix} : DirSyntax [.name ".org".toList, .number v radix] (.org (unsigned v))
  | text {v radix s} : DirSyntax [.name ".text".toList, .number v radix, .string s]
      (.text (unsigned v) (String.ofList s).toUTF8.data.toList)
  | string {v radix s} : DirSyntax [.name ".string".toList, .number v radix, .string s]
      (.string (unsigned v) (String.ofList s).toUTF8.data.toList)
  | cnop {w a w' m} : ExprSyntax w a → ExprSyntax w' m →
      DirSyntax (.name ".cnop".toList :: (w ++ .comma :: w')) (.cnop a m)
  | incl {path} : DirSyntax [.name ".include".toList, .string path] (.incl .asm path)
  | asm {path} : DirSyntax [.name ".include".toList, .name "asm".toList, .string path] (.incl .asm path)
  | bytes {path} : DirSyntax [.name ".include".toList, .name "bytes".toList, .string path] (.incl .bytes path)
  | cpp {path} : DirSyntax [.name ".include".toList, .name "cpp".toList, .string path] (.incl .cHeader path)
  | icon {path w ps speed} : OptListed PropSyntax w ps → IconSpeedIs ps speed →
      DirSyntax (.name ".include".toList :: .name "icon".toList :: .string path :: w)
        (.incl (.icon speed (property ps "eyecatch")) path)
  | sprite {path w ps t h} : OptListed PropSyntax w ps → SpriteTypeIs ps t → SpriteHeaderIs ps h →
      DirSyntax (.name ".include".toList :: .name "sprite".toList :: .string path :: w)
        (.incl (.sprite t h) path)

/-- The names of directives. -/
def directives : List String := [".byte", ".word", ".org", ".text", ".string", ".include", ".cnop"]

/-! ### Lines -/

/-- A name beginning with a dot. -/
def Dotted (n : Text) : Prop := ∃ cs, n = '.' :: cs

/-- The mnemonic of an instruction. -/
def Mnemonic (n : Text) : Prop := ∃ f, n = (row f).name.toList

/-- An instruction or a macro call. -/
inductive InstrSyntax : List Tok → Stmt → Prop where
  | instr {n w args i} : OptListed ArgSyntax w args → Writes n args i → InstrSyntax (.name n :: w) (.instr i)
  | call {n w args} : ¬ Mnemonic n → ¬ Dotted n → OptListed ArgSyntax w args →
      InstrSyntax (.name n :: w) (.macroCall n args)

/-- The statements of a line.  `x equ …` is always a definition, so an instruction line may not have
`equ` as its second word. -/
inductive LineSyntax : List Tok → List Stmt → Prop where
  | empty : LineSyntax [] []
  | label {n} : LineSyntax [.name n, .colon] [.label n]
  | labelled {n w s} : InstrSyntax w s → LineSyntax (.name n :: .colon :: w) [.label n, s]
  | localLabel {n} : Dotted n → n ∉ directives.map String.toList → LineSyntax [.name n] [.label n]
  | instr {w s} : InstrSyntax w s → w[1]? ≠ some (.name "equ".toList) → LineSyntax w [s]
  | directive {w d} : DirSyntax w d → LineSyntax w [.dir d]
  | alias {n w e} : n ∉ directives.map String.toList → ExprSyntax w e →
      LineSyntax (.name n :: .name "equ".toList :: w) [.alias n e]
  | variable {n w e} : n ∉ directives.map String.toList → ExprSyntax w e →
      LineSyntax (.name n :: .equals :: w) [.variable n e]

/-- The end of a line of tokens: nothing, or the end of the file. -/
def LineEnd (ts : List Tok) : Prop := ts = [] ∨ ∃ more, ts = .eof :: more

/-! ### Macro definitions and programs -/

/-- The optional label of a line of a macro. -/
inductive MacroLabelSyntax : List Tok → List MacroStmt → Prop where
  | none : MacroLabelSyntax [] []
  | label {n} : MacroLabelSyntax [.name n, .colon] [.label n]
  | macroLabel {n} : MacroLabelSyntax [.macroLabel n, .colon] [.macroLabel n]

/-- The optional instruction of a line of a macro. -/
inductive MacroInstrSyntax : List Tok → List MacroStmt → Prop where
  | none : MacroInstrSyntax [] []
  | instr {n w args} : ¬ Dotted n → OptListed ArgSyntax w args → MacroInstrSyntax (.name n :: w) [.instr n args]

/-- A whole line of a macro, with the end of the file if it is there.  A local label may stand alone
without a colon, but not directly before the end of the file. -/
inductive MacroLine : List Tok → List MacroStmt → Prop where
  | mk {w ss w' ss' e} : MacroLabelSyntax w ss → MacroInstrSyntax w' ss' → LineEnd e →
      MacroLine (w ++ w' ++ e) (ss ++ ss')
  | localLabel {n} : Dotted n → MacroLine [.name n] [.label n]
  | localMacroLabel {n} : Dotted n → MacroLine [.macroLabel n] [.macroLabel n]

/-- The first line of a macro definition. -/
def HeaderSyntax (l : List Tok) (name : Text) (params : List Text) : Prop :=
  ∃ w e, l = .macroIdent "%macro".toList :: .name name :: (w ++ e) ∧
    OptListed ArgSyntax w (params.map .macroArg) ∧ LineEnd e

/-- The lines of the body of a macro. -/
inductive BodySyntax : List (List Tok) → List MacroStmt → Prop where
  | nil : BodySyntax [] []
  | cons {l ss ls rest} : l.head? ≠ some (.macroIdent "%end".toList) → MacroLine l ss → BodySyntax ls rest →
      BodySyntax (l :: ls) (ss ++ rest)

/-- A macro may be defined: no instruction has its name, its parameters are distinct, and no earlier
macro has the same name and as many parameters. -/
def Definable (earlier : List MacroDef) (name : Text) (params : List Text) : Prop :=
  ¬ Mnemonic name ∧ params.Nodup ∧ ∀ d ∈ earlier, ¬ (d.name = name ∧ d.args.length = params.length)

/-- The program of a list of lines, given the macros defined before, latest first: its statements and all
macros.  A definition ends at `%end`, or at the end of the program. -/
inductive ProgramSyntax : List MacroDef → List (List Tok) → List Stmt → List MacroDef → Prop where
  | nil {ms} : ProgramSyntax ms [] [] ms
  | line {ms w e ls ss rest ms'} : (w ++ e).head? ≠ some (.macroIdent "%macro".toList) →
      LineSyntax w ss → LineEnd e → ProgramSyntax ms ls rest ms' →
      ProgramSyntax ms ((w ++ e) :: ls) (ss ++ rest) ms'
  | defn {ms l name params ls body e ls' ss ms'} : HeaderSyntax l name params → Definable ms name params →
      BodySyntax ls body → LineEnd e →
      ProgramSyntax (⟨name, params, body⟩ :: ms) ls' ss ms' →
      ProgramSyntax ms (l :: ls ++ (.macroIdent "%end".toList :: e) :: ls') ss ms'
  | last {ms l name params ls body} : HeaderSyntax l name params → Definable ms name params →
      BodySyntax ls body → ProgramSyntax ms (l :: ls) [] (⟨name, params, body⟩ :: ms)

/-- `MacrosAfter ms ls ms'`: the lines `ls` end outside a macro definition, and reading their macro definitions
after the macros `ms` leaves the macros `ms'`, latest first. -/
inductive MacrosAfter : List MacroDef → List (List Tok) → List MacroDef → Prop where
  | nil {ms} : MacrosAfter ms [] ms
  | line {ms l ls ms'} : l.head? ≠ some (.macroIdent "%macro".toList) → MacrosAfter ms ls ms' →
      MacrosAfter ms (l :: ls) ms'
  | defn {ms l name params ls body e ls' ms'} : HeaderSyntax l name params → Definable ms name params →
      BodySyntax ls body → LineEnd e → MacrosAfter (⟨name, params, body⟩ :: ms) ls' ms' →
      MacrosAfter ms (l :: ls ++ (.macroIdent "%end".toList :: e) :: ls') ms'

/-- The number of opening parentheses. -/
def parens (w : List Tok) : Nat := w.countP fun t => t matches .leftParen

/-- The program with these statements and macros. -/
def programOf (ss : List Stmt) (ms : List MacroDef) : Program :=
  ⟨ms.map fun d => ((d.name, d.args.length), d), ss⟩

/-- `ls` are the lines of `ts`: consecutive non-empty pieces; the other tokens of a line begin on the
line (and in the file) where its first token ends, and the line is as long as possible. -/
inductive SplitsInto : List Token → List (List Token) → Prop where
  | nil : SplitsInto [] []
  | cons {t l rest ls} :
      (∀ x ∈ l, x.start.line = t.stop.line ∧ x.start.file = t.stop.file) →
      (∀ x xs, rest = x :: xs → ¬ (x.start.line = t.stop.line ∧ x.start.file = t.stop.file)) →
      SplitsInto rest ls → SplitsInto (t :: l ++ rest) ((t :: l) :: ls)

/-- The tokens are a program: their lines are. -/
def Parses (toks : List Token) (p : Program) : Prop :=
  ∃ ls ss ms, SplitsInto toks ls ∧ ProgramSyntax [] (ls.map (·.map Token.tok)) ss ms ∧ p = programOf ss ms

end Verif.Spec
