import Verif.Model.Located.Read
import Verif.Spec.Grammar
import Verif.Spec.InstrSet
/-
Specification: where in the source an error message points.
-/
namespace Verif.Spec.Places
open Verif.Located (Range Span Place)

/-! ### Parts of the source -/

/-- A line of the tokens `all`. -/
def IsLine (all l : List Token) : Prop := ∃ ls, SplitsInto all ls ∧ l ∈ ls

/-- The range goes from the beginning of the first of the tokens to the end of the last one. -/
def Covers (w : List Token) (r : Range) : Prop :=
  ∃ a b, w.head? = some a ∧ w.getLast? = some b ∧ r = ⟨a.start, b.stop⟩

/-- The tokens read as the expression (see `Sentence`), and this part of them is what is highlighted for it: a single
token is highlighted itself, parentheses are left out, of a prefix operator and its operand only the operator is
highlighted, and for a binary operator the part from the beginning of what is highlighted for the left operand to the
end of what is highlighted for the right one. -/
inductive Highlights : Level → List Token → Expr → Range → Prop where
  | atom {t : Token} {e} : AtomTok t.tok e → Highlights .atom [t] e ⟨t.start, t.stop⟩
  | paren {a b : Token} {w e r} : a.tok = .leftParen → b.tok = .rightParen → Highlights .bitwise w e r →
      Highlights .atom (a :: (w ++ [b])) e r
  | pre {t : Token} {f w e r} : PreOp t.tok f → Highlights .unary w e r → Highlights .unary (t :: w) (f e) ⟨t.start, t.stop⟩
  | binary {t : Token} {lv f w l r w' l' r'} : BinOp t.tok lv f → Highlights lv w l r → Highlights lv.tighter w' l' r' →
      Highlights lv (w ++ t :: w') (f l l') ⟨r.start, r'.stop⟩
  | tight {lv w e r} : Highlights lv.tighter w e r → Highlights lv w e r

/-! ### Macro expansion -/

/-- The line is in the body of a macro with this name. -/
def InMacro (all : List Token) (n : Text) (l : List Token) : Prop :=
  ∃ before header body after,
    SplitsInto all (before ++ header :: (body ++ after)) ∧
    (∃ rest, header.map Token.tok = .macroIdent "%macro".toList :: .name n :: rest) ∧
    (∀ b ∈ body, b.head?.map Token.tok ≠ some (.macroIdent "%end".toList)) ∧ l ∈ body

/-- On the line, the range goes from the name `n` to a later token: a call of the macro `n`. -/
def CallOn (all : List Token) (n : Text) (l : List Token) (r : Range) : Prop :=
  IsLine all l ∧ ∃ t w, t :: w <:+: l ∧ t.tok = .name n ∧ Covers (t :: w) r

/-- The calls, latest first, that led to the expansion of the macro `n`: the first one is a line of the program and every
other one is in the body of the macro that the one before calls. -/
inductive Expanded (all : List Token) : Text → List Range → Prop where
  | call {n l r} : CallOn all n l r → Expanded all n [r]
  | nested {n l r n' rs} : CallOn all n l r → InMacro all n' l → Expanded all n' rs → Expanded all n (r :: rs)

/-- "Expanded from" these calls is right for something on the line `l`: nothing is reported, or the calls led to the
expansion of a macro, and the line is in the body of that macro or is the line of one of the calls (whose arguments are
put into the body). -/
def Trace (all l : List Token) (calls : List Range) : Prop :=
  calls = [] ∨ ∃ n, Expanded all n calls ∧ (InMacro all n l ∨ ∃ r ∈ calls, ∃ n', CallOn all n' l r)

/-- The tokens `w`, on one line, are highlighted. -/
def Shown (all w : List Token) (s : Span) : Prop :=
  ∃ l, IsLine all l ∧ w <:+: l ∧ Covers w s.range ∧ Trace all l s.parents

/-- The expression is highlighted. -/
def ShownExpr (all : List Token) (e : Expr) (s : Span) : Prop :=
  ∃ l w, IsLine all l ∧ w <:+: l ∧ Highlights .bitwise w e s.range ∧ Trace all l s.parents

/-- The name `n` is written by this token, or made from it in the expansion of a macro: from `%l`, a name `l_…`. -/
def Spelt (t : Token) (n : Text) : Prop :=
  t.tok = .name n ∨ ∃ m u, t.tok = .macroLabel m ∧ n = m.filter (· ≠ '%') ++ '_' :: u

/-- The token is highlighted. -/
def ShownToken (all : List Token) (t : Token) (s : Span) : Prop := Shown all [t] s

/-- What is highlighted starts with this token. -/
def ShownFrom (all : List Token) (t : Token) (s : Span) : Prop := ∃ w, Shown all (t :: w) s

/-- What is highlighted starts with the definition of the name. -/
def Defines (all : List Token) (n : Text) (s : Span) : Prop := ∃ t m, ShownFrom all t s ∧ Spelt t m ∧ n = lower m

/-- No expression starts with this token. -/
def StartsNone (t : Token) : Prop := (∀ e, ¬ AtomTok t.tok e) ∧ (∀ f, ¬ PreOp t.tok f) ∧ t.tok ≠ .leftParen

/-- The errors that say that a number does not fit. -/
inductive Misfit : Err → Prop where
  | bits {b v} : Misfit (.numOutOfRange b v)
  | signed {b v} : Misfit (.signedNumOutOfRange b v)
  | top {p v} : Misfit (.addrBitsDontMatch p v)
  | address {v} : Misfit (.invalidAddress v)
  | byte {v} : Misfit (.byteOutOfRange v)
  | word {v} : Misfit (.wordOutOfRange v)

/-- The errors without a place. -/
inductive Placeless : Err → Prop where
  | eof : Placeless .unexpectedEof
  | load {p} : Placeless (.fileLoadFailure p)
  | utf8 {p} : Placeless (.fileUtf8Error p)
  | iconSize {p w h} : Placeless (.invalidIconSize p w h)
  | palette {p n k} : Placeless (.invalidPaletteSize p n k)

/-- `Blames all load e p`: the error `e` is reported at the right place `p` of a program with the tokens `all`; `load`
reads image files. -/
inductive Blames (all : List Token) (load : Text → Res Image) : Err → Place → Prop where
  | nameNotFound {t n s} : ShownToken all t s → Spelt t n → Blames all load (.nameNotFound n) (.span s)
  | divideByZero {l r a s} : ShownExpr all (.divide l r) s → Blames all load (.divideByZero a) (.span s)
  | misfit {x e s} : Misfit x → ShownExpr all e s → Blames all load x (.span s)
  /-- An icon with too many frames: the number of frames is written nowhere, and the place is the very beginning. -/
  | frames {path i} : load path = .ok i → 65536 ≤ i.frames.length →
      Blames all load (.wordOutOfRange (wrap32 i.frames.length)) (.span .default)
  /-- An animated sprite with a frame, other than the first one, that is too large: likewise. -/
  | frameSize {path i f v} : load path = .ok i → f ∈ i.frames.tail → v = wrap32 f.width ∨ v = wrap32 f.height →
      Blames all load (.byteOutOfRange v) (.span .default)
  | mustBeLiteralNumber {e s} : ShownExpr all e s → (∀ v radix, e ≠ .number v radix) →
      Blames all load .mustBeLiteralNumber (.span s)
  | invalidPath {e x s} : ShownExpr all e s → Blames all load (.invalidPath x) (.span s)
  /-- The place is the parameter in the body of the macro, "expanded from" its value. -/
  | immediateNotAllowed {t n s r rs} : ShownToken all t ⟨s.start, s.stop, []⟩ → t.tok = .macroIdent n →
      s.parents = r :: rs → (∃ e, ShownExpr all e ⟨r.start, r.stop, rs⟩) → Blames all load .immediateNotAllowed (.span s)
  | indirectionNotAllowed {t n s x r rs} : ShownToken all t ⟨s.start, s.stop, []⟩ → t.tok = .macroIdent n →
      s.parents = r :: rs → ShownToken all x ⟨r.start, r.stop, rs⟩ → (∃ im, ModeTok x.tok im) →
      Blames all load .indirectionNotAllowed (.span s)
  | macroLabelOutside {t n s} : ShownToken all t s → t.tok = .macroLabel n →
      Blames all load (.macroLabelOutsideOfMacro n) (.span s)
  | macroArgOutside {t n s} : ShownToken all t s → t.tok = .macroIdent n →
      Blames all load (.macroArgOutsideOfMacro n) (.span s)
  | invalidMacroArg {t n s} : ShownToken all t s → t.tok = .macroIdent n → Blames all load (.invalidMacroArg n) (.span s)
  | nameAlreadyExists {n s s'} : Defines all n s → Defines all n s' → Blames all load (.nameAlreadyExists n) (.spans s s')
  | bytesLongerThanLength {t n k s} : ShownFrom all t s → t.tok = .name ".text".toList ∨ t.tok = .name ".string".toList →
      n < k → Blames all load (.bytesLongerThanLength n k) (.span s)
  | invalidCodeLocation {t k v radix s} : Shown all [t, k] s → t.tok = .name ".org".toList → k.tok = .number v radix →
      Blames all load (.invalidCodeLocation (wrap32 (unsigned v))) (.span s)
  | noSuchMacro {t n s} : ShownFrom all t s → t.tok = .name n → Blames all load (.noSuchMacro n) (.span s)
  | unknownInstruction {t n s} : ShownFrom all t s → t.tok = .name n → Blames all load (.unknownInstruction n) (.span s)
  | wrongInstructionArgs {t n s} : ShownFrom all t s → t.tok = .name n → Mnemonic n →
      Blames all load (.wrongInstructionArgs n) (.span s)
  | duplicateLabel {t n s} : ShownFrom all t s → t.tok = .macroLabel n → Blames all load (.duplicateLabel n) (.span s)
  | unexpectedToken {t s} : ShownToken all t s → Blames all load .unexpectedToken (.span s)
  | invalidInstruction {t s} : ShownToken all t s → Blames all load .invalidInstruction (.span s)
  | expectedTokenNotFound {t what s} : ShownToken all t s → Blames all load (.expectedTokenNotFound what) (.span s)
  | unknownDirective {t n s} : ShownToken all t s → t.tok = .name n → Blames all load (.unknownDirective n) (.span s)
  /-- The place is the beginning of a token. -/
  | invalidExpression {t} : t ∈ all → StartsNone t → Blames all load .invalidExpression (.location t.start)
  | missingBytes {t s} : ShownToken all t s → t.tok = .name ".byte".toList → Blames all load .missingBytes (.span s)
  | missingWords {t s} : ShownToken all t s → t.tok = .name ".word".toList → Blames all load .missingWords (.span s)
  | macroAlreadyExists {t t' n k s s'} : ShownToken all t s → t.tok = .name n → ShownToken all t' s' →
      t'.tok = .name n → Blames all load (.macroAlreadyExists n k) (.spans s s')
  | macroNameConflict {t n s} : ShownToken all t s → t.tok = .name n → Blames all load (.macroNameConflict n) (.span s)
  | duplicateMacroArg {t n s} : ShownToken all t s → t.tok = .macroIdent n →
      Blames all load (.duplicateMacroArg n) (.span s)
  | paramExpr {e s} : ShownExpr all e s → Blames all load .invalidMacroParam (.span s)
  | paramMode {t im s} : ShownToken all t s → ModeTok t.tok im → Blames all load .invalidMacroParam (.span s)
  | typeExpr {e x s} : ShownExpr all e s → Blames all load (.invalidSpriteType x) (.span s)
  | typeString {t x s} : ShownToken all t s → t.tok = .string x → Blames all load (.invalidSpriteType x) (.span s)
  | headerExpr {e x s} : ShownExpr all e s → Blames all load (.invalidSpriteHeader x) (.span s)
  | headerString {t x s} : ShownToken all t s → t.tok = .string x → Blames all load (.invalidSpriteHeader x) (.span s)
  | spriteTooWide {t x path i f rest s} : ShownToken all t s → t.tok = .string x → load path = .ok i → i.frames = f :: rest →
      255 < f.width → Blames all load (.spriteTooWide f.width 255) (.span s)
  | spriteTooTall {t x path i f rest s} : ShownToken all t s → t.tok = .string x → load path = .ok i → i.frames = f :: rest →
      255 < f.height → Blames all load (.spriteTooTall f.height 255) (.span s)
  | nowhere {e} : Placeless e → Blames all load e .nowhere
  | image {path e} : load path = .err e → Blames all load e .nowhere

/-! ### What is wrong there -/

/-- The operands of a binary expression. -/
def pair : Located.Expr → Option (Located.Expr × Located.Expr)
  | .plus _ l r | .minus _ l r | .times _ l r | .divide _ l r | .bxor _ l r | .band _ l r | .bor _ l r => some (l, r)
  | _ => none

/-- The operand of a unary expression. -/
def single : Located.Expr → Option Located.Expr
  | .uminus _ e | .upperByte _ e | .lowerByte _ e => some e
  | _ => none

/-- `Fault m env e x p`: going through the expression from left to right, the first fault is `x`, and the part of the
expression that has it is at the place `p`. -/
inductive Fault (m : Mode) (env : Env) : Located.Expr → Err → Place → Prop where
  | name {s n} : env (lower n) = none → Fault m env (.name s n) (.nameNotFound n) (.span s)
  | zero {s l r a} : l.erase.eval m env = .ok a → r.erase.eval m env = .ok 0 →
      Fault m env (.divide s l r) (.divideByZero a) (.span s)
  | macroLabel {s n} : Fault m env (.macroLabel s n) (.macroLabelOutsideOfMacro n) (.span s)
  | macroArg {s n} : Fault m env (.macroArg s n) (.macroArgOutsideOfMacro n) (.span s)
  | left {e l r x p} : pair e = some (l, r) → Fault m env l x p → Fault m env e x p
  | right {e l r a x p} : pair e = some (l, r) → l.erase.eval m env = .ok a → Fault m env r x p → Fault m env e x p
  | under {e e' x p} : single e = some e' → Fault m env e' x p → Fault m env e x p

/-- The value `v` cannot be encoded as an operand of this kind in an instruction that ends at `pos`, for the reason
given. -/
inductive Unfit (pos : Nat) : Kind → Int → Err → Prop where
  | i8 {v : Int} : ¬ (0 ≤ v ∧ v < 256) → Unfit pos .i8 v (.numOutOfRange 8 v)
  | d9 {v : Int} : ¬ (0 ≤ v ∧ v < 512) → Unfit pos .d9 v (.numOutOfRange 9 v)
  | b3 {v : Int} : ¬ (0 ≤ v ∧ v < 8) → Unfit pos .b3 v (.numOutOfRange 3 v)
  | a16 {v : Int} : ¬ (0 ≤ v ∧ v < 65536) → Unfit pos .a16 v (.numOutOfRange 16 v)
  | a12 {v : Int} : ¬ (0 ≤ v ∧ v < 65536) → Unfit pos .a12 v (.numOutOfRange 16 v)
  | page {v : Int} : 0 ≤ v → v < 65536 → v / 4096 ≠ (pos % 65536 : Nat) / 4096 → Unfit pos .a12 v (.addrBitsDontMatch pos v)
  | r8 {v : Int} : ¬ (0 ≤ v ∧ v < 65536) → Unfit pos .r8 v (.invalidAddress v)
  | near {v : Int} : 0 ≤ v → v < 65536 → ¬ (-128 ≤ v - pos ∧ v - pos ≤ 127) →
      Unfit pos .r8 v (.signedNumOutOfRange 8 (v - pos))
  | r16 {v : Int} : ¬ (0 ≤ v ∧ v < 65536) → Unfit pos .r16 v (.invalidAddress v)
  | far {v : Int} : 0 ≤ v → v < 65536 → ¬ (-32768 ≤ v - (pos - 1) ∧ v - (pos - 1) ≤ 32767) →
      Unfit pos .r16 v (.signedNumOutOfRange 16 (v - (pos - 1)))

/-- The error is in this expression: it has a fault, or it has a value and that is unfit. -/
def InExpr (m : Mode) (env : Env) (unfit : Int → Err → Prop) (e : Located.Expr) (x : Err) (p : Place) : Prop :=
  Fault m env e x p ∨ ∃ v, e.erase.eval m env = .ok v ∧ unfit v x ∧ p = .span e.span

/-- Nothing is wrong with this operand. -/
def Encodable (m : Mode) (env : Env) (pos : Nat) (k : Kind) : Sum Located.Expr IM → Prop
  | .inl e => ∃ v, e.erase.eval m env = .ok v ∧ k.field pos v ≠ none
  | .inr _ => True

/-- The first operand with which something is wrong, and what. -/
inductive InOperands (m : Mode) (env : Env) (pos : Nat) : List Kind → List (Sum Located.Expr IM) → Err → Place → Prop where
  | here {k ks e os x p} : InExpr m env (Unfit pos k) e x p → InOperands m env pos (k :: ks) (.inl e :: os) x p
  | later {k ks o os x p} : Encodable m env pos k o → InOperands m env pos ks os x p → InOperands m env pos (k :: ks) (o :: os) x p

/-! ### Places in files -/

/-- Reading the text cluster by cluster: the first clusters are `gs`, and `rest` is left. -/
inductive Clusters (seg : Seg) : Text → List Text → Text → Prop where
  | nil {text} : Clusters seg text [] text
  | cons {text gs rest} : text ≠ [] → Clusters seg (text.drop (seg text)) gs rest →
      Clusters seg text (text.take (seg text) :: gs) rest

/-- The cluster ends a line. -/
def isNewline (g : Text) : Bool := g = ['\n'] || g = ['\r', '\n']

/-- The place `l` is in a loaded file: it is where some of the clusters of the text of the file end.  It has the number
of bytes of these clusters, one more than the number of line ends among them, and the number of clusters since the last
line end. -/
def InFile (seg : Seg) (files : List SourceFile) (l : Loc) : Prop :=
  ∃ f gs rest, files[l.file]? = some f ∧ Clusters seg f.contents gs rest ∧ l.pos = byteLen gs.flatten ∧
    l.line = 1 + gs.countP isNewline ∧ l.column = (gs.reverse.takeWhile fun g => !isNewline g).length

/-- Both ends of the range are in the same loaded file. -/
def RangeIn (seg : Seg) (files : List SourceFile) (r : Range) : Prop :=
  InFile seg files r.start ∧ InFile seg files r.stop ∧ r.start.file = r.stop.file

/-- The range and the calls it was expanded from are in loaded files. -/
def SpanIn (seg : Seg) (files : List SourceFile) (s : Span) : Prop :=
  RangeIn seg files s.range ∧ ∀ r ∈ s.parents, RangeIn seg files r

/-- All there is of the place is in loaded files. -/
def PlaceIn (seg : Seg) (files : List SourceFile) : Place → Prop
  | .nowhere => True
  | .span s => SpanIn seg files s
  | .spans s earlier => SpanIn seg files s ∧ SpanIn seg files earlier
  | .location l => InFile seg files l

/-- The tokens of the file, read as assembly code or as a C header. -/
def FileTokens (seg : Seg) (f : SourceFile) (toks : List Token) : Prop :=
  lexInput seg (Input.new f.id f.contents) = .ok toks ∨
  lexForWs seg (skipCBlank seg) (Input.new f.id f.contents) = .ok toks

/-- The file has a character that starts no token, at this place. -/
def BadCharacter (seg : Seg) (f : SourceFile) (e : Err) (p : Place) : Prop :=
  ∃ pos line column, e = .unexpectedChar pos line column ∧ p = .location ⟨f.id, pos, line, column⟩ ∧
    (lexInput seg (Input.new f.id f.contents) = .err e ∨
     lexForWs seg (skipCBlank seg) (Input.new f.id f.contents) = .err e)

end Verif.Spec.Places
