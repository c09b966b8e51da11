import Verif.Spec.CHeader
import Verif.Spec.Files
/-
Specification of include directives: what it means to insert the included files into the text.
-/
namespace Verif.Spec

/-- After `before`, the text consists of the lines of tokens `L`. -/
def ReadsAt (file : Nat) (before text : Text) (L : List (List Token)) : Prop :=
  ∃ e, LexesTo file before text (L.flatten ++ [e]) ∧ SplitsInto L.flatten L

/-- The text consists of these lines of tokens. -/
def ReadsAs (text : Text) (ls : List (List Tok)) : Prop := ∃ L, ReadsAt 0 [] text L ∧ ls = L.map (·.map Token.tok)

/-- The text ends a line, or nothing follows it. -/
def Whole (a rest : Text) : Prop := (∃ b, a = b ++ ['\n']) ∨ rest = []

/-- The text is ASCII. -/
def Ascii (t : Text) : Prop := ∀ c ∈ t, c.toNat < 128

/-- A token with the path changed. -/
def repath (old new : Text) (t : Tok) : Tok := if t = .string old then .string new else t

/-- Where a line of the result comes from: the file, and the lines of this file on which its first token starts and
ends.  With `ends`, it is not a line, but the end of an included file, on the line of its last token. -/
structure Mark where
  file : Path
  first : Nat
  last : Nat
  ends : Bool

/-- The mark of a line of tokens. -/
def lineMark (file : Path) : List Token → Mark
  | t :: _ => ⟨file, t.start.line, t.stop.line, false⟩
  | [] => ⟨file, 0, 0, false⟩

/-- The mark of the end of a file. -/
def endMark (file : Path) (e : Token) : Mark := ⟨file, e.start.line, e.start.line, true⟩

/-- No line of the result starts, in the same file, on the line where the line before it, or the end of a file in
between, is.  Otherwise the two are taken for one line. -/
def Separate (ms : List Mark) : Prop :=
  ∀ a x b y c, ms = a ++ x :: b ++ y :: c → y.ends = false → (∀ z ∈ b, z.ends = true) →
    ¬ (x.file = y.file ∧ x.last = y.first)

/-- `Inserted seg fs dir file before text text' ms`: inserting the included files into `text`, which comes after `before`
in `file`, gives `text'`; the marks of its lines and of the ends of the files inserted are `ms`.

Lines that are not includes stay.  A line `.include "name"` or `.include asm "name"` is replaced by the contents of
the file of this name, into which in turn files are inserted; `.include cpp "name"` is replaced by any text that has
the lines of the C header, rewritten.  Includes of binary files stay, but name the file by its resolved path. -/
inductive Inserted (seg : Seg) (fs : FS) (dir : Path) : Path → Text → Text → Text → List Mark → Prop where
  | last {file before a L} : ReadsAt 0 before a L →
      (∀ l ∈ L, (l.map Token.tok).head? ≠ some (.name ".include".toList)) →
      Inserted seg fs dir file before a a (L.map (lineMark file))
  | lines {file before a L rest rest' ms} : ReadsAt 0 before (a ++ ['\n']) L →
      (∀ l ∈ L, (l.map Token.tok).head? ≠ some (.name ".include".toList)) →
      Inserted seg fs dir file (before ++ (a ++ ['\n'])) rest rest' ms →
      Inserted seg fs dir file before (a ++ ['\n'] ++ rest) (a ++ ['\n'] ++ rest') (L.map (lineMark file) ++ ms)
  | asm {file before a name p t toks e t' ms rest rest' ms'} : Whole a rest →
      ReadsAs a [[.name ".include".toList, .string name]] ∨
        ReadsAs a [[.name ".include".toList, .name "asm".toList, .string name]] →
      Resolves fs dir (some file) (Path.parse name) p → p.abs = true → fs.read p = some (utf8 t) → Plain seg t →
      Inserted seg fs dir p [] t t' ms → LexesTo 0 [] t (toks ++ [e]) →
      Inserted seg fs dir file (before ++ a) rest rest' ms' →
      Inserted seg fs dir file before (a ++ rest) (t' ++ ['\n'] ++ rest') (ms ++ endMark p e :: ms')
  | header {file before a name p t L e ls t' rest rest' ms} : Whole a rest →
      ReadsAs a [[.name ".include".toList, .name "cpp".toList, .string name]] →
      Resolves fs dir (some file) (Path.parse name) p → p.abs = true → fs.read p = some (utf8 t) → Ascii t →
      CLexesTo 0 [] t (L.flatten ++ [e]) → SplitsInto L.flatten L → EachLine HeaderLine (L.map (·.map Token.tok)) ls →
      ReadsAs t' ls → Inserted seg fs dir file (before ++ a) rest rest' ms →
      Inserted seg fs dir file before (a ++ rest) (t' ++ ['\n'] ++ rest') (L.map (lineMark p) ++ endMark p e :: ms)
  | binary {file before a l typ name p a' rest rest' ms} : Whole a rest → ReadsAt 0 before a [l] →
      DirSyntax (l.map Token.tok) (.incl typ name) → typ ≠ .asm → typ ≠ .cHeader →
      Resolves fs dir (some file) (Path.parse name) p → ReadsAs a' [(l.map Token.tok).map (repath name p.render)] →
      Inserted seg fs dir file (before ++ a) rest rest' ms →
      Inserted seg fs dir file before (a ++ rest) (a' ++ ['\n'] ++ rest') (lineMark file l :: ms)

/-- A local label without a colon, alone on its line. -/
def Bare (l : List Tok) : Prop := ∃ n, Dotted n ∧ (l = [.name n] ∨ l = [.macroLabel n])

/-- No line is a bare local label, or there are no macros. -/
def NoBareInMacro (text : Text) : Prop := ∀ ls, ReadsAs text ls →
  (∀ l ∈ ls, ¬ Bare l) ∨ ∀ l ∈ ls, l.head? ≠ some (.macroIdent "%macro".toList)

end Verif.Spec
