import Verif.Spec.AssembledFiles
import Verif.Spec.SourceErrors
import Verif.Spec.Reasons
import Verif.Spec.Expansion
/-
Specification: the error for source files that cannot be assembled.
-/
namespace Verif.Spec
open Verif

/-- `FilesFail m fs dir load dark uuid main x`: the first thing that is wrong with the program in the file `main` is `x`.  The
files come first, then the syntax, then the includes of data, then the macro calls, then the rest. -/
inductive FilesFail (m : Mode) (fs : FS) (dir : Path) (load : Text → Res Image) (dark : Color → Bool) (uuid : Nat → Text)
    (main : Path) : Err → Prop where
  /-- The files cannot be read. -/
  | files {id x p} : SourceFails fs dir id main x p → FilesFail m fs dir load dark uuid main x
  /-- They can be read, and they do not follow the grammar. -/
  | syntax {id toks x p} : Numbering id → SourceTokens fs dir id main toks → Syntax.SyntaxError toks x p →
      FilesFail m fs dir load dark uuid main x
  /-- They are a program, and something is wrong with an include of data.  Nothing is wrong with those before it. -/
  | data {p before t n after x} : SourceProgram fs dir main p → p.stmts = before ++ .dir (.incl t n) :: after →
      (∀ t n, .dir (.incl t n) ∈ before → ∃ dark bs, IncludedData m fs dir load dark main t n bs) →
      DataFault m fs dir load main t n x → FilesFail m fs dir load dark uuid main x
  /-- Nothing is wrong with the includes of data, and something is wrong with a macro call. -/
  | macros {p ss x s} {program : Located.Program} : SourceProgram fs dir main p →
      AfterIncludes m fs dir load dark main p.stmts ss → program.erase = ⟨p.macros, ss⟩ →
      Expansion.Fails uuid program x s → FilesFail m fs dir load dark uuid main x
  /-- Nothing is wrong with the macro calls, and something is wrong with the program that they stand for. -/
  | program {stmts x p} : FilesMean m fs dir load dark uuid main (Reasons.bare stmts) → Reasons.Wrong m stmts x p →
      FilesFail m fs dir load dark uuid main x

/-- As far as the program can be laid out, it stays below 2 GiB. -/
def StaysBelow (q : List Stmt) : Prop := ∀ before after ps, q = before ++ after → layout before = some ps → Fits ps

/-- In a checked build, no `.cnop` moves backwards. -/
def MovesForward (m : Mode) (q : List Stmt) : Prop := m = .wrapping ∨ ∀ ps, layout q = some ps → CnopForward ps

end Verif.Spec
