import Verif.Spec.SourceTokens
import Verif.Spec.DataIncludes
import Verif.Spec.Macros
/-
Specification: the program that source files stand for.
-/
namespace Verif.Spec
open Verif Syntax

/-- `SourceProgram fs dir main p`: the file `main`, with all that it includes, is the program `p`. -/
def SourceProgram (fs : FS) (dir main : Path) (p : Program) : Prop :=
  ∃ id toks, Numbering id ∧ SourceTokens fs dir id main toks ∧ Parses toks p

/-- `FilesMean m fs dir load dark uuid main q`: without includes and macro calls, the program in the file `main` is `q`. -/
def FilesMean (m : Mode) (fs : FS) (dir : Path) (load : Text → Res Image) (dark : Color → Bool) (uuid : Nat → Text) (main : Path)
    (q : List Stmt) : Prop :=
  ∃ p ss fresh, SourceProgram fs dir main p ∧ AfterIncludes m fs dir load dark main p.stmts ss ∧
    ProgramExpands (table p.macros) ss q fresh ∧ NamedBy uuid 0 fresh

/-- There are no macro parameters and no macro labels in the arguments of macro calls outside of macros. -/
def CallsClosed (fs : FS) (dir main : Path) : Prop := ∀ p, SourceProgram fs dir main p → ClosedCalls p.stmts

/-- The program includes no icons. -/
def NoIcons (fs : FS) (dir main : Path) : Prop :=
  ∀ p, SourceProgram fs dir main p → ∀ speed eye name, .dir (.incl (.icon speed eye) name) ∉ p.stmts

/-- The program stays below 2 GiB, and in a checked build no `.cnop` goes backwards. -/
def Addressable (m : Mode) (q : List Stmt) : Prop := ∀ ps, layout q = some ps → Fits ps ∧ (m = .wrapping ∨ CnopForward ps)

end Verif.Spec
