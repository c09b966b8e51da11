import Verif.Spec.Respelling
/-
Specification: files with the line ends of Windows.
-/
namespace Verif.Spec

/-- The text with CR LF instead of LF at the ends of its lines. -/
def windows (t : Text) : Text := t.flatMap fun c => if c = '\n' then ['\r', '\n'] else [c]

/-- The text consists of tokens, and each is on one line (only strings can go on in the next line). -/
def TokensOnLines (t : Text) : Prop := ∃ toks, LexesTo 0 [] t toks ∧ ∀ k ∈ toks, k.start.line = k.stop.line

/-- The same for a C header. -/
def HeaderOnLines (t : Text) : Prop := ∃ toks, CLexesTo 0 [] t toks ∧ ∀ k ∈ toks, k.start.line = k.stop.line

/-- The file is not the same on both disks: it is the text `t` on one of them, and `t` with the line ends of Windows on the
other one. -/
def EndsDiffer (fs fs' : FS) (p : Path) (t : Text) : Prop :=
  fs'.read p ≠ fs.read p ∧ '\r' ∉ t ∧ (fs.read p = some (utf8 t) ∧ fs'.read p = some (utf8 (windows t)) ∨
    fs.read p = some (utf8 (windows t)) ∧ fs'.read p = some (utf8 t))

/-- Two disks that differ at most in the line ends of files; the source files of the program for which they differ have no
combining characters and the C headers are ASCII, and their tokens are on one line each. -/
structure OtherLineEnds (seg : Seg) (fs fs' : FS) (dir main : Path) : Prop where
  isFile : fs'.isFile = fs.isFile
  isDir : fs'.isDir = fs.isDir
  read : ∀ p, fs'.read p = fs.read p ∨ ∃ t, EndsDiffer fs fs' p t
  sources : ∀ p t, IncludeTree fs dir main p → EndsDiffer fs fs' p t → TokensOnLines t ∧ Plain seg t ∧ Plain seg (windows t)
  headers : ∀ p q t, IncludeTree fs dir main p → IncludesHeader fs dir p q → EndsDiffer fs fs' q t →
    HeaderOnLines t ∧ Ascii t ∧ Plain seg t ∧ Plain seg (windows t)

end Verif.Spec
