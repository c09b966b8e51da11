import Verif.Lemmas.Located.Warnings
import Verif.Lemmas.Located.SourceTokensBack
/-
There is only one list of warnings.
-/
namespace Verif.Located
open Verif Spec Syntax

variable {seg : Seg} {fs : FS} {dir : Path}

theorem lookup_unique {root name : Path} {a b : List Text} (h : LookupWarns fs root name a) (h' : LookupWarns fs root name b) : a = b := by
  rw [← pathWarnings_iff.mp h, pathWarnings_iff.mp h']

theorem foundWarns_unique {file : Path} {name : Text} {q q' : Path} {a b : List Text} (h : FoundWarns fs dir file name q a)
    (h' : FoundWarns fs dir file name q' b) : q = q' ∧ a = b := by
  cases h with
  | mk h1 h2 h3 h4 =>
  cases h' with
  | mk k1 k2 k3 k4 =>
  cases resolves_unique h1 k1
  exact ⟨resolves_unique h3 k3, by rw [lookup_unique h2 k2, lookup_unique h4 k4]⟩

theorem foundWarns_found {file : Path} {name : Text} {q : Path} {a : List Text} (h : FoundWarns fs dir file name q a) :
    FoundAt fs dir file name q := by
  cases h with
  | mk h1 _ h3 _ => exact ⟨_, h1, h3⟩

theorem namesWarn_unique {file : Path} {names a : List Text} (h : NamesWarn fs file names a) :
    ∀ {b}, NamesWarn fs file names b → a = b := by
  induction h with
  | nil => intro b h; cases h; rfl
  | cons h1 _ ih =>
    intro b h
    cases h with
    | cons k1 k2 => rw [lookup_unique h1 k1, ih k2]

theorem fileLines_words {q : Path} (ha : ∀ t, fs.read q = some (utf8 t) → Plain seg t) {n n' : Nat} {ls ls'}
    (h : FileLines fs n q ls) (h' : FileLines fs n' q ls') : ls.map words = ls'.map words := by
  have hr : ∃ t, fs.read q = some (utf8 t) := by
    obtain ⟨t, _, h1, _⟩ := h
    exact ⟨t, h1⟩
  obtain ⟨t, hr⟩ := hr
  obtain ⟨toks, h1, h2, -⟩ := fileLines_lex h hr (ha t hr) n
  obtain ⟨toks', k1, k2, k3⟩ := fileLines_lex h' hr (ha t hr) n
  rw [h1] at k1
  cases k1
  rw [← h2, k2]

theorem includeLine_words {l l' : List Token} (h : words l = words l') {name rest} (hi : IncludeLine l name rest) :
    ∃ rest', IncludeLine l' name rest' := names_includedLine (h ▸ includedLine_names hi)

theorem includesData_same {l l' : List Token} (h : words l = words l') {name} (hi : IncludesData l name) : IncludesData l' name := by
  cases hi with
  | bytes h1 => exact .bytes (h ▸ h1)
  | image h1 h2 h3 h4 h5 => exact .image (h ▸ h1) h2 h3 h4 h5

theorem linesWarn_unique {file : Path} {ls a} (h : LinesWarn fs dir file ls a) :
    ∀ {ls' a'}, ls.map words = ls'.map words → LinesPlain seg fs dir file ls → LinesWarn fs dir file ls' a' → a = a' := by
  induction h with
  | nil =>
    intro ls' a' e _ h'
    cases ls' with
    | nil => cases h'; rfl
    | cons => cases e
  | @source file l name rest q n ls ws a more b h1 h3 h5 _ _ ih1 ih2 =>
    intro ls' a' e hA h'
    cases h' with
    | nil => cases e
    | source k1 k3 k5 k6 k7 =>
      obtain ⟨e1, e2⟩ := List.cons.inj e
      obtain ⟨rest', h1'⟩ := includeLine_words e1 h1
      obtain ⟨rfl, rfl⟩ := includedLine_unique h1' k1
      obtain ⟨rfl, rfl⟩ := foundWarns_unique h3 k3
      have hq := hA.1 l (by simp) _ _ _ h1 (foundWarns_found h3)
      rw [ih1 (fileLines_words (fun t => hq.1 _ t .main) h5 k5) (linesPlain hq h5) k6, ih2 e2 hA.tail k7]
    | header k1 =>
      obtain ⟨e1, e2⟩ := List.cons.inj e
      obtain ⟨rest', h1'⟩ := includeLine_words e1 h1
      exact absurd k1 (source_not_header h1')
    | data k1 =>
      obtain ⟨e1, e2⟩ := List.cons.inj e
      obtain ⟨rest', h1'⟩ := includeLine_words e1 h1
      exact absurd k1 (source_not_data h1')
    | other k1 =>
      obtain ⟨e1, e2⟩ := List.cons.inj e
      obtain ⟨rest', h1'⟩ := includeLine_words e1 h1
      exact absurd h1' (k1 _ _)
  | @header file l name q ws more b h1 h3 _ ih2 =>
    intro ls' a' e hA h'
    cases h' with
    | nil => cases e
    | source k1 =>
      obtain ⟨e1, e2⟩ := List.cons.inj e
      rw [e1] at h1
      exact absurd h1 (source_not_header k1)
    | header k1 k3 k7 =>
      obtain ⟨e1, e2⟩ := List.cons.inj e
      rw [e1] at h1
      cases namesHeader_unique h1 k1
      obtain ⟨rfl, rfl⟩ := foundWarns_unique h3 k3
      rw [ih2 e2 hA.tail k7]
    | data k1 =>
      obtain ⟨e1, e2⟩ := List.cons.inj e
      rw [e1] at h1
      exact absurd k1 (header_not_data h1)
    | other _ k1 =>
      obtain ⟨e1, e2⟩ := List.cons.inj e
      rw [e1] at h1
      exact absurd h1 (k1 _)
  | @data file l name ws more b h1 h2 _ ih2 =>
    intro ls' a' e hA h'
    cases h' with
    | nil => cases e
    | source k1 => exact absurd (includesData_same (List.cons.inj e).1 h1) (source_not_data k1)
    | header k1 => exact absurd (includesData_same (List.cons.inj e).1 h1) (header_not_data k1)
    | data k1 k2 k3 =>
      cases includesData_unique (includesData_same (List.cons.inj e).1 h1) k1
      rw [lookup_unique h2 k2, ih2 (List.cons.inj e).2 hA.tail k3]
    | other _ _ k1 => exact absurd (includesData_same (List.cons.inj e).1 h1) (k1 _)
  | @other file l more b h1 h2 h3 _ ih2 =>
    intro ls' a' e hA h'
    cases h' with
    | nil => cases e
    | source k1 =>
      obtain ⟨rest', k1⟩ := includeLine_words (List.cons.inj e).1.symm k1
      exact absurd k1 (h1 _ _)
    | header k1 => exact absurd ((List.cons.inj e).1 ▸ k1) (h2 _)
    | data k1 => exact absurd (includesData_same (List.cons.inj e).1.symm k1) (h3 _)
    | other _ _ _ k2 => rw [ih2 (List.cons.inj e).2 hA.tail k2]

theorem sourceWarns_unique {file : Path} (hA : AllPlain seg fs dir file) {a b} (h : SourceWarns fs dir file a)
    (h' : SourceWarns fs dir file b) : a = b := by
  obtain ⟨n, ls, h1, h2⟩ := h
  obtain ⟨n', ls', k1, k2⟩ := h'
  exact linesWarn_unique h2 (fileLines_words (fun t => hA.1 _ t .main) h1 k1) (linesPlain hA h1) k2

end Verif.Located
