import Verif.Lemmas.CHeader
import Verif.Lemmas.Include
import Verif.Lemmas.Icon
import Verif.Lemmas.MakeInstr
import Verif.Lemmas.ReadExpr
import Verif.Lemmas.Recase
import Verif.Spec.Macros
/-
What comes out of the lexer, the parser, the include and icon expansion and the macro expansion is
well formed: names are lower case and not empty, literals are small.
-/
namespace Verif
open Spec

/-- A name as the lexer makes them. -/
def SaneName (n : Text) : Prop := Ident n ∧ lower n = n

/-- The name of a macro label, and of a parameter or directive of a macro. -/
def SaneMark (n : Text) : Prop := ∃ w, SaneName w ∧ n = w ++ ['%']
def SaneParam (n : Text) : Prop := ∃ w, SaneName w ∧ n = '%' :: w

/-- A literal as the lexer makes them. -/
def SaneLit (v : Int) : Prop := 0 ≤ v ∧ v ≤ 2147483647

def SaneTok : Tok → Prop
  | .name n => SaneName n
  | .macroLabel n => SaneMark n
  | .macroIdent n => SaneParam n
  | .number v _ => SaneLit v
  | _ => True

/-- All names and literals are as the lexer makes them. -/
def Lits : Expr → Prop
  | .number v _ => SaneLit v
  | .plus l r | .minus l r | .times l r | .divide l r | .bxor l r | .band l r | .bor l r => Lits l ∧ Lits r
  | .uminus e | .upperByte e | .lowerByte e => Lits e
  | .name n => SaneName n
  | .macroLabel n => SaneMark n
  | .macroArg n => SaneParam n

def ArgLits : Arg → Prop
  | .imm e | .ex e => Lits e
  | _ => True

/-- An expression of the program, or a literal made for included data. -/
def DataLits (e : Expr) : Prop := Lits e ∨ ∃ v r, e = .number v r ∧ -2147483648 ≤ v ∧ v ≤ 2147483647

def SaneStmt : Stmt → Prop
  | .label n => SaneName n
  | .dir (.cnop a k) => Lits a ∧ Lits k
  | .dir (.org n) => n < 2 ^ 31
  | .macroCall _ args => ∀ a ∈ args, ArgLits a
  | .variable n e | .alias n e => SaneName n ∧ n ∉ directives.map String.toList ∧ Lits e
  | .instr i => ∀ e ∈ exprsOf (.instr i), Lits e
  | s => ∀ e ∈ exprsOf s, DataLits e

def SaneBody : MacroStmt → Prop
  | .label n => SaneName n
  | .macroLabel n => SaneMark n
  | .instr _ args => ∀ a ∈ args, ArgLits a

theorem Lits.literals32 : ∀ {e : Expr}, Lits e → Literals32 e
  | .number _ _, h => ⟨by have := h.1; omega, h.2⟩
  | .plus _ _, h | .minus _ _, h | .times _ _, h | .divide _ _, h | .bxor _ _, h | .band _ _, h | .bor _ _, h =>
    ⟨literals32 h.1, literals32 h.2⟩
  | .uminus e, h | .upperByte e, h | .lowerByte e, h => literals32 (e := e) h
  | .name _, _ | .macroLabel _, _ | .macroArg _, _ => trivial

theorem DataLits.literals32 {e : Expr} (h : DataLits e) : Literals32 e := by
  rcases h with h | ⟨v, r, rfl, h⟩
  · exact h.literals32
  · exact h

theorem SaneStmt.literals32 {s : Stmt} (h : SaneStmt s) : ∀ e ∈ exprsOf s, Literals32 e := by
  unfold SaneStmt at h
  split at h
  · intro e he; cases he
  · intro e he; cases he
  · intro e he; cases he
  · intro e he; cases he
  · intro e he
    simp only [exprsOf, List.mem_singleton] at he
    exact he ▸ h.2.2.literals32
  · intro e he
    simp only [exprsOf, List.mem_singleton] at he
    exact he ▸ h.2.2.literals32
  · exact fun e he => (h e he).literals32
  · exact fun e he => (h e he).literals32

theorem ident_lower {w : Text} (h : Ident w) : Ident (lower w) := ident_case (lower_lower w).symm h

/-! ### Tokens -/

theorem symbols_sane : ∀ x ∈ symbols, SaneTok x.2 := by
  intro x hx
  have : symbols.all (fun x => x.2 matches .leftParen | .rightParen | .hash | .comma | .doubleColon | .colon | .equals | .plus
      | .times | .minus | .divide | .ampersand | .pipe | .caret | .upperByte | .lowerByte | .r0 | .r1 | .r2 | .r3) = true := by
    decide +kernel
  have := List.all_eq_true.mp this x hx
  obtain ⟨w, k⟩ := x
  cases k <;> first | trivial | simp at this

theorem ident_ne_nil {w : Text} (h : Ident w) : w ≠ [] := by
  obtain ⟨c, cs, rfl, _⟩ := h
  simp

theorem spells_sane {w rest : Text} {k : Tok} (h : Spells w rest k) : SaneTok k := by
  cases h with
  | symbol hm _ => exact symbols_sane _ hm
  | name hi _ => exact ⟨ident_lower hi, lower_lower _⟩
  | @macroLabel w _ hi => exact ⟨lower w, ⟨ident_lower hi, lower_lower _⟩, by simp [lower]⟩
  | @macroIdent w _ hi _ => exact ⟨lower w, ⟨ident_lower hi, lower_lower _⟩, by simp [lower]⟩
  | string _ => trivial
  | number _ hv => exact ⟨by omega, by omega⟩

theorem readToken_sane {seg : Seg} {skip : Input → Res Input} {i : Input} {x : Input × Token}
    (h : readToken seg skip i = .ok (some x)) : SaneTok x.2.tok := by
  unfold readToken at h
  obtain ⟨i', _, h2⟩ := Res.bind_eq_ok.mp h
  dsimp only at h2
  split at h2
  · cases h2; trivial
  · split at h2
    · cases h2
    · rename_i w conv hm
      obtain ⟨k, hk, h3⟩ := Res.bind_eq_ok.mp h2
      cases hk
      cases h3
      obtain ⟨rest, _, hs⟩ := matchToken_iff.mp hm
      exact spells_sane hs

theorem lexLoop_sane {seg : Seg} {skip : Input → Res Input} : ∀ (n : Nat) (i : Input) (toks : List Token),
    lexLoop seg skip n i = .ok toks → ∀ t ∈ toks, SaneTok t.tok := by
  intro n
  induction n with
  | zero => intro i toks h; cases h
  | succ n ih =>
    intro i toks h
    rw [lexLoop] at h
    obtain ⟨r, hr, h2⟩ := Res.bind_eq_ok.mp h
    split at h2
    · cases h2
    · rename_i next token
      split at h2
      · cases h2
        intro t ht
        simp only [List.mem_singleton] at ht
        subst ht
        trivial
      · obtain ⟨rest, h3, h4⟩ := Res.bind_eq_ok.mp h2
        cases h4
        intro t ht
        rcases List.mem_cons.mp ht with rfl | ht
        · exact readToken_sane hr
        · exact ih _ _ h3 t ht

theorem lines_mem {toks : List Token} {l : List Token} {t : Token} (hl : l ∈ lines toks) (ht : t ∈ l) : t ∈ toks := by
  rw [← splits_flatten (lines_splits toks)]
  exact List.mem_flatten.mpr ⟨l, hl, ht⟩

theorem headerLine_sane {l l' : List Token} (h : headerLine l = .ok l') (hs : ∀ t ∈ l, SaneTok t.tok) :
    ∀ t ∈ l', SaneTok t.tok := by
  unfold headerLine at h
  split at h
  · split at h
    · obtain ⟨⟨a, b⟩, _, h2⟩ := Res.bind_eq_ok.mp h
      obtain ⟨_, _, h3⟩ := Res.bind_eq_ok.mp h2
      split at h3
      · cases h3
        intro t ht
        simp only [List.mem_cons] at ht
        rcases ht with rfl | rfl | ht
        · exact hs _ (by simp)
        · exact ⟨⟨'e', ['q', 'u'], rfl, .inl (by decide), by
            intro d hd
            have : ∀ d ∈ ['q', 'u'], d.isAlpha = true := by decide
            exact .inl (.inl (this d hd))⟩, by decide⟩
        · exact hs _ (by simp [ht])
      · cases h3
    · cases h; exact hs
  · cases h; exact hs

theorem headerLines_sane : ∀ {L : List (List Token)} {out : List Token}, headerLines L = .ok out →
    (∀ l ∈ L, ∀ t ∈ l, SaneTok t.tok) → ∀ t ∈ out, SaneTok t.tok := by
  intro L
  induction L with
  | nil => intro out h _; cases h; simp
  | cons l ls ih =>
    intro out h hs
    rw [headerLines] at h
    obtain ⟨a, ha, h2⟩ := Res.bind_eq_ok.mp h
    obtain ⟨b, hb, h3⟩ := Res.bind_eq_ok.mp h2
    cases h3
    intro t ht
    rcases List.mem_append.mp ht with ht | ht
    · exact headerLine_sane ha (hs l (by simp)) t ht
    · exact ih hb (fun l hl => hs l (by simp [hl])) t ht

theorem lexHeader_sane {seg : Seg} {i : Input} {toks : List Token} (h : lexHeader seg i = .ok toks) :
    ∀ t ∈ toks, SaneTok t.tok := by
  unfold lexHeader at h
  obtain ⟨raw, hr, h2⟩ := Res.bind_eq_ok.mp h
  exact headerLines_sane h2 fun l hl t ht => lexLoop_sane _ _ _ hr t (lines_mem hl ht)

theorem includeLine_sane {seg fs go file sf l out sf'}
    (hgo : ∀ p s ts o s', go p s ts = .ok (o, s') → (∀ t ∈ ts, SaneTok t.tok) → ∀ t ∈ o, SaneTok t.tok)
    (h : includeLine seg fs go file sf l = .ok (out, sf')) (hs : ∀ t ∈ l, SaneTok t.tok) :
    ∀ t ∈ out, SaneTok t.tok := by
  unfold includeLine at h
  split at h
  · rename_i typ name rest hd
    obtain ⟨path, hp, h2⟩ := Res.bind_eq_ok.mp h
    cases typ with
    | asm =>
      dsimp only at h2
      obtain ⟨⟨f, s1⟩, _, h3⟩ := Res.bind_eq_ok.mp h2
      obtain ⟨toks, ht, h4⟩ := Res.bind_eq_ok.mp h3
      obtain ⟨⟨o, s2⟩, hg, h5⟩ := Res.bind_eq_ok.mp h4
      dsimp only at h5
      split at h5
      · cases h5
        exact hgo _ _ _ _ _ hg (lexLoop_sane _ _ _ ht)
      · cases h5
    | cHeader =>
      dsimp only at h2
      obtain ⟨⟨f, s1⟩, _, h3⟩ := Res.bind_eq_ok.mp h2
      obtain ⟨toks, ht, h4⟩ := Res.bind_eq_ok.mp h3
      cases h4
      exact lexHeader_sane ht
    | _ =>
      cases h2
      intro t ht
      obtain ⟨t', h', rfl⟩ := List.mem_map.mp ht
      unfold fixPath
      split
      · trivial
      · exact hs _ h'
  · cases h
  · cases h
  · cases h; exact hs

theorem includeLines_sane {step : SourceFiles → List Token → Res (List Token × SourceFiles)}
    (hst : ∀ s l o s', step s l = .ok (o, s') → (∀ t ∈ l, SaneTok t.tok) → ∀ t ∈ o, SaneTok t.tok) :
    ∀ {L sf out sf'}, includeLines step sf L = .ok (out, sf') → (∀ l ∈ L, ∀ t ∈ l, SaneTok t.tok) →
      ∀ t ∈ out, SaneTok t.tok := by
  intro L
  induction L with
  | nil => intro sf out sf' h _; cases h; simp
  | cons l ls ih =>
    intro sf out sf' h hs
    rw [includeLines] at h
    obtain ⟨⟨a, s1⟩, ha, h2⟩ := Res.bind_eq_ok.mp h
    obtain ⟨⟨b, s2⟩, hb, h3⟩ := Res.bind_eq_ok.mp h2
    cases h3
    intro t ht
    rcases List.mem_append.mp ht with ht | ht
    · exact hst _ _ _ _ ha (hs l (by simp)) t ht
    · exact ih hb (fun l hl => hs l (by simp [hl])) t ht

theorem replaceIncludes_sane {seg fs} : ∀ (n : Nat) (p sf ts o sf'), replaceIncludes seg fs n p sf ts = .ok (o, sf') →
    (∀ t ∈ ts, SaneTok t.tok) → ∀ t ∈ o, SaneTok t.tok := by
  intro n
  induction n with
  | zero => intro p sf ts o sf' h; cases h
  | succ n ih =>
    intro p sf ts o sf' h hs
    rw [replaceIncludes] at h
    exact includeLines_sane (fun s l o s' h hs => includeLine_sane ih h hs) h
      fun l hl t ht => hs t (lines_mem hl ht)

/-! ### The grammar -/

theorem sentence_lits {lv w e} (h : Sentence lv w e) : (∀ t ∈ w, SaneTok t) → Lits e := by
  induction h with
  | @atom t e ha =>
    intro hs
    cases ha with
    | @number v radix => exact hs (.number v radix) (by simp)
    | @name n => exact hs (.name n) (by simp)
    | @label n => exact hs (.macroLabel n) (by simp)
    | @param n => exact hs (.macroIdent n) (by simp)
  | paren _ ih => exact fun hs => ih fun t ht => hs t (by simp [ht])
  | pre hp _ ih =>
    intro hs
    have := ih fun t ht => hs t (by simp [ht])
    cases hp <;> exact this
  | binary hb _ _ ih1 ih2 =>
    intro hs
    have h1 := ih1 fun t ht => hs t (by simp [ht])
    have h2 := ih2 fun t ht => hs t (by simp [ht])
    cases hb <;> exact ⟨h1, h2⟩
  | tight _ ih => exact ih

theorem listed_all {α : Type} {Item : List Tok → α → Prop} {P : α → Prop}
    (hi : ∀ w a, Item w a → (∀ t ∈ w, SaneTok t) → P a) {w as} (h : Listed Item w as) :
    (∀ t ∈ w, SaneTok t) → ∀ a ∈ as, P a := by
  induction h with
  | one h =>
    intro hs a ha
    simp only [List.mem_singleton] at ha
    subst ha
    exact hi _ _ h hs
  | cons h _ ih =>
    intro hs a ha
    rcases List.mem_cons.mp ha with rfl | ha
    · exact hi _ _ h fun t ht => hs t (by simp [ht])
    · exact ih (fun t ht => hs t (by simp [ht])) a ha

theorem optListed_all {α : Type} {Item : List Tok → α → Prop} {P : α → Prop}
    (hi : ∀ w a, Item w a → (∀ t ∈ w, SaneTok t) → P a) {w as} (h : OptListed Item w as)
    (hs : ∀ t ∈ w, SaneTok t) : ∀ a ∈ as, P a := by
  rcases h with ⟨_, rfl⟩ | h
  · simp
  · exact listed_all hi h hs

theorem argSyntax_lits {w a} (h : ArgSyntax w a) (hs : ∀ t ∈ w, SaneTok t) : ArgLits a := by
  cases h with
  | im _ => trivial
  | imm h => exact sentence_lits h fun t ht => hs t (by simp [ht])
  | param _ => trivial
  | ex h _ => exact sentence_lits h hs

theorem writes_operands {n args i} (h : Writes n args i) (hs : ∀ a ∈ args, ArgLits a) :
    ∀ e, Sum.inl e ∈ operands i → Lits e := by
  obtain ⟨_, rfl⟩ := h
  intro e he
  have hlen : (kinds i.form).length = (operands i).length := by cases i <;> rfl
  obtain ⟨j, hj, hje⟩ := List.getElem_of_mem he
  have hj' : j < (kinds i.form).length := by omega
  have hm : writtenAs (kinds i.form)[j] (operands i)[j] ∈ List.zipWith writtenAs (kinds i.form) (operands i) := by
    rw [← List.getElem_zipWith (f := writtenAs) (h := by rw [List.length_zipWith]; omega)]
    exact List.getElem_mem _
  have := hs _ hm
  rw [hje] at this
  cases hk : (kinds i.form)[j] <;> rw [hk] at this <;> exact this

theorem instr_sane {n args i} (h : Writes n args i) (hs : ∀ a ∈ args, ArgLits a) : SaneStmt (.instr i) := by
  intro e he
  simp only [exprsOf, List.mem_filterMap] at he
  obtain ⟨o, ho, he⟩ := he
  cases o with
  | inl e' => cases he; exact writes_operands h hs _ ho
  | inr r => cases he

theorem instrSyntax_sane {w s} (h : InstrSyntax w s) (hs : ∀ t ∈ w, SaneTok t) : SaneStmt s := by
  cases h with
  | instr h1 h2 =>
    exact instr_sane h2 (optListed_all (P := ArgLits) (fun _ _ h hs => argSyntax_lits h hs) h1 fun t ht => hs t (by simp [ht]))
  | call _ _ h1 => exact optListed_all (P := ArgLits) (fun _ _ h hs => argSyntax_lits h hs) h1 fun t ht => hs t (by simp [ht])

theorem byteSyntax_lits {w v} (h : ByteSyntax w v) (hs : ∀ t ∈ w, SaneTok t) : ∀ e, v = .expr e → DataLits e := by
  cases h with
  | str => intro e he; cases he
  | expr h => intro e he; cases he; exact .inl (sentence_lits h hs)

theorem dirSyntax_sane {w d} (h : DirSyntax w d) (hs : ∀ t ∈ w, SaneTok t) : SaneStmt (.dir d) := by
  cases h with
  | byte h =>
    have := listed_all (P := fun v => ∀ e, v = .expr e → DataLits e) (fun _ _ => byteSyntax_lits) h
      fun t ht => hs t (by simp [ht])
    intro e he
    simp only [exprsOf, List.mem_filterMap] at he
    obtain ⟨v, hv, he⟩ := he
    cases v with
    | expr e' => cases he; exact this _ hv _ rfl
    | str _ => cases he
  | word h =>
    exact listed_all (P := DataLits) (fun _ _ h hs => .inl (sentence_lits h hs)) h
      fun t ht => hs t (by simp [ht])
  | cnop h1 h2 =>
    exact ⟨sentence_lits h1 fun t ht => hs t (by simp [ht]), sentence_lits h2 fun t ht => hs t (by simp [ht])⟩
  | @org v r =>
    have := hs (.number v r) (by simp)
    show unsigned v < 2 ^ 31
    unfold unsigned
    have h1 := this.1
    have h2 := this.2
    omega
  | _ => intro e he; cases he

theorem lineSyntax_sane {w ss} (h : LineSyntax w ss) (hs : ∀ t ∈ w, SaneTok t) : ∀ s ∈ ss, SaneStmt s := by
  cases h with
  | empty => simp
  | @label n =>
    intro s hs'
    simp only [List.mem_singleton] at hs'
    subst hs'
    exact hs (.name n) (by simp)
  | @labelled n w s h =>
    intro s' hs'
    simp only [List.mem_cons, List.not_mem_nil, or_false] at hs'
    rcases hs' with rfl | rfl
    · exact hs (.name n) (by simp)
    · exact instrSyntax_sane h fun t ht => hs t (by simp [ht])
  | @localLabel n _ _ =>
    intro s hs'
    simp only [List.mem_singleton] at hs'
    subst hs'
    exact hs (.name n) (by simp)
  | instr h _ =>
    intro s hs'
    simp only [List.mem_singleton] at hs'
    subst hs'
    exact instrSyntax_sane h hs
  | directive h =>
    intro s hs'
    simp only [List.mem_singleton] at hs'
    subst hs'
    exact dirSyntax_sane h hs
  | @alias n _ _ hd h =>
    intro s hs'
    simp only [List.mem_singleton] at hs'
    subst hs'
    exact ⟨hs (.name n) (by simp), hd, sentence_lits h fun t ht => hs t (by simp [ht])⟩
  | @«variable» n _ _ hd h =>
    intro s hs'
    simp only [List.mem_singleton] at hs'
    subst hs'
    exact ⟨hs (.name n) (by simp), hd, sentence_lits h fun t ht => hs t (by simp [ht])⟩

theorem macroLine_sane {l ss} (h : MacroLine l ss) (hs : ∀ t ∈ l, SaneTok t) : ∀ s ∈ ss, SaneBody s := by
  cases h with
  | @mk w ss w' ss' e h1 h2 _ =>
    intro s hm
    rcases List.mem_append.mp hm with hm | hm
    · cases h1 with
      | none => simp at hm
      | @label n =>
        simp only [List.mem_singleton] at hm
        subst hm
        exact hs (.name n) (by simp)
      | @macroLabel n =>
        simp only [List.mem_singleton] at hm
        subst hm
        exact hs (.macroLabel n) (by simp)
    · cases h2 with
      | none => simp at hm
      | @instr n w' args _ h =>
        simp only [List.mem_singleton] at hm
        subst hm
        exact optListed_all (P := ArgLits) (fun _ _ h hs => argSyntax_lits h hs) h fun t ht => hs t (by simp [ht])
  | @localLabel n _ =>
    intro s hm
    simp only [List.mem_singleton] at hm
    subst hm
    exact hs (.name n) (by simp)
  | @localMacroLabel n _ =>
    intro s hm
    simp only [List.mem_singleton] at hm
    subst hm
    exact hs (.macroLabel n) (by simp)

theorem bodySyntax_sane {ls b} (h : BodySyntax ls b) : (∀ l ∈ ls, ∀ t ∈ l, SaneTok t) → ∀ s ∈ b, SaneBody s := by
  induction h with
  | nil => simp
  | cons _ hl _ ih =>
    intro hs s hm
    rcases List.mem_append.mp hm with hm | hm
    · exact macroLine_sane hl (hs _ (by simp)) s hm
    · exact ih (fun l hl => hs l (by simp [hl])) s hm

theorem programSyntax_sane {ms ls ss ms'} (h : ProgramSyntax ms ls ss ms') : (∀ l ∈ ls, ∀ t ∈ l, SaneTok t) →
    (∀ d ∈ ms, ∀ s ∈ d.body, SaneBody s) → (∀ s ∈ ss, SaneStmt s) ∧ ∀ d ∈ ms', ∀ s ∈ d.body, SaneBody s := by
  induction h with
  | nil => exact fun _ h => ⟨by simp, h⟩
  | line _ hl _ _ ih =>
    intro hs hm
    obtain ⟨h1, h2⟩ := ih (fun l hl => hs l (by simp [hl])) hm
    refine ⟨fun s hx => ?_, h2⟩
    rcases List.mem_append.mp hx with hx | hx
    · exact lineSyntax_sane hl (fun t ht => hs _ List.mem_cons_self t (by simp [ht])) s hx
    · exact h1 s hx
  | defn _ _ hb _ _ ih =>
    intro hs hm
    refine ih (fun l hl => hs l (by simp [hl])) fun d hd => ?_
    rcases List.mem_cons.mp hd with rfl | hd
    · exact bodySyntax_sane hb fun l hl => hs l (by simp [hl])
    · exact hm d hd
  | last _ _ hb =>
    intro hs hm
    refine ⟨by simp, fun d hd => ?_⟩
    rcases List.mem_cons.mp hd with rfl | hd
    · exact bodySyntax_sane hb fun l hl => hs l (by simp [hl])
    · exact hm d hd

/-- Programs whose parts are well formed. -/
def SaneProgram (p : Program) : Prop :=
  (∀ s ∈ p.stmts, SaneStmt s) ∧ ∀ key d, p.macros.lookup key = some d → ∀ s ∈ d.body, SaneBody s

theorem parse_sane {toks : List Token} {p : Program} (h : parse toks = .ok p) (hs : ∀ t ∈ toks, SaneTok t.tok) :
    SaneProgram p := by
  obtain ⟨ms, h1, h2⟩ := parseTokLines_iff.mp h
  obtain ⟨h3, h4⟩ := programSyntax_sane h1 (fun l hl t ht => by
    obtain ⟨l', hl', rfl⟩ := List.mem_map.mp hl
    obtain ⟨t', ht', rfl⟩ := List.mem_map.mp ht
    exact hs t' (lines_mem hl' ht')) (by simp)
  refine ⟨h3, fun key d hd => ?_⟩
  rw [h2] at hd
  obtain ⟨d', hd', e⟩ := List.mem_map.mp (lookup_mem_pair hd)
  cases e
  exact h4 d hd'

theorem readProgram_sane {seg fs fuel sf name p path sf'} (h : readProgram seg fs fuel sf name = .ok (p, path, sf')) :
    SaneProgram p := by
  unfold readProgram at h
  obtain ⟨path', _, h2⟩ := Res.bind_eq_ok.mp h
  obtain ⟨⟨f, s1⟩, _, h3⟩ := Res.bind_eq_ok.mp h2
  obtain ⟨toks, ht, h4⟩ := Res.bind_eq_ok.mp h3
  obtain ⟨⟨o, s2⟩, hi, h5⟩ := Res.bind_eq_ok.mp h4
  obtain ⟨p', hp, h6⟩ := Res.bind_eq_ok.mp h5
  cases h6
  exact parse_sane hp (replaceIncludes_sane _ _ _ _ _ _ hi (lexLoop_sane _ _ _ ht))

/-! ### Included data -/

/-- A comment, or literal bytes or words. -/
def DataStmt (s : Stmt) : Prop :=
  (∃ t, s = .comment t) ∨
  (∃ vs, s = .dir (.byte vs) ∧ ∀ v ∈ vs, ∃ x r, v = .expr (.number x r) ∧ -2147483648 ≤ x ∧ x ≤ 2147483647) ∨
  (∃ es, s = .dir (.word es) ∧ ∀ e ∈ es, ∃ x r, e = .number x r ∧ -2147483648 ≤ x ∧ x ≤ 2147483647)

theorem DataStmt.sane {s : Stmt} (h : DataStmt s) : SaneStmt s := by
  rcases h with ⟨t, rfl⟩ | ⟨vs, rfl, h⟩ | ⟨es, rfl, h⟩
  · intro e he; cases he
  · intro e he
    simp only [exprsOf, List.mem_filterMap] at he
    obtain ⟨v, hv, he⟩ := he
    obtain ⟨x, r, rfl, hx⟩ := h v hv
    cases he
    exact .inr ⟨x, r, rfl, hx⟩
  · intro e he
    obtain ⟨x, r, rfl, hx⟩ := h e he
    exact .inr ⟨x, r, rfl, hx⟩

theorem wrap32_bounds (v : Int) : -2147483648 ≤ wrap32 v ∧ wrap32 v ≤ 2147483647 := by
  unfold wrap32
  omega

theorem dataStmt_comment (t : Text) : DataStmt (.comment t) := .inl ⟨t, rfl⟩

theorem dataStmt_word {es : List Expr} (h : ∀ e ∈ es, ∃ x r, e = Expr.number x r ∧ -2147483648 ≤ x ∧ x ≤ 2147483647) :
    DataStmt (.dir (.word es)) := .inr (.inr ⟨es, rfl, h⟩)

theorem dataStmt_byte {vs : List ByteValue}
    (h : ∀ v ∈ vs, ∃ x r, v = .expr (.number x r) ∧ -2147483648 ≤ x ∧ x ≤ 2147483647) :
    DataStmt (.dir (.byte vs)) := .inr (.inl ⟨vs, rfl, h⟩)

theorem binaryBytes_data (bs : List UInt8) : DataStmt (binaryBytes bs) := by
  refine dataStmt_byte fun v hv => ?_
  obtain ⟨b, _, rfl⟩ := List.mem_map.mp hv
  have := b.toNat_lt
  exact ⟨_, _, rfl, by omega, by omega⟩

theorem to1BitAsm_data {f : Frame} {masked header : Bool} : ∀ s ∈ f.to1BitAsm masked header, DataStmt s := by
  intro s hs
  simp only [Frame.to1BitAsm, List.mem_append] at hs
  rcases hs with (hs | hs) | hs
  · unfold spriteHead at hs
    rcases List.mem_cons.mp hs with rfl | hs
    · exact dataStmt_comment _
    · split at hs
      · simp only [List.mem_singleton] at hs
        subst hs
        refine dataStmt_byte fun v hv => ?_
        simp only [List.mem_cons, List.not_mem_nil, or_false] at hv
        rcases hv with rfl | rfl
        · exact ⟨_, _, rfl, wrap32_bounds _⟩
        · exact ⟨_, _, rfl, wrap32_bounds _⟩
      · cases hs
  · split at hs
    · obtain ⟨r, _, rfl⟩ := List.mem_map.mp hs
      exact binaryBytes_data _
    · cases hs
  · obtain ⟨r, _, rfl⟩ := List.mem_map.mp hs
    exact binaryBytes_data _

theorem natCast_bounds {n : Nat} (h : n < 65536) : -2147483648 ≤ (n : Int) ∧ (n : Int) ≤ 2147483647 := by omega

theorem packRow16_data {map : Palette} : ∀ {row : List Color} {vs : List ByteValue}, packRow16 map row = .ok vs →
    ∀ v ∈ vs, ∃ x r, v = .expr (.number x r) ∧ -2147483648 ≤ x ∧ x ≤ 2147483647
  | [], vs, h => by cases h; simp
  | [_], vs, h => by cases h
  | c1 :: c2 :: row, vs, h => by
    rw [packRow16] at h
    obtain ⟨i1, _, h2⟩ := Res.bind_eq_ok.mp h
    obtain ⟨i2, _, h3⟩ := Res.bind_eq_ok.mp h2
    obtain ⟨rest, hr, h4⟩ := Res.bind_eq_ok.mp h3
    cases h4
    intro v hv
    rcases List.mem_cons.mp hv with rfl | hv
    · refine ⟨_, _, rfl, natCast_bounds ?_⟩
      have e1 : i1 &&& 0xF < 16 := by have := Nat.and_two_pow_sub_one_eq_mod i1 4; simp at this; omega
      have e2 : i2 &&& 0xF < 16 := by have := Nat.and_two_pow_sub_one_eq_mod i2 4; simp at this; omega
      have h1 : (i1 &&& 0xF) <<< 4 < 2 ^ 16 := by rw [Nat.shiftLeft_eq]; omega
      have h2 : i2 &&& 0xF < 2 ^ 16 := by omega
      exact Nat.or_lt_two_pow h1 h2
    · exact packRow16_data hr v hv

theorem packRow256_data {map : Palette} : ∀ {row : List Color} {vs : List ByteValue}, packRow256 map row = .ok vs →
    ∀ v ∈ vs, ∃ x r, v = .expr (.number x r) ∧ -2147483648 ≤ x ∧ x ≤ 2147483647
  | [], vs, h => by cases h; simp
  | c :: row, vs, h => by
    rw [packRow256] at h
    obtain ⟨i, _, h2⟩ := Res.bind_eq_ok.mp h
    obtain ⟨rest, hr, h4⟩ := Res.bind_eq_ok.mp h2
    cases h4
    intro v hv
    rcases List.mem_cons.mp hv with rfl | hv
    · refine ⟨_, _, rfl, natCast_bounds ?_⟩
      have := Nat.and_two_pow_sub_one_eq_mod i 8
      simp at this
      omega
    · exact packRow256_data hr v hv

theorem packRows_sane {pack : List Color → Res (List ByteValue)}
    (hp : ∀ row vs, pack row = .ok vs → ∀ v ∈ vs, ∃ x r, v = .expr (.number x r) ∧ -2147483648 ≤ x ∧ x ≤ 2147483647) :
    ∀ {rows ss}, packRows pack rows = .ok ss → ∀ s ∈ ss, DataStmt s := by
  intro rows
  induction rows with
  | nil => intro ss h; cases h; simp
  | cons row rows ih =>
    intro ss h
    rw [packRows] at h
    obtain ⟨bytes, hb, h2⟩ := Res.bind_eq_ok.mp h
    obtain ⟨rest, hr, h3⟩ := Res.bind_eq_ok.mp h2
    cases h3
    intro s hs
    rcases List.mem_cons.mp hs with rfl | hs
    · exact dataStmt_byte (hp _ _ hb)
    · exact ih hr s hs

theorem frameComment_sane {many idx} : ∀ s ∈ frameComment many idx, DataStmt s := by
  unfold frameComment
  intro s hs
  split at hs
  · simp only [List.mem_singleton] at hs
    subst hs
    exact dataStmt_comment _
  · cases hs

theorem packFrames16_sane {map : Palette} {many} : ∀ {fs idx ss}, packFrames16 map many idx fs = .ok ss →
    ∀ s ∈ ss, DataStmt s := by
  intro fs
  induction fs with
  | nil => intro idx ss h; cases h; simp
  | cons f fs ih =>
    intro idx ss h
    rw [packFrames16] at h
    obtain ⟨rows, hb, h2⟩ := Res.bind_eq_ok.mp h
    obtain ⟨rest, hr, h3⟩ := Res.bind_eq_ok.mp h2
    cases h3
    intro s hs
    simp only [List.mem_append] at hs
    rcases hs with (hs | hs) | hs
    · exact frameComment_sane s hs
    · exact packRows_sane (fun _ _ => packRow16_data) hb s hs
    · exact ih hr s hs

theorem packFrames256_sane {map : Palette} : ∀ {fs ss}, packFrames256 map fs = .ok ss →
    ∀ s ∈ ss, DataStmt s := by
  intro fs
  induction fs with
  | nil => intro ss h; cases h; simp
  | cons f fs ih =>
    intro ss h
    rw [packFrames256] at h
    obtain ⟨rows, hb, h2⟩ := Res.bind_eq_ok.mp h
    obtain ⟨rest, hr, h3⟩ := Res.bind_eq_ok.mp h2
    cases h3
    intro s hs
    rcases List.mem_append.mp hs with hs | hs
    · exact packRows_sane (fun _ _ => packRow256_data) hb s hs
    · exact ih hr s hs

theorem Image.toIcon_data {order i map name ss} (h : Image.toIcon order i map name = .ok ss) : ∀ s ∈ ss, DataStmt s := by
  unfold Image.toIcon at h
  split at h
  · obtain ⟨palette, _, h2⟩ := Res.bind_eq_ok.mp h
    obtain ⟨pixels, hp, h3⟩ : ∃ pixels, (∀ s ∈ pixels, DataStmt s) ∧
        .ok (.comment ("\nPalette for \"".toList ++ name ++ "\"".toList) ::
          (List.range (palette.length / 8)).map (paletteLine palette) ++
          .comment ("\nPixel data for \"".toList ++ name ++ "\"".toList) :: pixels) = Res.ok ss := by
      dsimp only at h2
      split at h2
      · obtain ⟨pixels, hp, h3⟩ := Res.bind_eq_ok.mp h2
        exact ⟨pixels, packFrames16_sane hp, h3⟩
      · obtain ⟨pixels, hp, h3⟩ := Res.bind_eq_ok.mp h2
        exact ⟨pixels, packFrames256_sane hp, h3⟩
    cases h3
    intro s hs
    simp only [List.cons_append, List.mem_cons, List.mem_append] at hs
    rcases hs with rfl | hs | rfl | hs
    · exact dataStmt_comment _
    · obtain ⟨y, _, rfl⟩ := List.mem_map.mp hs
      refine dataStmt_word fun e he => ?_
      obtain ⟨x, _, rfl⟩ := List.mem_map.mp he
      exact ⟨_, _, rfl, natCast_bounds (toPaletteColor_lt _)⟩
    · exact dataStmt_comment _
    · exact hp s hs
  · cases h
    intro s hs
    obtain ⟨f, _, hs⟩ := List.mem_flatMap.mp hs
    obtain ⟨row, _, rfl⟩ := List.mem_map.mp hs
    refine dataStmt_word fun e he => ?_
    obtain ⟨c, _, rfl⟩ := List.mem_map.mp he
    exact ⟨_, _, rfl, natCast_bounds (Nat.lt_of_le_of_lt Nat.and_le_left (toPaletteColor_lt c))⟩

theorem eyecatchType_lt (p) : eyecatchType p < 4 := by
  unfold eyecatchType
  split <;> (try split) <;> (try split) <;> omega

theorem iconHead_data {etype : Nat} (h : etype < 4) : ∀ s ∈ iconHead etype, DataStmt s := by
  have hz : ∀ v ∈ List.replicate 10 (ByteValue.expr (.num 0)), ∃ x r, v = .expr (.number x r) ∧ -2147483648 ≤ x ∧ x ≤ 2147483647 := by
    intro v hv
    obtain ⟨_, rfl⟩ := List.mem_replicate.mp hv
    exact ⟨_, _, rfl, by omega, by omega⟩
  intro s hs
  simp only [iconHead, List.mem_cons, List.not_mem_nil, or_false] at hs
  rcases hs with rfl | rfl | rfl | rfl | rfl | rfl | rfl | rfl | rfl
  · exact dataStmt_comment _
  · refine dataStmt_word fun e he => ?_
    simp only [List.mem_singleton] at he
    exact ⟨_, _, he, by omega, by omega⟩
  · exact dataStmt_comment _
  · refine dataStmt_word fun e he => ?_
    simp only [List.mem_singleton] at he
    exact ⟨_, _, he, by omega, by omega⟩
  · exact dataStmt_comment _
  · refine dataStmt_word fun e he => ?_
    simp only [List.mem_cons, List.not_mem_nil, or_false, or_self] at he
    exact ⟨_, _, he, by omega, by omega⟩
  · exact dataStmt_comment _
  · exact dataStmt_byte hz
  · exact dataStmt_byte hz

theorem toIcon_data {order load path speed eyecatch ss} (hsp : ∀ v, speed = some v → v < 65536)
    (h : toIcon order load path speed eyecatch = .ok ss) : ∀ s ∈ ss, DataStmt s := by
  unfold toIcon at h
  obtain ⟨img, _, h2⟩ := Res.bind_eq_ok.mp h
  dsimp only at h2
  split at h2
  · cases h2
  · split at h2
    · cases h2
    · obtain ⟨e, _, h3⟩ := Res.bind_eq_ok.mp h2
      obtain ⟨pixels, hp, h4⟩ := Res.bind_eq_ok.mp h3
      obtain ⟨rest, hr, h5⟩ := Res.bind_eq_ok.mp h4
      cases h5
      intro s hs
      simp only [List.mem_append] at hs
      rcases hs with ((hs | hs) | hs) | hs
      · simp only [Image.toFrameCountAndSpeed, List.mem_cons, List.not_mem_nil, or_false] at hs
        rcases hs with rfl | rfl
        · exact dataStmt_comment _
        · refine dataStmt_word fun e he => ?_
          simp only [List.mem_cons, List.not_mem_nil, or_false] at he
          rcases he with rfl | rfl
          · exact ⟨_, _, rfl, wrap32_bounds _⟩
          · refine ⟨_, _, rfl, natCast_bounds ?_⟩
            cases speed with
            | none => decide
            | some v => exact hsp v rfl
      · exact iconHead_data (eyecatchType_lt _) s hs
      · exact Image.toIcon_data hp s hs
      · unfold eyecatchPart at hr
        split at hr
        · cases hr; cases hs
        · split at hr
          · exact Image.toIcon_data hr s hs
          · cases hr

theorem includeData_sane {m order load fs file sf s ss} (h : includeData m order load fs file sf s = .ok ss)
    (hs : SaneStmt s) : ∀ x ∈ ss, SaneStmt x := by
  unfold includeData at h
  split at h
  · cases h
  · cases h
  · obtain ⟨path, _, h2⟩ := Res.bind_eq_ok.mp h
    obtain ⟨bytes, _, h3⟩ := Res.bind_eq_ok.mp h2
    cases h3
    intro x hx
    simp only [List.mem_singleton] at hx
    subst hx
    refine DataStmt.sane (dataStmt_byte fun v hv => ?_)
    obtain ⟨b, _, rfl⟩ := List.mem_map.mp hv
    have := b.toNat_lt
    exact ⟨_, _, rfl, by omega, by omega⟩
  · obtain ⟨speed, hsp, h2⟩ := Res.bind_eq_ok.mp h
    obtain ⟨ey, _, h3⟩ := Res.bind_eq_ok.mp h2
    obtain ⟨path, _, h4⟩ := Res.bind_eq_ok.mp h3
    obtain ⟨ey', _, h5⟩ := Res.bind_eq_ok.mp h4
    refine fun x hx => (toIcon_data (fun v hv => ?_) h5 x hx).sane
    subst hv
    unfold evalSpeed at hsp
    split at hsp
    · cases hsp
    · obtain ⟨w, _, h6⟩ := Res.bind_eq_ok.mp hsp
      cases h6
      omega
  · obtain ⟨path, _, h2⟩ := Res.bind_eq_ok.mp h
    obtain ⟨img, _, h3⟩ := Res.bind_eq_ok.mp h2
    obtain ⟨_, _, h4⟩ := Res.bind_eq_ok.mp h3
    cases h4
    intro x hx
    rcases List.mem_cons.mp hx with rfl | hx
    · exact (dataStmt_comment _).sane
    · obtain ⟨f, _, hx⟩ := List.mem_flatMap.mp hx
      exact (to1BitAsm_data x hx).sane
  · cases h
    intro x hx
    simp only [List.mem_singleton] at hx
    subst hx
    exact hs

theorem replaceData_sane {f : Stmt → Res (List Stmt)} (hf : ∀ s ss, f s = .ok ss → SaneStmt s → ∀ x ∈ ss, SaneStmt x) :
    ∀ {ss out}, replaceData f ss = .ok out → (∀ s ∈ ss, SaneStmt s) → ∀ x ∈ out, SaneStmt x := by
  intro ss
  induction ss with
  | nil => intro out h _; cases h; simp
  | cons s ss ih =>
    intro out h hs
    rw [replaceData] at h
    obtain ⟨a, ha, h2⟩ := Res.bind_eq_ok.mp h
    obtain ⟨b, hb, h3⟩ := Res.bind_eq_ok.mp h2
    cases h3
    intro x hx
    rcases List.mem_append.mp hx with hx | hx
    · exact hf _ _ ha (hs s (by simp)) x hx
    · exact ih hb (fun s hm => hs s (by simp [hm])) x hx

theorem readStatements_sane {m seg order load fs fuel sf name p}
    (h : readStatements m seg order load fs fuel sf name = .ok p) : SaneProgram p := by
  unfold readStatements at h
  obtain ⟨⟨q, path, sf'⟩, hq, h2⟩ := Res.bind_eq_ok.mp h
  obtain ⟨ss, hss, h3⟩ := Res.bind_eq_ok.mp h2
  cases h3
  obtain ⟨h4, h5⟩ := readProgram_sane hq
  exact ⟨replaceData_sane (fun _ _ => includeData_sane) hss h4, h5⟩

/-! ### Macros -/

theorem replaceWith_lits {onArg : Expr → Res Expr} (ho : ∀ e x, onArg e = .ok x → Lits e → Lits x)
    {labels : List (Text × Text)} {args : List (Text × Arg)} (hb : ∀ n l, labels.lookup n = some l → SaneName l)
    (ha : ∀ n a, args.lookup n = some a → ArgLits a) :
    ∀ {e x : Expr}, e.replaceWith onArg labels args = .ok x → Lits e → Lits x := by
  intro e
  induction e with
  | name n => intro x h hl; cases h; exact hl
  | number v r => intro x h hl; cases h; exact hl
  | macroLabel n =>
    intro x h _
    rw [Expr.replaceWith] at h
    split at h
    · rename_i l hlk
      cases h
      exact hb _ _ hlk
    · cases h
  | macroArg n =>
    intro x h _
    rw [Expr.replaceWith] at h
    split at h
    · cases h
    · rename_i e' hl
      exact ho _ _ h (ha _ _ hl)
    · cases h
    · cases h
    · cases h
  | uminus e ih | upperByte e ih | lowerByte e ih =>
    intro x h hl
    rw [Expr.replaceWith] at h
    obtain ⟨a, h1, h2⟩ := Res.bind_eq_ok.mp h
    cases h2
    exact ih (x := a) h1 hl
  | plus l r ih1 ih2 | minus l r ih1 ih2 | times l r ih1 ih2 | divide l r ih1 ih2 | bxor l r ih1 ih2 | band l r ih1 ih2
  | bor l r ih1 ih2 =>
    intro x h hl
    rw [Expr.replaceWith] at h
    obtain ⟨a, h1, h2⟩ := Res.bind_eq_ok.mp h
    obtain ⟨b, h3, h4⟩ := Res.bind_eq_ok.mp h2
    cases h4
    exact ⟨ih1 h1 hl.1, ih2 h3 hl.2⟩

theorem replaceMacroArgs_lits {labels : List (Text × Text)} {args : List (Text × Arg)}
    (hb : ∀ n l, labels.lookup n = some l → SaneName l)
    (ha : ∀ n a, args.lookup n = some a → ArgLits a) : ∀ (n : Nat) {e x : Expr},
    e.replaceMacroArgs n labels args = .ok x → Lits e → Lits x := by
  intro n
  induction n with
  | zero => exact fun h => replaceWith_lits (fun _ _ h => by cases h) hb ha h
  | succ n ih => exact fun h => replaceWith_lits (fun _ _ h => ih h) hb ha h

theorem replaceArg_lits {labels : List (Text × Text)} {args : List (Text × Arg)} {n : Nat}
    (hb : ∀ n l, labels.lookup n = some l → SaneName l)
    (ha : ∀ n a, args.lookup n = some a → ArgLits a) {a x : Arg} (h : replaceArg n labels args a = .ok x)
    (hl : ArgLits a) : ArgLits x := by
  unfold replaceArg at h
  split at h
  · split at h
    · cases h; exact ha _ _ (by assumption)
    · cases h
  · obtain ⟨y, h1, h2⟩ := Res.bind_eq_ok.mp h
    cases h2
    exact replaceMacroArgs_lits hb ha _ h1 hl
  · obtain ⟨y, h1, h2⟩ := Res.bind_eq_ok.mp h
    cases h2
    exact replaceMacroArgs_lits hb ha _ h1 hl
  · cases h; trivial

theorem replaceArgs_lits {labels : List (Text × Text)} {args : List (Text × Arg)} {n : Nat}
    (hb : ∀ n l, labels.lookup n = some l → SaneName l)
    (ha : ∀ n a, args.lookup n = some a → ArgLits a) : ∀ {as xs : List Arg}, replaceArgs n labels args as = .ok xs →
    (∀ a ∈ as, ArgLits a) → ∀ x ∈ xs, ArgLits x := by
  intro as
  induction as with
  | nil => intro xs h _; cases h; simp
  | cons a as ih =>
    intro xs h hl
    rw [replaceArgs] at h
    obtain ⟨y, h1, h2⟩ := Res.bind_eq_ok.mp h
    obtain ⟨ys, h3, h4⟩ := Res.bind_eq_ok.mp h2
    cases h4
    intro x hx
    rcases List.mem_cons.mp hx with rfl | hx
    · exact replaceArg_lits hb ha h1 (hl a (by simp))
    · exact ih h3 (fun a hm => hl a (by simp [hm])) x hx

theorem char_of_lower : ∀ {w : Text}, lower w = w → ∀ c ∈ w, c.toLower = c
  | c :: w, h, d, hd => by
    simp only [lower, List.map_cons, List.cons.injEq] at h
    rcases List.mem_cons.mp hd with rfl | hd
    · exact h.1
    · exact char_of_lower h.2 d hd

theorem lower_of_char {w : Text} (h : ∀ c ∈ w, c.toLower = c) : lower w = w := by
  unfold lower
  rw [List.map_congr_left (g := id) h, List.map_id]

theorem suffix_char {c : Char} (h : c.isLower = true ∨ c.isDigit = true) : identChar c ∧ c.toLower = c := by
  refine ⟨h.elim (fun h => .inl (.inl ?_)) fun h => .inr (.inl h), ?_⟩
  · simp [Char.isAlpha, h]
  · rcases toLower_cases c with e | ⟨n, hn, e, _⟩
    · exact e
    · subst e
      exfalso
      revert h
      revert n
      decide

theorem ident_percent {w : Text} (h : Ident w) : '%' ∉ w := by
  obtain ⟨c, cs, rfl, h1, h2⟩ := h
  intro hm
  rcases List.mem_cons.mp hm with e | hm
  · subst e; revert h1; unfold identStart; decide
  · have := h2 _ hm; revert this; unfold identChar identStart; decide

theorem genLabel_sane {n u : Text} (hn : SaneMark n) (hu : ∀ c ∈ u, c.isLower = true ∨ c.isDigit = true) :
    SaneName (genLabel n u) := by
  obtain ⟨w, ⟨hi, hl⟩, rfl⟩ := hn
  have hp := ident_percent hi
  have e : genLabel (w ++ ['%']) u = w ++ '_' :: u := by
    unfold genLabel
    rw [List.filter_append, List.filter_eq_self.mpr fun c hc => by
      simp only [decide_eq_true_eq]; exact fun e => hp (e ▸ hc)]
    simp
  rw [e]
  constructor
  · obtain ⟨c, cs, rfl, h1, h2⟩ := hi
    refine ⟨c, cs ++ '_' :: u, rfl, h1, fun d hd => ?_⟩
    rcases List.mem_append.mp hd with hd | hd
    · exact h2 d hd
    · rcases List.mem_cons.mp hd with rfl | hd
      · exact .inl (.inr (.inl rfl))
      · exact (suffix_char (hu d hd)).1
  · refine lower_of_char fun c hc => ?_
    rcases List.mem_append.mp hc with hc | hc
    · exact char_of_lower hl c hc
    · rcases List.mem_cons.mp hc with rfl | hc
      · decide
      · exact (suffix_char (hu c hc)).2

theorem genLabels_sane {uuid : Nat → Text} (hu : Suffixes uuid) : ∀ {body map k map' k'},
    genLabels uuid body map k = .ok (map', k') → (∀ s ∈ body, SaneBody s) → (∀ n l, map.lookup n = some l → SaneName l) →
    ∀ n l, map'.lookup n = some l → SaneName l := by
  intro body
  induction body with
  | nil => intro map k map' k' h _ hm; cases h; exact hm
  | cons s body ih =>
    intro map k map' k' h hs hm
    cases s with
    | macroLabel n =>
      rw [genLabels] at h
      split at h
      · refine ih h (fun s hx => hs s (by simp [hx])) fun n' l hl => ?_
        rw [List.lookup_cons] at hl
        split at hl
        · cases hl
          exact genLabel_sane (hs (.macroLabel n) (by simp)) (hu _)
        · exact hm _ _ hl
      · cases h
    | label n => exact ih (by simpa only [genLabels] using h) (fun s hx => hs s (by simp [hx])) hm
    | instr n a => exact ih (by simpa only [genLabels] using h) (fun s hx => hs s (by simp [hx])) hm

theorem argMap_lits {names : List Text} {args : List Arg} (h : ∀ a ∈ args, ArgLits a) :
    ∀ n a, (argMap names args).lookup n = some a → ArgLits a := by
  intro n a hl
  have := lookup_mem_pair hl
  unfold argMap at this
  exact h a (List.of_mem_zip (List.mem_reverse.mp this)).2

theorem expandBody_sane {uuid : Nat → Text} {macros : Macros} {fuel again labels argmap}
    (hag : ∀ n args k out k', again n args k = .ok (out, k') → (∀ a ∈ args, ArgLits a) → ∀ s ∈ out, SaneStmt s)
    (hl : ∀ n l, labels.lookup n = some l → SaneName l) (ha : ∀ n a, argmap.lookup n = some a → ArgLits a) :
    ∀ {body k out k'}, expandBody uuid macros fuel again labels argmap body k = .ok (out, k') →
      (∀ s ∈ body, SaneBody s) → ∀ s ∈ out, SaneStmt s := by
  intro body
  induction body with
  | nil => intro k out k' h _; cases h; simp
  | cons b body ih =>
    intro k out k' h hs
    have hs' : ∀ s ∈ body, SaneBody s := fun s hx => hs s (by simp [hx])
    cases b with
    | label n =>
      rw [expandBody] at h
      obtain ⟨⟨o, k1⟩, h1, h2⟩ := Res.bind_eq_ok.mp h
      cases h2
      intro s hm
      rcases List.mem_cons.mp hm with rfl | hm
      · exact hs (.label n) (by simp)
      · exact ih h1 hs' s hm
    | macroLabel n =>
      rw [expandBody] at h
      split at h
      · cases h
      · rename_i l hlk
        obtain ⟨⟨o, k1⟩, h1, h2⟩ := Res.bind_eq_ok.mp h
        cases h2
        intro s hm
        rcases List.mem_cons.mp hm with rfl | hm
        · exact hl _ _ hlk
        · exact ih h1 hs' s hm
    | instr n args =>
      rw [expandBody] at h
      split at h
      · obtain ⟨as, h1, h2⟩ := Res.bind_eq_ok.mp h
        obtain ⟨⟨new, k1⟩, h3, h4⟩ := Res.bind_eq_ok.mp h2
        obtain ⟨⟨o, k2⟩, h5, h6⟩ := Res.bind_eq_ok.mp h4
        cases h6
        intro s hm
        rcases List.mem_append.mp hm with hm | hm
        · exact hag _ _ _ _ _ h3 (replaceArgs_lits hl ha h1 (hs (.instr n args) (by simp))) s hm
        · exact ih h5 hs' s hm
      · obtain ⟨as, h1, h2⟩ := Res.bind_eq_ok.mp h
        obtain ⟨i, h3, h4⟩ := Res.bind_eq_ok.mp h2
        obtain ⟨⟨o, k2⟩, h5, h6⟩ := Res.bind_eq_ok.mp h4
        cases h6
        intro s hm
        rcases List.mem_cons.mp hm with rfl | hm
        · exact instr_sane (makeInstr_ok_iff.mp h3) (replaceArgs_lits hl ha h1 (hs (.instr n args) (by simp)))
        · exact ih h5 hs' s hm

theorem expand_sane {uuid : Nat → Text} {macros : Macros} (hu : Suffixes uuid)
    (hm : ∀ key d, macros.lookup key = some d → ∀ s ∈ d.body, SaneBody s) : ∀ (fuel : Nat) (n args k out k'),
    expand uuid macros fuel n args k = .ok (out, k') → (∀ a ∈ args, ArgLits a) → ∀ s ∈ out, SaneStmt s := by
  intro fuel
  induction fuel with
  | zero => intro n args k out k' h; cases h
  | succ fuel ih =>
    intro n args k out k' h ha
    rw [expand] at h
    split at h
    · cases h
    · rename_i d hd
      split at h
      · cases h
      · obtain ⟨⟨labels, k1⟩, h1, h2⟩ := Res.bind_eq_ok.mp h
        exact expandBody_sane ih (genLabels_sane hu h1 (hm _ _ hd) (by simp)) (argMap_lits ha) h2 (hm _ _ hd)

theorem expandBody_no_calls {uuid : Nat → Text} {macros : Macros} {fuel again labels argmap}
    (hag : ∀ n args k out k', again n args k = .ok (out, k') → ∀ n a, Stmt.macroCall n a ∉ out) :
    ∀ {body k out k'}, expandBody uuid macros fuel again labels argmap body k = .ok (out, k') →
      ∀ n a, Stmt.macroCall n a ∉ out := by
  intro body
  induction body with
  | nil => intro k out k' h; cases h; simp
  | cons b body ih =>
    intro k out k' h n' a' hm
    cases b with
    | label n =>
      rw [expandBody] at h
      obtain ⟨⟨o, k1⟩, h1, h2⟩ := Res.bind_eq_ok.mp h
      cases h2
      exact ih h1 n' a' (by simpa using hm)
    | macroLabel n =>
      rw [expandBody] at h
      split at h
      · cases h
      · obtain ⟨⟨o, k1⟩, h1, h2⟩ := Res.bind_eq_ok.mp h
        cases h2
        exact ih h1 n' a' (by simpa using hm)
    | instr n args =>
      rw [expandBody] at h
      split at h
      · obtain ⟨as, h1, h2⟩ := Res.bind_eq_ok.mp h
        obtain ⟨⟨new, k1⟩, h3, h4⟩ := Res.bind_eq_ok.mp h2
        obtain ⟨⟨o, k2⟩, h5, h6⟩ := Res.bind_eq_ok.mp h4
        cases h6
        rcases List.mem_append.mp hm with hm | hm
        · exact hag _ _ _ _ _ h3 n' a' hm
        · exact ih h5 n' a' hm
      · obtain ⟨as, h1, h2⟩ := Res.bind_eq_ok.mp h
        obtain ⟨i, h3, h4⟩ := Res.bind_eq_ok.mp h2
        obtain ⟨⟨o, k2⟩, h5, h6⟩ := Res.bind_eq_ok.mp h4
        cases h6
        exact ih h5 n' a' (by simpa using hm)

theorem expand_no_calls {uuid : Nat → Text} {macros : Macros} : ∀ (fuel : Nat) (n args k out k'),
    expand uuid macros fuel n args k = .ok (out, k') → ∀ n a, Stmt.macroCall n a ∉ out := by
  intro fuel
  induction fuel with
  | zero => intro n args k out k' h; cases h
  | succ fuel ih =>
    intro n args k out k' h
    rw [expand] at h
    split at h
    · cases h
    · split at h
      · cases h
      · obtain ⟨⟨labels, k1⟩, h1, h2⟩ := Res.bind_eq_ok.mp h
        exact expandBody_no_calls ih h2

theorem expandStmts_sane {uuid : Nat → Text} {macros : Macros} {fuel : Nat} (hu : Suffixes uuid)
    (hm : ∀ key d, macros.lookup key = some d → ∀ s ∈ d.body, SaneBody s) : ∀ {ss k out k'},
    expandStmts uuid macros fuel ss k = .ok (out, k') → (∀ s ∈ ss, SaneStmt s) →
      ∀ s ∈ out, SaneStmt s ∧ ∀ n args, s ≠ .macroCall n args := by
  intro ss
  induction ss with
  | nil => intro k out k' h _; cases h; simp
  | cons x ss ih =>
    intro k out k' h hs
    have hs' : ∀ s ∈ ss, SaneStmt s := fun s hx => hs s (by simp [hx])
    by_cases hc : ∃ n args, x = .macroCall n args
    · obtain ⟨n, args, rfl⟩ := hc
      rw [expandStmts] at h
      obtain ⟨⟨new, k1⟩, h1, h2⟩ := Res.bind_eq_ok.mp h
      obtain ⟨⟨o, k2⟩, h3, h4⟩ := Res.bind_eq_ok.mp h2
      cases h4
      intro s hx
      rcases List.mem_append.mp hx with hx | hx
      · refine ⟨expand_sane hu hm _ _ _ _ _ _ h1 (hs (.macroCall n args) (by simp)) s hx, fun n' a' e => ?_⟩
        exact expand_no_calls _ _ _ _ _ _ h1 n' a' (e ▸ hx)
      · exact ih h3 hs' s hx
    · rw [expandStmts] at h
      · obtain ⟨⟨o, k2⟩, h3, h4⟩ := Res.bind_eq_ok.mp h
        cases h4
        intro s hx
        rcases List.mem_cons.mp hx with rfl | hx
        · exact ⟨hs s (by simp), fun n a e => hc ⟨n, a, e⟩⟩
        · exact ih h3 hs' s hx
      · exact fun n a e => hc ⟨n, a, e⟩

theorem expandMacros_sane {uuid : Nat → Text} {fuel : Nat} (hu : Suffixes uuid) {p q : Program}
    (hp : SaneProgram p) (h : expandMacros uuid fuel p = .ok q) :
    ∀ s ∈ q.stmts, SaneStmt s ∧ ∀ n args, s ≠ .macroCall n args := by
  unfold expandMacros at h
  obtain ⟨⟨o, k⟩, h1, h2⟩ := Res.bind_eq_ok.mp h
  cases h2
  exact expandStmts_sane hu hp.2 h1 hp.1

theorem sane_source {ss : List Stmt} (h : ∀ s ∈ ss, SaneStmt s) : Source ss := by
  refine ⟨fun n hn _ => ⟨(h _ hn).2, ident_ne_nil (h _ hn).1⟩, fun a k hm => ?_⟩
  obtain ⟨h1, h2⟩ := h _ hm
  exact ⟨fun v r e => by subst e; exact h1, fun v r e => by subst e; exact h2⟩

theorem sane_literals {ss : List Stmt} (h : ∀ s ∈ ss, SaneStmt s) : ∀ s ∈ ss, ∀ e ∈ exprsOf s, Literals32 e :=
  fun s hs => (h s hs).literals32

end Verif
