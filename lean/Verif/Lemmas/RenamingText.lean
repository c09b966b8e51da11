import Verif.Lemmas.Renaming
import Verif.Lemmas.Sane
import Verif.Lemmas.ReadBack
import Verif.Lemmas.PrintInstr
import Verif.Lemmas.ParseProgram
/-
Renaming in the source text.
-/
namespace Verif
open Spec

variable {f : Text → Text}

/-- The names are in lower case, as the lexer makes them. -/
def LowToks (w : List Tok) : Prop := ∀ n, .name n ∈ w → lower n = n

theorem LowToks.left {a b : List Tok} (h : LowToks (a ++ b)) : LowToks a := fun n hn => h n (List.mem_append_left _ hn)
theorem LowToks.right {a b : List Tok} (h : LowToks (a ++ b)) : LowToks b := fun n hn => h n (List.mem_append_right _ hn)
theorem LowToks.tail {t : Tok} {b : List Tok} (h : LowToks (t :: b)) : LowToks b := fun n hn => h n (List.mem_cons_of_mem _ hn)

theorem ren_binOp {t lv g} (h : BinOp t lv g) : renameTok f t = t ∧ ∀ l r, renameExpr f (g l r) = g (renameExpr f l) (renameExpr f r) := by
  cases h <;> exact ⟨rfl, fun _ _ => rfl⟩

theorem ren_preOp {t g} (h : PreOp t g) : renameTok f t = t ∧ ∀ e, renameExpr f (g e) = g (renameExpr f e) := by
  cases h <;> exact ⟨rfl, fun _ => rfl⟩

theorem ren_sentence {lv w e} (h : Sentence lv w e) : LowToks w → Sentence lv (w.map (renameTok f)) (renameExpr f e) := by
  induction h with
  | atom h =>
    intro hw
    cases h with
    | @name n =>
      have : lower n = n := hw n List.mem_cons_self
      simp only [List.map_cons, List.map_nil, renameTok, renameExpr, this]
      exact .atom .name
    | number => exact .atom .number
    | label => exact .atom .label
    | param => exact .atom .param
  | paren _ ih =>
    intro hw
    simp only [List.map_cons, List.map_append, List.map_nil, renameTok]
    exact .paren (ih hw.tail.left)
  | pre h _ ih =>
    intro hw
    obtain ⟨h1, h2⟩ := ren_preOp (f := f) h
    rw [List.map_cons, h1, h2]
    exact .pre h (ih hw.tail)
  | binary h _ _ ih ih' =>
    intro hw
    obtain ⟨h1, h2⟩ := ren_binOp (f := f) h
    rw [List.map_append, List.map_cons, h1, h2]
    exact .binary h (ih hw.left) (ih' hw.right.tail)
  | tight _ ih => exact fun hw => .tight (ih hw)

theorem ren_listed {α β : Type} {A : List Tok → α → Prop} {B : List Tok → β → Prop} {g : α → β}
    (hg : ∀ w a, LowToks w → A w a → B (w.map (renameTok f)) (g a)) {w as} (h : Listed A w as) :
    LowToks w → Listed B (w.map (renameTok f)) (as.map g) := by
  induction h with
  | one h => exact fun hw => .one (hg _ _ hw h)
  | cons h _ ih =>
    intro hw
    rw [List.map_append, List.map_cons, List.map_cons]
    exact .cons (hg _ _ hw.left h) (ih hw.right.tail)

theorem ren_optListed {α β : Type} {A : List Tok → α → Prop} {B : List Tok → β → Prop} {g : α → β}
    (hg : ∀ w a, LowToks w → A w a → B (w.map (renameTok f)) (g a)) {w as} (h : OptListed A w as) (hw : LowToks w) :
    OptListed B (w.map (renameTok f)) (as.map g) := by
  rcases h with ⟨rfl, rfl⟩ | h
  · exact .inl ⟨rfl, rfl⟩
  · exact .inr (ren_listed hg h hw)

/-- The argument with the names replaced -/
def renameArg (f : Text → Text) : Arg → Arg
  | .imm e => .imm (renameExpr f e)
  | .ex e => .ex (renameExpr f e)
  | .im r => .im r
  | .macroArg n => .macroArg n

theorem ren_arg {w a} (hw : LowToks w) (h : ArgSyntax w a) : ArgSyntax (w.map (renameTok f)) (renameArg f a) := by
  cases h with
  | im h =>
    rename_i t r
    have : renameTok f t = t := by cases h <;> rfl
    rw [List.map_cons, List.map_nil, this]
    exact .im h
  | imm h => exact .imm (ren_sentence h hw.tail)
  | param h => exact .param (ren_sentence h hw)
  | ex h hn =>
    refine .ex (ren_sentence h hw) fun n e => ?_
    rename_i e'
    cases e' <;> cases e
    exact hn _ rfl

theorem ren_writtenAs (k : Kind) (o : Sum Expr IM) : renameArg f (writtenAs k o) = writtenAs k (renameOperand f o) := by
  cases k <;> cases o <;> rfl

theorem ren_zip : ∀ (ks : List Kind) (os : List (Sum Expr IM)),
    (List.zipWith writtenAs ks os).map (renameArg f) = List.zipWith writtenAs ks (os.map (renameOperand f))
  | [], _ => by simp
  | _ :: _, [] => by simp
  | k :: ks, o :: os => by simp only [List.zipWith_cons_cons, List.map_cons, ren_writtenAs, ren_zip ks os]

/-- The instruction with the names replaced -/
theorem ren_instr (f : Text → Text) (i : Instr Expr IM) :
    ∃ i' : Instr Expr IM, i'.form = i.form ∧ operands i' = (operands i).map (renameOperand f) := by
  refine ⟨i.mapE (renameExpr f), mapE_form _ _, ?_⟩
  rw [mapE_operands]
  apply List.map_congr_left
  intro o _
  cases o <;> rfl

theorem ren_byteItem {w v} (hw : LowToks w) (h : ByteSyntax w v) : ByteSyntax (w.map (renameTok f)) (renameItem f v) := by
  cases h with
  | str => exact .str
  | expr h => exact .expr (ren_sentence h hw)

theorem reserved_low {n : Text} (h : Reserved n) : lower n = n := by
  rcases h with h | ⟨g, rfl⟩ | rfl
  · revert n
    decide
  · cases g <;> decide
  · decide

/-- Other words do not become reserved words. -/
theorem ren_free (hf : Renaming f) (hr : ∀ n, Reserved n → f n = n) {n : Text} (hn : lower n = n) (h : Reserved (f n)) : Reserved n := by
  have := hf.distinct n (f n) hn (hf.low n hn) (hr _ h).symm
  rwa [← this] at h

theorem ren_directives (hf : Renaming f) (hr : ∀ n, Reserved n → f n = n) {n : Text} (hn : lower n = n)
    (h : n ∉ directives.map String.toList) : f n ∉ directives.map String.toList := by
  intro h'
  have := hf.distinct n (f n) hn (hf.low n hn) (hr _ (.inl h')).symm
  rw [← this] at h'
  exact h h'

theorem ren_dotted (hf : Renaming f) {n : Text} (hn : lower n = n) (h : Dotted n) : Dotted (f n) := by
  rw [← isDotted_iff, isDotted_eq] at h ⊢
  rw [hf.locality n hn, h]

/-- Neither an include nor a macro call -/
def PlainStmt (s : Stmt) : Prop := (∀ t p, s ≠ .dir (.incl t p)) ∧ ∀ n a, s ≠ .macroCall n a

theorem ren_instrSyntax (hr : ∀ n, Reserved n → f n = n) {w s} (hw : LowToks w) (h : InstrSyntax w s) (hp : PlainStmt s) :
    ∃ s', InstrSyntax (w.map (renameTok f)) s' ∧ Renamed f s s' := by
  cases h with
  | @instr n w args i ha hi =>
    obtain ⟨i', h1, h2⟩ := ren_instr f i
    obtain ⟨rfl, rfl⟩ := hi
    refine ⟨.instr i', ?_, .instr h1 h2⟩
    simp only [List.map_cons, renameTok]
    rw [hr _ (.inr (.inl ⟨i.form, rfl⟩))]
    refine .instr (ren_optListed (fun _ _ hw h => ren_arg (f := f) hw h) ha hw.tail) ⟨by rw [h1], ?_⟩
    rw [h1, h2, ren_zip]
  | call _ _ _ => exact absurd rfl (hp.2 _ _)

theorem ren_directive (hr : ∀ n, Reserved n → f n = n) {w d} (hw : LowToks w) (h : DirSyntax w d) (hp : PlainStmt (.dir d)) :
    ∃ d', DirSyntax (w.map (renameTok f)) d' ∧ Renamed f (.dir d) (.dir d') := by
  have hd : ∀ n : String, n ∈ directives → f n.toList = n.toList := fun n hn => hr _ (.inl (List.mem_map_of_mem hn))
  cases h with
  | byte h =>
    simp only [List.map_cons, renameTok, hd ".byte" (by decide)]
    exact ⟨_, .byte (ren_listed (fun _ _ hw h => ren_byteItem (f := f) hw h) h hw.tail), .byte⟩
  | word h =>
    simp only [List.map_cons, renameTok, hd ".word" (by decide)]
    exact ⟨_, .word (ren_listed (fun _ _ hw h => ren_sentence h hw) h hw.tail), .word⟩
  | org =>
    simp only [List.map_cons, renameTok, hd ".org" (by decide), List.map_nil]
    exact ⟨_, .org, .org⟩
  | text =>
    simp only [List.map_cons, renameTok, hd ".text" (by decide), List.map_nil]
    exact ⟨_, .text, .text⟩
  | string =>
    simp only [List.map_cons, renameTok, hd ".string" (by decide), List.map_nil]
    exact ⟨_, .string, .string⟩
  | cnop h h' =>
    simp only [List.map_cons, renameTok, hd ".cnop" (by decide), List.map_append]
    exact ⟨_, .cnop (ren_sentence h hw.tail.left) (ren_sentence h' hw.tail.right.tail), .cnop⟩
  | _ => exact absurd rfl (hp.1 _ _)

theorem ren_one {s s' : Stmt} (h : Renamed f s s') : RenamedProgram f [s] [s'] := .cons h .nil

theorem ren_label {n : Text} (hn : lower n = n) : Renamed f (.label n) (.label (f n)) := by
  have := Renamed.label (f := f) (n := n)
  rwa [hn] at this

theorem ren_line (hf : Renaming f) (hr : ∀ n, Reserved n → f n = n) {w ss} (h : LineSyntax w ss) (hw : LowToks w)
    (hp : ∀ s ∈ ss, PlainStmt s) : ∃ ss', LineSyntax (w.map (renameTok f)) ss' ∧ RenamedProgram f ss ss' := by
  have he : f "equ".toList = "equ".toList := hr _ (.inr (.inr rfl))
  cases h with
  | empty => exact ⟨[], .empty, .nil⟩
  | @label n => exact ⟨_, .label, ren_one (ren_label (hw n List.mem_cons_self))⟩
  | @labelled n w s h =>
    obtain ⟨s', h1, h2⟩ := ren_instrSyntax hr hw.tail.tail h (hp s (List.mem_cons_of_mem _ List.mem_cons_self))
    exact ⟨_, .labelled h1, .cons (ren_label (hw n List.mem_cons_self)) (ren_one h2)⟩
  | @localLabel n hd hn =>
    have hl := hw n List.mem_cons_self
    exact ⟨_, .localLabel (ren_dotted hf hl hd) (ren_directives hf hr hl hn), ren_one (ren_label hl)⟩
  | @instr w s h hn =>
    obtain ⟨s', h1, h2⟩ := ren_instrSyntax hr hw h (hp s List.mem_cons_self)
    refine ⟨_, .instr h1 fun e => hn ?_, ren_one h2⟩
    rw [List.getElem?_map] at e
    cases hk : w[1]? with
    | none => rw [hk] at e; cases e
    | some k =>
      rw [hk] at e
      have e := Option.some.inj e
      cases k with
      | name n =>
        have hl := hw n (List.mem_of_getElem? hk)
        have e : f n = "equ".toList := by simpa [renameTok] using e
        rw [← he] at e
        rw [hf.distinct n _ hl (by decide) e]
      | _ => cases e
  | @directive w d h =>
    obtain ⟨d', h1, h2⟩ := ren_directive hr hw h (hp _ List.mem_cons_self)
    exact ⟨_, .directive h1, ren_one h2⟩
  | @alias n w e hn h =>
    have hl := hw n List.mem_cons_self
    have := Renamed.alias (f := f) (n := n) (e := e)
    rw [hl] at this
    refine ⟨_, ?_, ren_one this⟩
    simp only [List.map_cons, renameTok, he]
    exact .alias (ren_directives hf hr hl hn) (ren_sentence h hw.tail.tail)
  | @«variable» n w e hn h =>
    have hl := hw n List.mem_cons_self
    have := Renamed.variable (f := f) (n := n) (e := e)
    rw [hl] at this
    refine ⟨_, ?_, ren_one this⟩
    simp only [List.map_cons, renameTok]
    exact .variable (ren_directives hf hr hl hn) (ren_sentence h hw.tail.tail)

theorem ren_append {a b c d : List Stmt} (h : RenamedProgram f a b) (h' : RenamedProgram f c d) :
    RenamedProgram f (a ++ c) (b ++ d) := by
  induction h with
  | nil => exact h'
  | cons h _ ih => exact .cons h ih

theorem ren_lines (hf : Renaming f) (hr : ∀ n, Reserved n → f n = n) {K : List (List Tok)} {sss : List (List Stmt)}
    (h : EachLine LineSyntax K sss) : (∀ l ∈ K, LowToks l) → (∀ s ∈ sss.flatten, PlainStmt s) →
    ∃ sss', EachLine LineSyntax (K.map (·.map (renameTok f))) sss' ∧ RenamedProgram f sss.flatten sss'.flatten := by
  induction h with
  | nil => exact fun _ _ => ⟨[], .nil, .nil⟩
  | cons hl _ ih =>
    intro hK hp
    rw [List.flatten_cons] at hp
    obtain ⟨r, h1, h2⟩ := ih (fun l hl => hK l (List.mem_cons_of_mem _ hl)) fun s hs => hp s (List.mem_append_right _ hs)
    obtain ⟨a, h3, h4⟩ := ren_line hf hr hl (hK _ List.mem_cons_self) fun s hs => hp s (List.mem_append_left _ hs)
    exact ⟨a :: r, .cons h3 h1, ren_append h4 h2⟩

theorem lexesTo_saneToks {file b t toks} (h : LexesTo file b t toks) : ∀ k ∈ toks, SaneTok k.tok := by
  induction h with
  | done _ =>
    intro k hk
    rw [List.mem_singleton.mp hk]
    trivial
  | token _ hs _ ih =>
    intro k hk
    rcases List.mem_cons.mp hk with rfl | hk
    · exact spells_sane hs
    · exact ih k hk

theorem readsAs_sane {t : Text} {K : List (List Tok)} (h : ReadsAs t K) : ∀ l ∈ K, ∀ k ∈ l, SaneTok k := by
  obtain ⟨L, ⟨e, h1, _⟩, rfl⟩ := h
  intro l hl k hk
  obtain ⟨x, hx, rfl⟩ := List.mem_map.mp hl
  obtain ⟨y, hy, rfl⟩ := List.mem_map.mp hk
  exact lexesTo_saneToks h1 y (List.mem_append_left _ (List.mem_flatten.mpr ⟨x, hx, hy⟩))

theorem lines_sane {K : List (List Tok)} {sss : List (List Stmt)} (h : EachLine LineSyntax K sss) :
    (∀ l ∈ K, ∀ k ∈ l, SaneTok k) → ∀ s ∈ sss.flatten, SaneStmt s := by
  induction h with
  | nil => intro _ s hs; simp at hs
  | cons hl _ ih =>
    intro hK s hs
    rw [List.flatten_cons] at hs
    rcases List.mem_append.mp hs with hs | hs
    · exact lineSyntax_sane hl (hK _ List.mem_cons_self) s hs
    · exact ih (fun l hl => hK l (List.mem_cons_of_mem _ hl)) s hs

theorem renamed_mem {p p' : List Stmt} (h : RenamedProgram f p p') : ∀ s' ∈ p', ∃ s ∈ p, Renamed f s s' := by
  induction h with
  | nil => intro s hs; cases hs
  | cons h _ ih =>
    intro s' hs
    rcases List.mem_cons.mp hs with rfl | hs
    · exact ⟨_, List.mem_cons_self, h⟩
    · obtain ⟨s, h1, h2⟩ := ih s' hs
      exact ⟨s, List.mem_cons_of_mem _ h1, h2⟩

/-- A file that differs only in its names consists of statements that differ only in their names. -/
theorem ren_oneFile (hf : Renaming f) (hr : ∀ n, Reserved n → f n = n) {t t' : Text} {K : List (List Tok)} {ss : List Stmt}
    (h : OneFile t K ss) (h' : ReadsAs t' (K.map (·.map (renameTok f)))) :
    SourceLabels ss ∧ ∃ ss', OneFile t' (K.map (·.map (renameTok f))) ss' ∧ RenamedProgram f ss ss' := by
  obtain ⟨sss, h1, h2, rfl, h3, h4, h5⟩ := h
  have hsane := readsAs_sane h1
  have hst := lines_sane h2 hsane
  refine ⟨fun n hn _ => ?_, ?_⟩
  · have := hst _ hn
    exact ⟨this.2, by rintro rfl; obtain ⟨c, cs, e, _⟩ := this.1; cases e⟩
  obtain ⟨sss', h6, h7⟩ := ren_lines hf hr h2 (fun l hl n hn => (hsane l hl _ hn).2) fun s hs =>
    ⟨fun t p e => h3 t p (e ▸ hs), fun n a e => h4 n a (e ▸ hs)⟩
  refine ⟨sss'.flatten, ⟨sss', h', h6, rfl, ?_, ?_, ?_⟩, h7⟩
  · intro k path hm
    obtain ⟨s, g1, g2⟩ := renamed_mem h7 _ hm
    cases g2
  · intro n a hm
    obtain ⟨s, g1, g2⟩ := renamed_mem h7 _ hm
    cases g2
  · intro hm
    obtain ⟨s, g1, g2⟩ := renamed_mem h7 _ hm
    generalize hl : Stmt.label ".include".toList = s' at g2
    cases g2 with
    | @label n =>
      injection hl with hl
      have hlow : lower n = n := (hst _ g1).2
      have hi : f ".include".toList = ".include".toList := hr _ (.inl (by decide))
      rw [hlow] at hl
      have := hf.distinct n ".include".toList hlow (by decide) (hl ▸ hi.symm ▸ rfl)
      exact h5 (this ▸ g1)
    | _ => cases hl

end Verif
