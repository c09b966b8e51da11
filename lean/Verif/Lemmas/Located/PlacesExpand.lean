import Verif.Lemmas.Located.PlacesParse
/-
The places in what macros expand to.
-/
namespace Verif.Located
open Spec Spec.Places

variable {all : List Token} {load : Text → Verif.Res Image}

/-! ### Parts of expressions -/

theorem shown_bare {w : List Token} {s : Span} (h : Shown all w s) : Shown all w ⟨s.start, s.stop, []⟩ := by
  obtain ⟨l, h1, h2, h3, _⟩ := h
  exact ⟨l, h1, h2, h3, .inl rfl⟩

theorem shown_reparent {w : List Token} {s : Span} {rs : List Range} {l : List Token} (hl : IsLine all l) (hw : w <:+: l)
    (hc : Covers w s.range) (ht : Trace all l rs) : Shown all w ⟨s.start, s.stop, rs⟩ := ⟨l, hl, hw, hc, ht⟩

theorem singleton_infix {l : List Token} {t : Token} (h : t ∈ l) : [t] <:+: l := by
  obtain ⟨a, b, rfl⟩ := List.append_of_mem h
  exact ⟨a, b, by simp⟩

theorem shownExpr_token {e : Verif.Expr} {s : Span} (h : ShownExpr all e s) {k : Tok} (ha : AtomTok k e) :
    ∃ t, ShownToken all t s ∧ t.tok = k := by
  obtain ⟨l, w, h1, h2, h3, h4⟩ := h
  obtain ⟨t, ht, hk, hr⟩ := highlights_atom h3 ha
  exact ⟨t, ⟨l, h1, singleton_infix (h2.subset ht), ⟨t, t, rfl, rfl, hr⟩, h4⟩, hk⟩

theorem macroLabel_shown {s : Span} {n : Text} (h : ExprOk all (.macroLabel s n)) :
    ∃ t, ShownToken all t s ∧ t.tok = .macroLabel n := by
  obtain ⟨e₀, h1, h2⟩ := shownExpr_of h
  cases h2
  exact shownExpr_token h1 .label

theorem macroArg_shown {s : Span} {n : Text} (h : ExprOk all (.macroArg s n)) :
    ∃ t, ShownToken all t s ∧ t.tok = .macroIdent n := by
  obtain ⟨e₀, h1, h2⟩ := shownExpr_of h
  cases h2
  exact shownExpr_token h1 .param

theorem name_shown {s : Span} {n : Text} (h : ExprOk all (.name s n)) : ∃ t, ShownToken all t s ∧ Spelt t n := by
  obtain ⟨e₀, h1, h2⟩ := shownExpr_of h
  rcases h2 with rfl | ⟨m, u, rfl, hn⟩
  · obtain ⟨t, h3, h4⟩ := shownExpr_token h1 .name
    exact ⟨t, h3, .inl h4⟩
  · obtain ⟨t, h3, h4⟩ := shownExpr_token h1 .label
    exact ⟨t, h3, .inr ⟨m, u, h4, hn⟩⟩

/-! ### Substitution -/

/-- The line is that of one of the calls. -/
def OnCall (all : List Token) (rs : List Range) (l : List Token) : Prop := ∃ r ∈ rs, ∃ n, CallOn all n l r

theorem node_move {L L' : List Token → Prop} {ps : List Range} {x y : Expr} {inv : Span}
    (h : x.span.parents = ps ∧ ∃ l w e₀, L l ∧ IsLine all l ∧ w <:+: l ∧ Highlights .bitwise w e₀ x.span.range ∧ Alike e₀ x)
    (hs : y.span = x.span.withParent inv) (ha : ∀ e₀, Alike e₀ x → Alike e₀ y) (hL : ∀ l, L l → L' l := by exact fun _ h => .inl h.1) :
    y.span.parents = inv.range :: inv.parents ∧
      ∃ l w e₀, L' l ∧ IsLine all l ∧ w <:+: l ∧ Highlights .bitwise w e₀ y.span.range ∧ Alike e₀ y := by
  obtain ⟨_, l, w, e₀, h2, h3, h4, h5, h6⟩ := h
  exact ⟨by rw [hs]; rfl, l, w, e₀, hL l h2, h3, h4, by rw [hs]; exact h5, ha e₀ h6⟩

theorem withSpan_self (x : Expr) : x.withSpan x.span = x := by cases x <;> rfl

theorem span_eta (s : Span) : (⟨s.start, s.stop, s.parents⟩ : Span) = s := rfl

theorem replaceWith_places {onArg : Expr → Res Expr} {inv : Span} {labels : List (Text × Text)} {args : List (Text × Arg)}
    {L : List Token → Prop} {ps : List Range}
    (hlab : ∀ x ∈ labels, ∃ u, x.2 = genLabel x.1 u)
    (hargs : ∀ x ∈ args, ArgSrc all (OnCall all (inv.range :: inv.parents)) x.2)
    (hon : ∀ e, SrcT all (OnCall all (inv.range :: inv.parents)) e → (∀ s n, e ≠ .macroArg s n) →
      (onArg e).All (Blames all load) fun x =>
        Src all (OnCall all (inv.range :: inv.parents)) (inv.range :: inv.parents) x ∧ x.span = e.span.withParent inv)
    (htr : ∀ l, OnCall all (inv.range :: inv.parents) l → Trace all l (inv.range :: inv.parents)) (e : Expr)
    (h : Src all (fun l => L l ∧ Trace all l ps) ps e) :
    (e.replaceWith onArg inv labels args).All (Blames all load) fun x =>
      Src all (fun l => L l ∨ OnCall all (inv.range :: inv.parents) l) (inv.range :: inv.parents) x ∧
        ((∀ s n, e ≠ .macroArg s n) → x.span = e.span.withParent inv ∧ ∀ s n, x ≠ .macroArg s n) := by
  induction e with
  | bxor s l r ih1 ih2 =>
    unfold Expr.replaceWith
    refine .bind (ih1 h.2.1) fun a ha => .bind (ih2 h.2.2) fun b hb => ?_
    exact ⟨⟨node_move h.1 rfl (fun _ h => h), ha.1, hb.1⟩, fun _ => ⟨rfl, by simp⟩⟩
  | band s l r ih1 ih2 =>
    unfold Expr.replaceWith
    refine .bind (ih1 h.2.1) fun a ha => .bind (ih2 h.2.2) fun b hb => ?_
    exact ⟨⟨node_move h.1 rfl (fun _ h => h), ha.1, hb.1⟩, fun _ => ⟨rfl, by simp⟩⟩
  | bor s l r ih1 ih2 =>
    unfold Expr.replaceWith
    refine .bind (ih1 h.2.1) fun a ha => .bind (ih2 h.2.2) fun b hb => ?_
    exact ⟨⟨node_move h.1 rfl (fun _ h => h), ha.1, hb.1⟩, fun _ => ⟨rfl, by simp⟩⟩
  | plus s l r ih1 ih2 =>
    unfold Expr.replaceWith
    refine .bind (ih1 h.2.1) fun a ha => .bind (ih2 h.2.2) fun b hb => ?_
    exact ⟨⟨node_move h.1 rfl (fun _ h => h), ha.1, hb.1⟩, fun _ => ⟨rfl, by simp⟩⟩
  | minus s l r ih1 ih2 =>
    unfold Expr.replaceWith
    refine .bind (ih1 h.2.1) fun a ha => .bind (ih2 h.2.2) fun b hb => ?_
    exact ⟨⟨node_move h.1 rfl (fun _ h => h), ha.1, hb.1⟩, fun _ => ⟨rfl, by simp⟩⟩
  | times s l r ih1 ih2 =>
    unfold Expr.replaceWith
    refine .bind (ih1 h.2.1) fun a ha => .bind (ih2 h.2.2) fun b hb => ?_
    exact ⟨⟨node_move h.1 rfl (fun _ h => h), ha.1, hb.1⟩, fun _ => ⟨rfl, by simp⟩⟩
  | divide s l r ih1 ih2 =>
    unfold Expr.replaceWith
    refine .bind (ih1 h.2.1) fun a ha => .bind (ih2 h.2.2) fun b hb => ?_
    exact ⟨⟨node_move h.1 rfl (fun _ h => h), ha.1, hb.1⟩, fun _ => ⟨rfl, by simp⟩⟩
  | uminus s e ih =>
    unfold Expr.replaceWith
    refine .bind (ih h.2) fun a ha => ?_
    exact ⟨⟨node_move h.1 rfl (fun _ h => h), ha.1⟩, fun _ => ⟨rfl, by simp⟩⟩
  | upperByte s e ih =>
    unfold Expr.replaceWith
    refine .bind (ih h.2) fun a ha => ?_
    exact ⟨⟨node_move h.1 rfl (fun _ h => h), ha.1⟩, fun _ => ⟨rfl, by simp⟩⟩
  | lowerByte s e ih =>
    unfold Expr.replaceWith
    refine .bind (ih h.2) fun a ha => ?_
    exact ⟨⟨node_move h.1 rfl (fun _ h => h), ha.1⟩, fun _ => ⟨rfl, by simp⟩⟩
  | name s n => exact ⟨node_move (y := .name (s.withParent inv) n) h rfl (fun _ h => h), fun _ => ⟨rfl, by simp⟩⟩
  | number s v radix =>
    exact ⟨node_move (y := .number (s.withParent inv) v radix) h rfl (fun _ h => h), fun _ => ⟨rfl, by simp⟩⟩
  | macroLabel s n =>
    unfold Expr.replaceWith
    split
    next label hl =>
      obtain ⟨u, hu⟩ := hlab _ (lookup_pair hl)
      refine ⟨node_move (y := .name (s.withParent inv) label) h rfl (fun e₀ h => ?_), fun _ => ⟨rfl, by simp⟩⟩
      exact .inr ⟨n, u, h, hu⟩
    next =>
      obtain ⟨t, h1, h2⟩ := macroLabel_shown ⟨L, ps, h⟩
      exact Blames.macroLabelOutside h1 h2
  | macroArg s n =>
    obtain ⟨t, h1, h2⟩ := macroArg_shown ⟨L, ps, h⟩
    unfold Expr.replaceWith
    split
    next e he =>
      obtain ⟨e₀, h3, _⟩ := shownExpr_of (exprOk_of (hargs _ (lookup_pair he)))
      exact Blames.immediateNotAllowed (s := s.withParent e.span) (shown_bare (s := s) h1) h2 rfl ⟨e₀, h3⟩
    next e he =>
      obtain ⟨h3, h4⟩ := hargs _ (lookup_pair he)
      refine .bind (hon e h3 h4) fun x ⟨h5, h6⟩ => ?_
      rw [← h6, withSpan_self]
      exact ⟨h5.imp fun _ h => .inr h, fun h => absurd rfl (h s n)⟩
    next t' r he =>
      obtain ⟨k, l, _, h4, h5, h6, rfl⟩ := hargs _ (lookup_pair he)
      exact Blames.indirectionNotAllowed (s := s.withParent k.span) (shown_bare (s := s) h1) h2 rfl (shown_token h4 h5) ⟨_, h6⟩
    next t' n' he =>
      obtain ⟨k, l, h3, h4, h5, h6, rfl⟩ := hargs _ (lookup_pair he)
      exact Blames.macroArgOutside (t := k) (shown_reparent h4 (singleton_infix h5) ⟨k, k, rfl, rfl, rfl⟩ (htr l h3)) h6
    next => exact Blames.invalidMacroArg h1 h2

theorem onCall_trace {n : Text} {rs : List Range} (h : Expanded all n rs) {l : List Token} (hl : OnCall all rs l) :
    Trace all l rs := .inr ⟨n, h, .inr hl⟩

theorem replaceMacroArgs_places {inv : Span} {labels : List (Text × Text)} {args : List (Text × Arg)} {name : Text}
    (hx : Expanded all name (inv.range :: inv.parents)) (hlab : ∀ x ∈ labels, ∃ u, x.2 = genLabel x.1 u)
    (hargs : ∀ x ∈ args, ArgSrc all (OnCall all (inv.range :: inv.parents)) x.2) (fuel : Nat) :
    ∀ {L : List Token → Prop} {ps : List Range} {e : Expr}, Src all (fun l => L l ∧ Trace all l ps) ps e →
    (e.replaceMacroArgs fuel inv labels args).All (Blames all load) fun x =>
      Src all (fun l => L l ∨ OnCall all (inv.range :: inv.parents) l) (inv.range :: inv.parents) x ∧
        ((∀ s n, e ≠ .macroArg s n) → x.span = e.span.withParent inv ∧ ∀ s n, x ≠ .macroArg s n) := by
  induction fuel with
  | zero =>
    intro L ps e h
    exact replaceWith_places hlab hargs (onArg := fun _ => .loop) (fun _ _ _ => trivial) (fun _ => onCall_trace hx) e h
  | succ fuel ih =>
    intro L ps e h
    refine replaceWith_places hlab hargs (fun e' ⟨qs, h1⟩ h2 => ?_) (fun _ => onCall_trace hx) e h
    exact (ih h1).imp fun x ⟨h3, h4⟩ => ⟨h3.imp fun _ h => h.elim id id, (h4 h2).1⟩

theorem argSrc_mono {L L' : List Token → Prop} (h : ∀ l, L l → L' l) {a : Arg} (ha : ArgSrc all L a) : ArgSrc all L' a := by
  cases a with
  | imm e =>
    obtain ⟨ps, hs⟩ := ha
    exact ⟨ps, hs.imp fun l hl => ⟨h l hl.1, hl.2⟩⟩
  | ex e =>
    obtain ⟨⟨ps, hs⟩, hn⟩ := ha
    exact ⟨⟨ps, hs.imp fun l hl => ⟨h l hl.1, hl.2⟩⟩, hn⟩
  | im s r =>
    obtain ⟨t, l, hl, rest⟩ := ha
    exact ⟨t, l, h l hl, rest⟩
  | macroArg s n =>
    obtain ⟨t, l, hl, rest⟩ := ha
    exact ⟨t, l, h l hl, rest⟩

theorem replaceArg_places {fuel : Nat} {inv : Span} {labels : List (Text × Text)} {args : List (Text × Arg)} {name : Text}
    (hx : Expanded all name (inv.range :: inv.parents)) (hlab : ∀ x ∈ labels, ∃ u, x.2 = genLabel x.1 u)
    (hargs : ∀ x ∈ args, ArgSrc all (OnCall all (inv.range :: inv.parents)) x.2) {l : List Token} (hl : InMacro all name l)
    {a : Arg} (ha : ArgSrc all (· = l) a) :
    (replaceArg fuel inv labels args a).All (Blames all load)
      (ArgSrc all fun l' => l' = l ∨ OnCall all (inv.range :: inv.parents) l') := by
  have htr : ∀ l', (l' = l ∨ OnCall all (inv.range :: inv.parents) l') → Trace all l' (inv.range :: inv.parents) := by
    rintro _ (rfl | h)
    · exact .inr ⟨name, hx, .inl hl⟩
    · exact onCall_trace hx h
  cases a with
  | imm e =>
    obtain ⟨ps, hs⟩ := ha
    refine .bind (replaceMacroArgs_places hx hlab hargs fuel hs) fun x ⟨h1, _⟩ => ?_
    exact ⟨_, h1.imp fun l h => ⟨h, htr l h⟩⟩
  | ex e =>
    obtain ⟨⟨ps, hs⟩, hn⟩ := ha
    refine .bind (replaceMacroArgs_places hx hlab hargs fuel hs) fun x ⟨h1, h2⟩ => ?_
    exact ⟨⟨_, h1.imp fun l h => ⟨h, htr l h⟩⟩, (h2 hn).2⟩
  | im s r => exact argSrc_mono (fun _ h => .inl h) ha
  | macroArg s n =>
    unfold replaceArg
    dsimp only
    split
    next a hl => exact argSrc_mono (fun _ h => .inr h) (hargs _ (lookup_pair hl))
    next =>
      obtain ⟨t, l, _, h1, h2, h3, rfl⟩ := ha
      exact Blames.invalidMacroArg (shown_token h1 h2) h3

theorem replaceArgs_places {fuel : Nat} {inv : Span} {labels : List (Text × Text)} {args : List (Text × Arg)} {name : Text}
    (hx : Expanded all name (inv.range :: inv.parents)) (hlab : ∀ x ∈ labels, ∃ u, x.2 = genLabel x.1 u)
    (hargs : ∀ x ∈ args, ArgSrc all (OnCall all (inv.range :: inv.parents)) x.2) {l : List Token} (hl : InMacro all name l)
    {as : List Arg} (ha : ∀ a ∈ as, ArgSrc all (· = l) a) :
    (replaceArgs fuel inv labels args as).All (Blames all load) fun as' =>
      ∀ a ∈ as', ArgSrc all (fun l' => l' = l ∨ OnCall all (inv.range :: inv.parents) l') a := by
  induction as with
  | nil => intro a ha; cases ha
  | cons a as ih =>
    rw [replaceArgs]
    refine .bind (replaceArg_places hx hlab hargs hl (ha a (by simp))) fun a' h1 => ?_
    refine .bind (ih fun a h => ha a (by simp [h])) fun as' h2 => ?_
    intro x hx
    rcases List.mem_cons.mp hx with rfl | hx
    · exact h1
    · exact h2 x hx

/-! ### Expansion -/

theorem genLabels_places {uuid : Nat → Text} {body : List MacroStmt} (hb : ∀ b ∈ body, ∃ l, BodyOk all l b)
    {map : List (Text × Text)} (hm : ∀ x ∈ map, ∃ u, x.2 = genLabel x.1 u) (k : Nat) :
    (genLabels uuid body map k).All (Blames all load) fun x => ∀ y ∈ x.1, ∃ u, y.2 = genLabel y.1 u := by
  induction body generalizing map k with
  | nil => exact hm
  | cons b body ih =>
    have hb' : ∀ b ∈ body, ∃ l, BodyOk all l b := fun b h => hb b (by simp [h])
    cases b with
    | instr s n args => exact ih hb' hm k
    | label s n => exact ih hb' hm k
    | macroLabel s n =>
      unfold genLabels
      split
      next =>
        refine ih hb' (fun x hx => ?_) _
        rcases List.mem_cons.mp hx with rfl | hx
        · exact ⟨_, rfl⟩
        · exact hm x hx
      next =>
        obtain ⟨l, t, h1, h2⟩ := hb (.macroLabel s n) (by simp)
        exact Blames.duplicateLabel h1 h2

theorem stmts_append {a b : List Stmt} (ha : ∀ s ∈ a, StmtOk all load s) (hb : ∀ s ∈ b, StmtOk all load s) :
    ∀ s ∈ a ++ b, StmtOk all load s := by
  intro s hs
  rcases List.mem_append.mp hs with h | h
  · exact ha s h
  · exact hb s h

/-- What the recursive call must satisfy -/
def AgainOk (all : List Token) (load : Text → Verif.Res Image) (again : Span → Text → List Arg → Nat → Res (List Stmt × Nat)) :
    Prop :=
  ∀ s name args k, Expanded all name (s.range :: s.parents) → (∃ t, ShownFrom all t s ∧ t.tok = .name name) →
    (∀ a ∈ args, ArgSrc all (OnCall all (s.range :: s.parents)) a) →
    (again s name args k).All (Blames all load) fun x => ∀ st ∈ x.1, StmtOk all load st

theorem expandBody_places {uuid : Nat → Text} {macros : Macros} {fuel : Nat}
    {again : Span → Text → List Arg → Nat → Res (List Stmt × Nat)} (hag : AgainOk all load again)
    {inv : Span} {labels : List (Text × Text)} {args : List (Text × Arg)} {name : Text}
    (hx : Expanded all name (inv.range :: inv.parents)) (hlab : ∀ x ∈ labels, ∃ u, x.2 = genLabel x.1 u)
    (hargs : ∀ x ∈ args, ArgSrc all (OnCall all (inv.range :: inv.parents)) x.2)
    {body : List MacroStmt} (hb : ∀ b ∈ body, ∃ l, InMacro all name l ∧ BodyOk all l b) (k : Nat) :
    (expandBody uuid macros fuel again inv labels args body k).All (Blames all load) fun x =>
      ∀ st ∈ x.1, StmtOk all load st := by
  induction body generalizing k with
  | nil => intro st h; cases h
  | cons b body ih =>
    have ih' := ih fun b h => hb b (by simp [h])
    obtain ⟨l, hl, hbl⟩ := hb b (by simp)
    cases b with
    | instr s iname iargs =>
      obtain ⟨h1, h2, h3⟩ := hbl
      have hshown : ∃ t, ShownFrom all t (s.withParent inv) ∧ t.tok = .name iname :=
        callOn_shown (s := s.withParent inv) h1 (.inr ⟨name, hx, .inl hl⟩)
      unfold expandBody
      split
      next =>
        refine .bind (replaceArgs_places hx hlab hargs hl h3) fun as has => ?_
        refine .bind (hag (s.withParent inv) iname as k (.nested h1 hl hx) hshown fun a ha => ?_) fun ⟨new, k1⟩ hnew => ?_
        · refine argSrc_mono ?_ (has a ha)
          rintro l' (rfl | ⟨r, hr, hc⟩)
          · exact ⟨_, List.mem_cons_self, iname, h1⟩
          · exact ⟨r, List.mem_cons_of_mem _ hr, hc⟩
        · exact .bind (ih' k1) fun ⟨out, k2⟩ hout => stmts_append hnew hout
      next =>
        refine .bind (replaceArgs_places hx hlab hargs hl h3) fun as has => ?_
        obtain ⟨t, ht, hk⟩ := hshown
        refine .bind (makeInstr_all (.unknownInstruction ht hk) (fun hm => .wrongInstructionArgs ht hk hm)) fun i hi => ?_
        refine .bind (ih' k) fun ⟨out, k2⟩ hout => ?_
        intro st hst
        rcases List.mem_cons.mp hst with rfl | hst
        · exact fun e he => argSrc_ok has (hi e he)
        · exact hout st hst
    | label s n =>
      refine .bind (ih' k) fun ⟨out, k2⟩ hout => ?_
      obtain ⟨t, h1, h2⟩ := hbl
      intro st hst
      rcases List.mem_cons.mp hst with rfl | hst
      · exact ⟨t, h1, .inl h2⟩
      · exact hout st hst
    | macroLabel s n =>
      unfold expandBody
      split
      next => trivial
      next label hlk =>
        refine .bind (ih' k) fun ⟨out, k2⟩ hout => ?_
        obtain ⟨t, h1, h2⟩ := hbl
        obtain ⟨u, hu⟩ := hlab _ (lookup_pair hlk)
        intro st hst
        rcases List.mem_cons.mp hst with rfl | hst
        · exact ⟨t, h1, .inr ⟨n, u, h2, hu⟩⟩
        · exact hout st hst

theorem expand_places {uuid : Nat → Text} {macros : Macros} (hm : ∀ x ∈ macros, MacroOk all x.1 x.2) (fuel : Nat) :
    AgainOk all load (expand uuid macros fuel) := by
  induction fuel with
  | zero => intro s name args k _ _ _; trivial
  | succ fuel ih =>
    intro s name args k hx hshown hargs
    unfold expand
    split
    next =>
      obtain ⟨t, h1, h2⟩ := hshown
      exact Blames.noSuchMacro h1 h2
    next d hd =>
      obtain ⟨h1, _, h3⟩ := hm _ (lookup_pair hd)
      refine .ite (fun h => absurd h1 h) fun _ => ?_
      refine .bind (genLabels_places (fun b hb => ?_) (map := []) (by simp) k) fun ⟨labels, k1⟩ hlab => ?_
      · obtain ⟨l, _, h⟩ := h3 b hb
        exact ⟨l, h⟩
      · refine expandBody_places ih hx hlab (fun x hx => ?_) h3 k1
        exact hargs _ (List.of_mem_zip (List.mem_reverse.mp hx)).2

theorem expandStmts_places {uuid : Nat → Text} {macros : Macros} (hm : ∀ x ∈ macros, MacroOk all x.1 x.2) {fuel : Nat}
    {stmts : List Stmt} (hs : ∀ s ∈ stmts, StmtOk all load s) (k : Nat) :
    (expandStmts uuid macros fuel stmts k).All (Blames all load) fun x => ∀ st ∈ x.1, StmtOk all load st := by
  induction stmts generalizing k with
  | nil => intro s h; cases h
  | cons x stmts ih =>
    have ih' := ih fun s h => hs s (by simp [h])
    have hx := hs x (by simp)
    cases x with
    | macroCall s name args =>
      rw [expandStmts]
      obtain ⟨l, h1, h2, h3⟩ := hx
      refine .bind (expand_places hm fuel s name args k (by rw [h2]; exact .call h1) (callOn_shown h1 (.inl h2)) fun a ha => ?_)
        fun ⟨new, k1⟩ hnew => .bind (ih' k1) fun ⟨out, k2⟩ hout => stmts_append hnew hout
      exact argSrc_mono (fun l' e => e ▸ ⟨_, List.mem_cons_self, name, h1⟩) (h3 a ha)
    | dir | label | instr | «variable» | «alias» | comment =>
      refine .bind (ih' k) fun ⟨out, k2⟩ hout => ?_
      exact stmts_append (a := [_]) (by simpa using hx) hout

theorem expandMacros_places {uuid : Nat → Text} {fuel : Nat} {p : Program} (hm : ∀ x ∈ p.macros, MacroOk all x.1 x.2)
    (hs : ∀ s ∈ p.stmts, StmtOk all load s) :
    (expandMacros uuid fuel p).All (Blames all load) fun q => ∀ s ∈ q.stmts, StmtOk all load s :=
  .bind (expandStmts_places hm hs 0) fun _ h => h

end Verif.Located
