import Verif.Lemmas.Located.PlacesExpand
import Verif.Lemmas.Located.PlacesData
/-
The places of the errors found when the statements are read.
-/
namespace Verif.Located
open Spec Spec.Places

variable {all : List Token} {load : Text → Verif.Res Image}

/-! ### No errors -/

/-- The outcome is no error. -/
def NoErr {α : Type} (r : Verif.Res α) : Prop := ∀ e, r ≠ .err e

theorem NoErr.silent {α : Type} {E : Err → Place → Prop} {r : Verif.Res α} (h : NoErr r) : (Res.lift r).All E fun _ => True :=
  .lift (fun _ _ => trivial) fun e he => absurd he (h e)

theorem NoErr.bind {α β : Type} {r : Verif.Res α} {f : α → Verif.Res β} (h : NoErr r) (k : ∀ a, NoErr (f a)) : NoErr (r >>= f) := by
  intro e he
  cases r with
  | ok a => exact k a e he
  | err e' => exact h e' rfl
  | panic => cases he
  | loop => cases he

theorem norm_noErr (m : Mode) (x : Int) : NoErr (m.norm x) := by
  intro e h
  cases m <;> unfold Mode.norm at h <;> (try split at h) <;> cases h

theorem norm_all {E : Err → Place → Prop} {m : Mode} {x : Int} : (Res.lift (m.norm x)).All E fun _ => True :=
  (norm_noErr m x).silent

theorem cnopLoop_noErr (m : Mode) (pos k : Int) (fuel : Nat) : ∀ mult, NoErr (cnopLoop m pos k fuel mult) := by
  induction fuel with
  | zero => intro mult e h; cases h
  | succ fuel ih =>
    intro mult
    rw [cnopLoop]
    split
    · intro e h; cases h
    · exact .bind (norm_noErr _ _) fun _ => ih _

theorem writeByte_noErr (out : List UInt8) (pos : Nat) (b : UInt8) : NoErr (writeByte out pos b) := by
  intro e h
  unfold writeByte at h
  split at h <;> cases h

theorem writeBytes_noErr (bs : List UInt8) : ∀ out pos, NoErr (writeBytes out pos bs) := by
  induction bs with
  | nil => intro out pos e h; cases h
  | cons b bs ih =>
    intro out pos
    rw [writeBytes]
    exact .bind (writeByte_noErr _ _ _) fun _ => ih _ _

theorem addUsize_noErr (m : Mode) (pos : Nat) (d : Int) : NoErr (addUsize m pos d) := by
  intro e h
  unfold addUsize at h
  dsimp only at h
  split at h
  · cases h
  · cases m <;> cases h

theorem asEnv_noErr (names : Names) (g : Text) : NoErr (names.asEnv g) := by
  intro e h
  unfold Names.asEnv at h
  split at h <;> cases h

/-! ### Expressions -/

theorem eval_src {m : Mode} {env : Env} {L : List Token → Prop} {ps : List Range} {e : Expr}
    (h : Src all (fun l => L l ∧ Trace all l ps) ps e) : (e.eval m env).All (Blames all load) fun _ => True := by
  induction e with
  | bxor s l r ih1 ih2 =>
    unfold Expr.eval
    exact .bind (ih1 h.2.1) fun a _ => .bind (ih2 h.2.2) fun b _ => trivial
  | band s l r ih1 ih2 =>
    unfold Expr.eval
    exact .bind (ih1 h.2.1) fun a _ => .bind (ih2 h.2.2) fun b _ => trivial
  | bor s l r ih1 ih2 =>
    unfold Expr.eval
    exact .bind (ih1 h.2.1) fun a _ => .bind (ih2 h.2.2) fun b _ => trivial
  | plus s l r ih1 ih2 =>
    unfold Expr.eval
    exact .bind (ih1 h.2.1) fun a _ => .bind (ih2 h.2.2) fun b _ => norm_all
  | minus s l r ih1 ih2 =>
    unfold Expr.eval
    exact .bind (ih1 h.2.1) fun a _ => .bind (ih2 h.2.2) fun b _ => norm_all
  | times s l r ih1 ih2 =>
    unfold Expr.eval
    exact .bind (ih1 h.2.1) fun a _ => .bind (ih2 h.2.2) fun b _ => norm_all
  | uminus s e ih =>
    unfold Expr.eval
    exact .bind (ih h.2) fun a _ => norm_all
  | upperByte s e ih =>
    unfold Expr.eval
    exact .bind (ih h.2) fun a _ => trivial
  | lowerByte s e ih =>
    unfold Expr.eval
    exact .bind (ih h.2) fun a _ => trivial
  | divide s l r ih1 ih2 =>
    unfold Expr.eval
    refine .bind (ih1 h.2.1) fun a _ => .bind (ih2 h.2.2) fun b _ => .ite (fun _ => ?_) fun _ => ?_
    · obtain ⟨e₀, h1, l', r', rfl⟩ := shownExpr_of ⟨L, ps, h⟩
      exact Blames.divideByZero h1
    · exact .ite (fun _ => trivial) fun _ => trivial
  | name s n =>
    unfold Expr.eval
    split
    next => trivial
    next =>
      obtain ⟨t, h1, h2⟩ := name_shown ⟨L, ps, h⟩
      exact Blames.nameNotFound h1 h2
  | number s v radix => trivial
  | macroLabel s n =>
    obtain ⟨t, h1, h2⟩ := macroLabel_shown ⟨L, ps, h⟩
    exact Blames.macroLabelOutside h1 h2
  | macroArg s n =>
    obtain ⟨t, h1, h2⟩ := macroArg_shown ⟨L, ps, h⟩
    exact Blames.macroArgOutside h1 h2

theorem eval_places {m : Mode} {env : Env} {e : Expr} (h : ExprOk all e) :
    (e.eval m env).All (Blames all load) fun _ => True := by
  obtain ⟨L, ps, h⟩ := h
  exact eval_src h

theorem misfit_places {x : Err} {e : Expr} (h : ExprOk all e) (hx : Misfit x) : Blames all load x (.span e.span) := by
  obtain ⟨e₀, h1, _⟩ := shownExpr_of h
  exact .misfit hx h1

theorem evalBits_places {m : Mode} {env : Env} {bits : Nat} {e : Expr} (h : ExprOk all e) :
    (evalBits m env bits e).All (Blames all load) fun _ => True :=
  .bind (eval_places h) fun _ _ => .ite (fun _ => misfit_places h .bits) fun _ => trivial

theorem evalRel8_places {m : Mode} {env : Env} {pos : Nat} {e : Expr} (h : ExprOk all e) :
    (evalRel8 m env pos e).All (Blames all load) fun _ => True :=
  .bind (eval_places h) fun _ _ => .ite
    (fun _ => .bind norm_all fun _ _ => .ite (fun _ => trivial) fun _ => misfit_places h .signed) fun _ => misfit_places h .address

theorem evalAbs12_places {m : Mode} {env : Env} {pos : Nat} {e : Expr} (h : ExprOk all e) :
    (evalAbs12 m env pos e).All (Blames all load) fun _ => True :=
  .bind (evalBits_places h) fun _ _ => .ite (fun _ => misfit_places h .top) fun _ => trivial

theorem evalRel16_places {m : Mode} {env : Env} {pos : Nat} {e : Expr} (h : ExprOk all e) :
    (evalRel16 m env pos e).All (Blames all load) fun _ => True :=
  .bind (eval_places h) fun _ _ => .ite
    (fun _ => .bind norm_all fun _ _ => .bind norm_all fun _ _ => .ite (fun _ => trivial) fun _ => misfit_places h .signed)
    fun _ => misfit_places h .address

theorem cnopExpr_places {e : Expr} (h : ExprOk all e) : (evalCnopExpr e).All (Blames all load) fun _ => True := by
  unfold evalCnopExpr
  split
  next => trivial
  next hn =>
    obtain ⟨e₀, h1, h2⟩ := shownExpr_of h
    refine Blames.mustBeLiteralNumber h1 fun v radix he => ?_
    subst he
    cases e with
    | number s v' r' => exact hn s v' r' rfl
    | name s n => rcases h2 with h2 | ⟨_, _, h2, _⟩ <;> cases h2
    | divide s l r => obtain ⟨_, _, h2⟩ := h2; cases h2
    | macroLabel => cases h2
    | macroArg => cases h2
    | _ => exact h2 v radix rfl

theorem size_places {m : Mode} {pos : Int} {d : Directive} (h : DirOk all load d) :
    (d.size m pos).All (Blames all load) fun _ => True := by
  cases d with
  | cnop s a k =>
    refine .bind (P := fun _ => True) ?_ fun _ _ => norm_all
    refine .bind (cnopExpr_places h.1) fun a _ => .bind (cnopExpr_places h.2) fun k _ => ?_
    refine .ite (fun _ => trivial) fun _ => ?_
    have hc := cnopLoop_noErr m pos k cnopFuel 0
    generalize cnopLoop m pos k cnopFuel 0 = r at hc ⊢
    exact .bind hc.silent fun _ _ => norm_all
  | org s l =>
    have key : ∀ r, NoErr r → (Res.lift r : Res Int).All (Blames all load) fun _ => True := fun r hr => hr.silent
    rw [Directive.size]
    refine key _ ?_
    exact norm_noErr _ _
  | byte | word | text | string | incl =>
    unfold Directive.size
    exact True.intro

/-! ### Names -/

/-- The definitions are in the source. -/
def NamesOk (all : List Token) (names : List (Text × NameValue)) : Prop := ∀ x ∈ names, Defines all x.1 x.2.span

theorem addName_places {n : Text} {s : Span} {v : Int} {names : List (Text × NameValue)} (h : NamesOk all names)
    (hd : Defines all n s) : (addName n ⟨s, v⟩ names).All (Blames all load) (NamesOk all) := by
  unfold addName
  split
  next old ho => exact Blames.nameAlreadyExists hd (h _ (lookup_pair ho))
  next =>
    intro x hx
    rcases List.mem_cons.mp hx with rfl | hx
    · exact hd
    · exact h x hx

theorem runSteps_places {σ : Type} {step : σ → Stmt → Res σ} {I : σ → Prop} {E : Err → Place → Prop} {P : Stmt → Prop}
    (h : ∀ s x, I s → P x → (step s x).All E I) {stmts : List Stmt} (hs : ∀ x ∈ stmts, P x) :
    ∀ {s}, I s → (runSteps step stmts s).All E I := by
  induction stmts with
  | nil => intro s hi; exact hi
  | cons x xs ih =>
    intro s hi
    exact .bind (h s x hi (hs x (by simp))) fun s' h' => ih (fun y hy => hs y (by simp [hy])) h'

theorem labelStep_places {m : Mode} {s : LabelState} {x : Stmt} (hi : NamesOk all s.globals ∧ NamesOk all s.local_)
    (hx : StmtOk all load x) :
    (labelStep m s x).All (Blames all load) fun s => NamesOk all s.globals ∧ NamesOk all s.local_ := by
  cases x with
  | dir d => exact .bind (size_places hx) fun _ _ => .bind norm_all fun _ _ => hi
  | label sp name =>
    obtain ⟨t, h1, h2⟩ := hx
    have hd : Defines all (lower name) sp := ⟨t, name, h1, h2, rfl⟩
    refine .ite (fun _ => ?_) fun _ => ?_
    · exact .bind (addName_places hi.2 hd) fun _ h => ⟨hi.1, h⟩
    · exact .bind (addName_places hi.1 hd) fun _ h => ⟨h, by intro x hx; cases hx⟩
  | instr s i => exact .bind norm_all fun _ _ => hi
  | «variable» | «alias» | comment => exact hi
  | macroCall => trivial

theorem computeLabels_places {m : Mode} {stmts : List Stmt} (h : ∀ s ∈ stmts, StmtOk all load s) :
    (computeLabels m stmts).All (Blames all load) fun x => NamesOk all x.1 := by
  have hn : NamesOk all [] := by intro x hx; cases hx
  refine .bind (runSteps_places (P := StmtOk all load) (I := fun s : LabelState => NamesOk all s.globals ∧ NamesOk all s.local_)
    (step := labelStep m) (fun s x hi hx => labelStep_places hi hx) h ⟨hn, hn⟩) fun s hi => ?_
  split
  · exact hi.1
  · exact hi.1

theorem defineName_places {m : Mode} {s : NameState} {sp : Span} {n : Text} {e : Expr} (hi : NamesOk all s.globals)
    (h1 : ∃ t, ShownFrom all t sp ∧ t.tok = .name n) (h2 : ExprOk all e) :
    (defineName m s sp n e).All (Blames all load) fun s => NamesOk all s.globals := by
  obtain ⟨t, ht, hk⟩ := h1
  exact .bind (eval_places h2) fun v _ => .bind (addName_places hi ⟨t, n, ht, .inl hk, rfl⟩) fun _ h => h

theorem nameStep_places {m : Mode} {s : NameState} {x : Stmt} (hi : NamesOk all s.globals) (hx : StmtOk all load x) :
    (nameStep m s x).All (Blames all load) fun s => NamesOk all s.globals := by
  cases x with
  | dir d => exact .bind (size_places hx) fun _ _ => .bind norm_all fun _ _ => hi
  | instr s i => exact .bind norm_all fun _ _ => hi
  | «variable» s n e => exact defineName_places hi hx.1 hx.2
  | «alias» s n e => exact defineName_places hi hx.1 hx.2
  | label | comment => exact hi
  | macroCall => trivial

theorem computeNames_places {m : Mode} {stmts : List Stmt} (h : ∀ s ∈ stmts, StmtOk all load s) :
    (computeNames m stmts).All (Blames all load) fun _ => True := by
  refine .bind (computeLabels_places h) fun labels hl => ?_
  refine .bind (runSteps_places (P := StmtOk all load) (I := fun s : NameState => NamesOk all s.globals)
    (step := nameStep m) (fun s x hi hx => nameStep_places hi hx) h hl) fun s _ => ?_
  exact .bind norm_all fun _ _ => trivial

/-! ### Bytes -/

theorem writeByteValues_places {m : Mode} {env : Env} {vs : List ByteValue}
    (h : ∀ v ∈ vs, ValOk all v ∨ PlainByte load v) : ∀ out pos,
    (writeByteValues m env out pos vs).All (Blames all load) fun _ => True := by
  induction vs with
  | nil => intro out pos; trivial
  | cons v vs ih =>
    have ih' := ih fun v hv => h v (by simp [hv])
    intro out pos
    cases v with
    | str s bs => exact .bind (writeBytes_noErr _ _ _).silent fun _ _ => ih' _ _
    | expr e =>
      rw [writeByteValues]
      rcases h (.expr e) (by simp) with he | ⟨x, radix, he, hx⟩
      · refine .bind (eval_places he) fun v _ => .ite (fun _ => misfit_places he .byte) fun _ => ?_
        exact .bind (writeByte_noErr _ _ _).silent fun _ _ => ih' _ _
      · cases he
        show Res.All _ _ (if x < -128 ∨ x > 255 then _ else _)
        refine .ite (fun hr => ?_) fun _ => .bind (writeByte_noErr _ _ _).silent fun _ _ => ih' _ _
        rcases hx with ⟨_, _⟩ | ⟨path, i, f, h1, h2, h3⟩
        · omega
        · exact Blames.frameSize h1 h2 h3

theorem writeWords_places {m : Mode} {env : Env} {es : List Expr}
    (h : ∀ e ∈ es, ExprOk all e ∨ PlainWord load e) : ∀ out pos,
    (writeWords m env out pos es).All (Blames all load) fun _ => True := by
  induction es with
  | nil => intro out pos; trivial
  | cons e es ih =>
    have ih' := ih fun v hv => h v (by simp [hv])
    intro out pos
    rw [writeWords]
    rcases h e (by simp) with he | ⟨x, radix, he, hx⟩
    · refine .bind (eval_places he) fun v _ => .ite (fun _ => misfit_places he .word) fun _ => ?_
      exact .bind (writeByte_noErr _ _ _).silent fun _ _ => .bind (writeByte_noErr _ _ _).silent fun _ _ => ih' _ _
    · cases he
      show Res.All _ _ (if x < -32768 ∨ x > 65535 then _ else _)
      refine .ite (fun hr => ?_) fun _ =>
        .bind (writeByte_noErr _ _ _).silent fun _ _ => .bind (writeByte_noErr _ _ _).silent fun _ _ => ih' _ _
      rcases hx with ⟨h1, h2⟩ | ⟨path, i, h1, h2, h3⟩
      · exact absurd hr (by omega)
      · have hf := Blames.frames (all := all) h1 h2
        rw [← h3] at hf
        exact hf

theorem writePadded_places {s : GenState} {sp : Span} {size : Nat} {bytes : List UInt8} {pad : UInt8}
    (h : ∃ t, ShownFrom all t sp ∧ (t.tok = .name ".text".toList ∨ t.tok = .name ".string".toList)) :
    (writePadded s sp size bytes pad).All (Blames all load) fun _ => True := by
  obtain ⟨t, h1, h2⟩ := h
  refine .ite (fun hn => Blames.bytesLongerThanLength h1 h2 hn) fun _ => ?_
  exact .bind (writeBytes_noErr _ _ _).silent fun _ _ => .bind (writeBytes_noErr _ _ _).silent fun _ _ => trivial

theorem evalInstr_places {m : Mode} {names : Names} {g : Text} {pos : Nat} {i : Instr Expr IM}
    (h : ∀ e ∈ exprsOf i, ExprOk all e) : (evalInstr m names g pos i).All (Blames all load) fun _ => True := by
  unfold evalInstr
  refine .bind (asEnv_noErr _ _).silent fun env _ => ?_
  exact evalInstrIn_all (fun e he _ => evalBits_places (h e he)) (fun e he => evalRel8_places (h e he))
    (fun e he => evalAbs12_places (h e he)) (fun e he => evalRel16_places (h e he))

theorem genStep_places {m : Mode} {names : Names} {s : GenState} {x : Stmt} (hx : StmtOk all load x) :
    (genStep m names s x).All (Blames all load) fun _ => True := by
  cases x with
  | dir d =>
    cases d with
    | byte sp vs =>
      exact .bind (asEnv_noErr _ _).silent fun env _ => .bind (writeByteValues_places hx _ _) fun _ _ => trivial
    | org sp location =>
      refine .ite (fun _ => ?_) fun _ => trivial
      obtain ⟨t, k, v, radix, h1, h2, h3, rfl⟩ := hx
      exact Blames.invalidCodeLocation h1 h2 h3
    | word sp es =>
      exact .bind (asEnv_noErr _ _).silent fun env _ => .bind (writeWords_places hx _ _) fun _ _ => trivial
    | text sp size bs =>
      obtain ⟨t, h1, h2⟩ := hx
      exact writePadded_places ⟨t, h1, .inl h2⟩
    | string sp size bs =>
      obtain ⟨t, h1, h2⟩ := hx
      exact writePadded_places ⟨t, h1, .inr h2⟩
    | incl => trivial
    | cnop sp a k => exact .bind (size_places hx) fun _ _ => .bind (addUsize_noErr _ _ _).silent fun _ _ => trivial
  | label sp n => exact .ite (fun _ => trivial) fun _ => trivial
  | instr sp i =>
    exact .bind (addUsize_noErr _ _ _).silent fun _ _ => .bind (evalInstr_places hx) fun _ _ =>
      .bind (writeBytes_noErr _ _ _).silent fun _ _ => trivial
  | «variable» | «alias» | comment | macroCall => trivial

theorem assemble_places {m : Mode} {stmts : List Stmt} (h : ∀ s ∈ stmts, StmtOk all load s) :
    (assemble m stmts).All (Blames all load) fun _ => True := by
  refine .bind (computeNames_places h) fun x _ => .ite (fun _ => trivial) fun _ => ?_
  exact .bind (runSteps_places (P := StmtOk all load) (I := fun _ => True) (step := genStep m x.2) (fun s x _ hx => genStep_places hx) h trivial) fun _ _ => trivial

/-! ### Binary includes -/

theorem stmt_plain {s : Verif.Stmt} (h : FitStmt load s) : StmtOk all load (.plain s) := by
  rcases h with ⟨t, rfl⟩ | ⟨vs, rfl, h⟩ | ⟨es, rfl, h⟩
  · trivial
  · intro v hv
    obtain ⟨v, hv', rfl⟩ := List.mem_map.mp hv
    obtain ⟨x, r, rfl, hx⟩ := h v hv'
    exact .inr ⟨x, r, rfl, hx⟩
  · intro e he
    obtain ⟨e, he', rfl⟩ := List.mem_map.mp he
    obtain ⟨x, r, rfl, hx⟩ := h e he'
    exact .inr ⟨x, r, rfl, hx⟩

theorem path_noErr (fs : FS) (sf : SourceFiles) (root : Option Path) (p : Path) : NoErr (sf.path fs root p) := by
  intro e h
  unfold SourceFiles.path at h
  split at h
  · dsimp only at h
    split at h
    · change (if _ then _ else _) = _ at h
      split at h <;> cases h
    · split at h
      · change (if _ then _ else _) = _ at h
        split at h <;> cases h
      · split at h
        · change (if _ then _ else _) = _ at h
          split at h <;> cases h
        · cases h
  · cases h

/-- The errors that have no place -/
def NowhereErr (load : Text → Verif.Res Image) (e : Err) : Prop := Placeless e ∨ ∃ path, load path = .err e

theorem NowhereErr.blames {e : Err} (h : NowhereErr load e) : Blames all load e .nowhere := by
  rcases h with h | ⟨path, h⟩
  · exact .nowhere h
  · exact .image h

theorem noErr_packRow16 {map : Palette} : ∀ row, NoErr (packRow16 map row)
  | [] => fun _ h => by cases h
  | [_] => fun _ h => by cases h
  | c1 :: c2 :: row => by
    have hi : ∀ c, NoErr (map.index c) := fun c e h => by unfold Palette.index at h; split at h <;> cases h
    rw [packRow16]
    exact .bind (hi c1) fun _ => .bind (hi c2) fun _ => .bind (noErr_packRow16 row) fun _ _ h => by cases h

theorem noErr_packRow256 {map : Palette} : ∀ row, NoErr (packRow256 map row)
  | [] => fun _ h => by cases h
  | c :: row => by
    have hi : ∀ c, NoErr (map.index c) := fun c e h => by unfold Palette.index at h; split at h <;> cases h
    rw [packRow256]
    exact .bind (hi c) fun _ => .bind (noErr_packRow256 row) fun _ _ h => by cases h

theorem noErr_packRows {pack : List Color → Verif.Res (List Verif.ByteValue)} (h : ∀ row, NoErr (pack row)) :
    ∀ rows, NoErr (packRows pack rows)
  | [] => fun _ h => by cases h
  | row :: rows => by
    rw [packRows]
    exact .bind (h row) fun _ => .bind (noErr_packRows h rows) fun _ _ h => by cases h

theorem noErr_packFrames16 {map : Palette} {many : Bool} : ∀ fs idx, NoErr (packFrames16 map many idx fs)
  | [], _ => fun _ h => by cases h
  | f :: fs, idx => by
    rw [packFrames16]
    exact .bind (noErr_packRows noErr_packRow16 _) fun _ => .bind (noErr_packFrames16 fs _) fun _ _ h => by cases h

theorem noErr_packFrames256 {map : Palette} : ∀ fs, NoErr (packFrames256 map fs)
  | [] => fun _ h => by cases h
  | f :: fs => by
    rw [packFrames256]
    exact .bind (noErr_packRows noErr_packRow256 _) fun _ => .bind (noErr_packFrames256 fs) fun _ _ h => by cases h

theorem noErr_fillPalette {map : Palette} : ∀ keys v, NoErr (fillPalette map v keys)
  | [], _ => fun _ h => by cases h
  | key :: keys, v => by
    have hi : ∀ c, NoErr (map.index c) := fun c e h => by unfold Palette.index at h; split at h <;> cases h
    rw [fillPalette]
    refine .bind (hi key) fun idx => .bind (fun e h => ?_) fun _ => noErr_fillPalette keys _
    unfold setColor at h
    split at h <;> cases h

theorem noErr_imageToIcon (order : List Color → List Color) (i : Image) (map : Palette) (name : Text) :
    NoErr (Image.toIcon order i map name) := by
  unfold Image.toIcon
  split
  · refine .bind (noErr_fillPalette _ _) fun palette => ?_
    dsimp only
    split
    · exact .bind (noErr_packFrames16 _ _) fun _ _ h => by cases h
    · exact .bind (noErr_packFrames256 _) fun _ _ h => by cases h
  · intro e h; cases h

theorem toIcon_nowhere {order : List Color → List Color} {path : Text} {speed : Option Nat} {eyecatch : Option Text} {e : Err}
    (h : toIcon order load path speed eyecatch = .err e) : NowhereErr load e := by
  unfold toIcon at h
  rcases Verif.Res.bind_eq_err.mp h with h | ⟨img, _, h⟩
  · exact .inr ⟨_, h⟩
  · dsimp only at h
    split at h
    · cases h; exact .inl .palette
    · split at h
      · cases h; exact .inl .iconSize
      · rcases Verif.Res.bind_eq_err.mp h with h | ⟨ec, _, h⟩
        · unfold loadEyecatch at h
          split at h
          · cases h
          · rcases Verif.Res.bind_eq_err.mp h with h | ⟨i, _, h⟩
            · exact .inr ⟨_, h⟩
            · rcases Verif.Res.bind_eq_err.mp h with h | ⟨_, _, h⟩
              · unfold Image.asStill at h
                split at h <;> cases h
              · cases h
        · rcases Verif.Res.bind_eq_err.mp h with h | ⟨_, _, h⟩
          · exact absurd h (noErr_imageToIcon _ _ _ _ e)
          · rcases Verif.Res.bind_eq_err.mp h with h | ⟨_, _, h⟩
            · unfold eyecatchPart at h
              split at h
              · cases h
              · split at h
                · exact absurd h (noErr_imageToIcon _ _ _ _ e)
                · cases h; exact .inl .iconSize
            · cases h

theorem evalSpeed_places {m : Mode} {speed : Option Expr} (h : ∀ e, speed = some e → ExprOk all e) :
    (evalSpeed m speed).All (Blames all load) fun x => ∀ v, x = some v → v < 65536 := by
  cases speed with
  | none => rintro _ ⟨⟩
  | some e =>
    refine .bind (eval_places (h e rfl)) fun v _ => ?_
    rintro _ ⟨⟩
    omega

theorem eyecatchPath_places {v : Option ByteValue} (h : ∀ x, v = some x → ValOk all x) :
    (eyecatchPath v).All (Blames all load) fun _ => True := by
  unfold eyecatchPath
  split
  next => trivial
  next => split <;> trivial
  next e =>
    obtain ⟨e₀, h1, _⟩ := shownExpr_of (h _ rfl)
    exact Blames.invalidPath h1

theorem checkSprite_places {sp : Span} {i : Image} {path : Text} (hi : load path = .ok i) {header : Bool}
    (h : ∃ t x, ShownToken all t sp ∧ t.tok = .string x) :
    (checkSprite sp i header).All (Blames all load) fun _ =>
      header = true → ∀ f, i.frames.head? = some f → f.width ≤ 255 ∧ f.height ≤ 255 := by
  obtain ⟨t, x, h1, h2⟩ := h
  unfold checkSprite
  refine .ite (fun _ => ?_) fun hn => fun hc => absurd hc hn
  refine .bind (P := fun w => ∃ f rest, i.frames = f :: rest ∧ f.width = w) (.lift (fun w hw => ?_) fun e he => ?_) fun w hw => ?_
  · unfold Image.width at hw
    split at hw
    next => cases hw
    next heq =>
      cases hw
      exact ⟨_, _, heq, rfl⟩
  · unfold Image.width at he
    split at he <;> cases he
  · obtain ⟨f, rest, hf, rfl⟩ := hw
    refine .ite (fun hw => Blames.spriteTooWide h1 h2 hi hf hw) fun hw' => ?_
    refine .bind (P := fun w => f.height = w) (.lift (fun w hw => ?_) fun e he => ?_) fun k hk => ?_
    · unfold Image.height at hw
      rw [hf] at hw
      cases hw
      rfl
    · unfold Image.height at he
      split at he <;> cases he
    · subst hk
      refine .ite (fun hk => Blames.spriteTooTall h1 h2 hi hf hk) fun hk' => ?_
      intro _ g hg
      rw [hf] at hg
      cases hg
      omega

theorem sprite_fit {path : Text} {i : Image} (hi : load path = .ok i) {masked header : Bool}
    (h : header = true → ∀ f, i.frames.head? = some f → f.width ≤ 255 ∧ f.height ≤ 255) :
    ∀ s ∈ i.to1BitAsm masked header, FitStmt load s := by
  intro s hs
  obtain ⟨f, hf, hs⟩ := List.mem_flatMap.mp hs
  refine to1BitAsm_fit (fun hh => ?_) s hs
  cases hfr : i.frames with
  | nil => rw [hfr] at hf; cases hf
  | cons g gs =>
    rw [hfr] at hf
    rcases List.mem_cons.mp hf with rfl | hf
    · obtain ⟨h1, h2⟩ := h hh f (by rw [hfr]; rfl)
      refine ⟨.inl ?_, .inl ?_⟩ <;> (unfold wrap32; omega)
    · have ht : f ∈ i.frames.tail := by rw [hfr]; exact hf
      exact ⟨.inr ⟨path, i, f, hi, ht, .inl rfl⟩, .inr ⟨path, i, f, hi, ht, .inr rfl⟩⟩

theorem includeData_places {m : Mode} {order : List Color → List Color} {fs : FS} {filename : Path} {sf : SourceFiles} {s : Stmt}
    (h : StmtOk all load s) :
    (includeData m order load fs filename sf s).All (Blames all load) fun ss => ∀ s ∈ ss, StmtOk all load s := by
  unfold includeData
  split
  next => trivial
  next => trivial
  next sp name =>
    refine .bind (path_noErr _ _ _ _).silent fun path _ => ?_
    refine .bind (P := fun _ => True) (.lift (fun _ _ => trivial) fun e he => ?_) fun bytes _ => ?_
    · unfold loadBytes at he
      split at he <;> cases he
      exact .nowhere .load
    · intro s hs
      cases List.mem_singleton.mp hs
      intro v hv
      obtain ⟨b, _, rfl⟩ := List.mem_map.mp hv
      exact .inr ⟨b.toNat, _, rfl, fitByte b.toNat_lt⟩
  next sp speed eyecatch name =>
    obtain ⟨h1, h2⟩ := h
    refine .bind (evalSpeed_places h1) fun speed hsp => ?_
    refine .bind (eyecatchPath_places h2) fun ec _ => .bind (path_noErr _ _ _ _).silent fun path _ => ?_
    refine .bind (P := fun _ => True) (.lift (fun _ _ => trivial) fun e he => ?_) fun ec' _ => ?_
    · unfold fixEyecatch at he
      split at he
      · cases he
      · rcases Verif.Res.bind_eq_err.mp he with he | ⟨_, _, he⟩
        · exact absurd he (path_noErr _ _ _ _ e)
        · cases he
    · refine .bind (P := fun ss => ∀ s ∈ ss, FitStmt load s) (.lift (fun ss hss => toIcon_fit hsp hss) fun e he =>
        (toIcon_nowhere he).blames) fun ss hss => ?_
      intro s hs
      obtain ⟨s, hs', rfl⟩ := List.mem_map.mp hs
      exact stmt_plain (hss s hs')
  next sp t header name =>
    refine .bind (path_noErr _ _ _ _).silent fun path _ => ?_
    refine .bind (P := fun i => load path.render = .ok i) (.lift (fun _ h => h) fun e he => .image he) fun i hi => ?_
    refine .bind (checkSprite_places hi h) fun _ hc => ?_
    intro s hs
    rcases List.mem_cons.mp hs with rfl | hs
    · trivial
    · obtain ⟨s, hs', rfl⟩ := List.mem_map.mp hs
      exact stmt_plain (sprite_fit hi hc s hs')
  next =>
    intro s' hs
    cases List.mem_singleton.mp hs
    exact h

theorem replaceData_places {f : Stmt → Res (List Stmt)} {stmts : List Stmt}
    (hf : ∀ s, StmtOk all load s → (f s).All (Blames all load) fun ss => ∀ s ∈ ss, StmtOk all load s)
    (h : ∀ s ∈ stmts, StmtOk all load s) :
    (replaceData f stmts).All (Blames all load) fun ss => ∀ s ∈ ss, StmtOk all load s := by
  induction stmts with
  | nil => intro s hs; cases hs
  | cons s ss ih =>
    exact .bind (hf s (h s (by simp))) fun a ha => .bind (ih fun s hs => h s (by simp [hs])) fun b hb => stmts_append ha hb

end Verif.Located
