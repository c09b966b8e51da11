import Verif.Lemmas.Located.EraseParse
/-
Forgetting the spans in macro expansion and assembly.
-/
namespace Verif.Located

/-! ### Macros -/

theorem erase_replaceArg (fuel : Nat) (inv : Span) (labels : List (Text × Text)) (argmap : List (Text × Arg)) (a : Arg) :
    (replaceArg fuel inv labels argmap a).erase Arg.erase =
      Verif.replaceArg fuel labels (eraseArgs argmap) a.erase := by
  cases a with
  | macroArg s n =>
    simp only [replaceArg, Arg.erase, Verif.replaceArg, eraseArgs_lookup]
    cases argmap.lookup n <;> rfl
  | imm e => exact Res.erase_bind (Expr.erase_replaceMacroArgs fuel inv labels argmap e) fun x => rfl
  | ex e => exact Res.erase_bind (Expr.erase_replaceMacroArgs fuel inv labels argmap e) fun x => rfl
  | im s r => rfl

theorem erase_replaceArgs (fuel : Nat) (inv : Span) (labels : List (Text × Text)) (argmap : List (Text × Arg))
    (as : List Arg) :
    (replaceArgs fuel inv labels argmap as).erase (List.map Arg.erase) =
      Verif.replaceArgs fuel labels (eraseArgs argmap) (as.map Arg.erase) := by
  induction as with
  | nil => rfl
  | cons a as ih => exact Res.erase_bind (erase_replaceArg fuel inv labels argmap a) fun a => Res.erase_bind ih fun as => rfl

theorem erase_genLabels (uuid : Nat → Text) (body : List MacroStmt) (map : List (Text × Text)) (k : Nat) :
    (genLabels uuid body map k).erase (fun a => a) = Verif.genLabels uuid (body.map MacroStmt.erase) map k := by
  induction body generalizing map k with
  | nil => rfl
  | cons x xs ih =>
    cases x with
    | macroLabel s n =>
      simp only [genLabels, List.map_cons, MacroStmt.erase, Verif.genLabels]
      cases map.lookup n with
      | none => exact ih _ _
      | some _ => rfl
    | instr s n args => exact ih map k
    | label s n => exact ih map k

/-- Statements and the number of labels made, without spans -/
abbrev expanded (x : List Stmt × Nat) : List Verif.Stmt × Nat := (x.1.map Stmt.erase, x.2)

theorem erase_expandBody (uuid : Nat → Text) (macros : Macros) (fuel : Nat)
    {again : Span → Text → List Arg → Nat → Res (List Stmt × Nat)}
    {again' : Text → List Verif.Arg → Nat → Verif.Res (List Verif.Stmt × Nat)}
    (ha : ∀ s n args k, (again s n args k).erase expanded = again' n (args.map Arg.erase) k)
    (inv : Span) (labels : List (Text × Text)) (argmap : List (Text × Arg)) (body : List MacroStmt) (k : Nat) :
    (expandBody uuid macros fuel again inv labels argmap body k).erase expanded =
      Verif.expandBody uuid (eraseMacros macros) fuel again' labels (eraseArgs argmap) (body.map MacroStmt.erase) k := by
  induction body generalizing k with
  | nil => rfl
  | cons x xs ih =>
    cases x with
    | label s n => exact Res.erase_bind (ih k) fun ⟨out, k⟩ => rfl
    | macroLabel s n =>
      simp only [expandBody, List.map_cons, MacroStmt.erase, Verif.expandBody]
      cases labels.lookup n with
      | none => rfl
      | some l => exact Res.erase_bind (ih k) fun ⟨out, k⟩ => rfl
    | instr s n args =>
      simp only [expandBody, List.map_cons, MacroStmt.erase, Verif.expandBody, eraseMacros_lookup, List.length_map]
      cases macros.lookup (n, args.length) with
      | some d =>
        refine Res.erase_bind (erase_replaceArgs fuel inv labels argmap args) fun args => ?_
        refine Res.erase_bind (ha _ _ _ _) fun ⟨new, k⟩ => ?_
        refine Res.erase_bind (ih k) fun ⟨out, k⟩ => ?_
        simp
      | none =>
        refine Res.erase_bind (erase_replaceArgs fuel inv labels argmap args) fun args => ?_
        refine Res.erase_bind (erase_makeInstr _ _ _) fun i => ?_
        exact Res.erase_bind (ih k) fun ⟨out, k⟩ => rfl

theorem erase_argMap (names : List (Span × Text)) (args : List Arg) :
    eraseArgs (argMap names args) = Verif.argMap (names.map Prod.snd) (args.map Arg.erase) := by
  simp only [eraseArgs, argMap, Verif.argMap, List.map_reverse]
  congr 1
  induction names generalizing args with
  | nil => rfl
  | cons n ns ih =>
    cases args with
    | nil => rfl
    | cons a as =>
      simp only [List.map_cons, List.zip_cons_cons, List.cons.injEq, true_and]
      exact ih as

theorem erase_expand (uuid : Nat → Text) (macros : Macros) (fuel : Nat) (s : Span) (name : Text) (args : List Arg)
    (k : Nat) :
    (expand uuid macros fuel s name args k).erase expanded =
      Verif.expand uuid (eraseMacros macros) fuel name (args.map Arg.erase) k := by
  induction fuel generalizing s name args k with
  | zero => rfl
  | succ fuel ih =>
    simp only [expand, Verif.expand, eraseMacros_lookup, List.length_map]
    cases macros.lookup (name, args.length) with
    | none => rfl
    | some d =>
      simp only [Option.map, MacroDef.erase, List.length_map]
      refine Res.erase_ite (fun _ => rfl) fun _ => ?_
      refine Res.erase_bind (erase_genLabels uuid d.body [] k) fun ⟨labels, k⟩ => ?_
      dsimp only
      rw [← erase_argMap]
      exact erase_expandBody uuid macros fuel ih s labels _ _ _

theorem erase_expandStmts (uuid : Nat → Text) (macros : Macros) (fuel : Nat) (ss : List Stmt) (k : Nat) :
    (expandStmts uuid macros fuel ss k).erase expanded =
      Verif.expandStmts uuid (eraseMacros macros) fuel (ss.map Stmt.erase) k := by
  induction ss generalizing k with
  | nil => rfl
  | cons x xs ih =>
    cases x with
    | macroCall s name args =>
      refine Res.erase_bind (erase_expand uuid macros fuel s name args k) fun ⟨new, k⟩ => ?_
      refine Res.erase_bind (ih k) fun ⟨out, k⟩ => ?_
      simp
    | _ => exact Res.erase_bind (ih k) fun ⟨out, k⟩ => rfl

theorem erase_expandMacros (uuid : Nat → Text) (fuel : Nat) (p : Program) :
    (expandMacros uuid fuel p).erase Program.erase = Verif.expandMacros uuid fuel p.erase :=
  Res.erase_bind (erase_expandStmts uuid p.macros fuel p.stmts 0) fun ⟨out, _⟩ => rfl

/-! ### Names -/

theorem erase_runSteps {σ τ : Type} {f : σ → τ} {step : σ → Stmt → Res σ} {step' : τ → Verif.Stmt → Verif.Res τ}
    (h : ∀ s x, (step s x).erase f = step' (f s) x.erase) (ss : List Stmt) (s : σ) :
    (runSteps step ss s).erase f = Verif.runSteps step' (ss.map Stmt.erase) (f s) := by
  induction ss generalizing s with
  | nil => rfl
  | cons x xs ih => exact Res.erase_bind (h s x) fun s' => ih s'

theorem eraseNames_lookup (l : List (Text × NameValue)) (n : Text) :
    (eraseNames l).lookup n = (l.lookup n).map NameValue.value := lookup_map_snd NameValue.value l n

theorem erase_addName (name : Text) (v : NameValue) (names : List (Text × NameValue)) :
    (addName name v names).erase eraseNames = Verif.addName name v.value (eraseNames names) := by
  simp only [addName, Verif.addName, eraseNames_lookup]
  cases names.lookup name <;> rfl

/-- The state of the label pass without spans -/
def LabelState.erase (s : LabelState) : Verif.LabelState :=
  ⟨eraseNames s.globals, s.locals.map fun x => (x.1, eraseNames x.2), eraseNames s.local_, s.currentGlobal, s.pos⟩

theorem erase_labelStep (m : Mode) (s : LabelState) (x : Stmt) :
    (labelStep m s x).erase LabelState.erase = Verif.labelStep m s.erase x.erase := by
  cases x with
  | dir d => exact Res.erase_bind (Directive.erase_size m s.pos d) fun size =>
      Res.erase_bind (Res.erase_lift_id _) fun pos => rfl
  | label sp name =>
    simp only [labelStep, Stmt.erase, Verif.labelStep]
    exact Res.erase_ite (fun _ => Res.erase_bind (erase_addName _ _ _) fun l => rfl)
      fun _ => Res.erase_bind (erase_addName _ _ _) fun g => rfl
  | instr sp i =>
    simp only [labelStep, Stmt.erase, Verif.labelStep, eraseInstr_size]
    exact Res.erase_bind (Res.erase_lift_id _) fun pos => rfl
  | _ => rfl

/-- The labels without spans -/
abbrev labels' (x : List (Text × NameValue) × List (Text × List (Text × NameValue))) :
    List (Text × Int) × List (Text × List (Text × Int)) := (eraseNames x.1, x.2.map fun x => (x.1, eraseNames x.2))

theorem erase_computeLabels (m : Mode) (ss : List Stmt) :
    (computeLabels m ss).erase labels' = Verif.computeLabels m (ss.map Stmt.erase) := by
  refine Res.erase_bind (erase_runSteps (erase_labelStep m) ss ⟨[], [], [], [], 0⟩) fun s => ?_
  simp only [LabelState.erase, lookup_map_snd]
  cases s.locals.lookup s.currentGlobal <;> rfl

/-- The state of the name pass without spans -/
def NameState.erase (s : NameState) : Verif.NameState := ⟨eraseNames s.globals, s.pos, s.maxPos⟩

theorem erase_mapEnv (g : List (Text × NameValue)) : mapEnv g = Verif.mapEnv (eraseNames g) := by
  funext n
  simp only [mapEnv, Verif.mapEnv, eraseNames_lookup]

theorem erase_defineName (m : Mode) (s : NameState) (sp : Span) (n : Text) (e : Expr) :
    (defineName m s sp n e).erase NameState.erase = Verif.nameStep m s.erase (.alias n e.erase) := by
  refine Res.erase_bind (h := fun a => a) (y := e.erase.eval m (Verif.mapEnv s.erase.globals)) ?_ fun v =>
    Res.erase_bind (erase_addName _ _ _) fun g => rfl
  rw [Expr.erase_eval, erase_mapEnv]
  rfl

theorem erase_nameStep (m : Mode) (s : NameState) (x : Stmt) :
    (nameStep m s x).erase NameState.erase = Verif.nameStep m s.erase x.erase := by
  cases x with
  | dir d => exact Res.erase_bind (Directive.erase_size m s.pos d) fun size =>
      Res.erase_bind (Res.erase_lift_id _) fun pos => rfl
  | instr sp i =>
    simp only [nameStep, Stmt.erase, Verif.nameStep, eraseInstr_size]
    exact Res.erase_bind (Res.erase_lift_id _) fun pos => rfl
  | alias sp n e => exact erase_defineName m s sp n e
  | «variable» sp n e => exact erase_defineName m s sp n e
  | _ => rfl

theorem erase_computeNames (m : Mode) (ss : List Stmt) :
    (computeNames m ss).erase (fun a => a) = Verif.computeNames m (ss.map Stmt.erase) :=
  Res.erase_bind (erase_computeLabels m ss) fun labels =>
    Res.erase_bind (erase_runSteps (erase_nameStep m) ss ⟨labels.1, 0, 0⟩) fun _ =>
      Res.erase_bind (Res.erase_lift_id _) fun _ => rfl

/-! ### Bytes -/

theorem erase_writeByteValues (m : Mode) (env : Env) (out : List UInt8) (pos : Nat) (vs : List ByteValue) :
    (writeByteValues m env out pos vs).erase (fun a => a) =
      Verif.writeByteValues m env out pos (vs.map ByteValue.erase) := by
  induction vs generalizing out pos with
  | nil => rfl
  | cons v vs ih =>
    cases v with
    | expr e => exact Res.erase_bind (Expr.erase_eval m env e) fun v => Res.erase_ite (fun _ => rfl) fun _ =>
        Res.erase_bind (Res.erase_lift_id _) fun ⟨out, pos⟩ => ih out pos
    | str sp bytes => exact Res.erase_bind (Res.erase_lift_id _) fun ⟨out, pos⟩ => ih out pos

theorem erase_writeWords (m : Mode) (env : Env) (out : List UInt8) (pos : Nat) (es : List Expr) :
    (writeWords m env out pos es).erase (fun a => a) = Verif.writeWords m env out pos (es.map Expr.erase) := by
  induction es generalizing out pos with
  | nil => rfl
  | cons e es ih =>
    exact Res.erase_bind (Expr.erase_eval m env e) fun v => Res.erase_ite (fun _ => rfl) fun _ =>
      Res.erase_bind (Res.erase_lift_id _) fun ⟨out, pos⟩ => Res.erase_bind (Res.erase_lift_id _) fun ⟨out, pos⟩ => ih out pos

theorem erase_writePadded (s : GenState) (sp : Span) (size : Nat) (bytes : List UInt8) (pad : UInt8) :
    (writePadded s sp size bytes pad).erase (fun a => a) = Verif.writePadded s size bytes pad :=
  Res.erase_ite (fun _ => rfl) fun _ =>
    Res.erase_bind (Res.erase_lift_id _) fun ⟨_, _⟩ => Res.erase_bind (Res.erase_lift_id _) fun ⟨_, _⟩ => rfl

theorem erase_genStep (m : Mode) (names : Names) (s : GenState) (x : Stmt) :
    (genStep m names s x).erase (fun a => a) = Verif.genStep m names s x.erase := by
  cases x with
  | dir d =>
    cases d with
    | byte sp vs => exact Res.erase_bind (Res.erase_lift_id _) fun env =>
        Res.erase_bind (erase_writeByteValues m env _ _ vs) fun ⟨_, _⟩ => rfl
    | text sp size bytes => exact erase_writePadded s sp size bytes 32
    | string sp size bytes => exact erase_writePadded s sp size bytes 0
    | org sp l => exact Res.erase_ite (fun _ => rfl) fun _ => rfl
    | word sp es => exact Res.erase_bind (Res.erase_lift_id _) fun env =>
        Res.erase_bind (erase_writeWords m env _ _ es) fun ⟨_, _⟩ => rfl
    | incl sp t path => rfl
    | cnop sp a k => exact Res.erase_bind (Directive.erase_size m (wrap32 s.pos) (.cnop sp a k)) fun d =>
        Res.erase_bind (Res.erase_lift_id _) fun _ => rfl
  | label sp name => exact Res.erase_ite (fun _ => rfl) fun _ => rfl
  | instr sp i =>
    simp only [genStep, Stmt.erase, Verif.genStep, eraseInstr_size]
    exact Res.erase_bind (Res.erase_lift_id _) fun p => Res.erase_bind (erase_evalInstr m names _ p i) fun j =>
      Res.erase_bind (Res.erase_lift_id _) fun ⟨_, _⟩ => rfl
  | _ => rfl

/-- Forgetting the places of the errors of assembly gives the plain assembler. -/
theorem erase_assemble (m : Mode) (ss : List Stmt) :
    (assemble m ss).erase (fun a => a) = Verif.assemble m (ss.map Stmt.erase) :=
  Res.erase_bind (erase_computeNames m ss) fun ⟨_, names⟩ => Res.erase_ite (fun _ => rfl) fun _ =>
    Res.erase_bind (erase_runSteps (f := fun s => s) (erase_genStep m names) ss _) fun _ => rfl

end Verif.Located
