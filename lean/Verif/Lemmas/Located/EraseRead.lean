import Verif.Lemmas.Located.EraseAsm
/-
Forgetting the spans in the reading of files.
-/
namespace Verif.Located

theorem erase_lexed {α : Type} (file : Nat) (r : Verif.Res α) : (lexed file r).erase (fun a => a) = r := by
  cases r with
  | err e => cases e <;> rfl
  | _ => rfl

theorem erase_lexInput (seg : Seg) (i : Input) : (lexInput seg i).erase (fun a => a) = Verif.lexInput seg i :=
  erase_lexed _ _

theorem erase_headerLine (line : List Token) : (headerLine line).erase (fun a => a) = Verif.headerLine line := by
  match line with
  | [] => rfl
  | [_] => rfl
  | hash :: define :: rest =>
    refine Res.erase_ite (fun _ => ?_) fun _ => rfl
    refine Res.erase_bind (erase_readName rest) fun ⟨⟨_, _⟩, ts⟩ => Res.erase_bind (erase_parseExpr ts) fun _ => ?_
    cases rest <;> rfl

theorem erase_headerLines (ls : List (List Token)) :
    (headerLines ls).erase (fun a => a) = Verif.headerLines ls := by
  induction ls with
  | nil => rfl
  | cons l ls ih => exact Res.erase_bind (erase_headerLine l) fun a => Res.erase_bind ih fun b => rfl

theorem erase_lexHeader (seg : Seg) (i : Input) : (lexHeader seg i).erase (fun a => a) = Verif.lexHeader seg i :=
  Res.erase_bind (erase_lexed _ _) fun raw => erase_headerLines _

/-! ### Files -/

/-- The outcome of a run without spans, with the files loaded when it succeeds -/
def eraseRun {α β : Type} (f : α → β) (x : SourceFiles × Res α) : Verif.Res (β × SourceFiles) :=
  x.2.erase fun a => (f a, x.1)

theorem Run.bind_def {α β : Type} (x : Run α) (f : α → Run β) (sf : SourceFiles) :
    (x >>= f) sf = Run.bind x f sf := rfl

theorem eraseRun_bind {α β α' β' : Type} {g : β → β'} {h : α → α'} {x : Run α} {y : Verif.Res (α' × SourceFiles)}
    {f : α → Run β} {k : α' × SourceFiles → Verif.Res (β' × SourceFiles)} {sf : SourceFiles}
    (hx : eraseRun h (x sf) = y) (hf : ∀ a sf, eraseRun g (f a sf) = k (h a, sf)) :
    eraseRun g ((x >>= f) sf) = y >>= k := by
  subst hx
  rw [Run.bind_def]
  unfold Run.bind
  obtain ⟨sf', r⟩ := x sf
  cases r with
  | ok a => exact hf a sf'
  | _ => rfl

theorem eraseRun_of {α β : Type} {f : α → β} {x : Res α} {y : Verif.Res β} (h : x.erase f = y) (sf : SourceFiles) :
    eraseRun f (Run.of x sf) = y >>= fun a => .ok (a, sf) := by
  subst h
  cases x <;> rfl

theorem eraseRun_bind_of {α β α' β' : Type} {g : β → β'} {h : α → α'} {x : Res α} {y : Verif.Res α'}
    {f : α → Run β} {k : α' → Verif.Res (β' × SourceFiles)} {sf : SourceFiles}
    (hx : x.erase h = y) (hf : ∀ a, eraseRun g (f a sf) = k (h a)) :
    eraseRun g ((Run.of x >>= f) sf) = y >>= k := by
  subst hx
  rw [Run.bind_def]
  unfold Run.bind Run.of
  cases x with
  | ok a => exact hf a
  | _ => rfl

theorem eraseRun_bind_path {β β' : Type} {g : β → β'} {fs : FS} {root : Option Path} {name : Path} {f : Path → Run β}
    {k : Path → Verif.Res (β' × SourceFiles)} {sf : SourceFiles} (hf : ∀ a, eraseRun g (f a sf) = k a) :
    eraseRun g ((pathOf fs root name >>= f) sf) = sf.path fs root name >>= k := by
  rw [Run.bind_def]
  unfold Run.bind pathOf
  cases sf.path fs root name with
  | ok a => exact hf a
  | _ => rfl

theorem eraseRun_load (fs : FS) (root : Option Path) (name : Path) (sf : SourceFiles) :
    eraseRun (fun a => a) (load fs root name sf) = sf.load fs root name := by
  unfold load eraseRun
  cases sf.load fs root name <;> rfl

theorem erase_includeLine (seg : Seg) (fs : FS) {go : Path → List Token → Run (List Token)}
    {go' : Path → SourceFiles → List Token → Verif.Res (List Token × SourceFiles)}
    (hg : ∀ p ts sf, eraseRun (fun a => a) (go p ts sf) = go' p sf ts) (filename : Path) (line : List Token)
    (sf : SourceFiles) :
    eraseRun (fun a => a) (includeLine seg fs go filename line sf) = Verif.includeLine seg fs go' filename sf line := by
  unfold includeLine Verif.includeLine
  rw [show line.map Token.tok = toks line from rfl, ← erase_parseDirective line]
  generalize parseDirective line = r
  match r with
  | .ok none => rfl
  | .ok (some (.label _ _, _)) => rfl
  | .ok (some (.instr _ _, _)) => rfl
  | .ok (some (.variable _ _ _, _)) => rfl
  | .ok (some (.alias _ _ _, _)) => rfl
  | .ok (some (.comment _, _)) => rfl
  | .ok (some (.macroCall _ _ _, _)) => rfl
  | .ok (some (.dir (.byte _ _), _)) => rfl
  | .ok (some (.dir (.org _ _), _)) => rfl
  | .ok (some (.dir (.word _ _), _)) => rfl
  | .ok (some (.dir (.text _ _ _), _)) => rfl
  | .ok (some (.dir (.string _ _ _), _)) => rfl
  | .ok (some (.dir (.cnop _ _ _), _)) => rfl
  | .err _ => rfl
  | .panic => rfl
  | .loop => rfl
  | .ok (some (.dir (.incl s typ name), rest)) =>
    refine eraseRun_bind_path fun path => ?_
    cases typ with
    | asm =>
      refine eraseRun_bind (eraseRun_load fs (some filename) path sf) fun file sf => ?_
      refine eraseRun_bind_of (erase_lexInput seg _) fun ts => ?_
      refine eraseRun_bind (hg file.name ts sf) fun ts sf => ?_
      dsimp only [parsed]
      cases h : atEnd rest with
      | true =>
        have h' : Toks.isEmpty (toks rest) = true := h
        rw [h']; rfl
      | false =>
        have h' : Toks.isEmpty (toks rest) = false := h
        rw [h']
        simp only [Bool.false_eq_true, if_false]
        rw [eraseRun_of (erase_failNext (fun a => a) h)]
        rfl
    | cHeader =>
      refine eraseRun_bind (eraseRun_load fs (some filename) path sf) fun file sf => ?_
      exact eraseRun_of (erase_lexHeader seg _) sf
    | bytes => rfl
    | icon speed eyecatch => rfl
    | sprite t header => rfl

theorem erase_includeLines {step : List Token → Run (List Token)}
    {step' : SourceFiles → List Token → Verif.Res (List Token × SourceFiles)}
    (h : ∀ l sf, eraseRun (fun a => a) (step l sf) = step' sf l) (ls : List (List Token)) (sf : SourceFiles) :
    eraseRun (fun a => a) (includeLines step ls sf) = Verif.includeLines step' sf ls := by
  induction ls generalizing sf with
  | nil => rfl
  | cons l ls ih => exact eraseRun_bind (h l sf) fun a sf => eraseRun_bind (ih sf) fun b sf => rfl

theorem erase_replaceIncludes (seg : Seg) (fs : FS) (fuel : Nat) (filename : Path) (ts : List Token) (sf : SourceFiles) :
    eraseRun (fun a => a) (replaceIncludes seg fs fuel filename ts sf) =
      Verif.replaceIncludes seg fs fuel filename sf ts := by
  induction fuel generalizing filename ts sf with
  | zero => rfl
  | succ fuel ih => exact erase_includeLines (fun l sf => erase_includeLine seg fs ih filename l sf) _ _

/-! ### Binary includes -/

theorem ByteValue.erase_plain (v : Verif.ByteValue) : (ByteValue.plain v).erase = v := by
  cases v <;> simp [ByteValue.plain, ByteValue.erase]

theorem Arg.erase_plain (a : Verif.Arg) : (Arg.plain a).erase = a := by cases a <;> simp [Arg.plain, Arg.erase]

theorem IncludeType.erase_plain (t : Verif.IncludeType) : (IncludeType.plain t).erase = t := by
  cases t with
  | icon s e => cases s <;> cases e <;> simp [IncludeType.plain, IncludeType.erase, ByteValue.erase_plain]
  | _ => rfl

theorem map_id_of {α : Type} {f : α → α} (h : ∀ a, f a = a) (l : List α) : l.map f = l := by
  induction l <;> simp_all

theorem Directive.erase_plain (d : Verif.Directive) : (Directive.plain d).erase = d := by
  cases d with
  | byte vs =>
    simp only [Directive.plain, Directive.erase, List.map_map]
    exact congrArg _ (map_id_of ByteValue.erase_plain vs)
  | word es =>
    simp only [Directive.plain, Directive.erase, List.map_map]
    exact congrArg _ (map_id_of Expr.erase_plain es)
  | incl t path => simp [Directive.plain, Directive.erase, IncludeType.erase_plain]
  | _ => simp [Directive.plain, Directive.erase]

theorem Stmt.erase_plain (s : Verif.Stmt) : (Stmt.plain s).erase = s := by
  cases s with
  | dir d => simp [Stmt.plain, Stmt.erase, Directive.erase_plain]
  | macroCall n args =>
    simp only [Stmt.plain, Stmt.erase, List.map_map]
    exact congrArg _ (map_id_of Arg.erase_plain args)
  | _ => simp [Stmt.plain, Stmt.erase]

theorem Stmt.map_plain (ss : List Verif.Stmt) : (ss.map Stmt.plain).map Stmt.erase = ss := by
  rw [List.map_map]
  exact map_id_of Stmt.erase_plain ss

theorem erase_eyecatchPath (e : Option ByteValue) :
    (eyecatchPath e).erase (fun a => a) = Verif.eyecatchPath (e.map ByteValue.erase) := by
  rcases e with _ | e | ⟨s, bs⟩
  · rfl
  · rfl
  · simp only [eyecatchPath, Option.map, ByteValue.erase, Verif.eyecatchPath]
    cases decodeUtf8 bs <;> rfl

theorem erase_evalSpeed (m : Mode) (e : Option Expr) :
    (evalSpeed m e).erase (fun a => a) = Verif.evalSpeed m (e.map Expr.erase) := by
  cases e with
  | none => rfl
  | some e =>
    refine Res.erase_bind (h := fun a => a) (y := e.erase.eval m (Verif.mapEnv [])) ?_ fun v => rfl
    rw [Expr.erase_eval, erase_mapEnv]
    rfl

theorem erase_checkSprite (sp : Span) (i : Image) (header : Bool) :
    (checkSprite sp i header).erase (fun a => a) = Verif.checkSprite i header :=
  Res.erase_ite (fun _ => Res.erase_bind (Res.erase_lift_id _) fun w => Res.erase_ite (fun _ => rfl) fun _ =>
    Res.erase_bind (Res.erase_lift_id _) fun h => Res.erase_ite (fun _ => rfl) fun _ => rfl) fun _ => rfl

theorem erase_includeData (m : Mode) (order : List Color → List Color) (load : Text → Verif.Res Image) (fs : FS)
    (filename : Path) (sf : SourceFiles) (s : Stmt) :
    (includeData m order load fs filename sf s).erase (List.map Stmt.erase) =
      Verif.includeData m order load fs filename sf s.erase := by
  cases s with
  | dir d =>
    cases d with
    | incl sp typ name =>
      cases typ with
      | asm => rfl
      | cHeader => rfl
      | bytes =>
        refine Res.erase_bind (Res.erase_lift_id _) fun path => Res.erase_bind (Res.erase_lift_id _) fun bytes => ?_
        simp only [Res.erase_ok, List.map_cons, List.map_nil, Stmt.erase, Directive.erase, List.map_map]
        have h : (ByteValue.erase ∘ fun (b : UInt8) => ByteValue.expr (Expr.plain (.num b.toNat))) =
            fun (b : UInt8) => Verif.ByteValue.expr (.num b.toNat) := by
          funext b
          simp [ByteValue.erase]
        rw [h]
      | icon speed eyecatch =>
        refine Res.erase_bind (erase_evalSpeed m speed) fun speed =>
          Res.erase_bind (erase_eyecatchPath eyecatch) fun eyecatch => Res.erase_bind (Res.erase_lift_id _) fun path =>
            Res.erase_bind (Res.erase_lift_id _) fun eyecatch => ?_
        cases toIcon order load path.render speed eyecatch with
        | ok ss => exact congrArg _ (Stmt.map_plain ss)
        | _ => rfl
      | sprite t header =>
        refine Res.erase_bind (Res.erase_lift_id _) fun path => Res.erase_bind (Res.erase_lift_id _) fun image =>
          Res.erase_bind (erase_checkSprite sp image header) fun _ => ?_
        simp only [Res.erase_ok, List.map_cons, Stmt.erase, Stmt.map_plain]
    | _ => rfl
  | _ => rfl

theorem erase_replaceData {f : Stmt → Res (List Stmt)} {g : Verif.Stmt → Verif.Res (List Verif.Stmt)}
    (h : ∀ s, (f s).erase (List.map Stmt.erase) = g s.erase) (ss : List Stmt) :
    (replaceData f ss).erase (List.map Stmt.erase) = Verif.replaceData g (ss.map Stmt.erase) := by
  induction ss with
  | nil => rfl
  | cons s ss ih => exact Res.erase_bind (h s) fun a => Res.erase_bind ih fun b => by simp

theorem eraseRun_erase {α β : Type} {f : α → β} {x : SourceFiles × Res α} :
    x.2.erase f = (eraseRun f x >>= fun a => .ok a.1) := by
  obtain ⟨sf, r⟩ := x
  cases r <;> rfl

theorem erase_readTokens (seg : Seg) (fs : FS) (fuel : Nat) (name : Text) (sf : SourceFiles) :
    eraseRun (fun a => a) (readTokens seg fs fuel name sf) = (do
      let path ← sf.path fs none (Path.parse name)
      let (file, sf) ← sf.load fs none path
      let toks ← Verif.lexInput seg (Input.new file.id file.contents)
      let (toks, sf) ← Verif.replaceIncludes seg fs fuel path sf toks
      Verif.Res.ok ((toks, path), sf)) := by
  refine eraseRun_bind_path fun path => ?_
  refine eraseRun_bind (eraseRun_load fs none path sf) fun file sf => ?_
  refine eraseRun_bind_of (erase_lexInput seg _) fun ts => ?_
  exact eraseRun_bind (erase_replaceIncludes seg fs fuel path ts sf) fun ts sf => rfl

theorem Verif.Res.bind_assoc {α β γ : Type} (x : Verif.Res α) (f : α → Verif.Res β) (g : β → Verif.Res γ) :
    (x >>= f) >>= g = x >>= fun a => f a >>= g := by cases x <;> rfl

theorem erase_readStatements (m : Mode) (seg : Seg) (order : List Color → List Color) (load : Text → Verif.Res Image)
    (fs : FS) (fuel : Nat) (name : Text) (sf : SourceFiles) :
    (readStatements m seg order load fs fuel name sf).2.erase Program.erase =
      Verif.readStatements m seg order load fs fuel sf name := by
  rw [eraseRun_erase]
  have h : eraseRun Program.erase (readStatements m seg order load fs fuel name sf) =
      ((do
        let path ← sf.path fs none (Path.parse name)
        let (file, sf) ← sf.load fs none path
        let toks ← Verif.lexInput seg (Input.new file.id file.contents)
        let (toks, sf) ← Verif.replaceIncludes seg fs fuel path sf toks
        Verif.Res.ok ((toks, path), sf)) >>= fun x => do
        let p ← Verif.parse x.1.1
        let stmts ← Verif.replaceData (Verif.includeData m order load fs x.1.2 x.2) p.stmts
        Verif.Res.ok (({ p with stmts := stmts } : Verif.Program), x.2)) := by
    refine eraseRun_bind (erase_readTokens seg fs fuel name sf) fun ⟨ts, path⟩ sf => ?_
    refine eraseRun_bind_of (erase_parse ts) fun p => ?_
    unfold replaceByteIncludes eraseRun
    exact Res.erase_bind (erase_replaceData (erase_includeData m order load fs path sf) p.stmts) fun _ => rfl
  rw [h]
  simp only [Verif.readStatements, readProgram, Verif.Res.bind_assoc, Verif.Res.ok_bind]

/-- Forgetting the places of errors gives the plain assembler. -/
theorem erase_assembleFile (m : Mode) (seg : Seg) (order : List Color → List Color) (load : Text → Verif.Res Image)
    (uuid : Nat → Text) (fs : FS) (fuel macroFuel : Nat) (name : Text) (sf : SourceFiles) :
    (assembleFile m seg order load uuid fs fuel macroFuel name sf).2.erase (fun a => a) =
      Verif.assembleFile m seg order load uuid fs fuel macroFuel sf name := by
  have h := erase_readStatements m seg order load fs fuel name sf
  unfold assembleFile Verif.assembleFile
  rw [← h, Run.bind_def]
  unfold Run.bind
  obtain ⟨sf', r⟩ := readStatements m seg order load fs fuel name sf
  cases r with
  | ok p =>
    simp only [Res.erase_ok, Verif.Res.ok_bind]
    exact Res.erase_bind (erase_expandMacros uuid macroFuel p) fun p => erase_assemble m p.stmts
  | _ => rfl

end Verif.Located
