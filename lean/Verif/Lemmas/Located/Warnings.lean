import Verif.Spec.Warnings
import Verif.Model.Located.Warnings
import Verif.Lemmas.Located.SourceTokens
/-
The warnings about files found in the working directory.
-/
namespace Verif.Located
open Verif.Spec Verif.Spec.Syntax

/-! ### Apart from the warnings, the functions are those of the model -/

namespace Loud

/-- Without the warnings -/
def run {α : Type} (x : Loud α) : Run α := fun sf => (x sf).2

theorem run_bind {α β : Type} (x : Loud α) (f : α → Loud β) : (x >>= f).run = x.run >>= fun a => (f a).run := by
  funext sf
  show (Loud.bind x f sf).2 = Run.bind x.run _ sf
  unfold Loud.bind Run.bind run
  rcases x sf with ⟨ws, sf', a | e | _ | _⟩ <;> rfl

theorem run_says {α : Type} (ws : List Text) (x : Run α) : (says ws x).run = x := rfl
theorem run_of {α : Type} (r : Res α) : (of r).run = Run.of r := rfl

theorem bind_ok {α β : Type} {x : Loud α} {f : α → Loud β} {sf sf1 ws a} (h : x sf = (ws, sf1, .ok a)) :
    (x >>= f) sf = (ws ++ (f a sf1).1, (f a sf1).2) := by
  show Loud.bind x f sf = _
  unfold Loud.bind; rw [h]

end Loud

open Loud

theorem run_includeLine (seg : Seg) (fs : FS) {go : Path → List Token → Loud (List Token)} {go' : Path → List Token → Run (List Token)}
    (hgo : ∀ p ts, (go p ts).run = go' p ts) (p : Path) (l : List Token) :
    (includeLineLoud seg fs go p l).run = includeLine seg fs go' p l := by
  unfold includeLineLoud includeLine
  generalize parseDirective l = d
  rcases d with (_ | ⟨s, rest⟩) | e | _ | _ <;> try rfl
  cases s with
  | dir d =>
    cases d with
    | incl sp typ name =>
      dsimp only
      rw [run_bind]
      unfold pathLoud
      rw [run_says]
      congr 1
      funext path
      cases typ with
      | asm =>
        dsimp only
        rw [run_bind]
        unfold loadLoud
        rw [run_says]
        congr 1
        funext file
        rw [run_bind, run_of]
        congr 1
        funext toks
        rw [run_bind, hgo]
        congr 1
        funext toks
        split <;> rfl
      | cHeader =>
        dsimp only
        rw [run_bind]
        rfl
      | _ => rfl
    | _ => rfl
  | _ => rfl

theorem run_includeLines {step : List Token → Loud (List Token)} {step' : List Token → Run (List Token)}
    (h : ∀ l, (step l).run = step' l) : ∀ ls, (includeLinesLoud step ls).run = includeLines step' ls
  | [] => rfl
  | l :: ls => by
    unfold includeLinesLoud includeLines
    rw [run_bind, h]
    congr 1
    funext a
    rw [run_bind, run_includeLines h ls]
    rfl

theorem run_replaceIncludes (seg : Seg) (fs : FS) : ∀ (fuel : Nat) (p : Path) (ts : List Token),
    (replaceIncludesLoud seg fs fuel p ts).run = replaceIncludes seg fs fuel p ts
  | 0, _, _ => rfl
  | fuel + 1, p, ts => run_includeLines (run_includeLine seg fs (run_replaceIncludes seg fs fuel) p) _

theorem run_readTokens (seg : Seg) (fs : FS) (fuel : Nat) (name : Text) :
    (readTokensLoud seg fs fuel name).run = readTokens seg fs fuel name := by
  unfold readTokensLoud readTokens
  rw [run_bind]
  unfold pathLoud
  rw [run_says]
  congr 1
  funext path
  rw [run_bind]
  unfold loadLoud
  rw [run_says]
  congr 1
  funext file
  rw [run_bind, run_of]
  congr 1
  funext toks
  rw [run_bind, run_replaceIncludes]
  rfl

/-- A function of the files loaded that does not change them -/
theorem run_keeps {α β : Type} (r : Res α) (f : α → Res β) : (Run.of r >>= fun a => Run.of (f a)) = Run.of (r >>= f) := by
  funext sf
  cases r <;> rfl

theorem run_includeData (m : Mode) (order : List Color → List Color) (load : Text → Verif.Res Verif.Image) (fs : FS) (p : Path) (s : Stmt)
    (sf : SourceFiles) : (includeDataLoud m order load fs p s).run sf = (sf, includeData m order load fs p sf s) := by
  cases s with
  | dir d =>
    cases d with
    | incl sp typ name =>
      cases typ with
      | asm => rfl
      | cHeader => rfl
      | bytes =>
        unfold includeDataLoud includeData
        rw [run_bind]
        show Run.bind _ _ sf = _
        unfold Run.bind pathLoud
        rw [run_says]
        unfold pathOf
        dsimp only
        cases sf.path fs (some p) _ with
        | ok q =>
          show (Loud.run _) sf = (sf, Res.lift (loadBytes fs q) >>= _)
          rw [run_bind, run_of]
          cases Res.lift (loadBytes fs q) <;> rfl
        | _ => rfl
      | icon speed eyecatch =>
        unfold includeDataLoud includeData
        rw [run_bind, run_of]
        show Run.bind _ _ sf = _
        unfold Run.bind Run.of
        dsimp only
        cases evalSpeed m speed with
        | ok k =>
          dsimp only
          rw [run_bind, run_of]
          show Run.bind _ _ sf = (sf, eyecatchPath eyecatch >>= _)
          unfold Run.bind Run.of
          dsimp only
          cases eyecatchPath eyecatch with
          | ok eye =>
            dsimp only
            rw [run_bind]
            show Run.bind _ _ sf = (sf, Res.lift (sf.path fs (some p) _) >>= _)
            unfold Run.bind pathLoud
            rw [run_says]
            unfold pathOf
            dsimp only
            cases sf.path fs (some p) _ with
            | ok q =>
              show (Loud.run _) sf = (sf, Res.lift (fixEyecatch fs sf p eye) >>= _)
              rw [run_bind]
              show Run.bind _ _ sf = _
              unfold Run.bind
              have he : (fixEyecatchLoud fs p eye).run sf = (sf, Res.lift (fixEyecatch fs sf p eye)) := by
                cases eye with
                | none => rfl
                | some t =>
                  unfold fixEyecatchLoud fixEyecatch
                  rw [run_bind]
                  show Run.bind _ _ sf = _
                  unfold Run.bind pathLoud
                  rw [run_says]
                  unfold pathOf
                  dsimp only
                  cases sf.path fs (some p) _ <;> rfl
              rw [he]
              cases Res.lift (fixEyecatch fs sf p eye) with
              | ok eye' =>
                dsimp only
                rw [run_bind, run_of]
                show _ = (sf, Res.lift (toIcon order load q.render k eye') >>= _)
                cases Res.lift (toIcon order load q.render k eye') <;> rfl
              | _ => rfl
            | _ => rfl
          | _ => rfl
        | _ => rfl
      | sprite t header =>
        unfold includeDataLoud includeData
        rw [run_bind]
        show Run.bind _ _ sf = _
        unfold Run.bind pathLoud
        rw [run_says]
        unfold pathOf
        dsimp only
        cases sf.path fs (some p) _ with
        | ok q =>
          show (Loud.run _) sf = (sf, Res.lift (load q.render) >>= _)
          rw [run_bind, run_of]
          cases Res.lift (load q.render) with
          | ok i =>
            show (Loud.run _) sf = (sf, checkSprite sp i header >>= _)
            rw [run_bind, run_of]
            cases checkSprite sp i header <;> rfl
          | _ => rfl
        | _ => rfl
    | _ => rfl
  | _ => rfl

theorem run_replaceData {f : Stmt → Loud (List Stmt)} {f' : SourceFiles → Stmt → Res (List Stmt)}
    (h : ∀ s sf, (f s).run sf = (sf, f' sf s)) : ∀ ss sf, (replaceDataLoud f ss).run sf = (sf, replaceData (f' sf) ss)
  | [], _ => rfl
  | s :: ss, sf => by
    unfold replaceDataLoud replaceData
    rw [run_bind]
    show Run.bind _ _ sf = _
    unfold Run.bind
    rw [h]
    cases f' sf s with
    | ok a =>
      show (Loud.run _) sf = (sf, replaceData (f' sf) ss >>= _)
      rw [run_bind]
      show Run.bind _ _ sf = _
      unfold Run.bind
      rw [run_replaceData h ss sf]
      cases replaceData (f' sf) ss <;> rfl
    | _ => rfl

theorem run_readStatements (m : Mode) (seg : Seg) (order : List Color → List Color) (load : Text → Verif.Res Verif.Image) (fs : FS)
    (fuel : Nat) (name : Text) :
    (readStatementsLoud m seg order load fs fuel name).run = readStatements m seg order load fs fuel name := by
  unfold readStatementsLoud readStatements
  rw [run_bind, run_readTokens]
  congr 1
  funext ⟨toks, path⟩
  dsimp only
  rw [run_bind, run_of]
  congr 1
  funext program
  funext sf
  unfold replaceByteIncludesLoud replaceByteIncludes
  rw [run_bind]
  show Run.bind _ _ sf = _
  unfold Run.bind
  rw [run_replaceData (run_includeData m order load fs path)]
  cases replaceData (includeData m order load fs path sf) program.stmts <;> rfl

/-! ### One lookup -/

theorem warning_eq (c name : Path) : warning c name = warned c name := by
  unfold warning warned
  rw [show "\"\n".toList = "\"".toList ++ "\n".toList by decide +kernel,
    show "         Please change the path to be relative to the source file, instead of relative to your working directory.\n".toList =
      ("         Please change the path to be relative to the source file, instead of relative to your working " ++
      "directory.").toList ++ "\n".toList by decide +kernel]
  simp only [List.append_assoc]

theorem correct_nextTo {fs : FS} {root name c : Path} : NextTo fs root name c ↔ name.abs = false ∧ correctPath fs root name = some c := by
  unfold NextTo correctPath
  constructor
  · rintro ⟨ha, ⟨hd, rfl⟩ | ⟨hd, d, hp, rfl⟩⟩
    · simp [ha, hd]
    · simp [ha, hd, hp]
  · rintro ⟨ha, h⟩
    refine ⟨ha, ?_⟩
    rw [if_neg (by simp [ha])] at h
    by_cases hd : fs.isDir root = true
    · rw [if_pos hd] at h
      exact .inl ⟨hd, (Option.some.inj h).symm⟩
    · rw [if_neg hd] at h
      obtain ⟨d, hp, rfl⟩ := Option.map_eq_some_iff.mp h
      exact .inr ⟨by simpa using hd, d, hp, rfl⟩

theorem pathWarnings_iff {fs : FS} {root name : Path} {ws : List Text} :
    LookupWarns fs root name ws ↔ pathWarnings fs (some root) name = ws := by
  have hq : ∀ c, FallsBack fs root name c → pathWarnings fs (some root) name = [warned c name] := by
    rintro c ⟨h1, h2, h3⟩
    change (match correctPath fs root name with
      | none => []
      | some correct => if fs.isFile correct || !fs.isFile name then [] else [warning correct name]) = _
    rw [(correct_nextTo.mp h1).2]
    simp [h2, h3, warning_eq]
  have hn : (∀ c, ¬ FallsBack fs root name c) → pathWarnings fs (some root) name = [] := by
    intro h
    change (match correctPath fs root name with
      | none => []
      | some correct => if fs.isFile correct || !fs.isFile name then [] else [warning correct name]) = _
    cases hc : correctPath fs root name with
    | none => rfl
    | some c =>
      dsimp only
      rw [if_pos]
      by_cases ha : name.abs = true
      · unfold correctPath at hc
        rw [if_pos ha] at hc
        cases hc
        cases fs.isFile name <;> rfl
      · have := h c
        unfold FallsBack at this
        rw [correct_nextTo, hc] at this
        cases h1 : fs.isFile c <;> cases h2 : fs.isFile name <;> simp_all
  constructor
  · rintro (h | h)
    · exact hn h
    · exact hq _ h
  · intro h
    by_cases hc : ∃ c, FallsBack fs root name c
    · obtain ⟨c, hc⟩ := hc
      rw [← h, hq c hc]
      exact .warns hc
    · rw [← h, hn fun c h => hc ⟨c, h⟩]
      exact .quiet fun c h => hc ⟨c, h⟩

/-! ### The warnings of a run that succeeds -/

theorem Loud.bind_eq_ok {α β : Type} {x : Loud α} {f : α → Loud β} {sf sf' ws b} (h : (x >>= f) sf = (ws, sf', .ok b)) :
    ∃ ws1 sf1 a ws2, x sf = (ws1, sf1, .ok a) ∧ f a sf1 = (ws2, sf', .ok b) ∧ ws = ws1 ++ ws2 := by
  change Loud.bind x f sf = _ at h
  unfold Loud.bind at h
  cases hx : x sf with
  | mk ws1 y =>
  obtain ⟨sf1, y⟩ := y
  rw [hx] at h
  cases y with
  | ok a =>
    dsimp only at h
    cases hf : f a sf1 with
    | mk ws2 z => rw [hf] at h; cases h; exact ⟨ws1, sf1, a, ws2, rfl, hf, rfl⟩
  | _ => cases h

theorem Loud.of_ok {α : Type} {r : Res α} {sf sf' ws a} (h : Loud.of r sf = (ws, sf', .ok a)) : ws = [] ∧ sf' = sf ∧ r = .ok a := by
  cases h
  exact ⟨rfl, rfl, rfl⟩

theorem pathLoud_ok {fs : FS} {dir root name : Path} {sf sf' : SourceFiles} (hg : sf.workingDir = dir) {ws q}
    (h : pathLoud fs (some root) name sf = (ws, sf', .ok q)) :
    sf' = sf ∧ Resolves fs dir (some root) name q ∧ LookupWarns fs root name ws := by
  have h1 := congrArg Prod.fst h
  have h2 := congrArg (fun x => x.2.1) h
  have h3 := congrArg (fun x => x.2.2) h
  refine ⟨h2.symm, ?_, pathWarnings_iff.mpr h1⟩
  change Res.lift (sf.path fs (some root) name) = .ok q at h3
  cases hp : sf.path fs (some root) name with
  | ok q' =>
    rw [hp] at h3
    cases h3
    have := path_iff.mp hp
    rwa [hg] at this
  | _ => rw [hp] at h3; cases h3

theorem loadLoud_ok {fs : FS} {dir root name : Path} {sf sf' : SourceFiles} (hg : Verif.Good fs dir sf) {ws g}
    (h : loadLoud fs (some root) name sf = (ws, sf', .ok g)) :
    ∃ q, Resolves fs dir (some root) name q ∧ Loads fs dir sf q (sf', .ok g) ∧ LookupWarns fs root name ws := by
  have h1 := congrArg Prod.fst h
  have h2 : load fs (some root) name sf = (sf', .ok g) := congrArg Prod.snd h
  rcases pathOf_cases hg root name with ⟨q, hq⟩ | hq
  · have := load_cases hg hq
    rw [h2] at this
    exact ⟨q, hq, this, pathWarnings_iff.mpr h1⟩
  · rw [load_panic hg hq] at h2
    cases h2

section
variable {seg : Seg} {fs : FS} {dir : Path}

/-- What is done with a line that includes a file -/
def included (seg : Seg) (fs : FS) (go : Path → List Token → Loud (List Token)) (filename : Path) (line : List Token)
    (typ : IncludeType) (name : Text) (rest : List Token) : Loud (List Token) := do
  let path ← pathLoud fs (some filename) (Path.parse name)
  match typ with
  | .asm => do
    let file ← loadLoud fs (some filename) path
    let toks ← Loud.of (lexInput seg (Input.new file.id file.contents))
    let toks ← go file.name toks
    if atEnd rest then Loud.of (.ok toks) else Loud.of (failNext .unexpectedToken rest)
  | .cHeader => do
    let file ← loadLoud fs (some filename) path
    Loud.of (lexHeader seg (Input.new file.id file.contents))
  | _ => Loud.of (.ok (line.map (fixPath name path.render)))

theorem line_kinds (go : Path → List Token → Loud (List Token)) (p : Path) (l : List Token) :
    (∃ sp typ name rest, parseDirective l = .ok (some (.dir (.incl sp typ name), rest)) ∧
      includeLineLoud seg fs go p l = included seg fs go p l typ name rest) ∨
    (∀ sp typ name rest, parseDirective l ≠ .ok (some (.dir (.incl sp typ name), rest))) ∧
      ∃ r, includeLineLoud seg fs go p l = Loud.of r := by
  unfold includeLineLoud
  split
  · exact .inl ⟨_, _, _, _, ‹_›, rfl⟩
  · rename_i h
    exact .inr ⟨by rw [h]; nofun, _, rfl⟩
  · rename_i h
    exact .inr ⟨by rw [h]; nofun, _, rfl⟩
  · rename_i h _ _
    exact .inr ⟨fun _ _ _ _ => h _ _ _ _, _, rfl⟩

theorem line_warns {go : Path → List Token → Loud (List Token)} {p : Path} {l : List Token}
    (hf : ∀ name rest q, IncludeLine l name rest → FoundAt fs dir p name q → AllPlain seg fs dir q)
    (ih : ∀ {q : Path}, AllPlain seg fs dir q → ∀ n toks sf sf' ws out, FileLines fs n q (lines toks) → Verif.Good fs dir sf →
      go q toks sf = (ws, sf', .ok out) → LinesWarn fs dir q (lines toks) ws)
    {sf sf' : SourceFiles} (hg : Verif.Good fs dir sf) {ws a} (h : includeLineLoud seg fs go p l sf = (ws, sf', .ok a))
    {more b} (hb : LinesWarn fs dir p more b) : LinesWarn fs dir p (l :: more) (ws ++ b) := by
  rcases line_kinds (seg := seg) (fs := fs) go p l with ⟨sp, typ, name, rest, hp, hk⟩ | ⟨h1, r, hk⟩ <;> rw [hk] at h
  · unfold included at h
    have e : Verif.parseDirective (words l) = .ok (some (.dir (.incl typ.erase name), words rest)) := by
      rw [← erase_parseDirective, hp]; rfl
    obtain ⟨w1, sf1, r, ws2, h1, h', heq⟩ := Loud.bind_eq_ok h
    clear h
    subst heq
    have h := h'
    clear h'
    obtain ⟨rfl, hr, hw1⟩ := pathLoud_ok hg.dir h1
    cases typ with
    | asm =>
      dsimp only at h
      obtain ⟨w2, sf2, g, ws3, h2, h', heq⟩ := Loud.bind_eq_ok h
      clear h
      subst heq
      have h := h'
      clear h'
      obtain ⟨q, hq, hl, hw2⟩ := loadLoud_ok hg h2
      obtain ⟨w3, sf3, toks, ws4, h3, h', heq⟩ := Loud.bind_eq_ok h
      clear h
      subst heq
      have h := h'
      clear h'
      obtain ⟨rfl, hsf, h3'⟩ := Loud.of_ok h3
      subst hsf
      obtain ⟨w4, sf4, out, ws5, h4, h', heq⟩ := Loud.bind_eq_ok h
      clear h
      subst heq
      have h := h'
      clear h'
      obtain ⟨rest', hi⟩ := names_includedLine (parse_namesSource e)
      have hfound : FoundAt fs dir p name q := ⟨r, hr, hq⟩
      have ha := hf name rest' q hi hfound
      cases hl with
      | ok hn hc hm hg1 hp =>
      have hx := lex_cases (n := g.id) hc (ha.1 _ _ .main hc)
      rw [h3'] at hx
      cases hx with
      | ok hfl =>
      rw [hn] at h4
      have hlw := ih ha _ _ _ _ _ _ hfl hg1 h4
      have hw5 : ws5 = [] := by
        split at h
        · exact (Loud.of_ok h).1
        · exact (Loud.of_ok h).1
      subst hw5
      have := LinesWarn.source hi (.mk hr hw1 hq hw2) hfl hlw hb
      simpa [List.append_assoc] using this
    | cHeader =>
      dsimp only at h
      obtain ⟨w2, sf2, g, ws3, h2, h', heq⟩ := Loud.bind_eq_ok h
      clear h
      subst heq
      have h := h'
      clear h'
      obtain ⟨q, hq, hl, hw2⟩ := loadLoud_ok hg h2
      obtain ⟨rfl, rfl, h3⟩ := Loud.of_ok h
      have := LinesWarn.header (parse_namesHeader e) (.mk hr hw1 hq hw2) hb
      simpa [List.append_assoc] using this
    | _ =>
      obtain ⟨rfl, rfl, h3⟩ := Loud.of_ok h
      have := LinesWarn.data (parse_includesData e nofun nofun) hw1 hb
      simpa [List.append_assoc] using this
  · obtain ⟨rfl, rfl, h3⟩ := Loud.of_ok h
    refine .other (fun name rest hi => ?_) (fun name hi => ?_) (fun name hi => ?_) hb
    · obtain ⟨sp, hp⟩ := includedLine_parse hi
      exact h1 _ _ _ _ hp
    · obtain ⟨sp, r, hp⟩ := headerName_parse hi
      exact h1 _ _ _ _ hp
    · obtain ⟨typ, rest, hd, _, _⟩ := includesData_parse hi
      obtain ⟨sp, typ, rest, hp, rfl⟩ := parse_located hd
      exact h1 _ _ _ _ hp

theorem replace_warns (hs : AsciiSeg seg) : ∀ (fuel : Nat) {q : Path}, AllPlain seg fs dir q → ∀ n toks sf sf' ws out,
    FileLines fs n q (lines toks) → Verif.Good fs dir sf → replaceIncludesLoud seg fs fuel q toks sf = (ws, sf', .ok out) →
    LinesWarn fs dir q (lines toks) ws
  | 0, _, _, _, _, _, _, _, _, _, _, h => by cases h
  | fuel + 1, q, ha, n, toks, sf, sf', ws, out, hl, hg, h => by
    rw [replaceIncludesLoud] at h
    have key : ∀ L : List (List Token), (∀ l ∈ L, l ∈ lines toks) → ∀ sf sf' ws out, Verif.Good fs dir sf →
        includeLinesLoud (includeLineLoud seg fs (replaceIncludesLoud seg fs fuel) q) L sf = (ws, sf', .ok out) →
        LinesWarn fs dir q L ws := by
      intro L
      induction L with
      | nil =>
        intro _ sf sf' ws out hg h
        obtain ⟨rfl, _, _⟩ := Loud.of_ok h
        exact .nil
      | cons l L ihL =>
        intro hm sf sf' ws out hg h
        have hml := hm l (by simp)
        have h1 : ∀ name q' t, NamesHeader (words l) name → FoundAt fs dir q name q' → fs.read q' = some (utf8 t) → Ascii t :=
          fun name q' t h1 h2 h3 => ha.2 q q' t .main (includes_header ha hl hml h1 h2) h3
        have h2 : ∀ name rest q', IncludeLine l name rest → FoundAt fs dir q name q' → AllPlain seg fs dir q' :=
          fun name rest q' h1 h2 => ha.step (includes_source ha hl hml h1 h2)
        have ho := line_outcome (seg := seg) (go := replaceIncludes seg fs fuel) hs h1 (fun name rest r q' sf h1 h3 h4 hg =>
          file_outcome (fun t => (h2 name rest q' h1 ⟨r, h3, h4⟩).1 q' t .main) (replace_outcome hs fuel (h2 name rest q' h1 ⟨r, h3, h4⟩)) hg h4) hg
        unfold includeLinesLoud at h
        obtain ⟨w1, sf1, a, ws2, e1, h', heq⟩ := Loud.bind_eq_ok h
        clear h
        subst heq
        have h := h'
        clear h'
        obtain ⟨w2, sf2, b, ws3, e2, h', heq⟩ := Loud.bind_eq_ok h
        clear h
        subst heq
        have h := h'
        clear h'
        obtain ⟨rfl, rfl, _⟩ := Loud.of_ok h
        have e3 := run_includeLine seg fs (run_replaceIncludes seg fs fuel) q l
        have e3 := congrFun e3 sf
        rw [← e3, show (includeLineLoud seg fs (replaceIncludesLoud seg fs fuel) q l).run sf = (sf1, .ok a) from congrArg Prod.snd e1] at ho
        rw [List.append_nil]
        exact line_warns h2 (replace_warns hs fuel) hg e1 (ihL (fun l hl => hm l (by simp [hl])) _ _ _ _ ho.good e2)
    exact key _ (fun _ h => h) _ _ _ _ hg h

theorem readTokens_warns (hs : AsciiSeg seg) (hd : dir.abs = true) {name : Text} (hA : AllPlain seg fs dir (dir.join (Path.parse name)))
    {fuel : Nat} {ws sf r} (h : readTokensLoud seg fs fuel name (SourceFiles.new dir) = (ws, sf, .ok r)) :
    SourceWarns fs dir (dir.join (Path.parse name)) ws ∧ sf.workingDir = dir ∧ r.2 = dir.join (Path.parse name) := by
  have hrun : readTokens seg fs fuel name (SourceFiles.new dir) = (sf, .ok r) := by
    rw [← run_readTokens]; exact congrArg Prod.snd h
  have ho := readTokens_outcome hs hd hA fuel
  rw [hrun] at ho
  unfold readTokensLoud at h
  obtain ⟨w1, sf1, path, ws2, h1, h', heq⟩ := Loud.bind_eq_ok h
  clear h
  subst heq
  have h := h'
  clear h'
  obtain ⟨w2, sf2, g, ws3, h2, h', heq⟩ := Loud.bind_eq_ok h
  clear h
  subst heq
  have h := h'
  clear h'
  obtain ⟨w3, sf3, toks, ws4, h3, h', heq⟩ := Loud.bind_eq_ok h
  clear h
  subst heq
  have h := h'
  clear h'
  obtain ⟨w4, sf4, out, ws5, h4, h', heq⟩ := Loud.bind_eq_ok h
  clear h
  subst heq
  have h := h'
  clear h'
  obtain ⟨rfl, hsf, h3'⟩ := Loud.of_ok h3
  subst hsf
  obtain ⟨rfl, rfl, h5⟩ := Loud.of_ok h
  obtain rfl := Res.ok.inj h5
  have hp : Resolves fs dir none (Path.parse name) (dir.join (Path.parse name)) := .main
  have h1' : pathOf fs none (Path.parse name) (SourceFiles.new dir) = (sf1, .ok path) := congrArg Prod.snd h1
  have hw1 : w1 = [] := (congrArg Prod.fst h1).symm
  rw [pathOf_ok (good_new fs dir) hp] at h1'
  cases h1'
  have h2' : load fs none (dir.join (Path.parse name)) (SourceFiles.new dir) = (sf3, .ok g) := congrArg Prod.snd h2
  have hw2 : w2 = [] := (congrArg Prod.fst h2).symm
  have hl := load_cases (good_new fs dir) (main_resolves (fs := fs) hd name)
  rw [h2'] at hl
  cases hl with
  | ok hn hc hm hg1 hp =>
  have hx := lex_cases (n := g.id) hc (hA.1 _ _ .main hc)
  rw [h3'] at hx
  cases hx with
  | ok hfl =>
  refine ⟨?_, ho.good.dir, rfl⟩
  subst hw1 hw2
  rw [List.append_nil]
  exact ⟨_, _, hfl, replace_warns hs fuel hA _ _ _ _ _ _ hfl hg1 h4⟩

/-! ### The data that is included -/

theorem names_append {file : Path} {as bs : List Text} : ∀ {names names' : List Text}, NamesWarn fs file names as → NamesWarn fs file names' bs →
    NamesWarn fs file (names ++ names') (as ++ bs) := by
  intro names names' h h'
  induction h with
  | nil => exact h'
  | cons h1 _ ih =>
    rw [List.append_assoc]
    exact .cons h1 ih

theorem names_one {file : Path} {name : Text} {ws : List Text} (h : LookupWarns fs file (Path.parse name) ws) :
    NamesWarn fs file [name] ws := by
  have := NamesWarn.cons h .nil
  rwa [List.append_nil] at this

theorem data_warns {m : Mode} {order : List Color → List Color} {load : Text → Verif.Res Verif.Image} {p : Path} {st : Stmt}
    {sf sf' : SourceFiles} (hd : sf.workingDir = dir) {ws out} (h : includeDataLoud m order load fs p st sf = (ws, sf', .ok out)) :
    NamesWarn fs p (dataNames st.erase) ws ∧ sf' = sf := by
  have same : sf' = sf := by
    have := run_includeData m order load fs p st sf
    rw [show (includeDataLoud m order load fs p st).run sf = (sf', .ok out) from congrArg Prod.snd h] at this
    exact congrArg Prod.fst this
  refine ⟨?_, same⟩
  have other : ∀ {s : List Stmt}, Loud.of (.ok s) sf = (ws, sf', .ok out) → ws = [] := fun h => (Loud.of_ok h).1
  cases st with
  | dir d =>
    cases d with
    | incl sp typ name =>
      cases typ with
      | asm => cases h
      | cHeader => cases h
      | bytes =>
        unfold includeDataLoud at h
        obtain ⟨w1, sf1, q, w2, h1, h2, rfl⟩ := Loud.bind_eq_ok h
        obtain ⟨w3, sf3, q', w4, h3, h4, rfl⟩ := Loud.bind_eq_ok h2
        obtain ⟨rfl, -, -⟩ := Loud.of_ok h3
        obtain ⟨rfl, -, -⟩ := Loud.of_ok h4
        simp only [List.append_nil]
        exact names_one (pathLoud_ok hd h1).2.2
      | icon speed eyecatch =>
        unfold includeDataLoud at h
        obtain ⟨w1, sf1, k, w2, h1, h2, rfl⟩ := Loud.bind_eq_ok h
        obtain ⟨rfl, rfl, -⟩ := Loud.of_ok h1
        obtain ⟨w3, sf3, eye, w4, h3, h4, rfl⟩ := Loud.bind_eq_ok h2
        obtain ⟨rfl, rfl, he⟩ := Loud.of_ok h3
        obtain ⟨w5, sf5, q, w6, h5, h6, rfl⟩ := Loud.bind_eq_ok h4
        obtain ⟨rfl, -, hw5⟩ := pathLoud_ok hd h5
        obtain ⟨w7, sf7, eye', w8, h7, h8, rfl⟩ := Loud.bind_eq_ok h6
        obtain ⟨w9, sf9, q', w10, h9, h10, rfl⟩ := Loud.bind_eq_ok h8
        obtain ⟨rfl, -, -⟩ := Loud.of_ok h9
        obtain ⟨rfl, -, -⟩ := Loud.of_ok h10
        simp only [List.nil_append, List.append_nil]
        cases eyecatch with
        | none =>
          cases he
          obtain ⟨rfl, -, -⟩ := Loud.of_ok h7
          rw [List.append_nil]
          exact names_one hw5
        | some v =>
          cases v with
          | expr e => cases he
          | str sp bs =>
            change (match decodeUtf8 bs with | some t => Res.ok (some t) | none => .panic) = _ at he
            change NamesWarn fs p (name :: (decodeUtf8 bs).toList) _
            cases hb : decodeUtf8 bs with
            | none => rw [hb] at he; cases he
            | some t =>
              rw [hb] at he
              cases he
              obtain ⟨w11, sf11, r, w12, h11, h12, rfl⟩ := Loud.bind_eq_ok h7
              obtain ⟨rfl, -, -⟩ := Loud.of_ok h12
              rw [List.append_nil]
              exact .cons hw5 (names_one (pathLoud_ok hd h11).2.2)
      | sprite t header =>
        unfold includeDataLoud at h
        obtain ⟨w1, sf1, q, w2, h1, h2, rfl⟩ := Loud.bind_eq_ok h
        obtain ⟨w3, sf3, q', w4, h3, h4, rfl⟩ := Loud.bind_eq_ok h2
        obtain ⟨w5, sf5, q'', w6, h5, h6, rfl⟩ := Loud.bind_eq_ok h4
        obtain ⟨rfl, -, -⟩ := Loud.of_ok h3
        obtain ⟨rfl, -, -⟩ := Loud.of_ok h5
        obtain ⟨rfl, -, -⟩ := Loud.of_ok h6
        simp only [List.append_nil]
        exact names_one (pathLoud_ok hd h1).2.2
    | _ => rw [other h]; exact .nil
  | _ => rw [other h]; exact .nil

theorem replaceData_warns {m : Mode} {order : List Color → List Color} {load : Text → Verif.Res Verif.Image} {p : Path} :
    ∀ {stmts : List Stmt} {sf sf' : SourceFiles}, sf.workingDir = dir → ∀ {ws out},
    replaceDataLoud (includeDataLoud m order load fs p) stmts sf = (ws, sf', .ok out) →
    NamesWarn fs p ((stmts.map Stmt.erase).flatMap dataNames) ws
  | [], sf, sf', _, ws, out, h => by
    obtain ⟨rfl, -, -⟩ := Loud.of_ok h
    exact .nil
  | st :: stmts, sf, sf', hd, ws, out, h => by
    unfold replaceDataLoud at h
    obtain ⟨w1, sf1, a, w2, h1, h2, rfl⟩ := Loud.bind_eq_ok h
    obtain ⟨w3, sf3, b, w4, h3, h4, rfl⟩ := Loud.bind_eq_ok h2
    obtain ⟨rfl, -, -⟩ := Loud.of_ok h4
    obtain ⟨k1, rfl⟩ := data_warns hd h1
    rw [List.append_nil]
    exact names_append k1 (replaceData_warns hd h3)

/-! ### The warnings of every run -/

/-- The warnings `ws` are about files that are looked for from loaded files. -/
def Real (fs : FS) (sf : SourceFiles) (ws : List Text) : Prop :=
  ∀ w ∈ ws, ∃ g ∈ sf.files, ∃ name c, FallsBack fs g.name name c ∧ w = warned c name

theorem Real.mono {sf sf' : SourceFiles} {ws : List Text} (h : Real fs sf ws) (hp : sf.files <+: sf'.files) : Real fs sf' ws :=
  fun w hw => by
    obtain ⟨g, hg, h⟩ := h w hw
    exact ⟨g, hp.subset hg, h⟩

/-- What holds of the warnings and the files of every run -/
structure Heard (fs : FS) (dir : Path) {α : Type} (x : Loud α) (sf : SourceFiles) : Prop where
  more : sf.files <+: (x sf).2.1.files
  good : Verif.Good fs dir (x sf).2.1
  real : Real fs (x sf).2.1 (x sf).1
  silent : (x sf).1 = [] → (∀ g ∈ sf.files, g.name.abs = true) → ∀ g ∈ (x sf).2.1.files, g.name.abs = true

theorem heard_of {α : Type} {r : Res α} {sf : SourceFiles} (hg : Verif.Good fs dir sf) : Heard fs dir (Loud.of r) sf :=
  ⟨List.prefix_rfl, hg, nofun, fun _ h => h⟩

theorem heard_bind {α β : Type} {x : Loud α} {f : α → Loud β} {sf : SourceFiles} (hx : Heard fs dir x sf)
    (hf : ∀ ws sf1 a, x sf = (ws, sf1, .ok a) → sf.files <+: sf1.files → Verif.Good fs dir sf1 → Heard fs dir (f a) sf1) :
    Heard fs dir (x >>= f) sf := by
  obtain ⟨h1, h2, h3, h4⟩ := hx
  have e : (x >>= f) sf = Loud.bind x f sf := rfl
  unfold Loud.bind at e
  cases hs : x sf with
  | mk ws y =>
  obtain ⟨sf1, y⟩ := y
  rw [hs] at e h1 h2 h3 h4
  dsimp only at h1 h2 h3 h4
  cases y with
  | ok a =>
    dsimp only at e
    obtain ⟨k1, k2, k3, k4⟩ := hf ws sf1 a hs h1 h2
    refine ⟨?_, ?_, ?_, ?_⟩ <;> rw [e]
    · exact h1.trans k1
    · exact k2
    · intro w hw
      rcases List.mem_append.mp hw with hw | hw
      · exact h3.mono k1 w hw
      · exact k3 w hw
    · intro hn ha
      obtain ⟨n1, n2⟩ := List.append_eq_nil_iff.mp hn
      exact k4 n2 (h4 n1 ha)
  | _ => refine ⟨?_, ?_, ?_, ?_⟩ <;> rw [e] <;> assumption

theorem real_lookup {sf : SourceFiles} {root name : Path} (hr : ∃ g ∈ sf.files, g.name = root) :
    Real fs sf (pathWarnings fs (some root) name) := by
  intro w hw
  obtain ⟨g, hg, rfl⟩ := hr
  have := pathWarnings_iff.mpr (rfl : pathWarnings fs (some g.name) name = _)
  generalize pathWarnings fs (some g.name) name = ws at this hw
  cases this with
  | quiet => cases hw
  | warns h =>
    simp only [List.mem_singleton] at hw
    exact ⟨g, hg, name, _, h, hw⟩

theorem heard_path {sf : SourceFiles} (hg : Verif.Good fs dir sf) {root name : Path} (hr : ∃ g ∈ sf.files, g.name = root) :
    Heard fs dir (pathLoud fs (some root) name) sf :=
  ⟨List.prefix_rfl, hg, real_lookup hr, fun _ h => h⟩

theorem parent_absolute {p q : Path} (h : p.abs = true) (hp : p.parent = some q) : q.abs = true := by
  unfold Path.parent at hp
  split at hp
  · cases hp
  · cases hp
    exact h

/-- A file that is found without a warning from a file with an absolute path has an absolute path. -/
theorem quiet_absolute {root name q : Path} (hr : Resolves fs dir (some root) name q) (ha : root.abs = true)
    (h : LookupWarns fs root name []) : q.abs = true := by
  have hn : ∀ c, ¬ FallsBack fs root name c := by
    generalize hw : ([] : List Text) = ws at h
    cases h with
    | quiet h => exact h
    | warns => cases hw
  cases hr with
  | absolute h => exact h
  | inDir => exact join_abs ha
  | beside _ _ hp => exact join_abs (parent_absolute ha hp)
  | fallbackDir h1 h2 h3 h4 => exact absurd ⟨⟨h1, .inl ⟨h2, rfl⟩⟩, h3, h4⟩ (hn _)
  | fallback h1 h2 hp h3 h4 => exact absurd ⟨⟨h1, .inr ⟨h2, _, hp, rfl⟩⟩, h3, h4⟩ (hn _)

theorem heard_load {sf : SourceFiles} (hg : Verif.Good fs dir sf) {root name : Path} (hr : ∃ g ∈ sf.files, g.name = root) :
    Heard fs dir (loadLoud fs (some root) name) sf := by
  have hreal := real_lookup (fs := fs) (name := name) hr
  have hw := pathWarnings_iff.mpr (rfl : pathWarnings fs (some root) name = _)
  rcases pathOf_cases hg root name with ⟨q, hq⟩ | hq
  · have hl := load_cases hg hq
    have e : loadLoud fs (some root) name sf = (pathWarnings fs (some root) name, load fs (some root) name sf) := rfl
    generalize load fs (some root) name sf = r at hl e
    cases hl with
    | @ok g sf1 hn hc hm hg1 hp =>
      refine ⟨?_, ?_, ?_, ?_⟩ <;> rw [e]
      · exact hp
      · exact hg1
      · exact hreal.mono hp
      · intro hnil hall g' hg'
        obtain ⟨g0, hg0, rfl⟩ := hr
        have hl : sf.load fs (some g0.name) name = .ok (g, sf1) := by
          have e' : load fs (some g0.name) name sf = (sf1, .ok g) := congrArg Prod.snd e
          unfold load at e'
          cases hx : sf.load fs (some g0.name) name with
          | ok r => rw [hx] at e'; cases e'; rfl
          | _ => rw [hx] at e'; cases e'
        obtain ⟨p, hres, ⟨-, -, rfl⟩ | ⟨-, -, hn', -, rfl⟩⟩ := (load_iff hg.ok).mp hl
        · exact hall g' hg'
        · rcases List.mem_append.mp hg' with hg' | hg'
          · exact hall g' hg'
          · simp only [List.mem_singleton] at hg'
            subst hg'
            rw [hn']
            rw [show pathWarnings fs (some g0.name) name = [] from hnil] at hw
            exact quiet_absolute hres (hall g0 hg0) hw
    | missing =>
      refine ⟨?_, ?_, ?_, ?_⟩ <;> rw [e]
      · exact List.prefix_rfl
      · exact hg
      · exact hreal
      · exact fun _ h => h
    | notText =>
      refine ⟨?_, ?_, ?_, ?_⟩ <;> rw [e]
      · exact List.prefix_rfl
      · exact hg
      · exact hreal
      · exact fun _ h => h
  · have e : loadLoud fs (some root) name sf = (pathWarnings fs (some root) name, load fs (some root) name sf) := rfl
    rw [load_panic hg hq] at e
    refine ⟨?_, ?_, ?_, ?_⟩ <;> rw [e]
    · exact List.prefix_rfl
    · exact hg
    · exact hreal
    · exact fun _ h => h

theorem heard_line {go : Path → List Token → Loud (List Token)}
    (ih : ∀ q toks sf, Verif.Good fs dir sf → (∃ g ∈ sf.files, g.name = q) → Heard fs dir (go q toks) sf)
    {p : Path} {l : List Token} {sf : SourceFiles} (hg : Verif.Good fs dir sf) (hr : ∃ g ∈ sf.files, g.name = p) :
    Heard fs dir (includeLineLoud seg fs go p l) sf := by
  rcases line_kinds (seg := seg) (fs := fs) go p l with ⟨sp, typ, name, rest, hp, hk⟩ | ⟨h1, r, hk⟩ <;> rw [hk]
  · unfold included
    refine heard_bind (heard_path hg hr) fun _ _ path _ hp1 hg1 => ?_
    have hr1 : ∀ {sf1 : SourceFiles}, sf.files <+: sf1.files → ∃ g ∈ sf1.files, g.name = p := fun h => by
      obtain ⟨g, h1, h2⟩ := hr
      exact ⟨g, h.subset h1, h2⟩
    cases typ with
    | asm =>
      refine heard_bind (heard_load hg1 (hr1 hp1)) fun ws sf2 g hl _ hg2 => ?_
      refine heard_bind (heard_of hg2) fun _ _ toks ht hp3 hg3 => ?_
      obtain ⟨-, h3, -⟩ := Loud.of_ok ht
      subst h3
      obtain ⟨q, -, hl, -⟩ := loadLoud_ok hg1 hl
      cases hl with
      | ok hn hc hm _ _ =>
      refine heard_bind (ih _ _ _ hg3 ⟨g, hm, rfl⟩) fun _ _ out _ _ hg4 => ?_
      split
      · exact heard_of hg4
      · exact heard_of hg4
    | cHeader => exact heard_bind (heard_load hg1 (hr1 hp1)) fun ws sf2 g hl _ hg2 => heard_of hg2
    | _ => exact heard_of hg1
  · exact heard_of hg

theorem heard_lines {step : List Token → Loud (List Token)} {p : Path}
    (h : ∀ l sf, Verif.Good fs dir sf → (∃ g ∈ sf.files, g.name = p) → Heard fs dir (step l) sf) : ∀ (ls : List (List Token)) (sf : SourceFiles),
    Verif.Good fs dir sf → (∃ g ∈ sf.files, g.name = p) → Heard fs dir (includeLinesLoud step ls) sf
  | [], _, hg, _ => heard_of hg
  | l :: ls, sf, hg, hr => by
    unfold includeLinesLoud
    refine heard_bind (h l sf hg hr) fun _ sf1 _ _ hp hg1 => ?_
    refine heard_bind (heard_lines h ls sf1 hg1 ?_) fun _ _ _ _ _ hg2 => heard_of hg2
    obtain ⟨g, h1, h2⟩ := hr
    exact ⟨g, hp.subset h1, h2⟩

theorem heard_replace : ∀ (fuel : Nat) (q : Path) (toks : List Token) (sf : SourceFiles), Verif.Good fs dir sf →
    (∃ g ∈ sf.files, g.name = q) → Heard fs dir (replaceIncludesLoud seg fs fuel q toks) sf
  | 0, _, _, _, hg, _ => heard_of hg
  | fuel + 1, q, toks, sf, hg, hr => by
    rw [replaceIncludesLoud]
    exact heard_lines (fun l sf hg hr => heard_line (heard_replace fuel) hg hr) _ sf hg hr

theorem heard_eyecatch {p : Path} (e : Option Text) {sf : SourceFiles} (hg : Verif.Good fs dir sf) (hr : ∃ g ∈ sf.files, g.name = p) :
    Heard fs dir (fixEyecatchLoud fs p e) sf := by
  cases e with
  | none => exact heard_of hg
  | some t => exact heard_bind (heard_path hg hr) fun _ _ _ _ _ hg => heard_of hg

theorem heard_data {m : Mode} {order : List Color → List Color} {load : Text → Verif.Res Verif.Image} {p : Path} (st : Stmt)
    {sf : SourceFiles} (hg : Verif.Good fs dir sf) (hr : ∃ g ∈ sf.files, g.name = p) :
    Heard fs dir (includeDataLoud m order load fs p st) sf := by
  cases st with
  | dir d =>
    cases d with
    | incl sp typ name =>
      cases typ with
      | asm => exact heard_of hg
      | cHeader => exact heard_of hg
      | bytes =>
        exact heard_bind (heard_path hg hr) fun _ _ _ _ _ hg => heard_bind (heard_of hg) fun _ _ _ _ _ hg => heard_of hg
      | icon speed eyecatch =>
        refine heard_bind (heard_of hg) fun _ sf1 _ h1 _ hg1 => heard_bind (heard_of hg1) fun _ sf2 _ h2 _ hg2 => ?_
        obtain ⟨-, h1, -⟩ := Loud.of_ok h1
        obtain ⟨-, h2, -⟩ := Loud.of_ok h2
        subst h2 h1
        refine heard_bind (heard_path hg hr) fun _ sf3 _ h3 _ hg3 => ?_
        have h3 : sf3 = sf2 := (congrArg (fun x => x.2.1) h3).symm
        subst h3
        exact heard_bind (heard_eyecatch _ hg hr) fun _ _ _ _ _ hg => heard_bind (heard_of hg) fun _ _ _ _ _ hg => heard_of hg
      | sprite t header =>
        exact heard_bind (heard_path hg hr) fun _ _ _ _ _ hg => heard_bind (heard_of hg) fun _ _ _ _ _ hg =>
          heard_bind (heard_of hg) fun _ _ _ _ _ hg => heard_of hg
    | _ => exact heard_of hg
  | _ => exact heard_of hg

theorem heard_datas {m : Mode} {order : List Color → List Color} {load : Text → Verif.Res Verif.Image} {p : Path} :
    ∀ (stmts : List Stmt) (sf : SourceFiles), Verif.Good fs dir sf → (∃ g ∈ sf.files, g.name = p) →
    Heard fs dir (replaceDataLoud (includeDataLoud m order load fs p) stmts) sf
  | [], _, hg, _ => heard_of hg
  | st :: stmts, sf, hg, hr => by
    unfold replaceDataLoud
    refine heard_bind (heard_data st hg hr) fun _ sf1 _ _ hp hg1 => ?_
    refine heard_bind (heard_datas stmts sf1 hg1 ?_) fun _ _ _ _ _ hg2 => heard_of hg2
    obtain ⟨g, h1, h2⟩ := hr
    exact ⟨g, hp.subset h1, h2⟩

theorem heard_main {name : Path} {sf : SourceFiles} (hg : Verif.Good fs dir sf) (hd : dir.abs = true) :
    Heard fs dir (loadLoud fs none name) sf := by
  have hl := load_cases hg (Resolves.main (fs := fs) (workingDir := dir) (filename := name))
  have e : loadLoud fs none name sf = ([], load fs none name sf) := rfl
  generalize hx : load fs none name sf = r at hl e
  cases hl with
  | @ok g sf1 hn hc hm hg1 hp =>
    refine ⟨?_, ?_, ?_, ?_⟩ <;> rw [e]
    · exact hp
    · exact hg1
    · exact nofun
    · intro _ hall g' hg'
      have hl : sf.load fs none name = .ok (g, sf1) := by
        unfold load at hx
        cases hy : sf.load fs none name with
        | ok r => rw [hy] at hx; cases hx; rfl
        | _ => rw [hy] at hx; cases hx
      obtain ⟨p, hres, ⟨-, -, rfl⟩ | ⟨-, -, hn', -, rfl⟩⟩ := (load_iff hg.ok).mp hl
      · exact hall g' hg'
      · rcases List.mem_append.mp hg' with hg' | hg'
        · exact hall g' hg'
        · simp only [List.mem_singleton] at hg'
          subst hg'
          rw [hn]
          exact join_abs hd
  | missing =>
    refine ⟨?_, ?_, ?_, ?_⟩ <;> rw [e]
    · exact List.prefix_rfl
    · exact hg
    · exact nofun
    · exact fun _ h => h
  | notText =>
    refine ⟨?_, ?_, ?_, ?_⟩ <;> rw [e]
    · exact List.prefix_rfl
    · exact hg
    · exact nofun
    · exact fun _ h => h

theorem heard_statements (hd : dir.abs = true) (m : Mode) (order : List Color → List Color) (load' : Text → Verif.Res Verif.Image)
    (fuel : Nat) (name : Text) : Heard fs dir (readStatementsLoud m seg order load' fs fuel name) (SourceFiles.new dir) := by
  have hgood := good_new fs dir
  have key : Heard fs dir (readTokensLoud seg fs fuel name) (SourceFiles.new dir) ∧ ∀ ws sf1 r,
      readTokensLoud seg fs fuel name (SourceFiles.new dir) = (ws, sf1, .ok r) → ∃ g ∈ sf1.files, g.name = r.2 := by
    have hmain : ∀ ws sf1 path, pathLoud fs none (Path.parse name) (SourceFiles.new dir) = (ws, sf1, .ok path) →
        ∀ ws sf2 g, loadLoud fs none path sf1 = (ws, sf2, .ok g) → ∃ g ∈ sf2.files, g.name = path := by
      intro ws sf1 path h ws' sf2 g h'
      have h1' : pathOf fs none (Path.parse name) (SourceFiles.new dir) = (sf1, .ok path) := congrArg Prod.snd h
      rw [pathOf_ok hgood .main] at h1'
      cases h1'
      have hl := load_cases hgood (main_resolves (fs := fs) hd name)
      have h2' : load fs none (dir.join (Path.parse name)) (SourceFiles.new dir) = (sf2, .ok g) := congrArg Prod.snd h'
      rw [h2'] at hl
      cases hl with
      | ok hn hc hm hg1 hp => exact ⟨g, hm, hn⟩
    have hpath : Heard fs dir (pathLoud fs none (Path.parse name)) (SourceFiles.new dir) :=
      ⟨List.prefix_rfl, hgood, nofun, fun _ h => h⟩
    constructor
    · unfold readTokensLoud
      refine heard_bind hpath fun ws1 sf1 path h1 _ hg1 => heard_bind (heard_main hg1 hd) fun ws2 sf2 g h2 _ hg2 =>
        heard_bind (heard_of hg2) fun ws3 sf3 toks h3 hp3 hg3 => ?_
      obtain ⟨g', h4, h5⟩ := hmain _ _ _ h1 _ _ _ h2
      exact heard_bind (heard_replace fuel _ _ _ hg3 ⟨g', hp3.subset h4, h5⟩) fun _ _ _ _ _ hg4 => heard_of hg4
    · intro ws sf r h
      unfold readTokensLoud at h
      obtain ⟨w1, sf1, path, ws2, h1, h', -⟩ := Loud.bind_eq_ok h
      obtain ⟨w2, sf2, g, ws3, h2, h'', -⟩ := Loud.bind_eq_ok h'
      obtain ⟨w3, sf3, toks, ws4, h3, h6, -⟩ := Loud.bind_eq_ok h''
      obtain ⟨w4, sf4, out, ws5, h4, h5, -⟩ := Loud.bind_eq_ok h6
      obtain ⟨-, hsf, -⟩ := Loud.of_ok h3
      subst hsf
      obtain ⟨-, hsf, h7⟩ := Loud.of_ok h5
      subst hsf
      obtain rfl := Res.ok.inj h7
      obtain ⟨g', k1, k2⟩ := hmain _ _ _ h1 _ _ _ h2
      have hk : Heard fs dir _ _ := heard_main (fs := fs) (name := path)
        (hpath.good : Verif.Good fs dir (pathLoud fs none (Path.parse name) (SourceFiles.new dir)).2.1) hd
      rw [h1] at hk
      have hg2 := hk.good
      rw [show (loadLoud fs none path sf1).2.1 = sf3 from congrArg (fun x => x.2.1) h2] at hg2
      have := (heard_replace (seg := seg) fuel path toks sf3 hg2 ⟨g', k1, k2⟩).more
      rw [h4] at this
      exact ⟨g', this.subset k1, k2⟩
  unfold readStatementsLoud
  refine heard_bind key.1 fun ws1 sf1 r h1 _ hg1 => ?_
  obtain ⟨toks, path⟩ := r
  refine heard_bind (heard_of hg1) fun _ sf2 program h2 hp2 hg2 => ?_
  obtain ⟨g, k1, k2⟩ := key.2 _ _ _ h1
  exact heard_bind (heard_datas _ _ hg2 ⟨g, hp2.subset k1, k2⟩) fun _ _ _ _ _ hg3 => heard_of hg3

end

end Verif.Located
