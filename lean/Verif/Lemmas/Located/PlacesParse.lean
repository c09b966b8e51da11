import Verif.Lemmas.Located.PlacesMake
import Verif.Lemmas.StringText
/-
The places in what the parser reads.
-/
namespace Verif.Located
open Spec Spec.Places

variable {all : List Token} {load : Text → Verif.Res Image}

/-- The span is that of some of the tokens. -/
def SpanIn (w : List Token) (s : Span) : Prop := (∃ w', w' <:+: w ∧ Covers w' s.range) ∧ s.parents = []

/-- All parts of the expression are on lines with the property `L`, with the right calls. -/
def SrcT (all : List Token) (L : List Token → Prop) (e : Expr) : Prop :=
  ∃ ps, Src all (fun l => L l ∧ Trace all l ps) ps e

/-- All parts of the expression are in the source. -/
def ExprOk (all : List Token) (e : Expr) : Prop := ∃ L, SrcT all L e

/-- All parts of the argument are on lines with the property `L`. -/
def ArgSrc (all : List Token) (L : List Token → Prop) : Arg → Prop
  | .imm e => SrcT all L e
  | .ex e => SrcT all L e ∧ ∀ s n, e ≠ .macroArg s n
  | .im s r => ∃ t l, L l ∧ IsLine all l ∧ t ∈ l ∧ ModeTok t.tok r ∧ s = t.span
  | .macroArg s n => ∃ t l, L l ∧ IsLine all l ∧ t ∈ l ∧ t.tok = .macroIdent n ∧ s = t.span

/-- The value is in the source. -/
def ValOk (all : List Token) : ByteValue → Prop
  | .expr e => ExprOk all e
  | .str s b => ∃ t x, ShownToken all t s ∧ t.tok = .string x ∧ b = utf8 x

/-- A number of a byte made for an image -/
def FitByte (load : Text → Verif.Res Image) (x : Int) : Prop := (-128 ≤ x ∧ x ≤ 255) ∨
  ∃ path i f, load path = .ok i ∧ f ∈ i.frames.tail ∧ (x = wrap32 f.width ∨ x = wrap32 f.height)

/-- A number of a word made for an icon -/
def FitWord (load : Text → Verif.Res Image) (x : Int) : Prop := (-32768 ≤ x ∧ x ≤ 65535) ∨
  ∃ path i, load path = .ok i ∧ 65536 ≤ i.frames.length ∧ x = wrap32 i.frames.length

/-- A number made for a binary include -/
def PlainByte (load : Text → Verif.Res Image) (v : ByteValue) : Prop :=
  ∃ x radix, v = .expr (.number .default x radix) ∧ FitByte load x

/-- A number made for an icon -/
def PlainWord (load : Text → Verif.Res Image) (e : Expr) : Prop :=
  ∃ x radix, e = .number .default x radix ∧ FitWord load x

/-- The parts of an include that are looked at later are in the source. -/
def InclOk (all : List Token) (s : Span) : IncludeType → Prop
  | .icon speed eyecatch => (∀ e, speed = some e → ExprOk all e) ∧ ∀ v, eyecatch = some v → ValOk all v
  | .sprite _ _ => ∃ t x, ShownToken all t s ∧ t.tok = .string x
  | _ => True

/-- The parts of the directive are in the source. -/
def DirOk (all : List Token) (load : Text → Verif.Res Image) : Directive → Prop
  | .byte _ vs => ∀ v ∈ vs, ValOk all v ∨ PlainByte load v
  | .org s location => ∃ t k v radix, Shown all [t, k] s ∧ t.tok = .name ".org".toList ∧ k.tok = .number v radix ∧
      location = unsigned v
  | .word _ es => ∀ e ∈ es, ExprOk all e ∨ PlainWord load e
  | .text s _ _ => ∃ t, ShownFrom all t s ∧ t.tok = .name ".text".toList
  | .string s _ _ => ∃ t, ShownFrom all t s ∧ t.tok = .name ".string".toList
  | .incl s t _ => InclOk all s t
  | .cnop _ a k => ExprOk all a ∧ ExprOk all k

/-- The parts of the statement are in the source. -/
def StmtOk (all : List Token) (load : Text → Verif.Res Image) : Stmt → Prop
  | .dir d => DirOk all load d
  | .label s n => ∃ t, ShownFrom all t s ∧ Spelt t n
  | .instr _ i => ∀ e ∈ exprsOf i, ExprOk all e
  | .variable s n e => (∃ t, ShownFrom all t s ∧ t.tok = .name n) ∧ ExprOk all e
  | .alias s n e => (∃ t, ShownFrom all t s ∧ t.tok = .name n) ∧ ExprOk all e
  | .comment _ => True
  | .macroCall s n args => ∃ l, CallOn all n l s.range ∧ s.parents = [] ∧ ∀ a ∈ args, ArgSrc all (· = l) a

/-! ### Tokens -/

theorem failNext_all {α : Type} {P : α → Prop} {e : Err} {l ts : List Token} (hl : IsLine all l) (hs : ts <:+ l)
    (h : ∀ t, ShownToken all t t.span → Blames all load e (.span t.span)) :
    (failNext e ts : Res α).All (Blames all load) P := by
  cases ts with
  | nil => exact Blames.nowhere .eof
  | cons t ts => exact h t (shown_token hl (mem_suffix hs))

theorem unexpectedToken_all {α : Type} {P : α → Prop} {l ts : List Token} (hl : IsLine all l) (hs : ts <:+ l) :
    (failNext .unexpectedToken ts : Res α).All (Blames all load) P :=
  failNext_all hl hs fun _ h => .unexpectedToken h

theorem readName_all {l ts : List Token} (hl : IsLine all l) (hs : ts <:+ l) :
    (readName ts).All (Blames all load) fun x => ∃ t, ts = t :: x.2 ∧ x.1.1 = t.span ∧ t.tok = .name x.1.2 := by
  cases ts with
  | nil => exact Blames.nowhere .eof
  | cons t ts =>
    unfold readName
    dsimp only
    split
    next n hn => exact ⟨t, rfl, rfl, hn⟩
    next => exact Blames.expectedTokenNotFound (shown_token hl (mem_suffix hs))

theorem readMacroName_all {l ts : List Token} (hl : IsLine all l) (hs : ts <:+ l) :
    (readMacroName ts).All (Blames all load) fun x =>
      ∃ t, ts = t :: x.2 ∧ x.1.1 = t.span ∧ t.tok = .macroIdent x.1.2 := by
  cases ts with
  | nil => exact Blames.nowhere .eof
  | cons t ts =>
    unfold readMacroName
    dsimp only
    split
    next n hn => exact ⟨t, rfl, rfl, hn⟩
    next => exact Blames.expectedTokenNotFound (shown_token hl (mem_suffix hs))

theorem readNumber_all {l ts : List Token} (hl : IsLine all l) (hs : ts <:+ l) :
    (readNumber ts).All (Blames all load) fun x =>
      ∃ t radix, ts = t :: x.2 ∧ x.1.1 = t.span ∧ t.tok = .number x.1.2 radix := by
  cases ts with
  | nil => exact Blames.nowhere .eof
  | cons t ts =>
    unfold readNumber
    dsimp only
    split
    next n r hn => exact ⟨t, r, rfl, rfl, hn⟩
    next => exact Blames.expectedTokenNotFound (shown_token hl (mem_suffix hs))

theorem readString_all {l ts : List Token} (hl : IsLine all l) (hs : ts <:+ l) :
    (readString ts).All (Blames all load) fun x => ∃ t, ts = t :: x.2 ∧ x.1.1 = t.span ∧ t.tok = .string x.1.2 := by
  cases ts with
  | nil => exact Blames.nowhere .eof
  | cons t ts =>
    unfold readString
    dsimp only
    split
    next n hn => exact ⟨t, rfl, rfl, hn⟩
    next => exact Blames.expectedTokenNotFound (shown_token hl (mem_suffix hs))

theorem readIncludeType_all {l ts : List Token} (hl : IsLine all l) (hs : ts <:+ l) :
    (readIncludeType ts).All (Blames all load) fun x => (∃ t, ts = t :: x.2) ∧ ∀ s, InclOk all s x.1 := by
  cases ts with
  | nil => exact Blames.nowhere .eof
  | cons t ts =>
    unfold readIncludeType
    dsimp only
    refine .ite (fun _ => ⟨⟨t, rfl⟩, fun s => trivial⟩) fun _ => .ite (fun _ => ⟨⟨t, rfl⟩, fun s => trivial⟩) fun _ =>
      .ite (fun _ => ⟨⟨t, rfl⟩, fun s => trivial⟩) fun _ => ?_
    exact Blames.expectedTokenNotFound (shown_token hl (mem_suffix hs))

/-! ### Lists and arguments -/

theorem good_srcT {l w : List Token} {lv : Level} {e : Expr} (h : Good all l lv w e) : SrcT all (· = l) e :=
  ⟨[], h.2.imp fun _ h => ⟨h, .inl rfl⟩⟩

theorem good_spanIn {l w : List Token} {lv : Level} {e : Expr} (h : Good all l lv w e) : SpanIn w e.span :=
  ⟨h.1.covers, h.2.top.1⟩

theorem highlights_atom {lv w e r} (h : Highlights lv w e r) {k : Tok} (ha : AtomTok k e) :
    ∃ t ∈ w, t.tok = k ∧ r = ⟨t.start, t.stop⟩ := by
  induction h with
  | @atom t e h =>
    refine ⟨t, by simp, ?_, rfl⟩
    generalize t.tok = k' at h
    cases h <;> cases ha <;> rfl
  | @paren a b w e r _ _ _ ih =>
    obtain ⟨t, ht, h⟩ := ih ha
    exact ⟨t, by simp [ht], h⟩
  | @pre t f w e r hp _ _ =>
    generalize t.tok = k' at hp
    cases hp <;> cases ha
  | @binary t lv f w l r w' l' r' hb _ _ _ _ =>
    generalize t.tok = k' at hb
    cases hb <;> cases ha
  | tight _ ih => exact ih ha

theorem parseListLoop_places {α : Type} {item : List Token → Res (α × List Token)} {Q : List Token → α → Prop}
    {l : List Token} (hl : IsLine all l)
    (hi : ∀ ts, ts <:+ l → (item ts).All (Blames all load) fun x => ∃ w, ts = w ++ x.2 ∧ Q w x.1) (fuel : Nat) :
    ∀ ts, ts <:+ l → (parseListLoop item fuel ts).All (Blames all load) fun x =>
      ∃ w, ts = w ++ x.2 ∧ ∀ a ∈ x.1, ∃ w', w' <:+: w ∧ Q w' a := by
  induction fuel with
  | zero => intro ts hs; trivial
  | succ fuel ih =>
    intro ts hs
    rw [parseListLoop]
    refine .ite (fun _ => ⟨[], rfl, by simp⟩) fun _ => ?_
    refine .bind (consume_all hl hs) fun ts1 ⟨c, _, h1⟩ => ?_
    subst h1
    refine .bind (hi ts1 (suffix_tail hs)) fun ⟨v, ts2⟩ ⟨w, h2, hq⟩ => ?_
    dsimp only at h2 hq ⊢
    subst h2
    refine .bind (ih ts2 (suffix_drop (suffix_tail hs))) fun ⟨vs, ts3⟩ ⟨w', h3, hq'⟩ => ?_
    dsimp only at h3 hq' ⊢
    subst h3
    refine ⟨c :: (w ++ w'), by simp, fun a ha => ?_⟩
    rcases List.mem_cons.mp ha with rfl | ha
    · exact ⟨w, ⟨[c], w', by simp⟩, hq⟩
    · obtain ⟨u, ⟨x, y, rfl⟩, hu⟩ := hq' a ha
      exact ⟨u, ⟨c :: (w ++ x), y, by simp⟩, hu⟩

theorem parseList_places {α : Type} {item : List Token → Res (α × List Token)} {Q : List Token → α → Prop}
    {l : List Token} (hl : IsLine all l)
    (hi : ∀ ts, ts <:+ l → (item ts).All (Blames all load) fun x => ∃ w, ts = w ++ x.2 ∧ Q w x.1) {ts : List Token}
    (hs : ts <:+ l) : (parseList item ts).All (Blames all load) fun x =>
      ∃ w, ts = w ++ x.2 ∧ ∀ a ∈ x.1, ∃ w', w' <:+: w ∧ Q w' a := by
  unfold parseList
  refine .ite (fun _ => ⟨[], rfl, by simp⟩) fun _ => ?_
  refine .bind (hi ts hs) fun ⟨v, ts2⟩ ⟨w, h2, hq⟩ => ?_
  dsimp only at h2 hq ⊢
  subst h2
  refine .bind (parseListLoop_places hl hi _ ts2 (suffix_drop hs)) fun ⟨vs, ts3⟩ ⟨w', h3, hq'⟩ => ?_
  dsimp only at h3 hq' ⊢
  subst h3
  refine ⟨w ++ w', by simp, fun a ha => ?_⟩
  rcases List.mem_cons.mp ha with rfl | ha
  · exact ⟨w, ⟨[], w', by simp⟩, hq⟩
  · obtain ⟨u, ⟨x, y, rfl⟩, hu⟩ := hq' a ha
    exact ⟨u, ⟨w ++ x, y, by simp⟩, hu⟩

theorem spanIn_token (t : Token) : SpanIn [t] t.span := ⟨⟨[t], ⟨[], [], by simp⟩, t, t, rfl, rfl, rfl⟩, rfl⟩

theorem argOf_src {l w : List Token} {lv : Level} {e : Expr} (hl : IsLine all l) (hw : w <:+: l)
    (h : Good all l lv w e) : ArgSrc all (· = l) (argOf e) ∧ SpanIn w (argOf e).span := by
  have hsp := good_spanIn h
  have hs := good_srcT h
  unfold argOf
  split
  next s n =>
    refine ⟨?_, hsp⟩
    obtain ⟨t, ht, h1, h2⟩ := highlights_atom h.1 (k := .macroIdent n) .param
    refine ⟨t, l, rfl, hl, hw.subset ht, h1, ?_⟩
    have h3 : s.range = ⟨t.start, t.stop⟩ := h2
    have h4 : s.parents = [] := hsp.2
    obtain ⟨a, b, ps⟩ := s
    cases h3
    cases h4
    rfl
  next hn => exact ⟨⟨hs, fun s n he => hn s n he⟩, hsp⟩

theorem imOf_modeTok {k : Tok} {r : IM} (h : imOf k = some r) : ModeTok k r := by
  cases k <;> cases h <;> constructor

theorem parseArg_places {l : List Token} (hl : IsLine all l) (ts : List Token) (hs : ts <:+ l) :
    (parseArg ts).All (Blames all load) fun x =>
      ∃ w, ts = w ++ x.2 ∧ ArgSrc all (· = l) x.1 ∧ SpanIn w x.1.span := by
  cases ts with
  | nil => exact Blames.nowhere .eof
  | cons t ts =>
    unfold parseArg
    dsimp only
    split
    next r hr =>
      exact ⟨[t], rfl, ⟨t, l, rfl, hl, mem_suffix hs, imOf_modeTok hr, rfl⟩, spanIn_token t⟩
    next =>
      refine .ite (fun _ => ?_) fun _ => ?_
      · refine .bind (parseExpr_places hl (suffix_tail hs)) fun ⟨e, ts'⟩ ⟨w, h1, hg⟩ => ?_
        dsimp only at h1 hg ⊢
        subst h1
        obtain ⟨⟨w', ⟨x, y, hxy⟩, hc⟩, hp⟩ := good_spanIn hg
        exact ⟨t :: w, rfl, good_srcT hg, ⟨w', ⟨t :: x, y, by rw [← hxy]; rfl⟩, hc⟩, hp⟩
      · unfold parseExprArg
        refine .bind (parseExpr_places hl hs) fun ⟨e, ts'⟩ ⟨w, h1, hg⟩ => ?_
        dsimp only at h1 hg ⊢
        rw [h1] at hs ⊢
        exact ⟨w, rfl, argOf_src hl (infix_suffix hs) hg⟩

theorem parseArgs_places {l : List Token} (hl : IsLine all l) {ts : List Token} (hs : ts <:+ l) :
    (parseArgs ts).All (Blames all load) fun x =>
      ∃ w, ts = w ++ x.2 ∧ ∀ a ∈ x.1, ∃ w', w' <:+: w ∧ ArgSrc all (· = l) a ∧ SpanIn w' a.span :=
  parseList_places hl (parseArg_places hl) hs

theorem exprOk_of {L : List Token → Prop} {e : Expr} (h : SrcT all L e) : ExprOk all e := ⟨L, h⟩

theorem parseByteValue_places {l : List Token} (hl : IsLine all l) (ts : List Token) (hs : ts <:+ l) :
    (parseByteValue ts).All (Blames all load) fun x => ∃ w, ts = w ++ x.2 ∧ ValOk all x.1 ∧ SpanIn w x.1.span := by
  have key : (parseExprByte ts).All (Blames all load) fun x =>
      ∃ w, ts = w ++ x.2 ∧ ValOk all x.1 ∧ SpanIn w x.1.span := by
    unfold parseExprByte
    refine .bind (parseExpr_places hl hs) fun ⟨e, ts'⟩ ⟨w, h1, hg⟩ => ?_
    exact ⟨w, h1, exprOk_of (good_srcT hg), good_spanIn hg⟩
  cases ts with
  | nil => exact key
  | cons t ts =>
    unfold parseByteValue
    dsimp only
    split
    next s hk => exact ⟨[t], rfl, ⟨t, s, shown_token hl (mem_suffix hs), hk, rfl⟩, spanIn_token t⟩
    next => exact key

theorem parseKeyVal_places {l : List Token} (hl : IsLine all l) (ts : List Token) (hs : ts <:+ l) :
    (parseKeyVal ts).All (Blames all load) fun x => ∃ w, ts = w ++ x.2 ∧ ValOk all x.1.2 := by
  unfold parseKeyVal
  refine .bind (readName_all hl hs) fun ⟨⟨_, n⟩, ts1⟩ ⟨t, h1, _⟩ => ?_
  dsimp only at h1 ⊢
  subst h1
  cases ts1 with
  | nil => exact Blames.nowhere .eof
  | cons q ts1 =>
    unfold parseVal
    refine .ite (fun _ => ?_) fun _ => Blames.expectedTokenNotFound (shown_token hl (mem_suffix (suffix_tail hs)))
    refine .bind (parseByteValue_places hl ts1 (suffix_tail (suffix_tail hs))) fun ⟨v, ts2⟩ ⟨w, h2, h3, _⟩ => ?_
    dsimp only at h2
    subst h2
    exact ⟨t :: q :: w, rfl, h3⟩

theorem parseKeyVals_places {l : List Token} (hl : IsLine all l) {ts : List Token} (hs : ts <:+ l) :
    (parseKeyVals ts).All (Blames all load) fun x => x.2 <:+ ts ∧ ∀ p ∈ x.1, ValOk all p.2 := by
  unfold parseKeyVals
  refine .bind (parseList_places hl (Q := fun _ (p : Text × ByteValue) => ValOk all p.2) (parseKeyVal_places hl) hs)
    fun ⟨ps, ts'⟩ ⟨w, h1, h2⟩ => ?_
  refine ⟨⟨w, h1.symm⟩, fun p hp => ?_⟩
  obtain ⟨_, _, h⟩ := h2 p (by simpa using hp)
  exact h

/-! ### Directives -/

theorem spanTo_covers {t : Token} {w : List Token} {spans : List Span} (h : ∀ s ∈ spans, SpanIn w s) :
    ∃ p, p <+: w ∧ Covers (t :: p) (spanTo t.span spans).range ∧ (spanTo t.span spans).parents = [] := by
  unfold spanTo
  split
  next s hs =>
    obtain ⟨⟨w', ⟨x, y, hxy⟩, a, b, ha, hb, hr⟩, _⟩ := h s (List.mem_of_getLast? hs)
    refine ⟨x ++ w', ⟨y, hxy⟩, ⟨t, b, rfl, ?_, ?_⟩, rfl⟩
    · rw [← List.cons_append, List.getLast?_append, hb]; rfl
    · have : s.stop = b.stop := congrArg Range.stop hr
      simp [Span.from, Span.range, Token.span, this]
  next => exact ⟨[], ⟨w, rfl⟩, ⟨t, t, rfl, rfl, rfl⟩, rfl⟩

theorem shown_of {l w : List Token} {s : Span} (hl : IsLine all l) (hw : w <:+: l) (hc : Covers w s.range)
    (hp : s.parents = []) : Shown all w s := ⟨l, hl, hw, hc, .inl hp⟩

/-- From a token to the end of what was read after it -/
theorem shown_from {l w rest : List Token} {t : Token} {s : Span} (hl : IsLine all l) (hs : t :: (w ++ rest) <:+ l)
    (h : SpanIn w s) : ShownFrom all t (.from t.span s) := by
  obtain ⟨p, ⟨q, hq⟩, hc, hpar⟩ := spanTo_covers (t := t) (w := w) (spans := [s]) (by simpa using h)
  exact ⟨p, shown_of hl (infix_suffix (w := t :: p) (rest := q ++ rest) (by simpa [← hq] using hs)) hc hpar⟩

theorem shown_two {l rest : List Token} {a b : Token} (hl : IsLine all l) (hs : a :: b :: rest <:+ l) :
    Shown all [a, b] (.from a.span b.span) :=
  shown_of hl (infix_suffix (w := [a, b]) hs) ⟨a, b, rfl, rfl, rfl⟩ rfl

/-- What a directive's parser must satisfy, for the token of its name -/
def DirPlaces (all : List Token) (load : Text → Verif.Res Image) (n : Text)
    (p : Span → List Token → Res (Directive × List Token)) : Prop :=
  ∀ l t ts, IsLine all l → t.tok = .name n → t :: ts <:+ l →
    (p t.span ts).All (Blames all load) fun x => DirOk all load x.1 ∧ x.2 <:+ ts

theorem byteDir_places : DirPlaces all load ".byte".toList parseByteDir := by
  intro l t ts hl ht hs
  unfold parseByteDir
  refine .bind (parseList_places hl (Q := fun w v => ValOk all v ∧ SpanIn w v.span) (parseByteValue_places hl) (suffix_tail hs)) fun ⟨vs, ts'⟩ ⟨w, h1, h2⟩ => ?_
  refine .ite (fun _ => Blames.missingBytes (shown_token hl (mem_suffix hs)) ht) fun _ => ?_
  refine ⟨fun v hv => .inl ?_, ⟨w, h1.symm⟩⟩
  obtain ⟨_, _, h, _⟩ := h2 v hv
  exact h

theorem orgDir_places : DirPlaces all load ".org".toList parseOrgDir := by
  intro l t ts hl ht hs
  unfold parseOrgDir
  refine .bind (readNumber_all hl (suffix_tail hs)) fun ⟨⟨s, v⟩, ts'⟩ ⟨k, radix, h1, h2, h3⟩ => ?_
  dsimp only at h1 h2 h3 ⊢
  subst h1 h2
  exact ⟨⟨t, k, v, radix, shown_two hl hs, ht, h3, rfl⟩, suffix_tail (List.suffix_refl _)⟩

theorem wordDir_places : DirPlaces all load ".word".toList parseWordDir := by
  intro l t ts hl ht hs
  unfold parseWordDir
  refine .bind (parseList_places hl (fun _ h => parseExpr_places hl h) (suffix_tail hs)) fun ⟨es, ts'⟩ ⟨w, h1, h2⟩ => ?_
  refine .ite (fun _ => Blames.missingWords (shown_token hl (mem_suffix hs)) ht) fun _ => ?_
  refine ⟨fun e he => .inl ?_, ⟨w, h1.symm⟩⟩
  obtain ⟨_, _, h⟩ := h2 e he
  exact exprOk_of (good_srcT h)

theorem sized_places {l ts : List Token} {t : Token} (hl : IsLine all l) (hs : t :: ts <:+ l) :
    (parseSized t.span ts).All (Blames all load) fun x => ShownFrom all t x.1.1 ∧ x.2 <:+ ts := by
  unfold parseSized
  refine .bind (readNumber_all hl (suffix_tail hs)) fun ⟨⟨s, v⟩, ts'⟩ ⟨k, radix, h1, _, _⟩ => ?_
  dsimp only at h1 ⊢
  subst h1
  refine .bind (readString_all hl (suffix_tail (suffix_tail hs))) fun ⟨⟨sp, s'⟩, ts''⟩ ⟨k', h4, h5, _⟩ => ?_
  dsimp only at h4 h5 ⊢
  subst h4 h5
  refine ⟨?_, ⟨[k, k'], rfl⟩⟩
  refine shown_from hl (w := [k, k']) (rest := ts'') hs ⟨⟨[k'], ⟨[k], [], by simp⟩, k', k', rfl, rfl, rfl⟩, rfl⟩

theorem lookup_ok {α : Type} {P : α → Prop} {ps : List (Text × α)} (h : ∀ p ∈ ps, P p.2) {n : Text} {v : α}
    (hv : ps.lookup n = some v) : P v := h _ (lookup_pair hv)

theorem iconSpeed_all {ps : List (Text × ByteValue)} (h : ∀ p ∈ ps, ValOk all p.2) :
    (iconSpeed ps).All (Blames all load) fun x => ∀ e, x = some e → ExprOk all e := by
  unfold iconSpeed
  split
  next e he =>
    rintro _ ⟨⟩
    exact lookup_ok h he
  next s b hb =>
    obtain ⟨t, x, ⟨l, hl, hw, ⟨a, c, ha, hc, hr⟩, _⟩, hk, _⟩ := lookup_ok h hb
    cases ha
    have : s.start = t.start := congrArg Range.start hr
    show Blames all load .invalidExpression (.location s.start)
    rw [this]
    refine .invalidExpression (isLine_mem hl (hw.subset (by simp))) ⟨fun e he => ?_, fun f hf => ?_, ?_⟩
    · rw [hk] at he; cases he
    · rw [hk] at hf; cases hf
    · rw [hk]; simp
  next => rintro _ ⟨⟩

theorem shownExpr_of {e : Expr} (h : ExprOk all e) : ∃ e₀, ShownExpr all e₀ e.span ∧ Alike e₀ e := by
  obtain ⟨L, ps, hs⟩ := h
  obtain ⟨h1, l, w, e₀, ⟨_, h2⟩, h3, h4, h5, h6⟩ := hs.top
  exact ⟨e₀, ⟨l, w, h3, h4, h5, h1 ▸ h2⟩, h6⟩

theorem spriteType_all {ps : List (Text × ByteValue)} (h : ∀ p ∈ ps, ValOk all p.2) :
    (spriteTypeOf ps).All (Blames all load) fun _ => True := by
  unfold spriteTypeOf
  split
  next s b hb =>
    obtain ⟨t, x, ht, hk, rfl⟩ := lookup_ok h hb
    rw [stringText_utf8]
    exact .ite (fun _ => trivial) fun _ => .ite (fun _ => trivial) fun _ => Blames.typeString ht hk
  next e he =>
    obtain ⟨e₀, h1, _⟩ := shownExpr_of (lookup_ok h he)
    exact Blames.typeExpr h1
  next => trivial

theorem spriteHeader_all {ps : List (Text × ByteValue)} (h : ∀ p ∈ ps, ValOk all p.2) :
    (spriteHeaderOf ps).All (Blames all load) fun _ => True := by
  unfold spriteHeaderOf
  split
  next s b hb =>
    obtain ⟨t, x, ht, hk, rfl⟩ := lookup_ok h hb
    rw [stringText_utf8]
    exact .ite (fun _ => trivial) fun _ => .ite (fun _ => trivial) fun _ => Blames.headerString ht hk
  next e he =>
    obtain ⟨e₀, h1, _⟩ := shownExpr_of (lookup_ok h he)
    exact Blames.headerExpr h1
  next => trivial

theorem iconInclude_places {l ts : List Token} (hl : IsLine all l) (hs : ts <:+ l) :
    (parseIconInclude ts).All (Blames all load) fun x => DirOk all load x.1 ∧ x.2 <:+ ts := by
  unfold parseIconInclude
  refine .bind (readString_all hl hs) fun ⟨⟨sp, path⟩, ts'⟩ ⟨k, h1, h2, h3⟩ => ?_
  dsimp only at h1 h2 h3 ⊢
  subst h1 h2
  refine .bind (parseKeyVals_places hl (suffix_tail hs)) fun ⟨ps, ts''⟩ ⟨h4, h5⟩ => ?_
  refine .bind (iconSpeed_all h5) fun speed h6 => ?_
  exact ⟨⟨h6, fun v hv => lookup_ok h5 hv⟩, h4.trans (suffix_tail (List.suffix_refl _))⟩

theorem spriteInclude_places {l ts : List Token} (hl : IsLine all l) (hs : ts <:+ l) :
    (parseSpriteInclude ts).All (Blames all load) fun x => DirOk all load x.1 ∧ x.2 <:+ ts := by
  unfold parseSpriteInclude
  refine .bind (readString_all hl hs) fun ⟨⟨sp, path⟩, ts'⟩ ⟨k, h1, h2, h3⟩ => ?_
  dsimp only at h1 h2 h3 ⊢
  subst h1 h2
  refine .bind (parseKeyVals_places hl (suffix_tail hs)) fun ⟨ps, ts''⟩ ⟨h4, h5⟩ => ?_
  refine .bind (spriteType_all h5) fun typ _ => .bind (spriteHeader_all h5) fun header _ => ?_
  exact ⟨⟨k, path, shown_token hl (mem_suffix hs), h3⟩, h4.trans (suffix_tail (List.suffix_refl _))⟩

theorem typedInclude_places {l ts : List Token} {ident : Span} (hl : IsLine all l) (hs : ts <:+ l) :
    (parseTypedInclude ident ts).All (Blames all load) fun x => DirOk all load x.1 ∧ x.2 <:+ ts := by
  unfold parseTypedInclude
  refine .bind (readIncludeType_all hl hs) fun ⟨typ, ts'⟩ ⟨⟨k, h1⟩, h2⟩ => ?_
  dsimp only at h1 h2 ⊢
  subst h1
  refine .bind (readString_all hl (suffix_tail hs)) fun ⟨⟨sp, path⟩, ts''⟩ ⟨k', h3, _⟩ => ?_
  dsimp only at h3 ⊢
  subst h3
  exact ⟨h2 _, ⟨[k, k'], rfl⟩⟩

theorem includeDir_places : DirPlaces all load ".include".toList parseIncludeDir := by
  intro l t ts hl ht hs
  have hs' := suffix_tail hs
  cases ts with
  | nil => exact typedInclude_places hl hs'
  | cons k ts =>
    unfold parseIncludeDir
    dsimp only
    split
    next => exact ⟨trivial, suffix_tail (List.suffix_refl _)⟩
    next n hn =>
      have mono : ∀ {r : Res (Directive × List Token)}, (r.All (Blames all load) fun x => DirOk all load x.1 ∧ x.2 <:+ ts) →
          r.All (Blames all load) fun x => DirOk all load x.1 ∧ x.2 <:+ k :: ts := fun h =>
        h.imp fun _ ⟨h1, h2⟩ => ⟨h1, h2.trans (suffix_tail (List.suffix_refl _))⟩
      refine .ite (fun _ => mono (iconInclude_places hl (suffix_tail hs'))) fun _ =>
        .ite (fun _ => mono (spriteInclude_places hl (suffix_tail hs'))) fun _ => typedInclude_places hl hs'
    next => exact typedInclude_places hl hs'

theorem cnopDir_places : DirPlaces all load ".cnop".toList parseCnopDir := by
  intro l t ts hl ht hs
  unfold parseCnopDir
  refine .bind (parseExpr_places hl (suffix_tail hs)) fun ⟨a, ts1⟩ ⟨w, h1, hg⟩ => ?_
  dsimp only at h1 hg ⊢
  subst h1
  have hs1 := suffix_drop (suffix_tail hs)
  refine .bind (consume_all hl hs1) fun ts2 ⟨c, _, h2⟩ => ?_
  subst h2
  refine .bind (parseExpr_places hl (suffix_tail hs1)) fun ⟨b, ts3⟩ ⟨w', h3, hg'⟩ => ?_
  dsimp only at h3 hg' ⊢
  subst h3
  exact ⟨⟨exprOk_of (good_srcT hg), exprOk_of (good_srcT hg')⟩, ⟨w ++ c :: w', by simp⟩⟩

theorem directiveParser_places {n : Text} {p : Span → List Token → Res (Directive × List Token)}
    (h : directiveParser n = some p) : DirPlaces all load n p := by
  unfold directiveParser at h
  split at h
  next e => cases h; subst e; exact byteDir_places
  next =>
  split at h
  next e => cases h; subst e; exact orgDir_places
  next =>
  split at h
  next e => cases h; subst e; exact wordDir_places
  next =>
  split at h
  next e =>
    cases h
    subst e
    intro l t ts hl ht hs
    exact .bind (sized_places hl hs) fun ⟨⟨sp, size, s⟩, ts'⟩ ⟨h1, h2⟩ => ⟨⟨t, h1, ht⟩, h2⟩
  next =>
  split at h
  next e =>
    cases h
    subst e
    intro l t ts hl ht hs
    exact .bind (sized_places hl hs) fun ⟨⟨sp, size, s⟩, ts'⟩ ⟨h1, h2⟩ => ⟨⟨t, h1, ht⟩, h2⟩
  next =>
  split at h
  next e => cases h; subst e; exact includeDir_places
  next =>
  split at h
  next e => cases h; subst e; exact cnopDir_places
  next => cases h

theorem parseDirective_places {l : List Token} (hl : IsLine all l) {ts : List Token} (hs : ts <:+ l) :
    (parseDirective ts).All (Blames all load) fun x => ∀ r, x = some r → StmtOk all load r.1 ∧ r.2 <:+ l := by
  cases ts with
  | nil => rintro _ ⟨⟩
  | cons t ts =>
    unfold parseDirective
    dsimp only
    split
    next n hn =>
      split
      next p hp =>
        refine .bind (directiveParser_places hp l t ts hl hn hs) fun ⟨d, ts'⟩ ⟨h1, h2⟩ => ?_
        rintro _ ⟨⟩
        exact ⟨h1, h2.trans (suffix_tail hs)⟩
      next => rintro _ ⟨⟩
    next => rintro _ ⟨⟩

/-! ### Statements -/

theorem genInstr_places {l : List Token} (hl : IsLine all l) {ts : List Token} (hs : ts <:+ l) :
    (parseGenInstr ts).All (Blames all load) fun x =>
      CallOn all x.1.2.1 l x.1.1.range ∧ x.1.1.parents = [] ∧ (∀ a ∈ x.1.2.2, ArgSrc all (· = l) a) ∧ x.2 <:+ l := by
  unfold parseGenInstr
  refine .bind (readName_all hl hs) fun ⟨⟨s, n⟩, ts1⟩ ⟨t, h1, h2, h3⟩ => ?_
  dsimp only at h1 h2 h3 ⊢
  subst h1 h2
  refine .bind (parseArgs_places hl (suffix_tail hs)) fun ⟨args, ts2⟩ ⟨w, h4, h5⟩ => ?_
  dsimp only at h4 h5 ⊢
  subst h4
  obtain ⟨p, ⟨q, hq⟩, hc, hp⟩ := spanTo_covers (t := t) (w := w) (spans := args.map Arg.span) (by
    intro s hs
    obtain ⟨a, ha, rfl⟩ := List.mem_map.mp hs
    obtain ⟨w', ⟨x, y, hxy⟩, _, ⟨w'', ⟨x', y', hxy'⟩, hc⟩, hp⟩ := h5 a ha
    exact ⟨⟨w'', ⟨x ++ x', y' ++ y, by rw [← hxy, ← hxy']; simp⟩, hc⟩, hp⟩)
  refine ⟨⟨hl, t, p, ?_, h3, hc⟩, hp, fun a ha => ?_, suffix_drop (suffix_tail hs)⟩
  · exact infix_suffix (w := t :: p) (rest := q ++ ts2) (by simpa [← hq] using hs)
  · obtain ⟨_, _, h, _⟩ := h5 a ha
    exact h

theorem callOn_shown {n : Text} {l : List Token} {s : Span} (h : CallOn all n l s.range) (ht : Trace all l s.parents) :
    ∃ t, ShownFrom all t s ∧ t.tok = .name n := by
  obtain ⟨hl, t, w, hw, hk, hc⟩ := h
  exact ⟨t, ⟨w, l, hl, hw, hc, ht⟩, hk⟩

theorem argSrc_ok {L : List Token → Prop} {args : List Arg} (h : ∀ a ∈ args, ArgSrc all L a) {e : Expr}
    (he : .imm e ∈ args ∨ .ex e ∈ args) : ExprOk all e := by
  rcases he with he | he
  · exact ⟨L, h _ he⟩
  · exact ⟨L, (h _ he).1⟩

theorem instrOrCall_all {n : Text} {l : List Token} {s : Span} {args : List Arg} (h : CallOn all n l s.range)
    (hp : s.parents = []) (ha : ∀ a ∈ args, ArgSrc all (· = l) a) :
    (instrOrCall s n args).All (Blames all load) (StmtOk all load) := by
  obtain ⟨t, ht, hk⟩ := callOn_shown h (.inl hp)
  unfold instrOrCall
  refine .ite (fun _ => ?_) fun _ => ⟨l, h, hp, ha⟩
  refine .bind (makeInstr_all (.unknownInstruction ht hk) (fun hm => .wrongInstructionArgs ht hk hm)) fun i hi => ?_
  exact fun e he => argSrc_ok ha (hi e he)

theorem parseInstr_places {l : List Token} (hl : IsLine all l) {ts : List Token} (hs : ts <:+ l) :
    (parseInstr ts).All (Blames all load) fun x => ∀ r, x = some r → StmtOk all load r.1 ∧ r.2 <:+ l := by
  cases ts with
  | nil => rintro _ ⟨⟩
  | cons t ts =>
    unfold parseInstr
    dsimp only
    split
    next n hn =>
      refine .ite (fun _ => by rintro _ ⟨⟩) fun _ => ?_
      refine .bind (genInstr_places hl hs) fun ⟨⟨s, name, args⟩, ts'⟩ ⟨h1, h2, h3, h4⟩ => ?_
      refine .bind (instrOrCall_all h1 h2 h3) fun st hst => ?_
      rintro _ ⟨⟩
      exact ⟨hst, h4⟩
    next => rintro _ ⟨⟩

/-- An expression after a name and `equ` or `=` -/
theorem definition_places {l : List Token} (hl : IsLine all l) {t q : Token} {n : Text} {ts : List Token} (hk : t.tok = .name n)
    (hs : t :: q :: ts <:+ l) (f : Span → Text → Expr → Stmt)
    (hf : ∀ s n e, (∃ t, ShownFrom all t s ∧ t.tok = .name n) → ExprOk all e → StmtOk all load (f s n e)) :
    Res.All (Blames all load) (fun x => StmtOk all load x.1 ∧ x.2 <:+ l)
      (do let (e, ts) ← parseExpr ts
          .ok (f (.from t.span e.span) n e, ts)) := by
  refine .bind (parseExpr_places hl (suffix_tail (suffix_tail hs))) fun ⟨e, ts'⟩ ⟨w, h1, hg⟩ => ?_
  dsimp only at h1 hg ⊢
  subst h1
  obtain ⟨⟨w', ⟨x, y, hxy⟩, hc⟩, hp⟩ := good_spanIn hg
  refine ⟨hf _ _ _ ⟨t, ?_, hk⟩ (exprOk_of (good_srcT hg)), suffix_drop (suffix_tail (suffix_tail hs))⟩
  exact shown_from hl (w := q :: w) (rest := ts') (by simpa using hs) ⟨⟨w', ⟨q :: x, y, by rw [← hxy]; simp⟩, hc⟩, hp⟩

theorem shown_single {l : List Token} (hl : IsLine all l) {t : Token} (ht : t ∈ l) : ShownFrom all t t.span :=
  ⟨[], shown_token hl ht⟩

theorem parseOther_places {l : List Token} (hl : IsLine all l) {t : Token} {ts : List Token} (hs : t :: ts <:+ l) :
    (parseOther t ts).All (Blames all load) fun x => StmtOk all load x.1 ∧ x.2 <:+ l := by
  have ht := mem_suffix hs
  unfold parseOther
  split
  next n hn =>
    refine .ite (fun _ => ⟨⟨t, shown_single hl ht, .inl hn⟩, suffix_tail hs⟩) fun _ => ?_
    have h1 : Blames all load (.unknownDirective n) (.span t.span) := .unknownDirective (shown_token hl ht) hn
    have h2 : Blames all load (.unknownInstruction n) (.span t.span) := .unknownInstruction (shown_single hl ht) hn
    split
    next q ts' =>
      refine .ite (fun _ => ?_) fun _ => .ite (fun _ => ?_) fun _ => .ite (fun _ => h1) fun _ => h2
      · exact definition_places hl hn hs .alias fun _ _ _ h h' => ⟨h, h'⟩
      · exact definition_places hl hn hs .variable fun _ _ _ h h' => ⟨h, h'⟩
    next => exact .ite (fun _ => h1) fun _ => h2
  next => exact Blames.unexpectedToken (shown_token hl ht)

theorem parseDirOrOther_places {l : List Token} (hl : IsLine all l) {ts : List Token} (hs : ts <:+ l) :
    (parseDirOrOther ts).All (Blames all load) fun x => StmtOk all load x.1 ∧ x.2 <:+ l := by
  unfold parseDirOrOther
  refine .bind (parseDirective_places hl hs) fun d hd => ?_
  cases d with
  | some r => exact hd r rfl
  | none =>
    cases ts with
    | nil => exact Blames.nowhere .eof
    | cons t ts => exact parseOther_places hl hs

theorem parseNamed_places {l : List Token} (hl : IsLine all l) {t : Token} {n : Text} {ts : List Token} (hs : t :: ts <:+ l) :
    (parseNamed t n ts).All (Blames all load) fun x => StmtOk all load x.1 ∧ x.2 <:+ l := by
  unfold parseNamed
  refine .ite (fun _ => parseDirOrOther_places hl hs) fun _ => ?_
  refine .bind (parseInstr_places hl hs) fun d hd => ?_
  cases d with
  | some r => exact hd r rfl
  | none => exact parseDirOrOther_places hl hs

theorem parseStatement_places {l : List Token} (hl : IsLine all l) {ts : List Token} (hs : ts <:+ l) :
    (parseStatement ts).All (Blames all load) fun x => StmtOk all load x.1 ∧ x.2 <:+ l := by
  cases ts with
  | nil => exact parseDirOrOther_places hl hs
  | cons t ts =>
    unfold parseStatement
    dsimp only
    split
    next => exact parseNamed_places hl hs
    next n c cs hn =>
      refine .ite (fun _ => ⟨⟨t, ⟨[c], ?_⟩, .inl hn⟩, suffix_tail (suffix_tail hs)⟩) fun _ => parseNamed_places hl hs
      exact shown_two hl hs
    next => exact parseDirOrOther_places hl hs

theorem endOfLine_places {l : List Token} (hl : IsLine all l) {ss : List Stmt} (h : ∀ s ∈ ss, StmtOk all load s)
    {ts : List Token} (hs : ts <:+ l) : (endOfLine ss ts).All (Blames all load) fun ss => ∀ s ∈ ss, StmtOk all load s := by
  unfold endOfLine
  exact .ite (fun _ => h) fun _ => unexpectedToken_all hl hs

theorem parseLine_places {l : List Token} (hl : IsLine all l) :
    (parseLine l).All (Blames all load) fun ss => ∀ s ∈ ss, StmtOk all load s := by
  unfold parseLine
  refine .ite (fun _ s hs => by cases hs) fun _ => ?_
  refine .bind (parseStatement_places hl (List.suffix_refl l)) fun ⟨s, ts⟩ ⟨h1, h2⟩ => ?_
  refine .ite (fun _ => ?_) fun _ => endOfLine_places hl (by simpa using h1) h2
  refine .bind (parseInstr_places hl h2) fun r hr => ?_
  cases r with
  | some r => exact endOfLine_places hl (by simpa using ⟨h1, (hr r rfl).1⟩) (hr r rfl).2
  | none => exact failNext_all hl h2 fun t ht => .invalidInstruction ht

theorem parseLines_places {ls : List (List Token)} (hl : ∀ l ∈ ls, IsLine all l) :
    (parseLines ls).All (Blames all load) fun ss => ∀ s ∈ ss, StmtOk all load s := by
  induction ls with
  | nil => intro s hs; cases hs
  | cons l ls ih =>
    rw [parseLines]
    refine .bind (parseLine_places (hl l (by simp))) fun ss h1 => ?_
    refine .bind (ih fun l h => hl l (by simp [h])) fun rest h2 => ?_
    intro s hs
    rcases List.mem_append.mp hs with hs | hs
    · exact h1 s hs
    · exact h2 s hs

/-! ### Macros -/

/-- The parts of a statement of a macro are on the line. -/
def BodyOk (all l : List Token) : MacroStmt → Prop
  | .instr s n args => CallOn all n l s.range ∧ s.parents = [] ∧ ∀ a ∈ args, ArgSrc all (· = l) a
  | .label s n => ∃ t, ShownFrom all t s ∧ t.tok = .name n
  | .macroLabel s n => ∃ t, ShownFrom all t s ∧ t.tok = .macroLabel n

/-- The parts of the macro are in the source. -/
def MacroOk (all : List Token) (k : Text × Nat) (d : MacroDef) : Prop :=
  k.2 = d.args.length ∧ (∃ t, ShownToken all t d.span ∧ t.tok = .name k.1) ∧
    ∀ b ∈ d.body, ∃ l, InMacro all k.1 l ∧ BodyOk all l b

theorem macroLineLabel_ok {l : List Token} (hl : IsLine all l) {ts : List Token} (hs : ts <:+ l) :
    (∀ b ∈ (macroLineLabel ts).1, BodyOk all l b) ∧ (macroLineLabel ts).2 <:+ l := by
  unfold macroLineLabel
  split
  next => exact ⟨by simp, hs⟩
  next t =>
    have ht := mem_suffix hs
    split
    next n hn =>
      split
      · refine ⟨?_, ⟨l, by simp⟩⟩
        simp only [List.mem_singleton, forall_eq]
        exact ⟨t, shown_single hl ht, hn⟩
      · exact ⟨by simp, hs⟩
    next n hn =>
      split
      · refine ⟨?_, ⟨l, by simp⟩⟩
        simp only [List.mem_singleton, forall_eq]
        exact ⟨t, shown_single hl ht, hn⟩
      · exact ⟨by simp, hs⟩
    next => exact ⟨by simp, hs⟩
  next t c ts =>
    split
    next =>
      split
      next n hn =>
        refine ⟨?_, suffix_tail (suffix_tail hs)⟩
        simp only [List.mem_singleton, forall_eq]
        exact ⟨t, ⟨[c], shown_two hl hs⟩, hn⟩
      next n hn =>
        refine ⟨?_, suffix_tail (suffix_tail hs)⟩
        simp only [List.mem_singleton, forall_eq]
        exact ⟨t, ⟨[c], shown_two hl hs⟩, hn⟩
      next => exact ⟨by simp, hs⟩
    next => exact ⟨by simp, hs⟩

theorem macroLineInstr_places {l : List Token} (hl : IsLine all l) {ts : List Token} (hs : ts <:+ l) :
    (macroLineInstr ts).All (Blames all load) fun x => (∀ b ∈ x.1, BodyOk all l b) ∧ x.2 <:+ l := by
  cases ts with
  | nil => exact ⟨by simp, hs⟩
  | cons t ts =>
    unfold macroLineInstr
    dsimp only
    split
    next n hn =>
      refine .ite (fun _ => Blames.unknownInstruction (shown_single hl (mem_suffix hs)) hn) fun _ => ?_
      refine .bind (genInstr_places hl hs) fun ⟨⟨s, name, args⟩, ts'⟩ ⟨h1, h2, h3, h4⟩ => ?_
      refine ⟨?_, h4⟩
      simp only [List.mem_singleton, forall_eq]
      exact ⟨h1, h2, h3⟩
    next => exact ⟨by simp, hs⟩

theorem parseMacroStatement_places {l : List Token} (hl : IsLine all l) :
    (parseMacroStatement l).All (Blames all load) fun ss => ∀ b ∈ ss, BodyOk all l b := by
  unfold parseMacroStatement
  obtain ⟨h1, h2⟩ := macroLineLabel_ok hl (List.suffix_refl l)
  refine .bind (macroLineInstr_places hl h2) fun ⟨instr, ts⟩ ⟨h3, h4⟩ => ?_
  refine .ite (fun _ b hb => ?_) fun _ => unexpectedToken_all hl h4
  rcases List.mem_append.mp hb with hb | hb
  · exact h1 b hb
  · exact h3 b hb

theorem argSrc_param {L : List Token → Prop} {a : Arg} (h : ArgSrc all L a) (hn : ∀ s n, a ≠ .macroArg s n) :
    Blames all load .invalidMacroParam (.span a.span) := by
  cases a with
  | imm e => obtain ⟨e₀, h1, _⟩ := shownExpr_of (exprOk_of h); exact .paramExpr h1
  | ex e => obtain ⟨e₀, h1, _⟩ := shownExpr_of (exprOk_of h.1); exact .paramExpr h1
  | im s r =>
    obtain ⟨t, l, _, hl, ht, hm, rfl⟩ := h
    exact .paramMode (shown_token hl ht) hm
  | macroArg s n => exact absurd rfl (hn s n)

theorem paramNames_places {L : List Token → Prop} {args : List Arg} (h : ∀ a ∈ args, ArgSrc all L a) (seen : List Text) :
    (paramNames seen args).All (Blames all load) fun _ => True := by
  induction args generalizing seen with
  | nil => trivial
  | cons a args ih =>
    unfold paramNames
    split
    next => trivial
    next s n rest heq =>
      cases heq
      obtain ⟨t, l, _, hl, ht, hm, rfl⟩ := h (.macroArg s n) (by simp)
      refine .ite (fun _ => Blames.duplicateMacroArg (shown_token hl ht) hm) fun _ => ?_
      exact .bind (ih (fun a ha => h a (by simp [ha])) _) fun _ _ => trivial
    next a' rest hne heq =>
      cases heq
      exact argSrc_param (h a (by simp)) hne

theorem startsMacro_iff {l : List Token} (h : startsMacro (l.map Token.tok) = true) :
    ∃ t ts, l = t :: ts ∧ t.tok = .macroIdent "%macro".toList := by
  cases l with
  | nil => cases h
  | cons t ts => exact ⟨t, ts, rfl, by simpa [startsMacro] using h⟩

theorem parseMacroHeader_places {l : List Token} (hl : IsLine all l) (hm : startsMacro (l.map Token.tok) = true)
    {macros : Macros} (hms : ∀ x ∈ macros, MacroOk all x.1 x.2) :
    (parseMacroHeader macros l).All (Blames all load) fun x =>
      (∃ t, ShownToken all t x.1 ∧ t.tok = .name x.2.1) ∧
      ∃ rest, l.map Token.tok = .macroIdent "%macro".toList :: .name x.2.1 :: rest := by
  obtain ⟨k, ks, rfl, hk⟩ := startsMacro_iff hm
  have hs := List.suffix_refl (k :: ks)
  unfold parseMacroHeader
  refine .bind (readMacroName_all hl hs) fun ⟨_, ts⟩ ⟨k', h1, _, _⟩ => ?_
  cases h1
  refine .bind (readName_all hl (suffix_tail hs)) fun ⟨⟨s, name⟩, ts'⟩ ⟨t, h1, h2, h3⟩ => ?_
  dsimp only at h1 h2 h3 ⊢
  subst h1 h2
  have ht : ShownToken all t t.span := shown_token hl (mem_suffix (suffix_tail hs))
  refine .ite (fun _ => Blames.macroNameConflict ht h3) fun _ => ?_
  refine .bind (parseArgs_places hl (suffix_tail (suffix_tail hs))) fun ⟨args, ts2⟩ ⟨w, h4, h5⟩ => ?_
  dsimp only at h4 h5 ⊢
  subst h4
  split
  next d hd =>
    obtain ⟨_, ⟨t', ht', hk'⟩, _⟩ := hms _ (lookup_pair hd)
    exact Blames.macroAlreadyExists ht h3 ht' hk'
  next =>
    refine .bind (paramNames_places (L := (· = k :: t :: (w ++ ts2))) (fun a ha => ?_) []) fun params _ => ?_
    · obtain ⟨_, _, h, _⟩ := h5 a ha
      exact h
    · refine .ite (fun _ => ⟨⟨t, ht, h3⟩, (w ++ ts2).map Token.tok, by simp [hk, h3]⟩) fun _ => ?_
      exact unexpectedToken_all hl (suffix_drop (suffix_tail (suffix_tail hs)))

theorem isLine_of {L : List (List Token)} (h : SplitsInto all L) {l : List Token} (hl : l ∈ L) : IsLine all l := ⟨L, h, hl⟩

/-- What is known of the definition being read -/
def OpenOk (all : List Token) (before : List (List Token)) (d : MacroDef) : Prop :=
  ∃ pre header body, before = pre ++ header :: body ∧
    (∃ rest, header.map Token.tok = .macroIdent "%macro".toList :: .name d.name :: rest) ∧
    (∀ b ∈ body, b.head?.map Token.tok ≠ some (.macroIdent "%end".toList)) ∧
    (∃ t, ShownToken all t d.span ∧ t.tok = .name d.name) ∧ ∀ b ∈ d.body, ∃ l ∈ body, BodyOk all l b

theorem openOk_macroOk {before ls : List (List Token)} {d : MacroDef} (h : OpenOk all before d)
    (hs : SplitsInto all (before ++ ls)) : MacroOk all (d.name, d.args.length) d := by
  obtain ⟨pre, header, body, rfl, h1, h2, h3, h4⟩ := h
  refine ⟨rfl, h3, fun b hb => ?_⟩
  obtain ⟨l, hl, hb'⟩ := h4 b hb
  exact ⟨l, ⟨pre, header, body, ls, by simpa using hs, h1, h2, hl⟩, hb'⟩

theorem endsMacro_not {l : List Token} (h : ¬ endsMacro (l.map Token.tok) = true) :
    l.head?.map Token.tok ≠ some (.macroIdent "%end".toList) := by
  intro he
  apply h
  cases l with
  | nil => cases he
  | cons t ts => simpa [endsMacro] using he

theorem macroPass_places (ls : List (List Token)) : ∀ (before : List (List Token)) (macros : Macros) (current : Option MacroDef),
    SplitsInto all (before ++ ls) → (∀ x ∈ macros, MacroOk all x.1 x.2) → (∀ d, current = some d → OpenOk all before d) →
    (macroPass macros current ls).All (Blames all load) fun x =>
      (∀ l ∈ x.1, IsLine all l) ∧ ∀ y ∈ x.2, MacroOk all y.1 y.2 := by
  induction ls with
  | nil =>
    intro before macros current hs hm hc
    cases current with
    | none => exact ⟨by simp, hm⟩
    | some d =>
      refine ⟨by simp, fun x hx => ?_⟩
      rcases List.mem_cons.mp hx with rfl | hx
      · exact openOk_macroOk (hc d rfl) hs
      · exact hm x hx
  | cons l ls ih =>
    intro before macros current hs hm hc
    have hl : IsLine all l := isLine_of hs (by simp)
    have hs' : SplitsInto all ((before ++ [l]) ++ ls) := by simpa using hs
    cases current with
    | none =>
      rw [macroPass]
      refine .ite (fun hst => ?_) fun _ => ?_
      · refine .bind (parseMacroHeader_places hl hst hm) fun ⟨s, name, params⟩ ⟨h1, h2⟩ => ?_
        refine ih (before ++ [l]) macros _ hs' hm ?_
        rintro _ ⟨⟩
        exact ⟨before, l, [], rfl, h2, by simp, h1, by simp⟩
      · refine .bind (ih (before ++ [l]) macros none hs' hm (by simp)) fun ⟨rest, ms⟩ ⟨h1, h2⟩ => ?_
        refine ⟨fun x hx => ?_, h2⟩
        rcases List.mem_cons.mp hx with rfl | hx
        · exact hl
        · exact h1 x hx
    | some d =>
      rw [macroPass]
      have hd := hc d rfl
      refine .ite (fun _ => .ite (fun _ => ?_) fun _ => unexpectedToken_all hl (List.drop_suffix 1 l)) fun hend => ?_
      · refine ih (before ++ [l]) _ none hs' (fun x hx => ?_) (by simp)
        rcases List.mem_cons.mp hx with rfl | hx
        · exact openOk_macroOk hd hs
        · exact hm x hx
      · refine .bind (parseMacroStatement_places hl) fun ss hss => ?_
        refine ih (before ++ [l]) macros _ hs' hm ?_
        rintro _ ⟨⟩
        obtain ⟨pre, header, body, rfl, h1, h2, h3, h4⟩ := hd
        refine ⟨pre, header, body ++ [l], by simp, h1, fun b hb => ?_, h3, fun b hb => ?_⟩
        · rcases List.mem_append.mp hb with hb | hb
          · exact h2 b hb
          · cases List.mem_singleton.mp hb
            exact endsMacro_not hend
        · rcases List.mem_append.mp hb with hb | hb
          · obtain ⟨x, hx, hbx⟩ := h4 b hb
            exact ⟨x, by simp [hx], hbx⟩
          · exact ⟨l, by simp, hss b hb⟩

theorem parse_places (all : List Token) : (parse all).All (Blames all load) fun p =>
    (∀ x ∈ p.macros, MacroOk all x.1 x.2) ∧ ∀ s ∈ p.stmts, StmtOk all load s := by
  unfold parse
  refine .bind (macroPass_places (lines all) [] [] none (lines_splits all) (by simp) (by simp)) fun ⟨ls, macros⟩ ⟨h1, h2⟩ => ?_
  exact .bind (parseLines_places h1) fun stmts h3 => ⟨h2, h3⟩

end Verif.Located
