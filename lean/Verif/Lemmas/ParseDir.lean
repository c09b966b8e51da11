import Verif.Lemmas.ParseItems
/-
Directives: the parser reads exactly the grammar.
-/
namespace Verif
open Spec

theorem readNumber_ok {ts : List Tok} {v rest} : Toks.readNumber ts = .ok (v, rest) ↔ ∃ radix, ts = .number v radix :: rest := by
  cases ts with
  | nil => simp [Toks.readNumber]
  | cons t ts => cases t <;> simp [Toks.readNumber]

theorem readString_ok {ts : List Tok} {s rest} : Toks.readString ts = .ok (s, rest) ↔ ts = .string s :: rest := by
  cases ts with
  | nil => simp [Toks.readString]
  | cons t ts => cases t <;> simp [Toks.readString]

theorem readName_ok {ts : List Tok} {s rest} : Toks.readName ts = .ok (s, rest) ↔ ts = .name s :: rest := by
  cases ts with
  | nil => simp [Toks.readName]
  | cons t ts => cases t <;> simp [Toks.readName]

theorem readMacroName_ok {ts : List Tok} {s rest} : Toks.readMacroName ts = .ok (s, rest) ↔ ts = .macroIdent s :: rest := by
  cases ts with
  | nil => simp [Toks.readMacroName]
  | cons t ts => cases t <;> simp [Toks.readMacroName]

/-- A result that is neither a panic nor a hang. -/
def Fine {α : Type} (r : Res α) : Prop := r ≠ .loop ∧ r ≠ .panic

theorem Fine.ok {α : Type} (a : α) : Fine (.ok a) := by simp [Fine]
theorem Fine.err {α : Type} (e : Err) : Fine (.err e : Res α) := by simp [Fine]

theorem Fine.bind {α β : Type} {r : Res α} {f : α → Res β} (h : Fine r) (hf : ∀ a, r = .ok a → Fine (f a)) :
    Fine (r >>= f) := by
  cases r with
  | ok a => exact hf a rfl
  | err e => exact .err e
  | panic => exact absurd rfl h.2
  | loop => exact absurd rfl h.1

theorem Fine.cases {α : Type} {r : Res α} (h : Fine r) : (∃ a, r = .ok a) ∨ ∃ e, r = .err e := by
  cases r with
  | ok a => exact .inl ⟨a, rfl⟩
  | err e => exact .inr ⟨e, rfl⟩
  | panic => exact absurd rfl h.2
  | loop => exact absurd rfl h.1

theorem readNumber_fine (ts : List Tok) : Fine (Toks.readNumber ts) := by
  cases ts with
  | nil => exact .err _
  | cons t ts => cases t <;> simp [Toks.readNumber, Fine]

theorem readString_fine (ts : List Tok) : Fine (Toks.readString ts) := by
  cases ts with
  | nil => exact .err _
  | cons t ts => cases t <;> simp [Toks.readString, Fine]

theorem readName_fine (ts : List Tok) : Fine (Toks.readName ts) := by
  cases ts with
  | nil => exact .err _
  | cons t ts => cases t <;> simp [Toks.readName, Fine]

theorem readMacroName_fine (ts : List Tok) : Fine (Toks.readMacroName ts) := by
  cases ts with
  | nil => exact .err _
  | cons t ts => cases t <;> simp [Toks.readMacroName, Fine]

theorem toUsize_eq (v : Int) : toUsize v = unsigned v := rfl

/-! ### Properties of includes -/

theorem bytesOf_eq (s : String) : utf8 s.toList = bytesOf s := by
  rw [← utf8_eq, String.ofList_toList]; rfl

theorem iconSpeed_ok {ps speed} : iconSpeed ps.reverse = .ok speed ↔ IconSpeedIs ps speed := by
  unfold iconSpeed
  rw [lookup_property]
  constructor
  · intro h
    split at h
    next e he => cases h; exact .some he
    next => cases h
    next he => cases h; exact .none he
  · intro h
    cases h with
    | none h => rw [h]
    | some h => rw [h]

theorem spriteType_ok {ps t} : spriteTypeOf ps.reverse = .ok t ↔ SpriteTypeIs ps t := by
  unfold spriteTypeOf
  rw [lookup_property, bytesOf_eq, bytesOf_eq]
  constructor
  · intro h
    split at h
    next s hs =>
      split at h
      next e => cases h; exact .simple (e ▸ hs)
      next =>
        split at h
        next e => cases h; exact .masked (e ▸ hs)
        next => cases h
    next => cases h
    next he => cases h; exact .default he
  · intro h
    cases h with
    | default h => rw [h]
    | simple h => rw [h]; simp
    | masked h => 
      rw [h]
      simp only [if_true]
      rw [if_neg]
      decide

theorem spriteHeader_ok {ps b} : spriteHeaderOf ps.reverse = .ok b ↔ SpriteHeaderIs ps b := by
  unfold spriteHeaderOf
  rw [lookup_property, bytesOf_eq, bytesOf_eq]
  constructor
  · intro h
    split at h
    next s hs =>
      split at h
      next e => cases h; exact .yes (e ▸ hs)
      next =>
        split at h
        next e => cases h; exact .no (e ▸ hs)
        next => cases h
    next => cases h
    next he => cases h; exact .default he
  · intro h
    cases h with
    | default h => rw [h]
    | yes h => rw [h]; simp
    | no h => 
      rw [h]
      simp only [if_true]
      rw [if_neg]
      decide

theorem iconSpeed_fine (ps) : Fine (iconSpeed ps) := by
  unfold iconSpeed; split <;> simp [Fine]

theorem spriteType_fine (ps) : Fine (spriteTypeOf ps) := by
  unfold spriteTypeOf; split
  · split
    · simp [Fine]
    · split <;> simp [Fine]
  · simp [Fine]
  · simp [Fine]

theorem spriteHeader_fine (ps) : Fine (spriteHeaderOf ps) := by
  unfold spriteHeaderOf; split
  · split
    · simp [Fine]
    · split <;> simp [Fine]
  · simp [Fine]
  · simp [Fine]

theorem keyVals_sound {ts ps rest} (h : parseKeyVals ts = .ok (ps, rest)) :
    ∃ w qs, ts = w ++ rest ∧ ps = qs.reverse ∧ OptListed PropSyntax w qs ∧ LineEnd rest := by
  obtain ⟨⟨qs, r⟩, h1, h2⟩ := Res.bind_eq_ok.mp h
  cases h2
  obtain ⟨w, e, s, l⟩ := list_sound reads_prop h1
  exact ⟨w, qs, e, rfl, s, l⟩

theorem keyVals_complete {w qs rest} (h : OptListed PropSyntax w qs) (hl : LineEnd rest) :
    parseKeyVals (w ++ rest) = .ok (qs.reverse, rest) := by
  unfold parseKeyVals
  rw [list_complete reads_prop h hl]; rfl

theorem keyVals_fine (ts) : Fine (parseKeyVals ts) :=
  .bind (list_safe reads_prop ts) fun _ _ => .ok _

/-! ### The directives -/

theorem includeDir_sound {ts d rest} (h : parseIncludeDir ts = .ok (d, rest)) :
    ∃ w, ts = w ++ rest ∧ DirSyntax (.name ".include".toList :: w) d := by
  have typed : ∀ ts, parseTypedInclude ts = .ok (d, rest) →
      ∃ w, ts = w ++ rest ∧ DirSyntax (.name ".include".toList :: w) d := by
    intro ts h
    obtain ⟨⟨t, r⟩, h1, h⟩ := Res.bind_eq_ok.mp h
    obtain ⟨⟨s, r'⟩, h2, h⟩ := Res.bind_eq_ok.mp h
    cases h
    try dsimp only at h2
    rw [readString_ok] at h2
    cases ts with
    | nil => cases h1
    | cons x xs =>
      rw [Toks.readIncludeType] at h1
      split at h1
      next hx => cases h1; subst hx h2; exact ⟨[_, _], rfl, .asm⟩
      next =>
        split at h1
        next hx => cases h1; subst hx h2; exact ⟨[_, _], rfl, .bytes⟩
        next =>
          split at h1
          next hx => cases h1; subst hx h2; exact ⟨[_, _], rfl, .cpp⟩
          next => cases h1
  unfold parseIncludeDir at h
  split at h
  next s r => cases h; exact ⟨[_], rfl, .incl⟩
  next n r =>
    split at h
    next hn =>
      subst hn
      obtain ⟨⟨s, r1⟩, h1, h⟩ := Res.bind_eq_ok.mp h
      obtain ⟨⟨ps, r2⟩, h2, h⟩ := Res.bind_eq_ok.mp h
      obtain ⟨speed, h3, h⟩ := Res.bind_eq_ok.mp h
      cases h
      rw [readString_ok] at h1
      obtain ⟨w, qs, e, rfl, s1, -⟩ := keyVals_sound h2
      try dsimp only at h3 e
      rw [lookup_property]
      exact ⟨_ :: _ :: w, by rw [h1, e]; rfl, .icon s1 (iconSpeed_ok.mp h3)⟩
    next =>
      split at h
      next hn =>
        subst hn
        obtain ⟨⟨s, r1⟩, h1, h⟩ := Res.bind_eq_ok.mp h
        obtain ⟨⟨ps, r2⟩, h2, h⟩ := Res.bind_eq_ok.mp h
        obtain ⟨typ, h3, h⟩ := Res.bind_eq_ok.mp h
        obtain ⟨hd, h4, h⟩ := Res.bind_eq_ok.mp h
        cases h
        rw [readString_ok] at h1
        obtain ⟨w, qs, e, rfl, s1, -⟩ := keyVals_sound h2
        try dsimp only at h3 h4 e
        exact ⟨_ :: _ :: w, by rw [h1, e]; rfl, .sprite s1 (spriteType_ok.mp h3) (spriteHeader_ok.mp h4)⟩
      next => exact typed _ h
  next => exact typed _ h

theorem directive_sound {n p ts d rest} (hp : directiveParser n = some p) (h : p ts = .ok (d, rest)) :
    ∃ w, .name n :: ts = w ++ rest ∧ DirSyntax w d := by
  unfold directiveParser at hp
  split at hp
  next hn =>
    cases hp; subst hn
    obtain ⟨⟨vs, r⟩, h1, h2⟩ := Res.bind_eq_ok.mp h
    try dsimp only at h2
    split at h2
    next => cases h2
    next hne =>
      cases h2
      obtain ⟨w, e, s, -⟩ := list_sound reads_byte h1
      rcases s with ⟨rfl, rfl⟩ | s
      · simp at hne
      · exact ⟨_ :: w, by rw [e]; rfl, .byte s⟩
  next =>
  split at hp
  next hn =>
    cases hp; subst hn
    obtain ⟨⟨v, r⟩, h1, h2⟩ := Res.bind_eq_ok.mp h
    cases h2
    obtain ⟨radix, e⟩ := readNumber_ok.mp h1
    try dsimp only at e
    exact ⟨[_, _], by rw [e]; rfl, .org (radix := radix)⟩
  next =>
  split at hp
  next hn =>
    cases hp; subst hn
    obtain ⟨⟨vs, r⟩, h1, h2⟩ := Res.bind_eq_ok.mp h
    try dsimp only at h2
    split at h2
    next => cases h2
    next hne =>
      cases h2
      obtain ⟨w, e, s, -⟩ := list_sound reads_expr h1
      rcases s with ⟨rfl, rfl⟩ | s
      · simp at hne
      · exact ⟨_ :: w, by rw [e]; rfl, .word s⟩
  next =>
  split at hp
  next hn =>
    cases hp; subst hn
    obtain ⟨⟨⟨k, s⟩, r⟩, h1, h2⟩ := Res.bind_eq_ok.mp h
    cases h2
    obtain ⟨⟨v, r1⟩, h3, h1⟩ := Res.bind_eq_ok.mp h1
    obtain ⟨⟨t, r2⟩, h4, h1⟩ := Res.bind_eq_ok.mp h1
    cases h1
    obtain ⟨radix, e⟩ := readNumber_ok.mp h3
    try dsimp only at h4 e
    rw [readString_ok] at h4
    rw [← utf8_eq]
    exact ⟨[_, _, _], by rw [e, h4]; rfl, .text (radix := radix)⟩
  next =>
  split at hp
  next hn =>
    cases hp; subst hn
    obtain ⟨⟨⟨k, s⟩, r⟩, h1, h2⟩ := Res.bind_eq_ok.mp h
    cases h2
    obtain ⟨⟨v, r1⟩, h3, h1⟩ := Res.bind_eq_ok.mp h1
    obtain ⟨⟨t, r2⟩, h4, h1⟩ := Res.bind_eq_ok.mp h1
    cases h1
    obtain ⟨radix, e⟩ := readNumber_ok.mp h3
    try dsimp only at h4 e
    rw [readString_ok] at h4
    rw [← utf8_eq]
    exact ⟨[_, _, _], by rw [e, h4]; rfl, .string (radix := radix)⟩
  next =>
  split at hp
  next hn =>
    cases hp; subst hn
    obtain ⟨w, e, s⟩ := includeDir_sound h
    exact ⟨_ :: w, by rw [e]; rfl, s⟩
  next =>
  split at hp
  next hn =>
    cases hp; subst hn
    obtain ⟨⟨a, r1⟩, h1, h⟩ := Res.bind_eq_ok.mp h
    obtain ⟨r2, h2, h⟩ := Res.bind_eq_ok.mp h
    obtain ⟨⟨b, r3⟩, h3, h⟩ := Res.bind_eq_ok.mp h
    cases h
    obtain ⟨w1, e1, s1, -⟩ := parseExpr_iff.mp h1
    obtain ⟨w2, e2, s2, -⟩ := parseExpr_iff.mp h3
    try dsimp only at h2 e2
    rw [consume_ok] at h2
    exact ⟨_ :: (w1 ++ .comma :: w2), by rw [e1, h2, e2]; simp, .cnop s1 s2⟩
  next => cases hp

theorem directiveParser_some {n p} (h : directiveParser n = some p) : n ∈ directives.map String.toList := by
  unfold directiveParser at h
  simp only [directives, List.map_cons, List.map_nil]
  (repeat' split at h) <;> simp_all

theorem directiveParser_none {n} (h : n ∉ directives.map String.toList) : directiveParser n = none := by
  cases e : directiveParser n with
  | none => rfl
  | some p => exact absurd (directiveParser_some e) h

theorem dp_byte : directiveParser ".byte".toList = some parseByteDir := rfl
theorem dp_org : directiveParser ".org".toList = some parseOrgDir := rfl
theorem dp_word : directiveParser ".word".toList = some parseWordDir := rfl
theorem dp_text : directiveParser ".text".toList = some (fun ts => do
    let ((size, s), ts) ← parseSized ts
    .ok (.text size s, ts)) := rfl
theorem dp_string : directiveParser ".string".toList = some (fun ts => do
    let ((size, s), ts) ← parseSized ts
    .ok (.string size s, ts)) := rfl
theorem dp_include : directiveParser ".include".toList = some parseIncludeDir := rfl
theorem dp_cnop : directiveParser ".cnop".toList = some parseCnopDir := rfl

theorem directive_complete {w d rest} (h : DirSyntax w d) (hl : LineEnd rest) :
    ∃ n w' p, w = .name n :: w' ∧ directiveParser n = some p ∧ p (w' ++ rest) = .ok (d, rest) := by
  cases h with
  | @byte w vs h =>
    refine ⟨_, w, _, rfl, dp_byte, ?_⟩
    have hne := listed_ne_nil h
    unfold parseByteDir
    rw [list_complete reads_byte (.inr h) hl, Res.ok_bind]
    simp [hne]
  | @word w vs h =>
    refine ⟨_, w, _, rfl, dp_word, ?_⟩
    have hne := listed_ne_nil h
    unfold parseWordDir
    rw [list_complete reads_expr (.inr h) hl, Res.ok_bind]
    simp [hne]
  | org => exact ⟨_, _, _, rfl, dp_org, rfl⟩
  | text => exact ⟨_, _, _, rfl, dp_text, by rw [utf8_eq]; rfl⟩
  | string => exact ⟨_, _, _, rfl, dp_string, by rw [utf8_eq]; rfl⟩
  | @cnop w a w' m h h' =>
    refine ⟨_, _, _, rfl, dp_cnop, ?_⟩
    unfold parseCnopDir
    rw [List.append_assoc, List.cons_append, parseExpr_iff.mpr ⟨w, rfl, h, noOperator_comma _⟩, Res.ok_bind]
    simp only [Toks.consume, if_true, Res.ok_bind]
    rw [parseExpr_iff.mpr ⟨w', rfl, h', LineEnd.noOperator hl⟩]; rfl
  | incl => exact ⟨_, _, _, rfl, dp_include, rfl⟩
  | asm => exact ⟨_, _, _, rfl, dp_include, rfl⟩
  | bytes => exact ⟨_, _, _, rfl, dp_include, rfl⟩
  | cpp => exact ⟨_, _, _, rfl, dp_include, rfl⟩
  | @icon path w ps speed h hs =>
    refine ⟨_, _, _, rfl, dp_include, ?_⟩
    simp only [List.cons_append]
    unfold parseIncludeDir
    simp only [if_true, parseIconInclude, Toks.readString, Res.ok_bind, keyVals_complete h hl, iconSpeed_ok.mpr hs,
      lookup_property]
  | @sprite path w ps t hd h ht hh =>
    refine ⟨_, _, _, rfl, dp_include, ?_⟩
    simp only [List.cons_append]
    unfold parseIncludeDir
    simp only
    rw [if_neg (by decide), if_pos trivial]
    simp only [parseSpriteInclude, Toks.readString, Res.ok_bind, keyVals_complete h hl, spriteType_ok.mpr ht,
      spriteHeader_ok.mpr hh]

theorem readIncludeType_fine (ts : List Tok) : Fine (Toks.readIncludeType ts) := by
  cases ts with
  | nil => exact .err _
  | cons t ts =>
    rw [Toks.readIncludeType]
    split
    · exact .ok _
    · split
      · exact .ok _
      · split
        · exact .ok _
        · exact .err _

theorem includeDir_fine (ts) : Fine (parseIncludeDir ts) := by
  have typed : ∀ ts, Fine (parseTypedInclude ts) := fun ts =>
    .bind (readIncludeType_fine ts) fun _ _ => .bind (readString_fine _) fun _ _ => .ok _
  unfold parseIncludeDir
  split
  · exact .ok _
  · split
    · exact .bind (readString_fine _) fun _ _ => .bind (keyVals_fine _) fun _ _ =>
        .bind (iconSpeed_fine _) fun _ _ => .ok _
    · split
      · exact .bind (readString_fine _) fun _ _ => .bind (keyVals_fine _) fun _ _ =>
          .bind (spriteType_fine _) fun _ _ => .bind (spriteHeader_fine _) fun _ _ => .ok _
      · exact typed _
  · exact typed _

theorem directive_fine {n p} (hp : directiveParser n = some p) (ts) : Fine (p ts) := by
  unfold directiveParser at hp
  split at hp
  · cases hp
    refine .bind (list_safe reads_byte ts) fun _ _ => ?_
    dsimp only; split
    · exact .err _
    · exact .ok _
  split at hp
  · cases hp
    exact .bind (readNumber_fine ts) fun _ _ => .ok _
  split at hp
  · cases hp
    refine .bind (list_safe reads_expr ts) fun _ _ => ?_
    dsimp only; split
    · exact .err _
    · exact .ok _
  have sized : ∀ ts, Fine (parseSized ts) := fun ts =>
    .bind (readNumber_fine ts) fun _ _ => .bind (readString_fine _) fun _ _ => .ok _
  split at hp
  · cases hp
    exact .bind (sized ts) fun _ _ => .ok _
  split at hp
  · cases hp
    exact .bind (sized ts) fun _ _ => .ok _
  split at hp
  · cases hp
    exact includeDir_fine ts
  split at hp
  · cases hp
    exact .bind (reads_expr.safe ts) fun _ _ => .bind (consume_safe _ _ _) fun _ _ =>
      .bind (reads_expr.safe _) fun _ _ => .ok _
  cases hp

end Verif
