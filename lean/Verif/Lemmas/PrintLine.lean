import Verif.Lemmas.ReadExpr
import Verif.Lemmas.IncludeFile
import Verif.Spec.Reread
import Verif.Lemmas.Report
/-
Printed statements read back: the lines.
-/
namespace Verif
open Verif.Spec

theorem reread_lower {e : Expr} (h : Natural e) : reread e = lowerExpr e := by
  induction e with
  | bxor l r hl hr => simp only [reread, lowerExpr, hl h.1, hr h.2]
  | band l r hl hr => simp only [reread, lowerExpr, hl h.1, hr h.2]
  | bor l r hl hr => simp only [reread, lowerExpr, hl h.1, hr h.2]
  | plus l r hl hr => simp only [reread, lowerExpr, hl h.1, hr h.2]
  | minus l r hl hr => simp only [reread, lowerExpr, hl h.1, hr h.2]
  | times l r hl hr => simp only [reread, lowerExpr, hl h.1, hr h.2]
  | divide l r hl hr => simp only [reread, lowerExpr, hl h.1, hr h.2]
  | uminus e ih => simp only [reread, lowerExpr, ih h]
  | upperByte e ih => simp only [reread, lowerExpr, ih h]
  | lowerByte e ih => simp only [reread, lowerExpr, ih h]
  | name n => rfl
  | macroLabel n => rfl
  | macroArg n => rfl
  | number v radix =>
    have : ¬ v < 0 := by have : 0 ≤ v := h; omega
    simp only [reread, lowerExpr, this, ↓reduceIte]

theorem clean_syntax {e : Expr} (h : Clean e) : ExprSyntax (printedToks e) (lowerExpr e) := by
  have := printed_syntax e
  rwa [reread_lower h.2] at this

/-! Pieces of lines -/

theorem piece_nil : Piece [] [] := ⟨by simp, fun file before rest L _ h => by simpa using h⟩

theorem piece_space {t ks} (h : Piece t ks) : Piece (' ' :: t) ks := by
  refine ⟨by simp [h.1], ?_⟩
  intro file before rest L hr hl
  have a1 := h.2 file (before ++ [' ']) rest L hr (by simpa using hl)
  rw [lineAt_append (by simp)] at a1
  exact lx_space (by decide) a1

theorem piece_spaces {t ks} (h : Piece t ks) (n : Nat) : Piece (List.replicate n ' ' ++ t) ks := by
  induction n with
  | zero => simpa using h
  | succ n ih => exact piece_space ih

theorem piece_name {w : Text} (h : Ident w) : Piece w [.name (lower w)] :=
  ⟨ident_no_newline h, fun _ _ _ _ hr hl => lx_name h hr hl⟩

theorem piece_append {a b ks js} (ha : Piece a ks) (hb : Piece b js) (h : ∀ rest, Boundary rest → Boundary (b ++ rest)) :
    Piece (a ++ b) (ks ++ js) := by
  refine ⟨by simp [ha.1, hb.1], ?_⟩
  intro file before rest L hr hl
  have a1 := hb.2 file (before ++ a) rest L hr (by simpa using hl)
  have a2 := ha.2 file before (b ++ rest) _ (h rest hr) a1
  rw [lineAt_append ha.1] at a2
  simpa using a2

theorem piece_cons {a : Text} {c : Char} {b ks js} (ha : Piece a ks) (hb : Piece (c :: b) js)
    (hc : c ∈ " ,()#:=+-*/&|^<>\n;".toList) : Piece (a ++ c :: b) (ks ++ js) :=
  piece_append ha hb fun _ _ => boundary_cons hc

theorem piece_mode (r : IM) : ∃ k, ModeTok k r ∧ Piece r.print [k] := by
  cases r
  · exact ⟨_, .r0, by decide, fun _ _ _ _ _ hl => lx_sym (by decide) (.inl (by simp)) (fun e => absurd e (by decide)) hl⟩
  · exact ⟨_, .r1, by decide, fun _ _ _ _ _ hl => lx_sym (by decide) (.inl (by simp)) (fun e => absurd e (by decide)) hl⟩
  · exact ⟨_, .r2, by decide, fun _ _ _ _ _ hl => lx_sym (by decide) (.inl (by simp)) (fun e => absurd e (by decide)) hl⟩
  · exact ⟨_, .r3, by decide, fun _ _ _ _ _ hl => lx_sym (by decide) (.inl (by simp)) (fun e => absurd e (by decide)) hl⟩

theorem piece_comma {t ks} (h : Piece t ks) : Piece (',' :: t) (.comma :: ks) :=
  piece_prefix (by decide) (by simp) (by decide) (by decide) h

theorem piece_hash {t ks} (h : Piece t ks) : Piece ('#' :: t) (.hash :: ks) :=
  piece_prefix (by decide) (by simp) (by decide) (by decide) h

theorem piece_equals {t ks} (h : Piece t ks) : Piece ('=' :: t) (.equals :: ks) :=
  piece_prefix (by decide) (by simp) (by decide) (by decide) h

theorem piece_string {src s : Text} (h : Quoted src s) (hn : '\n' ∉ src) : Piece ('"' :: (src ++ ['"'])) [.string s] := by
  have hn' : '\n' ∉ '"' :: src ++ ['"'] := by simp [hn]
  refine ⟨hn', fun file before rest L hr hl => ?_⟩
  refine lx_token (.string h) hn' ?_ hl
  intro c hc
  simp at hc
  subst hc
  exact ⟨by decide, by decide, fun _ => by decide⟩

/-- Tokens of items with commas between them. -/
def commaToks : List (List Tok) → List Tok
  | [] => []
  | [w] => w
  | w :: v :: ws => w ++ .comma :: commaToks (v :: ws)

theorem listed_comma {α : Type} {Item : List Tok → α → Prop} {ws : List (List Tok)} {as : List α} (h : EachLine Item ws as)
    (hne : ws ≠ []) : Listed Item (commaToks ws) as := by
  induction h with
  | nil => exact absurd rfl hne
  | @cons w a ws as h1 h2 ih =>
    cases h2 with
    | nil => exact .one h1
    | cons h3 h4 => exact .cons h1 (ih (by simp))

theorem optListed_comma {α : Type} {Item : List Tok → α → Prop} {ws : List (List Tok)} {as : List α} (h : EachLine Item ws as) :
    OptListed Item (commaToks ws) as := by
  cases h with
  | nil => exact .inl ⟨rfl, rfl⟩
  | cons h1 h2 => exact .inr (listed_comma (.cons h1 h2) (by simp))

theorem piece_join {n : Nat} {ts : List Text} {ws : List (List Tok)} (h : EachLine Piece ts ws) :
    Piece (joinWith (',' :: List.replicate n ' ') ts) (commaToks ws) := by
  induction h with
  | nil => exact piece_nil
  | @cons t w ts ws h1 h2 ih =>
    cases h2 with
    | nil => exact h1
    | cons h3 h4 =>
      have := piece_cons h1 (piece_comma (piece_spaces ih n)) (by decide)
      simpa [joinWith, commaToks] using this

/-! Strings -/

/-- How a character of a string is printed. -/
def escapeChar (c : Char) : Text :=
  if c = '\x08' then ['\\', 'b'] else if c = '\n' then ['\\', 'n'] else if c = '\r' then ['\\', 'r']
  else if c = '\t' then ['\\', 't'] else if c = '\x00' then ['\\', '0'] else [c]

theorem escapeBytes_append (a b : List UInt8) : escapeBytes (a ++ b) = escapeBytes a ++ escapeBytes b := by
  induction a with
  | nil => rfl
  | cons x a ih => simp only [List.cons_append, escapeBytes, ih, List.append_assoc]

theorem escapeChar_all : ∀ n < 128, Char.ofNat n ∉ "\"\\\x07\x0B\x0C".toList →
    escapeBytes (utf8 [Char.ofNat n]) = utf8 (escapeChar (Char.ofNat n)) ∧ '\n' ∉ escapeChar (Char.ofNat n) ∧
    (∀ c ∈ escapeChar (Char.ofNat n), c.toNat < 128) := by
  decide +kernel

theorem escapeBytes_high {bs : List UInt8} (h : ∀ b ∈ bs, 128 ≤ b.toNat) : escapeBytes bs = bs := by
  induction bs with
  | nil => rfl
  | cons b bs ih =>
    rw [escapeBytes, ih fun x hx => h x (List.mem_cons_of_mem _ hx)]
    have hb := h b List.mem_cons_self
    have hne : ∀ x : UInt8, x.toNat < 128 → b ≠ x := by rintro x hx rfl; omega
    simp only [if_neg (hne _ (by decide : (0x07 : UInt8).toNat < 128)), if_neg (hne _ (by decide : (0x08 : UInt8).toNat < 128)),
      if_neg (hne _ (by decide : (0x0C : UInt8).toNat < 128)), if_neg (hne _ (by decide : (0x0A : UInt8).toNat < 128)),
      if_neg (hne _ (by decide : (0x0D : UInt8).toNat < 128)), if_neg (hne _ (by decide : (0x09 : UInt8).toNat < 128)),
      if_neg (hne _ (by decide : (0x0B : UInt8).toNat < 128)), if_neg (hne _ (by decide : (0x00 : UInt8).toNat < 128))]
    rfl

theorem utf8_high {c : Char} (h : ¬ c.toNat < 128) : ∀ b ∈ utf8 [c], 128 ≤ b.toNat := by
  intro b hb
  have : utf8 [c] = String.utf8EncodeChar c := by simp [utf8]
  rw [this] at hb
  by_cases hlt : b.toNat < 128
  · have := utf8Char_ascii hlt hb
    omega
  · omega

theorem escapeChar_spec {c : Char} (hc : c ∉ "\"\\\x07\x0B\x0C".toList) :
    escapeBytes (utf8 [c]) = utf8 (escapeChar c) ∧ '\n' ∉ escapeChar c ∧ (c.toNat < 128 → ∀ d ∈ escapeChar c, d.toNat < 128) := by
  by_cases h : c.toNat < 128
  · have := escapeChar_all c.toNat h
    rw [Char.ofNat_toNat] at this
    obtain ⟨h1, h2, h3⟩ := this hc
    exact ⟨h1, h2, fun _ => h3⟩
  · have hne : ∀ d : Char, d.toNat < 128 → c ≠ d := by rintro d hd rfl; exact h hd
    have he : escapeChar c = [c] := by
      unfold escapeChar
      rw [if_neg (hne _ (by decide)), if_neg (hne _ (by decide)), if_neg (hne _ (by decide)), if_neg (hne _ (by decide)),
        if_neg (hne _ (by decide))]
    rw [he]
    refine ⟨escapeBytes_high (utf8_high h), ?_, fun h' => absurd h' h⟩
    intro hm
    exact hne '\n' (by decide) (List.mem_singleton.mp hm).symm

/-- If the bytes are ASCII, so is the text. -/
theorem ascii_of_utf8 {s : Text} (h : ∀ b ∈ utf8 s, b.toNat < 128) : Ascii s := by
  intro c hc
  by_cases hlt : c.toNat < 128
  · exact hlt
  · have hne : String.utf8EncodeChar c ≠ [] := by
      intro e
      have := String.length_utf8EncodeChar c
      rw [e] at this
      have := Char.utf8Size_pos c
      simp at *
    obtain ⟨b, bs, e⟩ := List.exists_cons_of_ne_nil hne
    have hb : b ∈ String.utf8EncodeChar c := by rw [e]; exact List.mem_cons_self
    have h1 := h b (by unfold utf8; exact List.mem_flatMap.mpr ⟨c, hc, hb⟩)
    have := utf8Char_ascii h1 hb
    omega

theorem quoted_escape {c : Char} (hc : c ∉ "\"\\\x07\x0B\x0C".toList) {w s : Text} (h : Quoted w s) :
    Quoted (escapeChar c ++ w) (c :: s) := by
  have h1 : c ≠ '"' := by rintro rfl; exact hc (by decide)
  have h2 : c ≠ '\\' := by rintro rfl; exact hc (by decide)
  unfold escapeChar
  repeat' split
  · subst c; exact .escape (by decide) h
  · subst c; exact .escape (by decide) h
  · subst c; exact .escape (by decide) h
  · subst c; exact .escape (by decide) h
  · subst c; exact .escape (by decide) h
  · exact .plain h1 h2 h

theorem quotable_escape {s : Text} (h : Quotable s) : ∃ src, escapeBytes (utf8 s) = utf8 src ∧ '\n' ∉ src ∧ (Ascii s → Ascii src) ∧
    Quoted src s := by
  induction s with
  | nil => exact ⟨[], rfl, by simp, fun _ => .nil, .nil⟩
  | cons c s ih =>
    obtain ⟨src, h1, h2, h3, h4⟩ := ih fun d hd => h d (List.mem_cons_of_mem _ hd)
    have hc' := h c List.mem_cons_self
    obtain ⟨k1, k2, k3⟩ := escapeChar_spec hc'
    refine ⟨escapeChar c ++ src, ?_, by simp [k2, h2],
      fun ha => .append (k3 (ha c List.mem_cons_self)) (h3 fun d hd => ha d (List.mem_cons_of_mem _ hd)), quoted_escape hc' h4⟩
    rw [show c :: s = [c] ++ s from rfl, show utf8 ([c] ++ s) = utf8 [c] ++ utf8 s by simp [utf8], escapeBytes_append, k1, h1]; simp [utf8]

theorem escapeString_quotable {s : Text} (h : Quotable s) : ∃ src, escapeString (utf8 s) = .ok src ∧ '\n' ∉ src ∧ (Ascii s → Ascii src) ∧
    Quoted src s := by
  obtain ⟨src, h1, h2, h3, h4⟩ := quotable_escape h
  refine ⟨src, ?_, h2, h3, h4⟩
  have := (decodeUtf8_iff (bs := escapeBytes (utf8 s)) (t := src)).mpr h1.symm
  unfold decodeUtf8 at this
  unfold escapeString
  cases hx : String.fromUTF8? ⟨(escapeBytes (utf8 s)).toArray⟩ with
  | none => rw [hx] at this; cases this
  | some u => rw [hx] at this; simp at this; simp [this]

end Verif
