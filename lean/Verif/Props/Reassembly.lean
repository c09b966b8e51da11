import Verif.Lemmas.ListingText
import Verif.Props.Disassembly
/-
C54: assembling a listing again.  `ContentEnd`, `NoOverlap`, `TargetsListed` and `sized` are in Spec/Reassembly.lean.
-/
namespace Verif.Props
open Verif.Spec

/-- The lines of a listing, read back, and what they assemble to. -/
theorem listing_again (flag : Bool) (entries : List Nat) (bytes : List UInt8) (out : List DStmt) (hlen : bytes.length ≤ 65536)
    (h : disassemble flag entries bytes = .ok out) (hov : NoOverlap bytes out) (ht : TargetsListed bytes out) :
    (∀ d ∈ out, CleanLine d) ∧ ∃ S e, Reread (out.map (·.stmt)) S ∧ ContentEnd out e ∧
      (e ≤ bytes.length ∧ ∀ k, e ≤ k → k < bytes.length → bytes[k]? = some 0) ∧
      ∀ m, assemble m S = .ok (sized (leastMultiple 512 e + bytes.length % 512) bytes) := by
  obtain ⟨g, body, h1, he, h2⟩ := disassemble_ok h
  subst he
  have tr := trace_ok h1
  have hl := listed_iff tr.sound h2 (size := bytes.length)
  refine ⟨?_, listing_assembles h1 h2 hlen hov ?_⟩
  · intro d hd
    rcases List.mem_append.mp hd with hd | hd
    · exact emits_clean tr.sound (by omega) h2 h2 d hd
    · exact clean_epilogue d hd
  · intro p i l hi hli
    have hp := (hl p).mpr (by simp [Graph.contains, hi])
    obtain ⟨d, d1, d2, l2, d3⟩ := hp
    have hll : l2 = l := by
      rcases List.mem_append.mp d1 with hd | hd
      · rcases emits_major h2 d hd with hm | ⟨q, j, l', _, hj, h3, h4, h5⟩ | ⟨q, _, _, _, rfl⟩
        · exact absurd d3 (hm l2 []).1
        · rw [d2] at h4
          cases h4
          rw [hi] at hj
          cases hj
          rw [hli] at h3
          cases h3
          rw [d3] at h5
          cases h5
          rfl
        · cases d3
      · exact absurd d3 (epilogue_minor d hd l2 []).1
    subst hll
    exact C53_names flag entries bytes _ (by omega) h d d1 l2 d3 p d2 i (tr.sound p i hi) (ht p i ⟨d, d1, d2, l2, d3⟩ (tr.sound p i hi))

/-- **C54**: a listing without overlapping instructions and with all targets listed can be printed, read and assembled
again, and gives the binary again, cut or filled with zeros: its length is that of the content of the listing, rounded up to a multiple of 512,
plus the rest of the binary's length. -/
theorem C54_listing {seg : Seg} (hs : AsciiSeg seg) (flag : Bool) (entries : List Nat) (bytes : List UInt8) (out : List DStmt) (hlen : bytes.length ≤ 65536)
    (h : disassemble flag entries bytes = .ok out) (hov : NoOverlap bytes out) (ht : TargetsListed bytes out)
    (e : Nat) (he : ContentEnd out e) :
    ∃ text S, printListing false out = .ok text ∧ (lexInput seg (Input.new 0 text) >>= parse) = .ok ⟨[], S⟩ ∧
      ∀ m, assemble m S = .ok (sized (leastMultiple 512 e + bytes.length % 512) bytes) := by
  obtain ⟨hc, S, e', a1, a2, _, a4⟩ := listing_again flag entries bytes out hlen h hov ht
  obtain ⟨t, K, sss, b1, b2, b3, b4, b5⟩ := listing_reads hc
  have hee : e' = e := by
    refine Nat.le_antisymm ?_ ?_
    · rcases a2.2 with rfl | ⟨d, hd, hx⟩
      · exact Nat.zero_le _
      · exact he.1 d hd e' hx
    · rcases he.2 with rfl | ⟨d, hd, hx⟩
      · exact Nat.zero_le _
      · exact a2.1 d hd e hx
  subst hee
  refine ⟨t, sss.flatten, b1, text_parses (plain_of_ascii hs b2) b3 b4 0, ?_⟩
  rw [reread_unique b5 a1]
  exact a4

/-- The last block of 512 bytes has something in it: a byte that is not zero, or a listed instruction. -/
def LastBlockUsed (bytes : List UInt8) (out : List DStmt) : Prop :=
  ∃ j, bytes.length ≤ j + 512 ∧ j < bytes.length ∧
    (bytes[j]? ≠ some 0 ∨ ∃ p i, ListedAt out p ∧ InstrAt bytes p i ∧ p ≤ j ∧ j < p + i.size)

/-- A listed instruction ends before the end of the content. -/
theorem listed_end (flag : Bool) (entries : List Nat) (bytes : List UInt8) (out : List DStmt)
    (h : disassemble flag entries bytes = .ok out) {e : Nat} (he : ContentEnd out e) {p : Nat} {i : Instr Int Nat}
    (hp : ListedAt out p) (hi : InstrAt bytes p i) : p + i.size ≤ e := by
  obtain ⟨g, body, h1, hx, h2⟩ := disassemble_ok h
  subst hx
  have tr := trace_ok h1
  obtain ⟨d, d1, d2, l, d3⟩ := hp
  have hsz : (row l.form).size = i.size := by
    rcases List.mem_append.mp d1 with hd | hd
    · rcases emits_major h2 d hd with hm | ⟨q, j, l', _, hj, h3, h4, h5⟩ | ⟨q, _, _, _, rfl⟩
      · exact absurd d3 (hm l []).1
      · rw [d2] at h4
        cases h4
        have e1 := (tr.sound p j hj).2
        rw [hi.2] at e1
        simp only [Res.ok.injEq, Option.some.injEq] at e1
        subst e1
        rw [d3] at h5
        cases h5
        obtain ⟨l', b1, b2, _⟩ := lift_spec p g (buildNames g) i (decode_inRange hi.2)
        rw [h3] at b1
        cases b1
        rw [docSize_eq, size_eq, b2]
      · cases d3
    · exact absurd d3 (epilogue_minor d hd l []).1
  have := he.1 d d1 _ ⟨p, d2, .inl ⟨l, d3, rfl⟩⟩
  omega

/-- The length is right. -/
theorem C54_length (flag : Bool) (entries : List Nat) (bytes : List UInt8) (out : List DStmt) (hlen : bytes.length ≤ 65536)
    (h : disassemble flag entries bytes = .ok out) (hov : NoOverlap bytes out) (ht : TargetsListed bytes out)
    (h512 : bytes.length % 512 = 0) (hu : bytes = [] ∨ LastBlockUsed bytes out) :
    ∀ e, ContentEnd out e → leastMultiple 512 e + bytes.length % 512 = bytes.length := by
  obtain ⟨_, S, e', _, a2, a3, _⟩ := listing_again flag entries bytes out hlen h hov ht
  intro e he
  have hee : e = e' := by
    refine Nat.le_antisymm ?_ ?_
    · rcases he.2 with rfl | ⟨d, hd, hx⟩
      · exact Nat.zero_le _
      · exact a2.1 d hd e hx
    · rcases a2.2 with rfl | ⟨d, hd, hx⟩
      · exact Nat.zero_le _
      · exact he.1 d hd e' hx
  subst hee
  have hj : bytes.length = 0 ∨ bytes.length < e + 512 := by
    rcases hu with rfl | ⟨j, j1, j2, hj⟩
    · exact .inl rfl
    · right
      rcases hj with hj | ⟨p, i, k1, k2, k3, k4⟩
      · by_cases hje : e ≤ j
        · exact absurd (a3.2 j hje j2) hj
        · omega
      · have := listed_end flag entries bytes out h he k1 k2
        omega
  have := a3.1
  unfold leastMultiple
  split <;> omega

theorem sized_same (bytes : List UInt8) : sized bytes.length bytes = bytes := by simp [sized]

theorem contentEnd_exists (flag : Bool) (entries : List Nat) (bytes : List UInt8) (out : List DStmt) (hlen : bytes.length ≤ 65536)
    (h : disassemble flag entries bytes = .ok out) (hov : NoOverlap bytes out) (ht : TargetsListed bytes out) : ∃ e, ContentEnd out e := by
  obtain ⟨_, S, e, _, a2, _⟩ := listing_again flag entries bytes out hlen h hov ht
  exact ⟨e, a2⟩

/-- **C54**: if moreover the length is a multiple of 512 and the last 512 bytes are used, the listing, printed without positions,
read and assembled again, gives exactly the binary. -/
theorem C54_same {seg : Seg} (hs : AsciiSeg seg) (flag : Bool) (entries : List Nat) (bytes : List UInt8) (out : List DStmt) (hlen : bytes.length ≤ 65536)
    (h : disassemble flag entries bytes = .ok out) (hov : NoOverlap bytes out) (ht : TargetsListed bytes out)
    (h512 : bytes.length % 512 = 0) (hu : bytes = [] ∨ LastBlockUsed bytes out) :
    ∃ text S, printListing false out = .ok text ∧ (lexInput seg (Input.new 0 text) >>= parse) = .ok ⟨[], S⟩ ∧
      ∀ m, assemble m S = .ok bytes := by
  obtain ⟨e, he⟩ := contentEnd_exists flag entries bytes out hlen h hov ht
  obtain ⟨t, S, a1, a2, a3⟩ := C54_listing hs flag entries bytes out hlen h hov ht e he
  refine ⟨t, S, a1, a2, fun m => ?_⟩
  rw [a3, C54_length flag entries bytes out hlen h hov ht h512 hu e he, sized_same]

/-- **C54**: the same for files: a file with the printed listing assembles to the binary. -/
theorem C54_file {seg : Seg} (hs : AsciiSeg seg) (flag : Bool) (entries : List Nat) (bytes : List UInt8) (out : List DStmt) (hlen : bytes.length ≤ 65536)
    (h : disassemble flag entries bytes = .ok out) (hov : NoOverlap bytes out) (ht : TargetsListed bytes out)
    (h512 : bytes.length % 512 = 0) (hu : bytes = [] ∨ LastBlockUsed bytes out) :
    ∃ text, printListing false out = .ok text ∧ ∀ (fs : FS) (dir : Path) (name : Text), dir.abs = true →
      fs.read (dir.join (Path.parse name)) = some (utf8 text) → ∀ m order load, ∃ n, ∀ fuel ≥ n, ∀ uuid macroFuel,
        assembleFile m seg order load uuid fs fuel macroFuel (SourceFiles.new dir) name = .ok bytes := by
  obtain ⟨hc, S, e', a1, a2, _, a4⟩ := listing_again flag entries bytes out hlen h hov ht
  obtain ⟨t, K, sss, b1, b2, b3, b4, b5⟩ := listing_reads hc
  have hu := reread_unique b5 a1
  refine ⟨t, b1, fun fs dir name hd hr m order load => ?_⟩
  obtain ⟨g1, g2, g3⟩ := reread_plain b5 (by
    intro s hs
    obtain ⟨d, hd, rfl⟩ := List.mem_map.mp hs
    exact (hc d hd).1)
  obtain ⟨n, hn⟩ := assemble_of_lines hs hd hr (plain_of_ascii hs b2) b3 b4 g1 g2 g3 m order load
  refine ⟨n, fun fuel hf uuid mf => ?_⟩
  rw [hn fuel hf uuid mf, hu, a4, C54_length flag entries bytes out hlen h hov ht h512 ‹_› e' a2, sized_same]

/-- **C54**, exactly: the bytes come out again if and only if the content, rounded up to a multiple of 512, is as long as the whole
blocks of the binary. -/
theorem C54_iff {seg : Seg} (hs : AsciiSeg seg) (flag : Bool) (entries : List Nat) (bytes : List UInt8) (out : List DStmt) (hlen : bytes.length ≤ 65536)
    (h : disassemble flag entries bytes = .ok out) (hov : NoOverlap bytes out) (ht : TargetsListed bytes out)
    (e : Nat) (he : ContentEnd out e) :
    ∃ text S, printListing false out = .ok text ∧ (lexInput seg (Input.new 0 text) >>= parse) = .ok ⟨[], S⟩ ∧
      ∀ m, assemble m S = .ok bytes ↔ leastMultiple 512 e = bytes.length / 512 * 512 := by
  obtain ⟨t, S, a1, a2, a3⟩ := C54_listing hs flag entries bytes out hlen h hov ht e he
  refine ⟨t, S, a1, a2, fun m => ?_⟩
  rw [a3]
  constructor
  · intro hx
    simp only [Res.ok.injEq] at hx
    have := congrArg List.length hx
    rw [sized_length] at this
    omega
  · intro hx
    have : leastMultiple 512 e + bytes.length % 512 = bytes.length := by omega
    rw [this, sized_same]

/-- C54: it is enough that all targets are in the binary. -/
theorem C54_targets (flag : Bool) (entries : List Nat) (bytes : List UInt8) (out : List DStmt) (hlen : bytes.length ≤ 65536)
    (h : disassemble flag entries bytes = .ok out)
    (ht : ∀ p i, ListedAt out p → InstrAt bytes p i → ∀ t : Int, Target p i t → 0 ≤ t ∧ t < bytes.length) : TargetsListed bytes out := by
  intro p i hp hi t htg
  by_cases hx : 2 ≤ p ∧ ListedAt out (p - 2) ∧ ∃ j, InstrAt bytes (p - 2) j ∧ toOtherMemory j i
  · exact .inr hx
  · left
    obtain ⟨h1, h2⟩ := ht p i hp hi t htg
    obtain ⟨q, rfl⟩ := Int.eq_ofNat_of_zero_le h1
    refine ⟨q, rfl, ?_⟩
    exact (C50_closed flag entries bytes out (by omega) h).2 p i q hp hi (.inr htg) (by omega)
      (fun h2 j hj hij ho => hx ⟨h2, hj, j, hij, ho⟩)

/-- A binary of 512 bytes: a branch over two bytes of data, a branch back, and zeros. -/
def sampleBinary : List UInt8 := [0x01, 0x02, 0xAA, 0xBB, 0x01, 0xFA] ++ List.replicate 506 0

theorem sample_decode0 : decode (sampleBinary.drop 0) = .ok (some (.Br 2)) := by decide +kernel
theorem sample_decode4 : decode (sampleBinary.drop 4) = .ok (some (.Br (-6))) := by decide +kernel

theorem sample_instr {p : Nat} {i : Instr Int Nat} (hp : p = 0 ∨ p = 4) (h : InstrAt sampleBinary p i) :
    (p = 0 ∧ i = .Br 2) ∨ (p = 4 ∧ i = .Br (-6)) := by
  rcases hp with rfl | rfl
  · have := h.2
    rw [sample_decode0] at this
    simp only [Res.ok.injEq, Option.some.injEq] at this
    exact .inl ⟨rfl, this.symm⟩
  · have := h.2
    rw [sample_decode4] at this
    simp only [Res.ok.injEq, Option.some.injEq] at this
    exact .inr ⟨rfl, this.symm⟩

theorem sample_target {p : Nat} {d : Int} {t : Int} (h : Target p (.Br d) t) : t = p + 2 + d := by
  generalize hi : Instr.Br d = i at h
  cases h with
  | short h1 h2 => subst hi; simp [values, operands] at h2; subst h2; rfl
  | long h1 _ => subst hi; simp [kinds, row, Instr.form] at h1
  | page h1 _ => subst hi; simp [kinds, row, Instr.form] at h1
  | far h1 _ => subst hi; simp [kinds, row, Instr.form] at h1

theorem sample_reached {p : Nat} (h : Reached [0] sampleBinary p) : p = 0 ∨ p = 4 := by
  induction h with
  | entry h _ => exact .inl (List.mem_singleton.mp h)
  | flow _ hi hf _ ih =>
    rcases sample_instr ih hi with ⟨rfl, rfl⟩ | ⟨rfl, rfl⟩
    · rcases hf with ⟨hf, _⟩ | hf
      · exact absurd trivial hf
      · have := sample_target hf; omega
    · rcases hf with ⟨hf, _⟩ | hf
      · exact absurd trivial hf
      · have := sample_target hf; omega

/-- The sample meets the hypotheses of C54. -/
example : ∃ out, disassemble false [0] sampleBinary = .ok out ∧ sampleBinary.length ≤ 65536 ∧ NoOverlap sampleBinary out ∧
    TargetsListed sampleBinary out ∧ sampleBinary.length % 512 = 0 ∧ LastBlockUsed sampleBinary out := by
  have hl : sampleBinary.length = 512 := by decide +kernel
  cases h : disassemble false [0] sampleBinary with
  | loop => exact absurd h (C49_ends _ _ _).1
  | panic => exact absurd h (C49_ends _ _ _).2
  | err e =>
    exfalso
    obtain ⟨p, b, h1, h2, _, f, h3, h4⟩ := C49_errors _ _ _ (by omega) e h
    have := sample_reached h1
    have : (row f).size ≤ 3 := by rw [docSize_eq]; cases f <;> decide
    omega
  | ok out =>
    have hr : ∀ p, ListedAt out p → p = 0 ∨ p = 4 := fun p hp => sample_reached (C50_reached _ _ _ _ (by omega) h p hp)
    have h0 : ListedAt out 0 := (C50_closed _ _ _ _ (by omega) h).1 0 List.mem_cons_self (by omega)
    refine ⟨out, rfl, by omega, ?_, ?_, by omega, 0, by omega, by omega, .inr ⟨0, .Br 2, h0, ⟨by omega, sample_decode0⟩, by omega, by decide⟩⟩
    · intro p q i hp hq hpq hi
      rcases sample_instr (hr p hp) hi with ⟨rfl, rfl⟩ | ⟨rfl, rfl⟩
      · have := hr q hq
        show 0 + 2 ≤ q
        omega
      · have := hr q hq
        omega
    · refine C54_targets _ _ _ _ (by omega) h fun p i hp hi t ht => ?_
      rcases sample_instr (hr p hp) hi with ⟨rfl, rfl⟩ | ⟨rfl, rfl⟩
      · have := sample_target ht; omega
      · have := sample_target ht; omega

/-- C54 is false of overlapping instructions: the second is listed after the first, without `.org`, and so all that follows moves.
In this binary `bz` goes to the second byte of `inc`; the lines before the padding assemble to one byte more. -/
theorem C54_overlap : ∃ body, disassemble false [0] [0x80, 0x01, 0x62, 0x00] = .ok (body ++ epilogue 4 ⟨[], pswBits, aliases⟩) ∧
    assemble .checked (body.map (·.stmt)) = .ok [0x80, 0x02, 0x62, 0x00, 0x00] := by
  refine ⟨[⟨none, .comment [], none⟩, ⟨none, .comment "Entry point".toList, none⟩, ⟨some 0, .dir (.org 0), none⟩,
    ⟨some 0, .instr (.Bz (.name "label_0003".toList)), none⟩,
    ⟨none, .comment "Overlaps with: 0003".toList, none⟩,
    ⟨some 2, .instr (.Inc_d9 (.num 0)), none⟩,
    ⟨none, .label "label_0003".toList, none⟩,
    ⟨none, .comment "Overlaps with: 0002".toList, none⟩,
    ⟨some 3, .instr .Nop, none⟩], ?_, ?_⟩
  · exact listing_parts (by decide +kernel)
  · decide +kernel

end Verif.Props
