import Verif.Lemmas.CnopLoop
import Verif.Props.Assembly
import Verif.Props.Sources
/-
Properties of the search for a multiple in `.cnop`, also in a build without overflow checks: C27, C30, C66.
-/
namespace Verif.Props
open Verif.Spec

/-- **C27**: in a build without overflow checks, `.cnop a, k` at address `p` runs for ever exactly if `k` is not 0 and `p` is so near to
2^31 that no multiple of the greatest power of two in `k` is between: the multiples of `k` then wrap around and never reach `p`. -/
theorem C27_hangs (p a k : Int) (ra rk : Radix) (hk : -2147483648 ≤ k ∧ k ≤ 2147483647) :
    (Directive.cnop (.number a ra) (.number k rk)).size .wrapping p = .loop ↔
      k ≠ 0 ∧ 2147483648 - (Int.gcd k 4294967296 : Int) < p := by
  by_cases h0 : k = 0
  · subst h0
    refine ⟨fun h => ?_, fun h => absurd rfl h.1⟩
    obtain ⟨_, _, _, _, h1, h2⟩ := size_loop h
    cases h1
    exact absurd rfl h2
  · rw [cnop_size_loop h0, cnopLoop_hangs_iff p k (by unfold cnopFuel; omega), multiples_below h0 hk]
    exact ⟨fun h => ⟨h0, h⟩, fun h => h.2⟩

/-- **C27**: in a build with overflow checks it always ends. -/
theorem C27_ends (p : Int) (d : Directive) : d.size .checked p ≠ .loop := by
  intro h
  obtain ⟨a, ra, k, rk, rfl, hk⟩ := size_loop h
  rw [cnop_size_loop hk] at h
  rcases Int.lt_or_gt_of_ne hk with h1 | h1
  · exact cnopLoop_down h1 p _ _ (by omega) (by unfold cnopFuel; omega) h
  · exact cnopLoop_ne_loop h1 p _ _ (by omega) (by unfold cnopFuel; omega) h

/-- C27: that the model stops the search after 2^32 steps changes nothing: with more steps the result is the same. -/
theorem C27_steps (m : Mode) (p k : Int) (hk : k ≠ 0) (n : Nat) (hn : 4294967296 ≤ n) :
    cnopLoop m p k n 0 = cnopLoop m p k 4294967296 0 :=
  cnopLoop_fuel m p hk hn

/-- **C30**: with overflow checks, assembling ends for all statements whatever. -/
theorem C30_ends_checked (stmts : List Stmt) : assemble .checked stmts ≠ .loop :=
  assemble_calm fun x _ d p _ _ => C27_ends p d

/-- **C30**: without overflow checks, assembling ends if the multiple in each `.cnop` is odd or 0.  (It also ends for all
programs that stay below 2 GiB, see `C30_terminates`.) -/
theorem C30_ends_odd (stmts : List Stmt)
    (h : ∀ a ra k rk, .dir (.cnop (.number a ra) (.number k rk)) ∈ stmts → (-2147483648 ≤ k ∧ k ≤ 2147483647) ∧ (k = 0 ∨ k % 2 = 1)) :
    assemble .wrapping stmts ≠ .loop := by
  refine assemble_calm fun x hx d p hd hp hl => ?_
  subst hd
  obtain ⟨a, ra, k, rk, rfl, hk⟩ := size_loop hl
  obtain ⟨h1, h2⟩ := h a ra k rk hx
  obtain ⟨-, h3⟩ := (C27_hangs p a k ra rk h1).mp hl
  have hodd : k % 2 = 1 := h2.resolve_left hk
  have hg : Int.gcd k 4294967296 = 1 := by
    have h4 : Int.gcd k 4294967296 ∣ 2 ^ 32 := Int.natCast_dvd_natCast.mp (Int.gcd_dvd_right k 4294967296)
    obtain ⟨j, -, h5⟩ := (Nat.dvd_prime_pow Nat.prime_two).mp h4
    cases j with
    | zero => exact h5
    | succ j =>
      exfalso
      obtain ⟨c, hc⟩ := Int.gcd_dvd_left k 4294967296
      rw [h5, Nat.pow_succ, Int.natCast_mul, Int.mul_assoc, Int.mul_left_comm] at hc
      generalize ((2 ^ j : Nat) : Int) * c = z at hc
      omega
  rw [hg] at h3
  have := hp.2
  omega

/-- **C66**: whatever the build, if no chain of includes goes on for ever and no macro calls itself, `assemble` ends, but for one
case: a build without overflow checks, a program whose addresses leave the 2 GiB, and in it a `.cnop` with an even multiple. -/
theorem C66_release {m : Mode} {seg : Seg} (hs : AsciiSeg seg) {order : List Color → List Color} (ho : ∀ l, (order l).Perm l)
    {load : Text → Res Image} (hl : LoadsFrames load) {uuid : Nat → Text} (hu : Suffixes uuid)
    {fs : FS} {dir : Path} (hd : dir.abs = true) {name : Text}
    (hA : AllPlain seg fs dir (dir.join (Path.parse name))) (hE : ¬ Endless fs dir (dir.join (Path.parse name)))
    (hM : ∀ fuel p, readStatements m seg order load fs fuel (SourceFiles.new dir) name = .ok p →
      NonRecursive p.macros ∧ ClosedCalls p.stmts) :
    ∃ n, ∀ fuel ≥ n, ∀ macroFuel ≥ n,
      assembleFile m seg order load uuid fs fuel macroFuel (SourceFiles.new dir) name = .loop →
        m = .wrapping ∧ ∃ p q, readStatements m seg order load fs fuel (SourceFiles.new dir) name = .ok p ∧
          expandMacros uuid macroFuel p = .ok q ∧ (¬ ∃ ps, Laid m q.stmts ps) ∧
          ∃ a k r, .dir (.cnop a (.number k r)) ∈ q.stmts ∧ 0 < k ∧ k % 2 = 0 := by
  obtain ⟨n, r, h1, h2⟩ := C66_statements (m := m) hs ho hl hd hA hE
  cases r with
  | loop => exact absurd rfl h1
  | ok p =>
    refine ⟨max n (p.macros.length + 2), fun fuel hf macroFuel hmf h => ?_⟩
    have hr := h2 fuel (by omega)
    unfold assembleFile at h
    rw [hr, Res.ok_bind] at h
    obtain ⟨c1, c2⟩ := hM fuel p hr
    rcases Res.bind_eq_loop.mp h with h | ⟨q, hq, h⟩
    · rcases C36_terminates uuid p c1 c2 macroFuel (by omega) with ⟨_, e⟩ | ⟨_, e⟩ <;> rw [h] at e <;> cases e
    · cases m with
      | checked => exact absurd h (C30_ends_checked _)
      | wrapping =>
        refine ⟨rfl, p, q, hr, hq, fun ⟨ps, hL⟩ => C30_terminates _ _ ps hL h, ?_⟩
        refine Classical.byContradiction fun hn => C30_ends_odd q.stmts (fun a ra k rk hm => ?_) h
        have hk := ((C64_source hu hr hq).1.2 _ _ hm).2 k rk rfl
        refine ⟨by omega, ?_⟩
        by_cases h0 : k = 0
        · exact .inl h0
        · by_cases he : k % 2 = 0
          · exact absurd ⟨_, k, rk, hm, by omega, he⟩ hn
          · exact .inr (by omega)
  | _ =>
    refine ⟨n, fun fuel hf macroFuel _ h => ?_⟩
    unfold assembleFile at h
    rw [h2 fuel hf] at h
    cases h

/-- `.cnop 0, 4` at 2^31 - 3 runs for ever, at 2^31 - 4 it does not; `.cnop 0, 3` ends everywhere. -/
example : (Directive.cnop (.number 0 .decimal) (.number 4 .decimal)).size .wrapping 2147483645 = .loop :=
  (C27_hangs _ _ _ _ _ (by decide)).mpr ⟨by decide, by decide⟩
example : (Directive.cnop (.number 0 .decimal) (.number 4 .decimal)).size .wrapping 2147483644 ≠ .loop :=
  fun h => absurd ((C27_hangs _ _ _ _ _ (by decide)).mp h).2 (by decide)
example : assemble .wrapping [.dir (.org 2147483647), .dir (.cnop (.num 0) (.num 3))] ≠ .loop :=
  C30_ends_odd _ (by
    intro a ra k rk h
    simp only [List.mem_cons, List.not_mem_nil, or_false, Stmt.dir.injEq, reduceCtorEq, false_or, Directive.cnop.injEq, Expr.num] at h
    cases h.2
    decide)

/-! The hypotheses of C66 are met by the two files of the other examples, which declare and call a macro. -/

/-- No macro calls a macro. -/
def noneCalls (macros : Macros) : Bool :=
  macros.all fun x => x.2.body.all fun
    | .instr n args => (macros.lookup (n, args.length)).isNone
    | _ => true

theorem noneCalls_nonRecursive {macros : Macros} (h : noneCalls macros = true) : NonRecursive macros := by
  have h1 : ∀ a b, ¬ Calls macros a b := by
    rintro a ⟨b, k⟩ ⟨d, args, h1, h2, h3, h4⟩
    have h5 := List.all_eq_true.mp (List.all_eq_true.mp h _ (lookup_mem_pair h1)) _ h2
    simp only at h3 h4 h5
    rw [h3] at h5
    cases hl : List.lookup (b, k) macros <;> rw [hl] at h4 h5
    · cases h4
    · cases h5
  intro a h
  cases h with
  | step h => exact h1 _ _ h
  | trans h _ => exact h1 _ _ h

theorem readStatements_same {m : Mode} {seg : Seg} {order : List Color → List Color} {load : Text → Res Image} {fs : FS} {dir : Path}
    (hd : dir.abs = true) {name : Text} {n k : Nat} {p q : Program}
    (h1 : readStatements m seg order load fs n (SourceFiles.new dir) name = .ok p)
    (h2 : readStatements m seg order load fs k (SourceFiles.new dir) name = .ok q) : p = q := by
  obtain ⟨x, hx, h1⟩ := Res.bind_eq_ok.mp h1
  obtain ⟨y, hy, h2⟩ := Res.bind_eq_ok.mp h2
  have : x = y := by
    obtain ⟨main, -, h | ⟨f, t, sf, -, -, h⟩⟩ := readProgram_steps (seg := seg) (fs := fs) hd name
    · obtain ⟨e, h⟩ := h
      rw [h] at hx; cases hx
    · rw [h] at hx hy
      obtain ⟨toks, ht, hx⟩ := Res.bind_eq_ok.mp hx
      obtain ⟨toks', ht', hy⟩ := Res.bind_eq_ok.mp hy
      rw [ht] at ht'
      cases ht'
      obtain ⟨a, ha, hx⟩ := Res.bind_eq_ok.mp hx
      obtain ⟨b, hb, hy⟩ := Res.bind_eq_ok.mp hy
      have ea := replace_mono (by rw [ha]; nofun) (max n k) (Nat.le_max_left _ _)
      have eb := replace_mono (by rw [hb]; nofun) (max n k) (Nat.le_max_right _ _)
      rw [ea, ha] at eb
      rw [hb] at eb
      cases eb
      rw [hx] at hy
      cases hy
      rfl
  subst this
  rw [h1] at h2
  cases h2
  rfl

/-- Nothing of the calls is left to be filled in, and no macro calls a macro. -/
def simpleCalls (p : Program) : Bool :=
  noneCalls p.macros && p.stmts.all fun
    | .macroCall _ args => args.all closedArg
    | _ => true

theorem twoFiles_calls (m : Mode) (fuel : Nat) (p : Program)
    (hp : readStatements m plainSeg id (fun _ => .err (.invalidPath [])) twoFiles fuel (SourceFiles.new work) "main.s".toList = .ok p) :
    NonRecursive p.macros ∧ ClosedCalls p.stmts := by
  have h : (readStatements m plainSeg id (fun _ => .err (.invalidPath [])) twoFiles 3 (SourceFiles.new work) "main.s".toList >>=
      fun q => .ok (simpleCalls q)) = .ok true := by cases m <;> decide +kernel
  obtain ⟨q, hq, hs⟩ := Res.bind_eq_ok.mp h
  cases readStatements_same rfl hp hq
  obtain ⟨h1, h2⟩ := Bool.and_eq_true_iff.mp (Res.ok.inj hs)
  exact ⟨noneCalls_nonRecursive h1, fun name args hm => List.all_eq_true.mp (List.all_eq_true.mp h2 _ hm)⟩

theorem noImages : LoadsFrames fun _ => .err (.invalidPath []) := fun _ => ⟨nofun, nofun, fun i h => by cases h⟩

example {uuid : Nat → Text} (hu : Suffixes uuid) : ∃ n, ∀ fuel ≥ n, ∀ macroFuel ≥ n,
    assembleFile .checked plainSeg id (fun _ => .err (.invalidPath [])) uuid twoFiles fuel macroFuel (SourceFiles.new work)
      "main.s".toList ≠ .loop :=
  C66_assemble plainSeg_ascii (fun _ => .rfl) noImages hu rfl twoFiles_files.1 twoFiles_files.2.2 (twoFiles_calls _)

example (m : Mode) {uuid : Nat → Text} (hu : Suffixes uuid) : ∃ n, ∀ fuel ≥ n, ∀ macroFuel ≥ n,
    assembleFile m plainSeg id (fun _ => .err (.invalidPath [])) uuid twoFiles fuel macroFuel (SourceFiles.new work)
      "main.s".toList = .loop → m = .wrapping := by
  obtain ⟨n, h⟩ := C66_release (m := m) plainSeg_ascii (fun _ => .rfl) noImages hu rfl twoFiles_files.1 twoFiles_files.2.2 (twoFiles_calls _)
  exact ⟨n, fun fuel hf macroFuel hm hl => (h fuel hf macroFuel hm hl).1⟩

end Verif.Props
