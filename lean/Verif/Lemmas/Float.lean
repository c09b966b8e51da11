import Verif.Model.Img
/-
Rounding errors.
-/
namespace Verif

theorem halfEven_near {n d : Nat} (hd : 0 < d) :
    2 * (halfEven n d * d) ≤ 2 * n + d ∧ 2 * n ≤ 2 * (halfEven n d * d) + d := by
  have h1 := Nat.div_add_mod n d
  have h2 := Nat.mod_lt n hd
  unfold halfEven
  rw [Nat.mul_comm] at h1
  split
  · rename_i h
    rw [Nat.add_mul, Nat.one_mul]
    omega
  · rename_i h
    omega

/-- The error of an operation with a result below 2^(53+k) units. -/
theorem f64_near (k : Nat) {n d : Nat} (hd : 0 < d) (h : n / d < 2 ^ (53 + k)) :
    2 * (f64 n d * d) ≤ 2 * n + d * 2 ^ k ∧ 2 * n ≤ 2 * (f64 n d * d) + d * 2 ^ k := by
  unfold f64
  have hs : (n / d).log2 - 52 ≤ k := by
    by_cases h0 : n / d = 0
    · rw [h0]; simp
    · have := (Nat.log2_lt h0 (k := 53 + k)).mpr h
      omega
  have hp : 2 ^ ((n / d).log2 - 52) ≤ 2 ^ k := Nat.pow_le_pow_right (by decide) hs
  have hp0 : 0 < 2 ^ ((n / d).log2 - 52) := Nat.pow_pos (by decide)
  dsimp only
  generalize 2 ^ ((n / d).log2 - 52) = t at hp hp0
  have := halfEven_near (n := n) (Nat.mul_pos hd hp0)
  have he : halfEven n (d * t) * t * d = halfEven n (d * t) * (d * t) := by
    rw [Nat.mul_assoc, Nat.mul_comm t d]
  rw [he]
  have h3 : d * t ≤ d * 2 ^ k := Nat.mul_le_mul_left d hp
  omega

/-- The error of a sum or product of whole numbers of units. -/
theorem f64_whole {n : Nat} (h : n < 2 ^ 64) : f64 n 1 ≤ n + 1024 ∧ n ≤ f64 n 1 + 1024 := by
  have := f64_near 11 (n := n) (d := 1) (by decide) (by rw [Nat.div_one]; exact h)
  omega

theorem roundU8_toNat {n unit : Nat} : (roundU8 n unit).toNat = min 255 ((n + unit / 2) / unit) := by
  unfold roundU8
  rw [UInt8.toNat_ofNat', Nat.mod_eq_of_lt (by omega)]

/-- Scaling a channel rounds `max * c / 255` to nearest; there are no ties. -/
theorem scaleChannel_toNat (max c : UInt8) : (scaleChannel max c).toNat = (2 * (max.toNat * c.toNat) + 255) / 510 := by
  have h1 : max.toNat * c.toNat ≤ 255 * 255 := Nat.mul_le_mul (by have := max.toNat_lt; omega) (by have := c.toNat_lt; omega)
  unfold scaleChannel
  rw [roundU8_toNat]
  generalize max.toNat * c.toNat = n at h1
  have := f64_near 16 (n := n * 2 ^ 60) (d := 255) (by decide) (by omega)
  generalize f64 (n * 2 ^ 60) 255 = f at this
  omega

/-- The weighted sum of a colour's channels, in units of 1/100. -/
theorem grayLevel_near (r g b : UInt8) :
    100 * grayLevel r g b ≤ 2 ^ 56 * (30 * r.toNat + 59 * g.toNat + 11 * b.toNat) + 2 ^ 20 ∧
    2 ^ 56 * (30 * r.toNat + 59 * g.toNat + 11 * b.toNat) ≤ 100 * grayLevel r g b + 2 ^ 20 := by
  have e1 : f64 (30 * 2 ^ 56) 100 = 21617278211378380 := by decide +kernel
  have e2 : f64 (59 * 2 ^ 56) 100 = 42513980482377480 := by decide +kernel
  have e3 : f64 (11 * 2 ^ 56) 100 = 7926335344172073 := by decide +kernel
  unfold grayLevel
  rw [e1, e2, e3]
  dsimp only
  have hr := r.toNat_lt
  have hg := g.toNat_lt
  have hb := b.toNat_lt
  generalize r.toNat = r at *
  generalize g.toNat = g at *
  generalize b.toNat = b at *
  have h1 := f64_whole (n := 21617278211378380 * r) (by omega)
  have h2 := f64_whole (n := 42513980482377480 * g) (by omega)
  have h3 := f64_whole (n := 7926335344172073 * b) (by omega)
  generalize f64 (21617278211378380 * r) 1 = x at *
  generalize f64 (42513980482377480 * g) 1 = y at *
  generalize f64 (7926335344172073 * b) 1 = z at *
  have h4 := f64_whole (n := x + y) (by omega)
  generalize f64 (x + y) 1 = u at *
  have h5 := f64_whole (n := u + z) (by omega)
  generalize f64 (u + z) 1 = v at *
  omega

theorem gray_dark (c : Color) :
    (30 * c.red.toNat + 59 * c.green.toNat + 11 * c.blue.toNat < 12750 → c.grayscale.red ≤ 127) ∧
    (12750 < 30 * c.red.toNat + 59 * c.green.toNat + 11 * c.blue.toNat → ¬ c.grayscale.red ≤ 127) := by
  have h := grayLevel_near c.red c.green c.blue
  simp only [Color.grayscale, UInt8.le_iff_toNat_le, roundU8_toNat]
  generalize grayLevel c.red c.green c.blue = v at h
  have e : (127 : UInt8).toNat = 127 := rfl
  rw [e]
  constructor <;> intro h' <;> omega

end Verif
