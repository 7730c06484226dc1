import Verif.Lemmas.Approximations
import Mathlib.Analysis.SpecialFunctions.Pow.Real
/-
The exponential function and the bit operations of its approximation.
-/
namespace Dsp
open Finset

theorem exp_taylor {x : ℝ} (hx : |x| ≤ 1) :
    |Real.exp x - (1 + x + x ^ 2 / 2 + x ^ 3 / 6 + x ^ 4 / 24 + x ^ 5 / 120 + x ^ 6 / 720 + x ^ 7 / 5040 + x ^ 8 / 40320)| ≤
      |x| ^ 9 * (10 / 3265920) := by
  have h := Real.exp_bound hx (n := 9) (by norm_num)
  have e : ∑ m ∈ range 9, x ^ m / (m.factorial : ℝ) =
      1 + x + x ^ 2 / 2 + x ^ 3 / 6 + x ^ 4 / 24 + x ^ 5 / 120 + x ^ 6 / 720 + x ^ 7 / 5040 + x ^ 8 / 40320 := by
    simp only [sum_range_succ, range_zero, sum_empty, Nat.factorial]
    push_cast
    ring
  rw [e] at h
  refine h.trans (le_of_eq ?_)
  norm_num [Nat.factorial]

theorem horner_step {g a c A B : ℝ} (hg : |g| ≤ 0.35) (ha : |a| ≤ A) (h : |c| + 0.35 * A ≤ B) : |c + g * a| ≤ B := by
  have h1 := abs_add_le c (g * a)
  rw [abs_mul] at h1
  have : |g| * |a| ≤ 0.35 * A := mul_le_mul hg ha (abs_nonneg _) (by norm_num)
  linarith

/-- The polynomial for the exponential function. -/
theorem expPoly_error {g : ℝ} (hg : |g| ≤ 0.35) : |expPoly g - Real.exp g| ≤ 5e-8 := by
  have h1 := exp_taylor (hg.trans (by norm_num))
  have h2 : |g| ^ 9 * (10 / 3265920) ≤ 1e-9 := by
    have : |g| ^ 9 ≤ 0.35 ^ 9 := pow_le_pow_left₀ (abs_nonneg g) hg 9
    norm_num at this ⊢
    linarith
  have e : expPoly g - (1 + g + g ^ 2 / 2 + g ^ 3 / 6 + g ^ 4 / 24 + g ^ 5 / 120 + g ^ 6 / 720 + g ^ 7 / 5040 + g ^ 8 / 40320) =
      0 + g * (0 + g * ((5.0000001201E-1 - 1 / 2) + g * ((1.6666665459E-1 - 1 / 6) + g * ((4.1665795894E-2 - 1 / 24) +
        g * ((8.3334519073E-3 - 1 / 120) + g * ((1.3981999507E-3 - 1 / 720) + g * ((1.9875691500E-4 - 1 / 5040) + g * (-1 / 40320)))))))) := by
    unfold expPoly; ring
  have h3 : |expPoly g - (1 + g + g ^ 2 / 2 + g ^ 3 / 6 + g ^ 4 / 24 + g ^ 5 / 120 + g ^ 6 / 720 + g ^ 7 / 5040 + g ^ 8 / 40320)| ≤ 4.5e-8 := by
    rw [e]
    have a0 : |(-1 / 40320 : ℝ)| ≤ 2.5e-5 := by norm_num [abs_of_neg, abs_of_pos]
    have a1 : |(1.9875691500E-4 - 1 / 5040 : ℝ) + g * (-1 / 40320)| ≤ 9.2e-6 := horner_step hg a0 (by norm_num [abs_of_neg, abs_of_pos])
    have a2 := horner_step (c := 1.3981999507E-3 - 1 / 720) (B := 1.26e-5) hg a1 (by norm_num [abs_of_neg, abs_of_pos])
    have a3 := horner_step (c := 8.3334519073E-3 - 1 / 120) (B := 4.6e-6) hg a2 (by norm_num [abs_of_neg, abs_of_pos])
    have a4 := horner_step (c := 4.1665795894E-2 - 1 / 24) (B := 2.5e-6) hg a3 (by norm_num [abs_of_neg, abs_of_pos])
    have a5 := horner_step (c := 1.6666665459E-1 - 1 / 6) (B := 9e-7) hg a4 (by norm_num [abs_of_neg, abs_of_pos])
    have a6 := horner_step (c := 5.0000001201E-1 - 1 / 2) (B := 3.3e-7) hg a5 (by norm_num [abs_of_neg, abs_of_pos])
    have a7 := horner_step (c := 0) (B := 1.2e-7) hg a6 (by norm_num)
    exact horner_step (c := 0) (B := 4.5e-8) hg a7 (by norm_num)
  have := abs_sub_le (expPoly g) (1 + g + g ^ 2 / 2 + g ^ 3 / 6 + g ^ 4 / 24 + g ^ 5 / 120 + g ^ 6 / 720 + g ^ 7 / 5040 + g ^ 8 / 40320) (Real.exp g)
  rw [abs_sub_comm] at h1
  norm_num at *
  linarith

/-- Rounding towards zero and correcting is rounding down. -/
theorem castInt_floor (x : ℝ) : ((castInt x : ℤ) : ℝ) - (if ((castInt x : ℤ) : ℝ) > x then 1 else 0) = (⌊x⌋ : ℤ) := by
  unfold castInt
  by_cases hx : x < 0
  · rw [if_pos hx]
    by_cases h : ((⌈x⌉ : ℤ) : ℝ) > x
    · rw [if_pos h]
      have : ⌊x⌋ = ⌈x⌉ - 1 := by
        rw [Int.floor_eq_iff]
        push_cast
        exact ⟨by linarith [Int.ceil_lt_add_one x], by linarith⟩
      rw [this]; push_cast; ring
    · rw [if_neg h]
      have he : ((⌈x⌉ : ℤ) : ℝ) = x := le_antisymm (not_lt.1 h) (Int.le_ceil x)
      have : ⌊x⌋ = ⌈x⌉ := by
        rw [Int.floor_eq_iff]
        exact ⟨he.le, by linarith⟩
      rw [this]; simp
  · rw [if_neg hx, if_neg (not_lt.2 (Int.floor_le x))]; simp

theorem castInt_int (n : ℤ) : castInt (n : ℝ) = n := by
  unfold castInt; split <;> simp

/-- The power of two which is built from bits. -/
theorem decode_pow (fmt : FloatFormat) (n : ℤ) (h1 : 0 ≤ n + fmt.bias) (h2 : n ≤ 127) :
    decode fmt ((BitVec.ofInt fmt.bitLen (n + fmt.bias)) <<< fmt.mantLen).toNat = (2 : ℝ) ^ n := by
  have e : ((BitVec.ofInt fmt.bitLen (n + fmt.bias)) <<< fmt.mantLen).toNat = (n + fmt.bias).toNat * 2 ^ fmt.mantLen := by
    rw [BitVec.toNat_shiftLeft, BitVec.toNat_ofInt, Nat.shiftLeft_eq]
    cases fmt <;>
    · simp only [FloatFormat.bias, FloatFormat.bitLen, FloatFormat.mantLen] at *
      norm_num at *
      omega
  rw [e]
  unfold decode
  rw [Nat.mul_mod_left, Nat.mul_div_cancel _ (by positivity)]
  simp only [Nat.cast_zero, zero_div, add_zero, one_mul]
  congr 1
  omega

/-- The exponential function. -/
theorem expApprox_error (fmt : FloatFormat) (x : ℝ) (hx : |x| ≤ 87) :
    |expApprox fmt x - Real.exp x| ≤ 1e-6 * Real.exp x := by
  obtain ⟨hx1, hx2⟩ := abs_le.1 hx
  have hclamp : max (min x 88.3762626647949) (-88.3762626647949) = x := by
    rw [min_eq_left (by norm_num; linarith), max_eq_left (by norm_num; linarith)]
  unfold expApprox
  simp only [hclamp, castInt_floor, castInt_int]
  have hf1 := Int.floor_le (x * 1.44269504088896341 + 0.5)
  have hf2 := Int.lt_floor_add_one (x * 1.44269504088896341 + 0.5)
  have hn1 : -126 ≤ ⌊x * 1.44269504088896341 + 0.5⌋ := by
    rw [Int.le_floor]; push_cast; norm_num; linarith
  have hn2 : ⌊x * 1.44269504088896341 + 0.5⌋ ≤ 127 := by
    have : ⌊x * 1.44269504088896341 + 0.5⌋ < 128 := by
      rw [Int.floor_lt]; push_cast; norm_num; linarith
    omega
  generalize ⌊x * 1.44269504088896341 + 0.5⌋ = n at hf1 hf2 hn1 hn2
  rw [decode_pow fmt n (by cases fmt <;> simp only [FloatFormat.bias] <;> omega) hn2]
  have hnr1 : (-126 : ℝ) ≤ n := by exact_mod_cast hn1
  have hnr2 : (n : ℝ) ≤ 127 := by exact_mod_cast hn2
  have hg : |x - n * 0.693359375 - n * -2.12194440e-4| ≤ 0.35 := by
    rw [abs_le]; norm_num at *
    constructor <;> linarith
  have hp := expPoly_error hg
  have hl1 := Real.log_two_gt_d9
  have hl2 := Real.log_two_lt_d9
  have hd : |(x - n * 0.693359375 - n * -2.12194440e-4) - (x - n * Real.log 2)| ≤ 4e-8 := by
    rw [abs_le]; norm_num at *
    constructor <;> nlinarith
  generalize x - n * 0.693359375 - n * -2.12194440e-4 = g at hg hp hd
  have hex : Real.exp x = Real.exp (x - n * Real.log 2) * 2 ^ n := by
    rw [← Real.rpow_intCast, Real.rpow_def_of_pos (by norm_num), ← Real.exp_add]
    congr 1
    ring
  rw [hex]
  generalize x - n * Real.log 2 = r at hd
  have hpow : (0 : ℝ) < 2 ^ n := zpow_pos (by norm_num) n
  rw [← sub_mul, abs_mul, abs_of_pos hpow, ← mul_assoc]
  refine mul_le_mul_of_nonneg_right ?_ hpow.le
  -- `exp g` against `exp r`
  have hE := Real.abs_exp_sub_one_le (x := g - r) (hd.trans (by norm_num))
  have hr0 := Real.exp_pos r
  have hgr : Real.exp g = Real.exp r * Real.exp (g - r) := by rw [← Real.exp_add]; congr 1; ring
  have hdiff : |Real.exp g - Real.exp r| ≤ 8e-8 * Real.exp r := by
    rw [hgr, show Real.exp r * Real.exp (g - r) - Real.exp r = Real.exp r * (Real.exp (g - r) - 1) by ring, abs_mul, abs_of_pos hr0]
    have : |Real.exp (g - r) - 1| ≤ 8e-8 := by norm_num at *; linarith
    rw [mul_comm]
    exact mul_le_mul_of_nonneg_right this hr0.le
  have hlow : 0.6 ≤ Real.exp r := by
    have h1 := Real.add_one_le_exp r
    have h2 := (abs_le.1 hg).1
    have h3 := (abs_le.1 hd).2
    norm_num at *
    linarith
  have := abs_sub_le (expPoly g) (Real.exp g) (Real.exp r)
  norm_num at *
  linarith

end Dsp
