import Verif.Model.Approximations
import Mathlib.Analysis.Complex.Trigonometric
import Mathlib.Analysis.Complex.ExponentialBounds
import Mathlib.Analysis.Real.Pi.Bounds
import Mathlib.Analysis.SpecialFunctions.Log.Deriv
import Mathlib.Analysis.Calculus.Deriv.MeanValue
import Mathlib.Tactic.NormNum.NatFactorial
/-
The polynomials of the approximated functions against the functions.
-/
namespace Dsp
open Finset

theorem exp_terms (x : ℝ) : ∑ m ∈ range 10, ((x : ℂ) * Complex.I) ^ m / m.factorial =
    ((1 - x ^ 2 / 2 + x ^ 4 / 24 - x ^ 6 / 720 + x ^ 8 / 40320 : ℝ) : ℂ) +
      ((x - x ^ 3 / 6 + x ^ 5 / 120 - x ^ 7 / 5040 + x ^ 9 / 362880 : ℝ) : ℂ) * Complex.I := by
  have h2 : Complex.I ^ 2 = -1 := Complex.I_sq
  have h3 : Complex.I ^ 3 = -Complex.I := by rw [pow_succ, h2]; ring
  have h4 : Complex.I ^ 4 = 1 := Complex.I_pow_four
  have h5 : Complex.I ^ 5 = Complex.I := by rw [pow_succ, h4]; ring
  have h6 : Complex.I ^ 6 = -1 := by rw [pow_succ, h5, ← sq, h2]
  have h7 : Complex.I ^ 7 = -Complex.I := by rw [pow_succ, h6]; ring
  have h8 : Complex.I ^ 8 = 1 := by rw [pow_succ, h7, neg_mul, ← sq, h2]; ring
  have h9 : Complex.I ^ 9 = Complex.I := by rw [pow_succ, h8]; ring
  simp only [sum_range_succ, range_zero, sum_empty, Nat.factorial, mul_pow, h2, h3, h4, h5, h6, h7, h8, h9, pow_zero, pow_one]
  push_cast
  ring

theorem exp_tail {x : ℝ} (hx : |x| ≤ 1) :
    ‖Complex.exp ((x : ℂ) * Complex.I) - ∑ m ∈ range 10, ((x : ℂ) * Complex.I) ^ m / m.factorial‖ ≤ |x| ^ 10 * (11 / 36288000) := by
  have e1 : ‖(x : ℂ) * Complex.I‖ = |x| := by simp
  have h := Complex.exp_bound (x := (x : ℂ) * Complex.I) (by rw [e1]; exact hx) (n := 10) (by norm_num)
  rw [e1] at h
  refine h.trans (le_of_eq ?_)
  norm_num [Nat.factorial]

theorem sin_taylor {x : ℝ} (hx : |x| ≤ 1) :
    |Real.sin x - (x - x ^ 3 / 6 + x ^ 5 / 120 - x ^ 7 / 5040 + x ^ 9 / 362880)| ≤ |x| ^ 10 * (11 / 36288000) := by
  have him := (Complex.abs_im_le_norm _).trans (exp_tail hx)
  rw [exp_terms, Complex.sub_im, Complex.exp_ofReal_mul_I_im, Complex.add_im, Complex.ofReal_im, Complex.im_ofReal_mul] at him
  simpa using him

theorem cos_taylor {x : ℝ} (hx : |x| ≤ 1) :
    |Real.cos x - (1 - x ^ 2 / 2 + x ^ 4 / 24 - x ^ 6 / 720 + x ^ 8 / 40320)| ≤ |x| ^ 10 * (11 / 36288000) := by
  have him := (Complex.abs_re_le_norm _).trans (exp_tail hx)
  rw [exp_terms, Complex.sub_re, Complex.exp_ofReal_mul_I_re, Complex.add_re, Complex.ofReal_re, Complex.re_ofReal_mul] at him
  simpa using him

theorem tail_small {x : ℝ} (hx : |x| ≤ 0.786) : |x| ^ 10 * (11 / 36288000) ≤ 3e-8 := by
  have : |x| ^ 10 ≤ 0.786 ^ 10 := pow_le_pow_left₀ (abs_nonneg x) hx 10
  norm_num at this ⊢
  linarith

/-- The polynomial for the sine. -/
theorem sinPoly_error {x : ℝ} (hx : |x| ≤ 0.786) : |sinPoly x - Real.sin x| ≤ 4e-7 := by
  have h1 := sin_taylor (hx.trans (by norm_num))
  have h2 := tail_small hx
  have h3 : |sinPoly x - (x - x ^ 3 / 6 + x ^ 5 / 120 - x ^ 7 / 5040 + x ^ 9 / 362880)| ≤ 3.6e-7 := by
    have hz : x ^ 2 ≤ 0.618 := by
      have := sq_le_sq' (by linarith [abs_nonneg x] : -(0.786 : ℝ) ≤ |x|) hx
      rw [sq_abs] at this
      norm_num at this ⊢
      linarith
    have hz0 : 0 ≤ x ^ 2 := sq_nonneg x
    have e : sinPoly x - (x - x ^ 3 / 6 + x ^ 5 / 120 - x ^ 7 / 5040 + x ^ 9 / 362880) =
        x * (x ^ 2 * ((1 / 6 - 1.6666654611E-1) + x ^ 2 * ((8.3321608736E-3 - 1 / 120) + x ^ 2 * ((1 / 5040 - 1.9515295891E-4) - x ^ 2 / 362880)))) := by
      unfold sinPoly; ring
    rw [e, abs_mul]
    generalize x ^ 2 = z at hz hz0
    have hb : |z * ((1 / 6 - 1.6666654611E-1) + z * ((8.3321608736E-3 - 1 / 120) + z * ((1 / 5040 - 1.9515295891E-4) - z / 362880)))| ≤ 4e-7 := by
      have k1 : 0 ≤ z * ((1 / 5040 - 1.9515295891E-4) - z / 362880) := by
        apply mul_nonneg hz0; norm_num at hz ⊢; linarith
      have k2 : z * ((1 / 5040 - 1.9515295891E-4) - z / 362880) ≤ 1.1e-6 := by
        norm_num at hz ⊢; nlinarith
      generalize z * ((1 / 5040 - 1.9515295891E-4) - z / 362880) = a at k1 k2
      have m1 : -7.4e-7 ≤ z * ((8.3321608736E-3 - 1 / 120) + a) := by norm_num at *; nlinarith
      have m2 : z * ((8.3321608736E-3 - 1 / 120) + a) ≤ 0 := by
        apply mul_nonpos_of_nonneg_of_nonpos hz0; norm_num at k2 ⊢; linarith
      generalize z * ((8.3321608736E-3 - 1 / 120) + a) = b at m1 m2
      rw [abs_le]
      constructor <;> (norm_num at *; nlinarith)
    calc |x| * _ ≤ 0.786 * 4e-7 := mul_le_mul hx hb (abs_nonneg _) (by norm_num)
      _ ≤ 3.6e-7 := by norm_num
  have := abs_sub_le (sinPoly x) (x - x ^ 3 / 6 + x ^ 5 / 120 - x ^ 7 / 5040 + x ^ 9 / 362880) (Real.sin x)
  rw [abs_sub_comm] at h1
  norm_num at *
  linarith

/-- The polynomial for the cosine. -/
theorem cosPoly_error {x : ℝ} (hx : |x| ≤ 0.786) : |cosPoly x - Real.cos x| ≤ 4e-7 := by
  have h1 := cos_taylor (hx.trans (by norm_num))
  have h2 := tail_small hx
  have h3 : |cosPoly x - (1 - x ^ 2 / 2 + x ^ 4 / 24 - x ^ 6 / 720 + x ^ 8 / 40320)| ≤ 3.6e-7 := by
    have hz : x ^ 2 ≤ 0.618 := by
      have := sq_le_sq' (by linarith [abs_nonneg x] : -(0.786 : ℝ) ≤ |x|) hx
      rw [sq_abs] at this
      norm_num at this ⊢
      linarith
    have hz0 : 0 ≤ x ^ 2 := sq_nonneg x
    have e : cosPoly x - (1 - x ^ 2 / 2 + x ^ 4 / 24 - x ^ 6 / 720 + x ^ 8 / 40320) =
        x ^ 2 * (x ^ 2 * ((4.166664568298827E-002 - 1 / 24) + x ^ 2 * ((1 / 720 - 1.388731625493765E-003) + x ^ 2 * (2.443315711809948E-005 - 1 / 40320)))) := by
      unfold cosPoly; ring
    rw [e]
    generalize x ^ 2 = z at hz hz0
    have m1 : -2.3e-7 ≤ z * (2.443315711809948E-005 - 1 / 40320) := by norm_num at *; nlinarith
    have m2 : z * (2.443315711809948E-005 - 1 / 40320) ≤ 0 := by
        apply mul_nonpos_of_nonneg_of_nonpos hz0; norm_num
    generalize z * (2.443315711809948E-005 - 1 / 40320) = a at m1 m2
    have k1 : -1e-7 ≤ z * ((1 / 720 - 1.388731625493765E-003) + a) := by norm_num at *; nlinarith
    have k2 : z * ((1 / 720 - 1.388731625493765E-003) + a) ≤ 1e-7 := by norm_num at *; nlinarith
    generalize z * ((1 / 720 - 1.388731625493765E-003) + a) = b at k1 k2
    have l1 : -3e-7 ≤ z * ((4.166664568298827E-002 - 1 / 24) + b) := by norm_num at *; nlinarith
    have l2 : z * ((4.166664568298827E-002 - 1 / 24) + b) ≤ 3e-7 := by norm_num at *; nlinarith
    generalize z * ((4.166664568298827E-002 - 1 / 24) + b) = d at l1 l2
    rw [abs_le]
    constructor <;> (norm_num at *; nlinarith)
  have := abs_sub_le (cosPoly x) (1 - x ^ 2 / 2 + x ^ 4 / 24 - x ^ 6 / 720 + x ^ 8 / 40320) (Real.cos x)
  rw [abs_sub_comm] at h1
  norm_num at *
  linarith

end Dsp
