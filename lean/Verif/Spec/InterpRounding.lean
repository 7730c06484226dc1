import Verif.Spec.Rounding
/-
C98: rounding to nearest with ties to even. Nothing here mentions the model of the code.
-/
namespace Dsp

/-- The integer next to `y`; half way between two integers the even one. -/
noncomputable def roundEven (y : ℝ) : ℤ :=
  if Int.fract y = 1 / 2 then (if Even ⌊y⌋ then ⌊y⌋ else ⌊y⌋ + 1) else round y

theorem abs_sub_roundEven (y : ℝ) : |y - roundEven y| ≤ 1 / 2 := by
  unfold roundEven
  split
  · rename_i h
    have h1 := Int.floor_add_fract y
    rw [h] at h1
    split
    · have h2 : y - (⌊y⌋ : ℝ) = 1 / 2 := by linarith
      rw [h2]; norm_num
    · rw [abs_le]; push_cast; constructor <;> linarith
  · exact abs_sub_round y

/-- Round to nearest, ties to even, with `p + 1` binary digits and unbounded exponents (`p = 52`: like `f64`, `p = 23`: like `f32`). -/
noncomputable def ieeeRounding (p : Nat) : Rounding where
  rnd x := roundEven (x / (2 : ℝ) ^ (Int.log 2 |x| - p)) * (2 : ℝ) ^ (Int.log 2 |x| - p)
  u := 1 / 2 ^ (p + 1)
  error x := by
    by_cases hx : x = 0
    · subst hx; simp [roundEven]
    have hb : (0 : ℝ) < (2 : ℝ) ^ (Int.log 2 |x| - p) := zpow_pos (by norm_num) _
    have h1 : (2 : ℝ) ^ Int.log 2 |x| ≤ |x| := Int.zpow_log_le_self (by norm_num) (abs_pos.2 hx)
    have h2 : (2 : ℝ) ^ (Int.log 2 |x| - p) = (2 : ℝ) ^ Int.log 2 |x| / 2 ^ p := by
      rw [zpow_sub₀ (by norm_num)]; simp
    generalize (2 : ℝ) ^ (Int.log 2 |x| - p) = b at *
    have h3 : (roundEven (x / b) : ℝ) * b - x = ((roundEven (x / b) : ℝ) - x / b) * b := by field_simp
    rw [h3, abs_mul, abs_of_pos hb, abs_sub_comm]
    have h4 := abs_sub_roundEven (x / b)
    have h5 : b ≤ |x| / 2 ^ p := by
      rw [h2]; exact div_le_div_of_nonneg_right h1 (by positivity)
    calc |x / b - (roundEven (x / b) : ℝ)| * b ≤ 1 / 2 * b := mul_le_mul_of_nonneg_right h4 hb.le
      _ ≤ 1 / 2 * (|x| / 2 ^ p) := by linarith
      _ = 1 / 2 ^ (p + 1) * |x| := by rw [pow_succ]; field_simp

end Dsp
