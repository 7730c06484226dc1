import Verif.Lemmas.ApproxSin
import Verif.Lemmas.PolyBounds
import Verif.Spec.Approximations
/-
The logarithm: bit operations, and the polynomial against the function.
-/
namespace Dsp

theorem log_normal (k : ℤ) (t : ℝ) (h0 : 0 ≤ t) (h1 : t < 1) : Int.log 2 ((1 + t) * (2 : ℝ) ^ k) = k := by
  have hp : (0 : ℝ) < 2 ^ k := zpow_pos (by norm_num) k
  have hv : 0 < (1 + t) * (2 : ℝ) ^ k := by positivity
  apply le_antisymm
  · have : (1 + t) * (2 : ℝ) ^ k < ((2 : ℕ) : ℝ) ^ (k + 1) := by
      push_cast
      rw [zpow_add₀ (by norm_num), zpow_one]
      nlinarith
    have := (Int.lt_zpow_iff_log_lt (b := 2) (by norm_num) hv).1 this
    omega
  · apply (Int.zpow_le_iff_le_log (b := 2) (by norm_num) hv).1
    push_cast
    nlinarith

theorem encode_normal (fmt : FloatFormat) (k : ℤ) (f : ℕ) (hf : f < 2 ^ fmt.mantLen) :
    encode fmt ((1 + (f : ℝ) / 2 ^ fmt.mantLen) * 2 ^ k) = (k + fmt.bias).toNat * 2 ^ fmt.mantLen + f := by
  have hm : (0 : ℝ) < 2 ^ fmt.mantLen := by positivity
  have hf' : (f : ℝ) / 2 ^ fmt.mantLen < 1 := by
    rw [div_lt_one hm]; exact_mod_cast hf
  unfold encode
  rw [log_normal k _ (by positivity) hf']
  congr 1
  have hp : (0 : ℝ) < 2 ^ k := zpow_pos (by norm_num) k
  have : ((1 + (f : ℝ) / 2 ^ fmt.mantLen) * 2 ^ k / 2 ^ k - 1) * 2 ^ fmt.mantLen = (f : ℝ) := by
    field_simp
    ring
  rw [this]
  simp

theorem decode_parts (fmt : FloatFormat) (e f : ℕ) (hf : f < 2 ^ fmt.mantLen) :
    decode fmt (e * 2 ^ fmt.mantLen + f) = (1 + (f : ℝ) / 2 ^ fmt.mantLen) * 2 ^ ((e : ℤ) - fmt.bias) := by
  unfold decode
  rw [Nat.mul_comm e, Nat.mul_add_mod, Nat.mod_eq_of_lt hf, Nat.mul_add_div (by positivity), Nat.div_eq_of_lt hf, Nat.add_zero]

/-- The mask clears the exponent. -/
theorem fraction_bits (fmt : FloatFormat) (e f : ℕ) (hf : f < 2 ^ fmt.mantLen) (he : e * 2 ^ fmt.mantLen + f < 2 ^ (fmt.bitLen - 1)) :
    ((e * 2 ^ fmt.mantLen + f) &&& fmt.invMantMask) ||| fmt.halfBits = (fmt.bias - 1) * 2 ^ fmt.mantLen + f := by
  have h1 : (e * 2 ^ fmt.mantLen + f) &&& fmt.invMantMask = f := by
    have hlt : (e * 2 ^ fmt.mantLen + f) &&& fmt.invMantMask < 2 ^ (fmt.bitLen - 1) := lt_of_le_of_lt Nat.and_le_left he
    rw [← Nat.mod_eq_of_lt hlt, Nat.and_mod_two_pow]
    have hmask : fmt.invMantMask % 2 ^ (fmt.bitLen - 1) = 2 ^ fmt.mantLen - 1 := by cases fmt <;> decide
    rw [hmask, Nat.and_two_pow_sub_one_eq_mod, Nat.mod_eq_of_lt he]
    rw [Nat.mul_comm, Nat.mul_add_mod, Nat.mod_eq_of_lt hf]
  rw [h1]
  have h2 : fmt.halfBits = 2 ^ fmt.mantLen * (fmt.bias - 1) := by cases fmt <;> decide
  rw [h2, Nat.or_comm, ← Nat.two_pow_add_eq_or_of_lt hf, Nat.mul_comm]

/-- The bit operations find exponent and fraction; the comparison with `sqrthf` always succeeds. -/
theorem lnApprox_normal (fmt : FloatFormat) (k : ℤ) (f : ℕ) (hk1 : fmt.minExp ≤ k) (hk2 : k ≤ fmt.maxExp) (hf : f < 2 ^ fmt.mantLen) :
    lnApprox fmt ((1 + (f : ℝ) / 2 ^ fmt.mantLen) * 2 ^ k) = some (lnTail k ((f : ℝ) / 2 ^ fmt.mantLen)) := by
  have hp : (0 : ℝ) < 2 ^ k := zpow_pos (by norm_num) k
  have ht : (0 : ℝ) ≤ (f : ℝ) / 2 ^ fmt.mantLen := by positivity
  have hv : 0 < (1 + (f : ℝ) / 2 ^ fmt.mantLen) * 2 ^ k := by positivity
  unfold lnApprox
  rw [if_neg (not_le.2 hv)]
  have hmin : decode fmt (1 <<< fmt.mantLen) ≤ (1 + (f : ℝ) / 2 ^ fmt.mantLen) * 2 ^ k := by
    have e := decode_parts fmt 1 0 (by positivity)
    rw [Nat.one_shiftLeft]
    rw [one_mul, add_zero] at e
    rw [e]
    have h1 : (2 : ℝ) ^ (((1 : ℕ) : ℤ) - fmt.bias) ≤ 2 ^ k := by
      apply zpow_le_zpow_right₀ (by norm_num)
      cases fmt <;> simp only [FloatFormat.bias, FloatFormat.minExp] at * <;> omega
    simp only [Nat.cast_zero, zero_div, add_zero, one_mul]
    exact h1.trans (le_mul_of_one_le_left hp.le (by linarith))
  rw [max_eq_left hmin, encode_normal fmt k f hf]
  have hkb : ((k + fmt.bias).toNat : ℤ) = k + fmt.bias := by
    rw [Int.toNat_of_nonneg]
    cases fmt <;> simp only [FloatFormat.bias, FloatFormat.minExp] at * <;> omega
  have hlt : (k + fmt.bias).toNat * 2 ^ fmt.mantLen + f < 2 ^ (fmt.bitLen - 1) := by
    cases fmt <;> simp only [FloatFormat.bias, FloatFormat.minExp, FloatFormat.maxExp, FloatFormat.mantLen, FloatFormat.bitLen] at * <;>
      norm_num at * <;> omega
  unfold lnBits
  simp only [fraction_bits fmt _ f hf hlt]
  have hmask : (fmt.bias - 1) * 2 ^ fmt.mantLen + f < fmt.sqrthfBits := by
    cases fmt <;> simp only [FloatFormat.bias, FloatFormat.mantLen, FloatFormat.sqrthfBits] at * <;> norm_num at * <;> omega
  have hshift : ((k + fmt.bias).toNat * 2 ^ fmt.mantLen + f) >>> fmt.mantLen = (k + fmt.bias).toNat := by
    rw [Nat.shiftRight_eq_div_pow, Nat.mul_comm, Nat.mul_add_div (by positivity), Nat.div_eq_of_lt hf, Nat.add_zero]
  rw [decode_parts fmt _ f hf, hshift, hkb]
  simp only [decide_eq_true hmask, if_true]
  have hb : (2 : ℝ) ^ (((fmt.bias - 1 : ℕ) : ℤ) - fmt.bias) = 1 / 2 := by
    cases fmt <;> norm_num [FloatFormat.bias]
  rw [hb]
  congr 2
  · push_cast; ring
  · ring

/-! ### The polynomial -/

/-- The derivative of a polynomial. -/
def pderiv : List ℚ → List ℚ
  | [] => []
  | _ :: q => padd q (0 :: pderiv q)

theorem peval_deriv (p : List ℚ) (t : ℝ) : HasDerivAt (peval p) (peval (pderiv p) t) t := by
  induction p with
  | nil => exact hasDerivAt_const t 0
  | cons c q ih =>
    have h := ((hasDerivAt_id t).mul ih).const_add (c : ℝ)
    have e : peval (pderiv (c :: q)) t = 1 * peval q t + id t * peval (pderiv q) t := by
      simp [pderiv, peval_padd]
    rw [e]
    exact h

/-- The polynomial which approximates the logarithm of `1 + t`. -/
def lnCoeffs : List ℚ :=
  [0, 1, -0.5, 3.3333331174E-1, -2.4999993993E-1, 2.0000714765E-1, -1.6668057665E-1, 1.4249322787E-1, -1.2420140846E-1, 1.1676998740E-1,
    -1.1514610310E-1, 7.0376836292E-2]

theorem lnTail_peval (k t : ℝ) : lnTail k t = peval lnCoeffs t + k * 0.69314718056 := by
  simp only [lnTail, lnPoly, lnCoeffs, peval_cons, peval_nil]
  push_cast
  ring

/-- `(1 + t) p'(t) - 1`. -/
def lnSlope : List ℚ := padd (padd (pderiv lnCoeffs) (0 :: pderiv lnCoeffs)) [-1]

/-- The error for the mantissa `1 + t`. -/
noncomputable def lnErr (t : ℝ) : ℝ := peval lnCoeffs t - Real.log (1 + t)

theorem lnErr_deriv (t : ℝ) (ht : 0 ≤ t) (α : ℝ) :
    HasDerivAt (fun t => lnErr t - α * Real.log (1 + t)) ((peval lnSlope t - α) / (1 + t)) t := by
  have hp : 1 + t ≠ 0 := by positivity
  have hl : HasDerivAt (fun t : ℝ => Real.log (1 + t)) (1 / (1 + t)) t := ((hasDerivAt_id t).const_add 1).log hp
  have h := ((peval_deriv lnCoeffs t).sub hl).sub (hl.const_mul α)
  have e : (peval lnSlope t - α) / (1 + t) = peval (pderiv lnCoeffs) t - 1 / (1 + t) - α * (1 / (1 + t)) := by
    have : peval lnSlope t = (1 + t) * peval (pderiv lnCoeffs) t - 1 := by
      simp only [lnSlope, peval_padd, peval_cons, peval_nil]; push_cast; ring
    rw [this]; field_simp
  rw [e]
  exact h

theorem lnErr_mono (α a b : ℝ) (ha : 0 ≤ a) (hab : a ≤ b) (h : ∀ t, a ≤ t → t ≤ b → α ≤ peval lnSlope t) :
    lnErr a - α * Real.log (1 + a) ≤ lnErr b - α * Real.log (1 + b) := by
  have hm : MonotoneOn (fun t => lnErr t - α * Real.log (1 + t)) (Set.Icc a b) := by
    apply monotoneOn_of_deriv_nonneg (convex_Icc a b)
    · intro t ht
      exact (lnErr_deriv t (ha.trans ht.1) α).continuousAt.continuousWithinAt
    · intro t ht
      rw [interior_Icc] at ht
      exact (lnErr_deriv t (ha.trans ht.1.le) α).differentiableAt.differentiableWithinAt
    · intro t ht
      rw [interior_Icc] at ht
      rw [(lnErr_deriv t (ha.trans ht.1.le) α).deriv]
      exact div_nonneg (by linarith [h t ht.1.le ht.2.le]) (by linarith [ht.1])
  exact hm ⟨le_refl a, hab⟩ ⟨hab, le_refl b⟩ hab

theorem lnErr_anti (α a b : ℝ) (ha : 0 ≤ a) (hab : a ≤ b) (h : ∀ t, a ≤ t → t ≤ b → peval lnSlope t ≤ α) :
    lnErr b - α * Real.log (1 + b) ≤ lnErr a - α * Real.log (1 + a) := by
  have hm : AntitoneOn (fun t => lnErr t - α * Real.log (1 + t)) (Set.Icc a b) := by
    apply antitoneOn_of_deriv_nonpos (convex_Icc a b)
    · intro t ht
      exact (lnErr_deriv t (ha.trans ht.1) α).continuousAt.continuousWithinAt
    · intro t ht
      rw [interior_Icc] at ht
      exact (lnErr_deriv t (ha.trans ht.1.le) α).differentiableAt.differentiableWithinAt
    · intro t ht
      rw [interior_Icc] at ht
      rw [(lnErr_deriv t (ha.trans ht.1.le) α).deriv]
      exact div_nonpos_of_nonpos_of_nonneg (by linarith [h t ht.1.le ht.2.le]) (by linarith [ht.1])
  exact hm ⟨le_refl a, hab⟩ ⟨hab, le_refl b⟩ hab

theorem slope_low (t : ℝ) (h0 : 0 ≤ t) (h1 : t ≤ 1) : -4e-7 ≤ peval lnSlope t := by
  have := peval_bound lnSlope 0 (1 / 10) (by norm_num) 11 (-4e-7) (by decide +kernel) t (by simpa using h0) (by norm_num; linarith)
  push_cast at this
  exact this

theorem slope_high (t : ℝ) (h0 : 0.8 ≤ t) (h1 : t ≤ 1) : 0.01 ≤ peval lnSlope t := by
  have := peval_bound lnSlope 0.8 (1 / 10) (by norm_num) 3 (0.01) (by decide +kernel) t (by push_cast; exact h0) (by push_cast; norm_num at *; linarith)
  push_cast at this
  exact this

theorem slope_small (t : ℝ) (h0 : 0 ≤ t) (h1 : t ≤ 0.7) : peval lnSlope t ≤ 0.01 := by
  have := peval_bound (lnSlope.map ((-1) * ·)) 0 (1 / 20) (by norm_num) 15 (-0.01) (by decide +kernel) t (by simpa using h0)
    (by push_cast; norm_num at *; linarith)
  rw [peval_map] at this
  push_cast at this
  linarith

/-! ### Numbers -/

theorem lnErr_zero : lnErr 0 = 0 := by
  simp [lnErr, lnCoeffs]

theorem lnErr_one : lnErr 1 ≤ 0.0138054 := by
  have h := Real.log_two_gt_d9
  have e : peval lnCoeffs 1 ≤ 0.7069525 := by simp only [lnCoeffs, peval_cons, peval_nil]; push_cast; norm_num
  unfold lnErr
  rw [show (1 : ℝ) + 1 = 2 by norm_num]
  norm_num at *
  linarith

theorem log_near_two (x : ℝ) (h0 : 0 ≤ x) (h1 : x ≤ 0.1) : |Real.log (2 - 2 * x) - (Real.log 2 - x - x ^ 2 / 2 - x ^ 3 / 3)| ≤ x ^ 4 / 0.9 := by
  have habs : |x| = x := abs_of_nonneg h0
  have h := Real.abs_log_sub_add_sum_range_le (x := x) (by rw [habs]; norm_num at h1 ⊢; linarith) 3
  rw [habs] at h
  have e : Real.log (2 - 2 * x) = Real.log 2 + Real.log (1 - x) := by
    rw [show 2 - 2 * x = 2 * (1 - x) by ring, Real.log_mul (by norm_num) (by norm_num at h1; linarith)]
  rw [e]
  simp only [Finset.sum_range_succ, Finset.range_zero, Finset.sum_empty] at h
  push_cast at h
  have h' : |Real.log 2 + Real.log (1 - x) - (Real.log 2 - x - x ^ 2 / 2 - x ^ 3 / 3)| ≤ x ^ 4 / (1 - x) := by
    refine le_trans (le_of_eq ?_) h
    congr 1
    ring
  refine h'.trans ?_
  apply div_le_div_of_nonneg_left (by positivity) (by norm_num) (by norm_num at *; linarith)

theorem lnErr_09 : lnErr 0.9 ≤ 0.0036 := by
  have h := Real.log_two_gt_d9
  have hl := (abs_le.1 (log_near_two 0.05 (by norm_num) (by norm_num))).1
  have e : peval lnCoeffs 0.9 ≤ 0.6454 := by simp only [lnCoeffs, peval_cons, peval_nil]; push_cast; norm_num
  unfold lnErr
  rw [show (1 : ℝ) + 0.9 = 2 - 2 * 0.05 by norm_num]
  norm_num at *
  linarith

theorem lnErr_095 : 0.007 ≤ lnErr 0.95 := by
  have h := Real.log_two_lt_d9
  have hl := (abs_le.1 (log_near_two 0.025 (by norm_num) (by norm_num))).2
  have e : 0.67494 ≤ peval lnCoeffs 0.95 := by simp only [lnCoeffs, peval_cons, peval_nil]; push_cast; norm_num
  unfold lnErr
  rw [show (1 : ℝ) + 0.95 = 2 - 2 * 0.025 by norm_num]
  norm_num at *
  linarith

theorem log_one_add_bounds (t : ℝ) (h0 : 0 ≤ t) (h1 : t ≤ 1) : 0 ≤ Real.log (1 + t) ∧ Real.log (1 + t) ≤ Real.log 2 :=
  ⟨Real.log_nonneg (by linarith), Real.log_le_log (by linarith) (by linarith)⟩

/-- The error is hardly negative. -/
theorem lnErr_low (t : ℝ) (h0 : 0 ≤ t) (h1 : t ≤ 1) : -4e-7 * Real.log (1 + t) ≤ lnErr t := by
  have := lnErr_mono (-4e-7) 0 t le_rfl h0 fun s hs hs' => slope_low s hs (hs'.trans h1)
  rw [lnErr_zero] at this
  simp only [add_zero, Real.log_one, mul_zero, sub_zero] at this
  linarith

/-- The error hardly decreases. -/
theorem lnErr_up (s t : ℝ) (h0 : 0 ≤ s) (hst : s ≤ t) (h1 : t ≤ 1) : lnErr s ≤ lnErr t + 3e-7 := by
  have := lnErr_mono (-4e-7) s t h0 hst fun s hs hs' => slope_low s (h0.trans hs) (hs'.trans h1)
  have b1 := (log_one_add_bounds s h0 (hst.trans h1)).1
  have b2 := (log_one_add_bounds t (h0.trans hst) h1).2
  have h2 := Real.log_two_lt_d9
  norm_num at *
  linarith

/-- Below 1.9 the error is less than one percent of the logarithm. -/
theorem lnErr_below (t : ℝ) (h0 : 0 ≤ t) (h1 : t ≤ 0.9) : lnErr t ≤ 0.01 * Real.log (1 + t) := by
  by_cases h7 : t ≤ 0.7
  · have := lnErr_anti 0.01 0 t le_rfl h0 fun s hs hs' => slope_small s hs (hs'.trans h7)
    rw [lnErr_zero] at this
    simp only [add_zero, Real.log_one, mul_zero, sub_zero] at this
    linarith
  · have h7 := not_le.1 h7
    have e := lnErr_up t 0.9 h0 h1 (by norm_num)
    have e9 := lnErr_09
    have hl := Real.one_sub_inv_le_log_of_pos (x := 1.7) (by norm_num)
    have hm : Real.log 1.7 ≤ Real.log (1 + t) := Real.log_le_log (by norm_num) (by norm_num at *; linarith)
    norm_num at *
    linarith

/-- From 2 on one percent of the logarithm is enough. -/
theorem lnErr_above (t : ℝ) (h0 : 0 ≤ t) (h1 : t ≤ 1) : lnErr t + 5e-5 ≤ 0.01 * (Real.log 2 + Real.log (1 + t)) := by
  have hl := Real.log_two_gt_d9
  by_cases h8 : t ≤ 0.8
  · have e := lnErr_up t 0.9 h0 (by norm_num at *; linarith) (by norm_num)
    have e9 := lnErr_09
    have := (log_one_add_bounds t h0 h1).1
    norm_num at *
    linarith
  · have h8 := (not_le.1 h8).le
    have := lnErr_mono 0.01 t 1 h0 h1 fun s hs hs' => slope_high s (h8.trans hs) hs'
    have e1 := lnErr_one
    rw [show (1 : ℝ) + 1 = 2 by norm_num] at this
    norm_num at *
    linarith

/-- Just below 2 the error exceeds one percent. -/
theorem lnErr_near_two (t : ℝ) (h0 : 0.95 ≤ t) (h1 : t ≤ 1) : 0.01 * Real.log (1 + t) < lnErr t := by
  have e := lnErr_up 0.95 t (by norm_num) h0 h1
  have e95 := lnErr_095
  have b2 := (log_one_add_bounds t (by norm_num at h0; linarith) h1).2
  have h2 := Real.log_two_lt_d9
  norm_num at *
  linarith

end Dsp
