import Verif.Model.LookupTable
import Mathlib.Analysis.SpecialFunctions.Trigonometric.Sinc
import Mathlib.Analysis.SpecialFunctions.Integrals.Basic
import Mathlib.MeasureTheory.Measure.Lebesgue.Integral
/-
C67: the functions which the library offers as impulse and frequency responses: sinc and raised cosine. Over the real numbers,
with the real pi, sine and cosine.
-/
namespace Dsp
open Real

/-- `SincFunction` as impulse response. -/
noncomputable def sincResponse : ConvFunction ℝ ℝ := sincTime π sin
/-- `SincFunction` as frequency response. -/
noncomputable def sincBand : ConvFunction ℝ ℝ := sincFreq
/-- `RaisedCosineFunction` with a roll-off as impulse response. -/
noncomputable def rcResponse (β : ℝ) : ConvFunction ℝ ℝ := raisedCosineTime π sin cos β
/-- `RaisedCosineFunction` with a roll-off as frequency response. -/
noncomputable def rcBand (β : ℝ) : ConvFunction ℝ ℝ := raisedCosineFreq π cos β

/-! ### Sinc -/

/-- C67: `SincFunction` is the normalised sinc function. -/
theorem C67_sinc (x : ℝ) : sincResponse.eval x = sinc (π * x) := by
  show (if x = 0 then (1 : ℝ) else sin (π * x) / (π * x)) = _
  rw [sinc_apply]
  by_cases hx : x = 0
  · simp [hx]
  · have : π * x ≠ 0 := mul_ne_zero pi_ne_zero hx
    simp [hx, this]

theorem sin_pi_int (k : ℤ) : sin (π * k) = 0 := by
  rw [mul_comm]; exact sin_int_mul_pi k

/-- C67: the sinc function is 1 at time zero and 0 at all other sampling times, is continuous and never exceeds 1, and it is
    symmetric, as it says. -/
theorem C67_sinc_pulse : sincResponse.eval 0 = 1 ∧ (∀ k : ℤ, k ≠ 0 → sincResponse.eval k = 0) ∧ Continuous sincResponse.eval ∧
    (∀ x, |sincResponse.eval x| ≤ 1) ∧ sincResponse.isSymmetric = true ∧ ∀ x, sincResponse.eval (-x) = sincResponse.eval x := by
  refine ⟨by rw [C67_sinc]; simp, ?_, ?_, fun x => by rw [C67_sinc]; exact abs_sinc_le_one _, rfl, fun x => ?_⟩
  · intro k hk
    rw [C67_sinc, sinc_of_ne_zero (mul_ne_zero pi_ne_zero (by exact_mod_cast hk)), sin_pi_int, zero_div]
  · rw [show sincResponse.eval = fun x => sinc (π * x) from funext C67_sinc]
    exact continuous_sinc.comp (continuous_const.mul continuous_id)
  · rw [C67_sinc, C67_sinc, mul_neg, sinc_neg]

/-! ### Raised cosine, impulse response -/

/-- C67: a roll-off of zero is the sinc function. -/
theorem C67_rolloff_zero (x : ℝ) : (rcResponse 0).eval x = sincResponse.eval x ∧ (rcBand 0).eval x = sincBand.eval x := by
  constructor
  · show (if x = 0 then (1 : ℝ) else if |x| = 1 / (2 * 0) then _ else sin (π * x) * cos (π * x * 0) / (π * x) / (1 - 2 * 0 * x * (2 * 0 * x))) =
      (if x = 0 then (1 : ℝ) else sin (π * x) / (π * x))
    by_cases hx : x = 0
    · simp [hx]
    · simp [hx]
  · show (if |x| ≤ 1 - 0 then (1 : ℝ) else if 1 - 0 < |x| ∧ |x| ≤ 1 + 0 then _ else 0) = if |x| ≤ 1 then 1 else 0
    by_cases hx : |x| ≤ 1
    · simp [hx]
    · have : ¬(1 < |x| ∧ |x| ≤ 1) := fun h => hx h.2
      simp [hx]

/-- The raised cosine without a case for its removable singularities. -/
noncomputable def rcClosed (β x : ℝ) : ℝ := sinc (π * x) * (π / 2 * sinc (π / 2 * (1 - |2 * β * x|)) / (1 + |2 * β * x|))

/-- C67: the raised cosine function, also where its formula has a removable singularity. -/
theorem C67_rc_closed (β : ℝ) (hβ : 0 < β) (x : ℝ) : (rcResponse β).eval x = rcClosed β x := by
  show (if x = 0 then (1 : ℝ) else if |x| = 1 / (2 * β) then sin (π / 2 / β) / (π / 2 / β) * π / (2 * 2)
    else sin (π * x) * cos (π * x * β) / (π * x) / (1 - (2 * β * x) * (2 * β * x))) = _
  unfold rcClosed
  by_cases hx : x = 0
  · subst hx
    have : (π / 2 : ℝ) ≠ 0 := by positivity
    simp [sinc_of_ne_zero this]
  · have hpx : π * x ≠ 0 := mul_ne_zero pi_ne_zero hx
    rw [if_neg hx]
    have habs : |2 * β * x| = 2 * β * |x| := by rw [abs_mul, abs_of_pos (by positivity)]
    by_cases h : |x| = 1 / (2 * β)
    · rw [if_pos h, habs, h]
      have h1 : 2 * β * (1 / (2 * β)) = 1 := by field_simp
      rw [h1]
      have h2 : sinc (π * x) = sinc (π / 2 / β) := by
        have : π / 2 / β = π * |x| := by rw [h]; field_simp
        rw [this]
        rcases abs_choice x with e | e
        · rw [e]
        · rw [e, mul_neg, sinc_neg]
      have h3 : π / 2 / β ≠ 0 := by positivity
      rw [h2, sinc_of_ne_zero h3]
      simp
      field_simp
      ring
    · rw [if_neg h, sinc_of_ne_zero hpx]
      have hne : 1 - |2 * β * x| ≠ 0 := by
        rw [habs]
        intro h0
        apply h
        rw [eq_div_iff (by positivity)]
        linarith
      have hne2 : 1 + |2 * β * x| ≠ 0 := by positivity
      have h4 : π / 2 * (1 - |2 * β * x|) ≠ 0 := mul_ne_zero (by positivity) hne
      rw [sinc_of_ne_zero h4]
      have h5 : sin (π / 2 * (1 - |2 * β * x|)) = cos (π * x * β) := by
        rw [show π / 2 * (1 - |2 * β * x|) = π / 2 - |π * x * β| by
          rw [habs, abs_mul, abs_mul, abs_of_pos pi_pos, abs_of_pos hβ]; ring]
        rw [sin_pi_div_two_sub, cos_abs]
      rw [h5]
      have h6 : 1 - 2 * β * x * (2 * β * x) = (1 - |2 * β * x|) * (1 + |2 * β * x|) := by
        have := abs_mul_abs_self (2 * β * x)
        linear_combination this
      rw [h6]
      field_simp

theorem rc_zeros (β : ℝ) (hβ : 0 < β) (k : ℤ) (hk : k ≠ 0) : (rcResponse β).eval k = 0 := by
  rw [C67_rc_closed β hβ]
  unfold rcClosed
  rw [sinc_of_ne_zero (mul_ne_zero pi_ne_zero (by exact_mod_cast hk)), sin_pi_int]
  simp

/-- C67: the raised cosine is 1 at time zero and 0 at all other sampling times (no intersymbol interference), is continuous, and it is
    symmetric, as it says, for every positive roll-off. -/
theorem C67_rc_pulse (β : ℝ) (hβ : 0 < β) : (rcResponse β).eval 0 = 1 ∧ (∀ k : ℤ, k ≠ 0 → (rcResponse β).eval k = 0) ∧
    Continuous (rcResponse β).eval ∧ (rcResponse β).isSymmetric = true ∧ ∀ x, (rcResponse β).eval (-x) = (rcResponse β).eval x := by
  refine ⟨?_, ?_, ?_, rfl, ?_⟩
  · show (if (0 : ℝ) = 0 then (1 : ℝ) else _) = 1
    simp
  · exact fun k hk => rc_zeros β hβ k hk
  · rw [show (rcResponse β).eval = rcClosed β from funext (C67_rc_closed β hβ)]
    unfold rcClosed
    have hc : Continuous fun x : ℝ => |2 * β * x| := continuous_abs.comp (continuous_const.mul continuous_id)
    refine (continuous_sinc.comp (continuous_const.mul continuous_id)).mul ?_
    refine (continuous_const.mul (continuous_sinc.comp (continuous_const.mul (continuous_const.sub hc)))).div (continuous_const.add hc) ?_
    intro x
    positivity
  · intro x
    rw [C67_rc_closed β hβ, C67_rc_closed β hβ]
    unfold rcClosed
    rw [mul_neg, sinc_neg, mul_neg, abs_neg]


/-! ### Frequency responses -/

/-- C67: the sinc function passes all frequencies up to the Nyquist frequency and no others. -/
theorem C67_sinc_band (x : ℝ) : (|x| ≤ 1 → sincBand.eval x = 1) ∧ (1 < |x| → sincBand.eval x = 0) ∧ sincBand.isSymmetric = true ∧
    sincBand.eval (-x) = sincBand.eval x := by
  have e : sincBand.eval = fun x => if |x| ≤ 1 then (1 : ℝ) else 0 := rfl
  refine ⟨fun h => by simp [e, h], fun h => by simp [e, not_le.mpr h], rfl, by simp [e]⟩

/-- A frequency response as a clamped cosine, without cases. -/
noncomputable def rcBandClosed (β x : ℝ) : ℝ := 1 / 2 * (1 + cos (π / β * max 0 (min (2 * β) (|x| - (1 - β))) / 2))

theorem rcBand_closed (β : ℝ) (hβ : 0 < β) (x : ℝ) : (rcBand β).eval x = rcBandClosed β x := by
  show (if |x| ≤ 1 - β then (1 : ℝ) else if 1 - β < |x| ∧ |x| ≤ 1 + β then 1 / 2 * (1 + cos (π / β * (|x| - (1 - β)) / 2)) else 0) = _
  unfold rcBandClosed
  by_cases h1 : |x| ≤ 1 - β
  · rw [if_pos h1, min_eq_right (by linarith), max_eq_left (by linarith)]
    simp
    norm_num
  · rw [if_neg h1]
    rw [not_le] at h1
    by_cases h2 : |x| ≤ 1 + β
    · rw [if_pos ⟨h1, h2⟩, min_eq_right (by linarith), max_eq_right (by linarith)]
    · rw [if_neg (fun h => h2 h.2)]
      rw [not_le] at h2
      rw [min_eq_left (by linarith), max_eq_right (by linarith)]
      rw [show π / β * (2 * β) / 2 = π by field_simp, cos_pi]
      simp

/-- C67: the raised cosine passes the frequencies below `1 - β` unchanged and stops those above `1 + β`; in between it falls from 1 to 0
    without jumps; it is symmetric, as it says. -/
theorem C67_rc_band (β : ℝ) (hβ : 0 < β) : (∀ x, |x| ≤ 1 - β → (rcBand β).eval x = 1) ∧ (∀ x, 1 + β ≤ |x| → (rcBand β).eval x = 0) ∧
    (∀ x y, |x| ≤ |y| → (rcBand β).eval y ≤ (rcBand β).eval x) ∧ (∀ x, 0 ≤ (rcBand β).eval x ∧ (rcBand β).eval x ≤ 1) ∧
    Continuous (rcBand β).eval ∧ (rcBand β).isSymmetric = true ∧ ∀ x, (rcBand β).eval (-x) = (rcBand β).eval x := by
  have key : ∀ x, 0 ≤ max 0 (min (2 * β) (|x| - (1 - β))) ∧ max 0 (min (2 * β) (|x| - (1 - β))) ≤ 2 * β :=
    fun x => ⟨le_max_left _ _, max_le (by linarith) (min_le_left _ _)⟩
  refine ⟨?_, ?_, ?_, ?_, ?_, rfl, ?_⟩
  · intro x h
    exact if_pos h
  · intro x h
    rw [rcBand_closed β hβ]
    unfold rcBandClosed
    rw [min_eq_left (by linarith), max_eq_right (by linarith)]
    rw [show π / β * (2 * β) / 2 = π by field_simp, cos_pi]
    simp
  · intro x y h
    rw [rcBand_closed β hβ, rcBand_closed β hβ]
    unfold rcBandClosed
    have hm : max 0 (min (2 * β) (|x| - (1 - β))) ≤ max 0 (min (2 * β) (|y| - (1 - β))) := by
      gcongr
    have hc : ∀ m, 0 ≤ m → m ≤ 2 * β → 0 ≤ π / β * m / 2 ∧ π / β * m / 2 ≤ π := by
      intro m h0 h1
      refine ⟨by positivity, ?_⟩
      have : π / β * m / 2 ≤ π / β * (2 * β) / 2 := by gcongr
      rwa [show π / β * (2 * β) / 2 = π by field_simp] at this
    have := cos_le_cos_of_nonneg_of_le_pi (hc _ (key x).1 (key x).2).1 (hc _ (key y).1 (key y).2).2
      (show π / β * max 0 (min (2 * β) (|x| - (1 - β))) / 2 ≤ π / β * max 0 (min (2 * β) (|y| - (1 - β))) / 2 by gcongr)
    linarith
  · intro x
    rw [rcBand_closed β hβ]
    unfold rcBandClosed
    have h1 := neg_one_le_cos (π / β * max 0 (min (2 * β) (|x| - (1 - β))) / 2)
    have h2 := cos_le_one (π / β * max 0 (min (2 * β) (|x| - (1 - β))) / 2)
    constructor <;> linarith
  · rw [show (rcBand β).eval = rcBandClosed β from funext (rcBand_closed β hβ)]
    unfold rcBandClosed
    fun_prop
  · intro x
    rw [rcBand_closed β hβ, rcBand_closed β hβ]
    unfold rcBandClosed
    rw [abs_neg]

/-- C67: the flank is symmetric to the Nyquist frequency, so that the repetitions of the spectrum add up to a constant. -/
theorem C67_nyquist (β : ℝ) (hβ : 0 < β) (d : ℝ) (hd : |d| ≤ 1) :
    (rcBand β).eval (1 + d) + (rcBand β).eval (1 - d) = 1 := by
  rw [abs_le] at hd
  rw [rcBand_closed β hβ, rcBand_closed β hβ]
  unfold rcBandClosed
  rw [abs_of_nonneg (by linarith : (0 : ℝ) ≤ 1 + d), abs_of_nonneg (by linarith : (0 : ℝ) ≤ 1 - d)]
  have : max 0 (min (2 * β) (1 - d - (1 - β))) = 2 * β - max 0 (min (2 * β) (1 + d - (1 - β))) := by
    rcases le_total d β with h | h <;> rcases le_total (-d) β with h' | h'
    · rw [min_eq_right (by linarith), max_eq_right (by linarith), min_eq_right (by linarith), max_eq_right (by linarith)]; ring
    · rw [min_eq_left (by linarith), max_eq_right (by linarith), min_eq_right (by linarith), max_eq_left (by linarith)]; ring
    · rw [min_eq_right (by linarith), max_eq_left (by linarith), min_eq_left (by linarith), max_eq_right (by linarith)]; ring
    · exfalso; linarith
  rw [this]
  have h2 : π / β * (2 * β - max 0 (min (2 * β) (1 + d - (1 - β)))) / 2 = π - π / β * max 0 (min (2 * β) (1 + d - (1 - β))) / 2 := by
    field_simp
  rw [h2, cos_pi_sub]
  ring

/-! ### Both are the same filter -/

theorem integral_cos_linear (a b p q : ℝ) : ∫ f in p..q, cos (a * f + b) = (q - p) * sinc (a * (q - p) / 2) * cos (a * (p + q) / 2 + b) := by
  by_cases ha : a = 0
  · subst ha; simp
  · rw [intervalIntegral.integral_comp_mul_add (f := cos) (hc := ha), integral_cos]
    by_cases hpq : q = p
    · subst hpq; simp
    · have h : a * (q - p) / 2 ≠ 0 := by
        have := sub_ne_zero.mpr hpq
        positivity
      rw [sinc_of_ne_zero h, sin_sub_sin]
      have : q - p ≠ 0 := sub_ne_zero.mpr hpq
      rw [show (a * q + b - (a * p + b)) / 2 = a * (q - p) / 2 by ring, show (a * q + b + (a * p + b)) / 2 = a * (p + q) / 2 + b by ring,
        smul_eq_mul]
      field_simp

/-- C67: the impulse response of the sinc function is the inverse Fourier transform of its frequency response. -/
theorem C67_sinc_pair (x : ℝ) : sincResponse.eval x = 1 / 2 * ∫ f, sincBand.eval f * cos (π * f * x) := by
  have e : (fun f : ℝ => sincBand.eval f * cos (π * f * x)) = Set.indicator (Set.Icc (-1) 1) fun f => cos (π * x * f + 0) := by
    funext f
    by_cases h : |f| ≤ 1
    · rw [((C67_sinc_band f).1 h), Set.indicator_of_mem (by rwa [abs_le] at h), one_mul]
      congr 1; ring
    · rw [(C67_sinc_band f).2.1 (not_le.mp h), Set.indicator_of_notMem (s := Set.Icc (-1 : ℝ) 1) (fun h' => h (abs_le.mpr h')), zero_mul]
  rw [e, MeasureTheory.integral_indicator measurableSet_Icc, MeasureTheory.integral_Icc_eq_integral_Ioc,
    ← intervalIntegral.integral_of_le (by norm_num), integral_cos_linear, C67_sinc]
  norm_num
  congr 1
  ring

/-- C67: the impulse response of the raised cosine is the inverse Fourier transform of its frequency response. -/
theorem C67_rc_pair (β : ℝ) (hβ : 0 < β) (hβ1 : β ≤ 1) (x : ℝ) :
    (rcResponse β).eval x = 1 / 2 * ∫ f, (rcBand β).eval f * cos (π * f * x) := by
  obtain ⟨b1, b2, -, -, b5, -, -⟩ := C67_rc_band β hβ
  have e : (fun f : ℝ => (rcBand β).eval f * cos (π * f * x)) = fun f => (fun g => (rcBand β).eval g * cos (π * x * g)) |f| := by
    funext f
    have h1 : (rcBand β).eval f = (rcBand β).eval |f| := by
      rw [rcBand_closed β hβ, rcBand_closed β hβ]; unfold rcBandClosed; rw [abs_abs]
    have h2 : cos (π * f * x) = cos (π * x * |f|) := by
      rcases abs_choice f with h | h <;> rw [h]
      · congr 1; ring
      · rw [← cos_neg]; congr 1; ring
    simp only [h1, h2]
  rw [e, integral_comp_abs (f := fun g => (rcBand β).eval g * cos (π * x * g))]
  have e2 : ∫ g in Set.Ioi (0 : ℝ), (rcBand β).eval g * cos (π * x * g) = ∫ g in (0)..(1 + β), (rcBand β).eval g * cos (π * x * g) := by
    rw [intervalIntegral.integral_of_le (by linarith)]
    apply MeasureTheory.setIntegral_eq_of_subset_of_forall_sdiff_eq_zero measurableSet_Ioi (fun y (hy : y ∈ Set.Ioc 0 (1 + β)) => hy.1)
    intro g hg
    have hg0 : 0 < g := hg.1
    have : 1 + β ≤ |g| := by
      rw [abs_of_pos hg0]
      by_contra hcon
      exact hg.2 ⟨hg0, (not_le.mp hcon).le⟩
    rw [b2 g this, zero_mul]
  rw [e2]
  have hint : ∀ a b, IntervalIntegrable (fun g => (rcBand β).eval g * cos (π * x * g)) MeasureTheory.volume a b := fun a b =>
    (b5.mul (by fun_prop : Continuous fun g : ℝ => cos (π * x * g))).intervalIntegrable a b
  rw [← intervalIntegral.integral_add_adjacent_intervals (hint 0 (1 - β)) (hint (1 - β) (1 + β))]
  have i1 : ∫ g in (0)..(1 - β), (rcBand β).eval g * cos (π * x * g) = ∫ g in (0)..(1 - β), cos (π * x * g + 0) := by
    apply intervalIntegral.integral_congr
    intro g hg
    rw [Set.uIcc_of_le (by linarith)] at hg
    simp only
    rw [b1 g (by rw [abs_of_nonneg hg.1]; exact hg.2), one_mul, add_zero]
  have i2 : ∫ g in (1 - β)..(1 + β), (rcBand β).eval g * cos (π * x * g) =
      ∫ g in (1 - β)..(1 + β), (1 / 2 * cos (π * x * g + 0) + (1 / 4 * cos ((π * x + π / (2 * β)) * g + -(π / (2 * β) * (1 - β))) +
        1 / 4 * cos ((π * x - π / (2 * β)) * g + π / (2 * β) * (1 - β)))) := by
    apply intervalIntegral.integral_congr
    intro g hg
    rw [Set.uIcc_of_le (by linarith)] at hg
    simp only
    rw [rcBand_closed β hβ]
    unfold rcBandClosed
    have hg0 : 0 ≤ g := by linarith [hg.1]
    rw [abs_of_nonneg hg0, min_eq_right (by linarith [hg.2]), max_eq_right (by linarith [hg.1])]
    have k1 : π / β * (g - (1 - β)) / 2 = π / (2 * β) * (g - (1 - β)) := by field_simp
    have k2 : (π * x + π / (2 * β)) * g + -(π / (2 * β) * (1 - β)) = π * x * g + π / (2 * β) * (g - (1 - β)) := by ring
    have k3 : (π * x - π / (2 * β)) * g + π / (2 * β) * (1 - β) = π * x * g - π / (2 * β) * (g - (1 - β)) := by ring
    rw [add_zero, k1, k2, k3, cos_add, cos_sub]
    ring
  have c1 : ∀ a b : ℝ, Continuous fun g : ℝ => cos (a * g + b) := fun a b => by fun_prop
  have i3 : ∀ a b c d : ℝ, IntervalIntegrable (fun g : ℝ => a * cos (b * g + c)) MeasureTheory.volume d (1 + β) := fun a b c d =>
    (continuous_const.mul (c1 b c)).intervalIntegrable _ _
  rw [i1, i2, intervalIntegral.integral_add (i3 _ _ _ _) ((i3 _ _ _ _).add (i3 _ _ _ _)), intervalIntegral.integral_add (i3 _ _ _ _) (i3 _ _ _ _)]
  simp only [intervalIntegral.integral_const_mul, integral_cos_linear]
  have hcβ : π / (2 * β) * β = π / 2 := by field_simp
  have a1 : (π * x + π / (2 * β)) * (1 + β - (1 - β)) / 2 = π * x * β + π / 2 := by rw [← hcβ]; ring
  have a2 : (π * x - π / (2 * β)) * (1 + β - (1 - β)) / 2 = π * x * β - π / 2 := by rw [← hcβ]; ring
  have a3 : (π * x + π / (2 * β)) * (1 - β + (1 + β)) / 2 + -(π / (2 * β) * (1 - β)) = π * x + π / 2 := by rw [← hcβ]; ring
  have a4 : (π * x - π / (2 * β)) * (1 - β + (1 + β)) / 2 + π / (2 * β) * (1 - β) = π * x - π / 2 := by rw [← hcβ]; ring
  have a5 : π * x * (1 + β - (1 - β)) / 2 = π * x * β := by ring
  have a6 : π * x * (1 - β + (1 + β)) / 2 + 0 = π * x := by ring
  rw [a1, a2, a3, a4, a5, a6, cos_add_pi_div_two, cos_sub_pi_div_two]
  show (if x = 0 then (1 : ℝ) else if |x| = 1 / (2 * β) then sin (π / 2 / β) / (π / 2 / β) * π / (2 * 2)
      else sin (π * x) * cos (π * x * β) / (π * x) / (1 - (2 * β * x) * (2 * β * x))) = _
  by_cases hx : x = 0
  · subst hx
    simp
    ring
  have hpx : π * x ≠ 0 := mul_ne_zero pi_ne_zero hx
  rw [if_neg hx]
  -- the flat part and the constant half of the flank
  have flat : (1 - β - 0) * sinc (π * x * (1 - β - 0) / 2) * cos (π * x * (0 + (1 - β)) / 2 + 0) + 1 / 2 * ((1 + β - (1 - β)) * sinc (π * x * β) * cos (π * x)) =
      sin (π * x) * cos (π * x * β) / (π * x) := by
    have hβx : π * x * β ≠ 0 := mul_ne_zero hpx hβ.ne'
    have h1 : (1 - β - 0) * sinc (π * x * (1 - β - 0) / 2) * cos (π * x * (0 + (1 - β)) / 2 + 0) = sin (π * x - π * x * β) / (π * x) := by
      by_cases hb : β = 1
      · subst hb; simp
      · have : 1 - β ≠ 0 := fun h => hb (by linarith)
        have h2 : π * x * (1 - β - 0) / 2 ≠ 0 := by rw [sub_zero]; positivity
        rw [sinc_of_ne_zero h2]
        rw [show π * x - π * x * β = 2 * (π * x * (1 - β) / 2) by ring, sin_two_mul]
        simp only [sub_zero, zero_add, add_zero]
        field_simp
    rw [h1, sinc_of_ne_zero hβx, sin_sub]
    field_simp
    ring
  have sp : sin (π * x * β + π / 2) = cos (π * x * β) := sin_add_pi_div_two _
  have sm : sin (π * x * β - π / 2) = -cos (π * x * β) := sin_sub_pi_div_two _
  by_cases h : |x| = 1 / (2 * β)
  · rw [if_pos h]
    have hw : π / 2 / β = π * |x| := by rw [h]; field_simp
    have hb : π * |x| * β = π / 2 := by rw [← hw]; field_simp
    rw [hw]
    have hβe : β = π / 2 / (π * |x|) := by rw [eq_div_iff (by positivity)]; linarith
    have hs : sinc π = 0 := by rw [sinc_of_ne_zero pi_ne_zero, sin_pi, zero_div]
    rcases abs_choice x with hx' | hx'
    · rw [hx'] at hb hβe ⊢
      have hc : cos (π * x * β) = 0 := by rw [hb, cos_pi_div_two]
      have key := flat
      rw [hc] at key
      have e1 : sinc (π * x * β + π / 2) = 0 := by rw [hb]; rw [show π / 2 + π / 2 = π by ring, hs]
      have e2 : sinc (π * x * β - π / 2) = 1 := by rw [hb]; simp
      rw [e1, e2]
      have e3 : 1 + β - (1 - β) = 2 * (π / 2 / (π * x)) := by rw [← hβe]; ring
      simp only [mul_zero, zero_div] at key
      linear_combination (-1 : ℝ) * key - (1 / 4 * sin (π * x)) * e3
    · rw [hx'] at hb hβe ⊢
      have hb' : π * x * β = -(π / 2) := by linarith
      have hc : cos (π * x * β) = 0 := by rw [hb', cos_neg, cos_pi_div_two]
      have key := flat
      rw [hc] at key
      have e1 : sinc (π * x * β + π / 2) = 1 := by rw [hb']; simp
      have e2 : sinc (π * x * β - π / 2) = 0 := by rw [hb', show -(π / 2) - π / 2 = -π by ring, sinc_neg, hs]
      rw [e1, e2]
      have e3 : 1 + β - (1 - β) = 2 * (π / 2 / (π * -x)) := by rw [← hβe]; ring
      simp only [mul_zero, zero_div] at key
      have e4 : sin (π * -x) = -sin (π * x) := by rw [mul_neg, sin_neg]
      rw [e4]
      linear_combination (-1 : ℝ) * key + (1 / 4 * sin (π * x)) * e3
  · rw [if_neg h]
    have hn : (2 * β * x) * (2 * β * x) ≠ 1 := by
      intro h1
      apply h
      rw [eq_div_iff (by positivity)]
      have h2 := mul_self_eq_one_iff.mp h1
      have h3 : |2 * β * x| = 1 := by rcases h2 with h2 | h2 <;> rw [h2] <;> simp
      rw [abs_mul, abs_of_pos (by positivity : (0 : ℝ) < 2 * β)] at h3
      linarith
    have hn' : 1 - (2 * β * x) * (2 * β * x) ≠ 0 := fun h0 => hn (by linarith)
    have n1 : 1 - 2 * β * x ≠ 0 := fun h0 => hn' (by linear_combination (1 + 2 * β * x) * h0)
    have n2 : 1 + 2 * β * x ≠ 0 := fun h0 => hn' (by linear_combination (1 - 2 * β * x) * h0)
    have m1 : π * x * β + π / 2 = π / 2 * (1 + 2 * β * x) := by ring
    have m2 : π * x * β - π / 2 = -(π / 2 * (1 - 2 * β * x)) := by ring
    have e1 : sinc (π * x * β + π / 2) = cos (π * x * β) / (π / 2 * (1 + 2 * β * x)) := by
      rw [sinc_of_ne_zero (by rw [m1]; positivity), sp, m1]
    have e2 : sinc (π * x * β - π / 2) = cos (π * x * β) / (π / 2 * (1 - 2 * β * x)) := by
      rw [sinc_of_ne_zero (by rw [m2]; exact neg_ne_zero.mpr (by positivity)), sm, m2, neg_div_neg_eq]
    rw [e1, e2]
    have hsplit : 1 - (2 * β * x) * (2 * β * x) = (1 - 2 * β * x) * (1 + 2 * β * x) := by ring
    rw [hsplit]
    have key := flat
    have goal' : sin (π * x) * cos (π * x * β) / (π * x) / ((1 - 2 * β * x) * (1 + 2 * β * x)) =
        sin (π * x) * cos (π * x * β) / (π * x) + 1 / 4 * ((1 + β - (1 - β)) * (cos (π * x * β) / (π / 2 * (1 + 2 * β * x))) * -sin (π * x)) +
        1 / 4 * ((1 + β - (1 - β)) * (cos (π * x * β) / (π / 2 * (1 - 2 * β * x))) * sin (π * x)) := by
      have gen : ∀ A B S C P : ℝ, A ≠ 0 → B ≠ 0 → P ≠ 0 → A = 1 - 2 * β * x → B = 1 + 2 * β * x →
          S * C / (P * x) / (A * B) = S * C / (P * x) + 1 / 4 * ((1 + β - (1 - β)) * (C / (P / 2 * B)) * -S) +
            1 / 4 * ((1 + β - (1 - β)) * (C / (P / 2 * A)) * S) := by
        intro A B S C P hA hB hP eA eB
        field_simp
        rw [eA, eB]
        ring
      exact gen _ _ _ _ _ n1 n2 pi_ne_zero rfl rfl
    rw [goal']
    linear_combination (-1 : ℝ) * key

/-- Non-vacuity: a roll-off of one half. The singularity is at the sampling time 1. -/
example : (rcResponse (1 / 2)).eval 1 = 0 ∧ (rcBand (1 / 2)).eval 1 = 1 / 2 ∧
    (rcResponse (1 / 2)).eval 1 = 1 / 2 * ∫ f, (rcBand (1 / 2)).eval f * cos (π * f * 1) := by
  refine ⟨by simpa using rc_zeros (1 / 2) (by norm_num) 1 (by norm_num), ?_, C67_rc_pair (1 / 2) (by norm_num) (by norm_num) 1⟩
  have := C67_nyquist (1 / 2) (by norm_num) 0 (by norm_num)
  rw [add_zero, sub_zero] at this
  linarith

end Dsp
