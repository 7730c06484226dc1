import Verif.Props.LookupConv
import Verif.Spec.LookupTable
/-
C66: the spectrum of a lookup table.
-/
namespace Dsp
open DspVec

theorem root1_pow_ne {n : Nat} (hn : n ≠ 0) : root1 n ≠ 0 := (root1_prim hn).ne_zero hn

theorem root1_zpow (n : Nat) (e : Int) : (root1 n) ^ e = Complex.exp (2 * Real.pi * Complex.I * e / n) := by
  unfold root1
  rw [← Complex.exp_int_mul]
  congr 1
  ring

theorem rotated_getElem? (X : List (Cx ℝ)) (len : Nat) (hX : X.length = 2 * len + 1) (k : Int) (h1 : -(len : Int) ≤ k) (h2 : k ≤ len) :
    (rotateRight X ((2 * len + 1) / 2))[(k + len).toNat]? = X[(k % (2 * len + 1 : Nat)).toNat]? := by
  have hh : (2 * len + 1) / 2 = len := by omega
  unfold rotateRight
  rw [hh, hX]
  rw [show 2 * len + 1 - len = len + 1 by omega]
  by_cases hk : k < 0
  · rw [List.getElem?_append_left (by simp [hX]; omega), List.getElem?_drop]
    congr 1
    have : k % (2 * len + 1 : Nat) = k + (2 * len + 1 : Nat) := by
      rw [← Int.add_emod_right, Int.emod_eq_of_lt (by omega) (by omega)]
    omega
  · rw [List.getElem?_append_right (by simp [hX]; omega), List.getElem?_take]
    rw [if_pos (by simp [hX]; omega)]
    congr 1
    have : k % (2 * len + 1 : Nat) = k := Int.emod_eq_of_lt (by omega) (by omega)
    rw [this, List.length_drop, hX]
    omega

/-- The value of a bin of the transform of a table of a function. -/
theorem dft_of_table (f : ConvFunction ℝ (Cx ℝ)) (δ : ℝ) (len : Nat) (k : Int) (j : Nat) (hj : (j : Int) = k % (2 * len + 1 : Nat)) :
    dftPoint (root1 (2 * len + 1))⁻¹ (LookupTable.fromConvFunction f δ len).table j =
      Complex.exp (-(2 * Real.pi * Complex.I * k * len / (2 * len + 1 : Nat))) * spectrumAt (fun x => (f.eval x).toC) δ len k := by
  obtain ⟨t1, t2, -, -⟩ := C65_table f δ len
  have hζ : root1 (2 * len + 1) ≠ 0 := root1_pow_ne (by omega)
  have hper : ∀ e : Int, (root1 (2 * len + 1)) ^ (((2 * len + 1 : Nat) : Int) * e) = 1 := by
    intro e
    rw [zpow_mul, zpow_natCast, (root1_prim (n := 2 * len + 1) (by omega)).pow_eq_one, one_zpow]
  unfold dftPoint spectrumAt
  rw [t1, Finset.mul_sum]
  symm
  refine Finset.sum_nbij' (fun m => (m + len).toNat) (fun i => (i : Int) - len) ?_ ?_ ?_ ?_ ?_
  · intro m hm
    rw [Finset.mem_Icc] at hm
    rw [Finset.mem_range]
    omega
  · intro i hi
    rw [Finset.mem_range] at hi
    rw [Finset.mem_Icc]
    omega
  · intro m hm
    rw [Finset.mem_Icc] at hm
    omega
  · intro i hi
    rw [Finset.mem_range] at hi
    omega
  · intro m hm
    rw [Finset.mem_Icc] at hm
    rw [List.getD_eq_getElem?_getD, t2 m hm.1 hm.2]
    simp only [Option.getD_some]
    rw [mul_left_comm]
    congr 1
    rw [← Complex.exp_add]
    have e1 : ((root1 (2 * len + 1))⁻¹ : ℂ) ^ (j * (m + len).toNat) = (root1 (2 * len + 1)) ^ (-(k * (m + len))) := by
      rw [← zpow_natCast, inv_zpow', Nat.cast_mul, hj]
      have hd := Int.emod_add_mul_ediv k (2 * len + 1 : Nat)
      have ht : (((m + len).toNat : Nat) : Int) = m + len := by omega
      rw [ht]
      have : -(k % (2 * len + 1 : Nat) * (m + len)) = -(k * (m + len)) + ((2 * len + 1 : Nat) : Int) * (k / (2 * len + 1 : Nat) * (m + len)) := by
        conv_rhs => lhs; rw [← hd]
        ring
      rw [this, zpow_add₀ hζ, hper, mul_one]
    rw [e1, root1_zpow]
    congr 1
    push_cast
    ring

/-- C66: bin `k` of the transform of a table of a function (with the discrete Fourier transform) is the bin of the spectrum of the
    function, times a phase which depends on the length of the table. The phase should not be there, see `C66_phase_violated`. -/
theorem C66_spectrum_partial (f : ConvFunction ℝ (Cx ℝ)) (δ : ℝ) (len : Nat) (k : Int) (h1 : -(len : Int) ≤ k) (h2 : k ≤ len) :
    ∃ F y, (LookupTable.fromConvFunction f δ len).fft dftKernel = some F ∧ F.table[(k + len).toNat]? = some y ∧
      y.toC = Complex.exp (-(2 * Real.pi * Complex.I * k * len / (2 * len + 1 : Nat))) * spectrumAt (fun x => (f.eval x).toC) δ len k := by
  obtain ⟨t1, t2, -, -⟩ := C65_table f δ len
  have hk := dft_inverts.length
  have hm0 : 0 ≤ k % (2 * len + 1 : Nat) := Int.emod_nonneg _ (by omega)
  have hm1 : k % (2 * len + 1 : Nat) < (2 * len + 1 : Nat) := Int.emod_lt_of_pos _ (by omega)
  refine ⟨_, Cx.ofC (dftPoint (root1 (2 * len + 1))⁻¹ (LookupTable.fromConvFunction f δ len).table (k % (2 * len + 1 : Nat)).toNat),
    C66_fft dftKernel hk (LookupTable.fromConvFunction f δ len) (le_refl _), ?_, ?_⟩
  · simp only [t1]
    rw [rotated_getElem? _ len (by rw [hk.1, t1]) k h1 h2]
    show (dftList (root1 (LookupTable.fromConvFunction f δ len).table.length)⁻¹ _)[_]? = _
    rw [dftList_getElem? _ _ _ (by rw [t1]; omega), t1]
  · rw [Cx.toC_ofC]
    exact dft_of_table f δ len k _ (by omega)

/-- C66: the magnitude spectrum of a table of a real function is the magnitude of the spectrum of the function. -/
theorem C66_magnitude_spectrum (f : ConvFunction ℝ ℝ) (δ : ℝ) (len : Nat) (k : Int) (h1 : -(len : Int) ≤ k) (h2 : k ≤ len) :
    ∃ F, (LookupTable.fromConvFunction f δ len).magnitudeSpectrum dftKernel (fun c => ‖c.toC‖) = some F ∧
      F.table[(k + len).toNat]? = some ‖spectrumAt (fun x => (f.eval x : ℂ)) δ len k‖ := by
  obtain ⟨t1, t2, -, -⟩ := C65_table f δ len
  have hk := dft_inverts.length
  have hm0 : 0 ≤ k % (2 * len + 1 : Nat) := Int.emod_nonneg _ (by omega)
  have hm1 : k % (2 * len + 1 : Nat) < (2 * len + 1 : Nat) := Int.emod_lt_of_pos _ (by omega)
  refine ⟨_, C66_magnitudes dftKernel hk _ (LookupTable.fromConvFunction f δ len) (by intro h; rw [h] at t1; simp at t1) (le_refl _), ?_⟩
  have hfill : ∀ n i, (LookupTable.fill f.eval δ n i).map (fun x => (⟨x, 0⟩ : Cx ℝ)) = LookupTable.fill (fun x => ⟨f.eval x, 0⟩) δ n i := by
    intro n
    induction n with
    | zero => intro i; rfl
    | succ n ih => intro i; simp [LookupTable.fill, ih]
  have htab : (LookupTable.fromConvFunction f δ len).table.map (fun x => (⟨x, 0⟩ : Cx ℝ)) =
      (LookupTable.fromConvFunction (⟨f.isSymmetric, fun x => ⟨f.eval x, 0⟩⟩ : ConvFunction ℝ (Cx ℝ)) δ len).table := hfill _ _
  have hd := dft_of_table (⟨f.isSymmetric, fun x => ⟨f.eval x, 0⟩⟩ : ConvFunction ℝ (Cx ℝ)) δ len k (k % (2 * len + 1 : Nat)).toNat (by omega)
  have hC : (fun x => ((⟨f.eval x, 0⟩ : Cx ℝ)).toC) = fun x => (f.eval x : ℂ) := by
    funext x; rfl
  simp only [hC] at hd
  simp only [t1]
  rw [List.getElem?_map, rotated_getElem? _ len (by rw [hk.1, List.length_map, t1]) k h1 h2]
  have : (dftKernel.forward ((LookupTable.fromConvFunction f δ len).table.map fun x => ⟨x, 0⟩))[(k % (2 * len + 1 : Nat)).toNat]? =
      some (Cx.ofC (dftPoint (root1 (2 * len + 1))⁻¹ ((LookupTable.fromConvFunction f δ len).table.map fun x => ⟨x, 0⟩)
        (k % (2 * len + 1 : Nat)).toNat)) := by
    show (dftList (root1 (List.length _))⁻¹ _)[_]? = _
    rw [dftList_getElem? _ _ _ (by rw [List.length_map, t1]; omega), List.length_map, t1]
  rw [this, htab, hd]
  simp only [Option.map_some, Cx.toC_ofC, norm_mul]
  congr 1
  have : ‖Complex.exp (-(2 * Real.pi * Complex.I * k * len / (2 * len + 1 : Nat)))‖ = 1 := by
    rw [show -(2 * (Real.pi : ℂ) * Complex.I * k * len / (2 * len + 1 : Nat)) =
      ((-(2 * Real.pi * k * len / (2 * len + 1 : Nat)) : ℝ) : ℂ) * Complex.I by push_cast; ring]
    exact Complex.norm_exp_ofReal_mul_I _
  rw [this, one_mul]

/-- The unit pulse. -/
noncomputable def pulse : ConvFunction ℝ (Cx ℝ) := ⟨true, fun x => if x = 0 then ⟨1, 0⟩ else ⟨0, 0⟩⟩

theorem pulse_spectrum (δ : ℝ) (hδ : δ ≠ 0) (len : Nat) (k : Int) : spectrumAt (fun x => (pulse.eval x).toC) δ len k = 1 := by
  unfold spectrumAt
  rw [Finset.sum_eq_single 0]
  · simp [pulse, Cx.toC]; rfl
  · intro m _ hm
    have : (m : ℝ) * δ ≠ 0 := mul_ne_zero (by exact_mod_cast hm) hδ
    simp only [pulse, this, if_false]
    show (0 : ℂ) * _ = 0
    simp
  · intro h
    exact absurd (Finset.mem_Icc.mpr ⟨by omega, by omega⟩) h

/-- C66 is violated for the phase of a spectrum: the unit pulse at time zero, whose spectrum is 1 everywhere, is transformed as if it
    were later by half of the length of the table. The first bin is not 1, and the table, which says that it is symmetric, is not. -/
theorem C66_phase_violated (δ : ℝ) (hδ : δ ≠ 0) (len : Nat) (hl : 0 < len) :
    spectrumAt (fun x => (pulse.eval x).toC) δ len 1 = 1 ∧
    ∃ F y z, (LookupTable.fromConvFunction pulse δ len).fft dftKernel = some F ∧ F.isSymmetric = true ∧
      F.table[(1 + len : Int).toNat]? = some y ∧ y.toC ≠ 1 ∧ F.table[(-1 + len : Int).toNat]? = some z ∧ z ≠ y := by
  refine ⟨pulse_spectrum δ hδ len 1, ?_⟩
  obtain ⟨F, y, hF, hy, e⟩ := C66_spectrum_partial pulse δ len 1 (by omega) (by omega)
  obtain ⟨F', z, hF', hz, e'⟩ := C66_spectrum_partial pulse δ len (-1) (by omega) (by omega)
  rw [hF] at hF'
  cases hF'
  rw [pulse_spectrum δ hδ, mul_one] at e e'
  have hprim := root1_prim (n := 2 * len + 1) (by omega)
  have r1 : y.toC = (root1 (2 * len + 1)) ^ (-(len : Int)) := by
    rw [e, root1_zpow]; congr 1; push_cast; ring
  have r2 : z.toC = (root1 (2 * len + 1)) ^ (len : Int) := by
    rw [e', root1_zpow]; congr 1; push_cast; ring
  refine ⟨F, y, z, hF, ?_, hy, ?_, hz, ?_⟩
  · rw [C66_fft dftKernel dft_inverts.length _ (le_refl _)] at hF
    cases hF
    rfl
  · rw [r1]
    intro h
    have h' := (hprim.zpow_eq_one_iff_dvd _).mp h
    have := Int.le_of_dvd (by omega) ((Int.dvd_neg).mp h')
    omega
  · intro h
    rw [h] at r2
    rw [r1] at r2
    have hz0 : root1 (2 * len + 1) ≠ 0 := root1_pow_ne (by omega)
    have h3 : (root1 (2 * len + 1)) ^ ((len : Int) + len) = 1 := by
      rw [zpow_add₀ hz0]
      conv_lhs => lhs; rw [← r2]
      rw [← zpow_add₀ hz0, neg_add_cancel, zpow_zero]
    have h' := (hprim.zpow_eq_one_iff_dvd _).mp h3
    have := Int.le_of_dvd (by omega) h'
    omega

/-- Non-vacuity: a table of three complex values with the discrete Fourier transform, there and back. -/
example (st : MultiCoreSettings) : ∃ F B, (LookupTable.mk [⟨1, 0⟩, ⟨2, 1⟩, ⟨3, -1⟩] (1 / 2) false : LookupTable ℝ (Cx ℝ)).fft dftKernel = some F ∧
    Always (F.ifft dftKernel .avxF64x4 32 st) B ∧ B.table = [⟨1, 0⟩, ⟨2, 1⟩, ⟨3, -1⟩] ∧ B.delta = 3 * (3 * (1 / 2)) := by
  obtain ⟨F, B, h1, h2, h3, -⟩ := C66_round_trip_partial dftKernel dft_inverts dft_homogeneous .avxF64x4 32 st
    (LookupTable.mk [⟨1, 0⟩, ⟨2, 1⟩, ⟨3, -1⟩] (1 / 2) false) (le_refl _) (by decide) (.inl (by decide))
  obtain ⟨F', B', h1', h2', h3', -⟩ := C66_delta_violated dftKernel dft_inverts .avxF64x4 32 st
    (LookupTable.mk [⟨1, 0⟩, ⟨2, 1⟩, ⟨3, -1⟩] (1 / 2) false) (le_refl _) (by decide) (.inl (by decide)) rfl (by norm_num)
  rw [h1] at h1'
  cases h1'
  refine ⟨F, B, h1, h2, h3, ?_⟩
  have : B = B' := by
    obtain ⟨s, hs⟩ := h2.2
    rcases h2'.1 s with h | h
    · rw [hs] at h; cases h
    · rw [hs] at h; cases h; rfl
  rw [this, h3']
  norm_num

/-- Non-vacuity: the table of a unit pulse with five values; its spectrum is one. -/
example : ∃ F y, (LookupTable.fromConvFunction pulse (1 / 2) 2).fft dftKernel = some F ∧ F.table[3]? = some y ∧ ‖y.toC‖ = 1 := by
  obtain ⟨F, y, h1, h2, h3⟩ := C66_spectrum_partial pulse (1 / 2) 2 1 (by decide) (by decide)
  refine ⟨F, y, h1, h2, ?_⟩
  rw [h3, pulse_spectrum _ (by norm_num), mul_one]
  rw [show -(2 * (Real.pi : ℂ) * Complex.I * (1 : Int) * (2 : Nat) / (2 * 2 + 1 : Nat)) = ((-(2 * Real.pi * 2 / 5) : ℝ) : ℂ) * Complex.I by
    push_cast; ring]
  exact Complex.norm_exp_ofReal_mul_I _

end Dsp
