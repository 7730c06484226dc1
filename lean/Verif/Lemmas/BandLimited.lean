import Verif.Spec.BandLimited
import Verif.Lemmas.DftLaws
import Verif.Props.InterpolateExact
import Verif.Props.Interpolatei
import Verif.Props.DftStretch
/-
Facts about sampled waves and their transforms.
-/
namespace Dsp
open DspVec

/-- The numbers `c f` at the bins of a transform with `n` points. -/
noncomputable def binValues (n : Nat) (c : ℤ → ℂ) : List (Cx ℝ) := (List.range n).map fun (k : Nat) => Cx.ofC (c (binFrequency n k))

@[simp] theorem binValues_length (n : Nat) (c : ℤ → ℂ) : (binValues n c).length = n := by simp [binValues]
@[simp] theorem samples_length (g : ℝ → ℂ) (n : Nat) (x t0 : ℝ) : (samples g n x t0).length = n := by simp [samples]

theorem binValues_getD (n : Nat) (c : ℤ → ℂ) (k : Nat) (z : Cx ℝ) (h : k < n) : (binValues n c).getD k z = Cx.ofC (c (binFrequency n k)) := by
  rw [List.getD_eq_getElem?_getD]; simp [binValues, h]

theorem samples_getD (g : ℝ → ℂ) (n : Nat) (x t0 : ℝ) (k : Nat) (z : Cx ℝ) (h : k < n) :
    (samples g n x t0).getD k z = Cx.ofC (g (t0 + k * x)) := by
  rw [List.getD_eq_getElem?_getD]; simp [samples, h]

theorem binFrequency_mem (n k : Nat) (h : k < n) :
    binFrequency n k ∈ Finset.Ico (-((n / 2 : Nat) : ℤ)) ((n - n / 2 : Nat) : ℤ) := by
  unfold binFrequency
  rw [Finset.mem_Ico]
  split <;> constructor <;> omega

theorem wave_bins (P : ℝ) (n : Nat) (c : ℤ → ℂ) (t : ℝ) :
    wave P n c t = ∑ k ∈ Finset.range n, c (binFrequency n k) * turn (binFrequency n k * t / P) := by
  unfold wave
  symm
  refine Finset.sum_bij (fun k _ => binFrequency n k) (fun k hk => binFrequency_mem n k (Finset.mem_range.1 hk)) ?_ ?_ (fun _ _ => rfl)
  · intro a ha b hb h
    have := Finset.mem_range.1 ha
    have := Finset.mem_range.1 hb
    unfold binFrequency at h
    split at h <;> split at h <;> omega
  · intro f hf
    rw [Finset.mem_Ico] at hf
    by_cases h : 0 ≤ f
    · refine ⟨f.toNat, Finset.mem_range.2 (by omega), ?_⟩
      unfold binFrequency
      rw [if_pos (by omega)]; omega
    · refine ⟨(f + n).toNat, Finset.mem_range.2 (by omega), ?_⟩
      unfold binFrequency
      rw [if_neg (by omega)]; omega

theorem turn_bin (n k i : Nat) (hn : n ≠ 0) : turn (binFrequency n k * i / n) = turn (k * i / n) := by
  have h : (n : ℝ) ≠ 0 := by exact_mod_cast hn
  unfold binFrequency
  split
  · simp
  · rw [← turn_add_int (k * i / n) (-i)]
    congr 1; push_cast; field_simp; ring

/-- The inverse transform of the amplitudes are the points of the wave. -/
theorem inverse_binValues (P : ℝ) (hP : P ≠ 0) (n : Nat) (c : ℤ → ℂ) :
    dftKernel.inverse (binValues n c) = samples (wave P n c) n (P / n) 0 := by
  have hl := dft_inverts.length.2 (binValues n c)
  rw [binValues_length] at hl
  apply list_ext_toC (by simpa using hl)
  intro i hi
  rw [hl] at hi
  rw [dft_isDft.inverse _ i (by simpa using hi), samples_getD _ _ _ _ _ _ hi, Cx.toC_ofC, wave_bins]
  unfold fourierAt
  rw [binValues_length]
  refine Finset.sum_congr rfl fun k hk => ?_
  rw [binValues_getD _ _ _ _ (Finset.mem_range.1 hk), Cx.toC_ofC]
  congr 1
  have h : (n : ℝ) ≠ 0 := by exact_mod_cast (by omega : n ≠ 0)
  rw [show (binFrequency n k : ℝ) * (0 + i * (P / n)) / P = binFrequency n k * i / n by field_simp; ring, turn_bin n k i (by omega)]
  congr 1; push_cast; ring

theorem map_scaleBy_binValues (n : Nat) (c : ℤ → ℂ) (x : ℝ) : (binValues n c).map (Cx.scaleBy x) = binValues n fun f => x * c f := by
  unfold binValues
  rw [List.map_map]
  refine List.map_congr_left fun k _ => ?_
  simp [Cx.scaleBy, Cx.ofC]

/-- The transform of the points of a wave. -/
theorem forward_samples (P : ℝ) (hP : P ≠ 0) (n : Nat) (c : ℤ → ℂ) :
    dftKernel.forward (samples (wave P n c) n (P / n) 0) = binValues n fun f => (n : ℝ) * c f := by
  rw [← inverse_binValues P hP, dft_inverts.forth, binValues_length, map_scaleBy_binValues]

/-- Another start time is another phase of the amplitudes. -/
theorem wave_start (P : ℝ) (n : Nat) (c : ℤ → ℂ) (t0 t : ℝ) : wave P n (fun f => c f * turn (f * t0 / P)) t = wave P n c (t0 + t) := by
  unfold wave
  refine Finset.sum_congr rfl fun f _ => ?_
  rw [mul_assoc, ← turn_add]; congr 2; ring

theorem samples_start (P : ℝ) (n N : Nat) (c : ℤ → ℂ) (x t0 : ℝ) :
    samples (wave P n c) N x t0 = samples (wave P n fun f => c f * turn (f * t0 / P)) N x 0 := by
  unfold samples
  refine List.map_congr_left fun k _ => ?_
  rw [wave_start, zero_add]

theorem cisReal_toC (x : ℝ) : (cisReal x).toC = turn (x / (2 * Real.pi)) := by
  unfold turn
  have : (2 * Real.pi * (x / (2 * Real.pi) : ℝ) * Complex.I : ℂ) = x * Complex.I := by
    have h : (Real.pi : ℂ) ≠ 0 := by exact_mod_cast Real.pi_ne_zero
    push_cast; field_simp
  rw [this, Complex.exp_mul_I]
  apply Complex.ext <;> simp [Cx.toC, cisReal, ← Complex.ofReal_cos, ← Complex.ofReal_sin]

theorem phaseShifted_binValues (d : ℝ) (n : Nat) (c : ℤ → ℂ) :
    phaseShifted cisReal Real.pi d (binValues n c) = binValues n fun f => c f * turn (d * f / n) := by
  apply list_ext_toC (by simp [phaseShifted])
  intro i hi
  have hi : i < n := by simpa [phaseShifted] using hi
  rw [binValues_getD _ _ _ _ hi, List.getD_eq_getElem?_getD]
  unfold phaseShifted
  rw [List.getElem?_mapIdx, List.getElem?_eq_getElem (by simpa using hi)]
  simp only [Option.map_some, Option.getD_some, binValues_length]
  rw [show (binValues n c)[i]'(by simpa using hi) = Cx.ofC (c (binFrequency n i)) by simp [binValues]]
  rw [Cx.toC_mul, Cx.toC_ofC, Cx.toC_ofC, cisReal_toC]
  congr 2
  have := Real.pi_ne_zero
  field_simp

/-- The amplitudes which remain if the number of bins is changed. -/
noncomputable def inBand (m : Nat) (c : ℤ → ℂ) (f : ℤ) : ℂ :=
  if f ∈ Finset.Ico (-((m / 2 : Nat) : ℤ)) ((m - m / 2 : Nat) : ℤ) then c f else 0

theorem resampled_binValues (n N : Nat) (c : ℤ → ℂ) :
    resampledSpectrum N (binValues n c) = binValues N (inBand (min n N) c) := by
  unfold resampledSpectrum
  rw [binValues_length]
  conv_rhs => unfold binValues
  refine List.map_congr_left fun i hi => ?_
  have hi := List.mem_range.1 hi
  unfold inBand
  have e0 : Cx.ofC 0 = 0 := rfl
  by_cases hn : n ≤ N
  · rw [if_pos hn, Nat.min_eq_left hn]
    have hb : binFrequency N i = if i < N - N / 2 then (i : ℤ) else (i : ℤ) - N := rfl
    by_cases h1 : i < n - n / 2
    · rw [if_pos h1, binValues_getD _ _ _ _ (by omega), if_pos, show binFrequency n i = binFrequency N i by
        rw [hb]; unfold binFrequency; rw [if_pos h1, if_pos (by omega)]]
      rw [hb, Finset.mem_Ico, if_pos (by omega)]; omega
    · rw [if_neg h1]
      by_cases h2 : N - n / 2 ≤ i
      · rw [if_pos h2, binValues_getD _ _ _ _ (by omega), if_pos, show binFrequency n (i - (N - n)) = binFrequency N i by
          rw [hb]; unfold binFrequency; rw [if_neg (by omega), if_neg (by omega)]; omega]
        rw [hb, Finset.mem_Ico, if_neg (by omega)]; omega
      · rw [if_neg h2, if_neg, e0]
        rw [hb, Finset.mem_Ico]
        split <;> omega
  · rw [if_neg hn, Nat.min_eq_right (by omega), if_pos (binFrequency_mem N i hi)]
    have hb : binFrequency N i = if i < N - N / 2 then (i : ℤ) else (i : ℤ) - N := rfl
    by_cases h1 : i < N - N / 2
    · rw [if_pos h1, binValues_getD _ _ _ _ (by omega), show binFrequency n i = binFrequency N i by
        rw [hb]; unfold binFrequency; rw [if_pos h1, if_pos (by omega)]]
    · rw [if_neg h1, binValues_getD _ _ _ _ (by omega), show binFrequency n (i + (n - N)) = binFrequency N i by
        rw [hb]; unfold binFrequency; rw [if_neg h1, if_neg (by omega)]; omega]

theorem wave_inBand (P : ℝ) (m N : Nat) (h : m ≤ N) (c : ℤ → ℂ) (t : ℝ) : wave P N (inBand m c) t = wave P m c t := by
  unfold wave inBand
  have hs : Finset.Ico (-((m / 2 : Nat) : ℤ)) ((m - m / 2 : Nat) : ℤ) ⊆ Finset.Ico (-((N / 2 : Nat) : ℤ)) ((N - N / 2 : Nat) : ℤ) := by
    intro f hf
    rw [Finset.mem_Ico] at *
    omega
  rw [← Finset.sum_subset hs]
  · exact Finset.sum_congr rfl fun f hf => by rw [if_pos hf]
  · intro f _ hf; rw [if_neg hf, zero_mul]

/-- The interpolation in the frequency domain: the points of the same wave at other times. -/
theorem interpolated_samples (P : ℝ) (hP : P ≠ 0) (n N : Nat) (hn : 1 ≤ n) (hN : 1 ≤ N) (c : ℤ → ℂ) (t0 d : ℝ) :
    interpolated dftKernel cisReal Real.pi none N d (samples (wave P n c) n (P / n) t0) =
      samples (wave P (min n N) c) N (P / N) (t0 + d * (P / n)) := by
  have hn0 : (n : ℝ) ≠ 0 := by exact_mod_cast (by omega : n ≠ 0)
  have hN0 : (N : ℝ) ≠ 0 := by exact_mod_cast (by omega : N ≠ 0)
  unfold interpolated interpolatedSpectrum
  dsimp only
  rw [samples_start, forward_samples P hP, binValues_length, phaseShifted_binValues, resampled_binValues, map_scaleBy_binValues,
    ← dft_homogeneous, map_scaleBy_binValues, inverse_binValues P hP, samples_start P _ _ c _ (t0 + d * (P / n))]
  unfold samples
  refine List.map_congr_left fun k _ => ?_
  congr 1
  rw [← wave_inBand P (min n N) N (Nat.min_le_right _ _)]
  congr 1
  funext f
  unfold inBand
  split
  · dsimp only
    rw [show (f : ℝ) * (t0 + d * (P / n)) / P = f * t0 / P + d * f / n by field_simp, turn_add]
    have h1 : (n : ℂ) ≠ 0 := by exact_mod_cast hn0
    have h2 : (N : ℂ) ≠ 0 := by exact_mod_cast hN0
    push_cast
    field_simp
  · simp

/-- A response at the bins is a factor of the amplitudes. -/
theorem binFiltered_binValues (F : ℝ → ℝ) (ratio : ℝ) (N : Nat) (c : ℤ → ℂ) :
    binFiltered F ratio (binValues N c) = binValues N fun f => c f * (ratio * F (f / ((N / 2 : Nat) : ℝ) * ratio) : ℝ) := by
  apply list_ext_toC (by simp [binFiltered])
  intro i hi
  have hi : i < N := by simpa [binFiltered] using hi
  rw [binValues_getD _ _ _ _ hi, List.getD_eq_getElem?_getD]
  unfold binFiltered
  rw [List.getElem?_mapIdx, List.getElem?_eq_getElem (by simpa using hi)]
  simp only [Option.map_some, Option.getD_some, binValues_length]
  rw [show (binValues N c)[i]'(by simpa using hi) = Cx.ofC (c (binFrequency N i)) by simp [binValues]]
  rw [Cx.toC_mul, Cx.toC_ofC, Cx.toC_ofC]
  rfl

/-- The interpolation with a response: the amplitudes are multiplied with the response. -/
theorem interpolated_filtered (P : ℝ) (hP : P ≠ 0) (n N : Nat) (hn : 1 ≤ n) (hN : n < N) (F : ℝ → ℝ) (c : ℤ → ℂ) (t0 d : ℝ) :
    interpolated dftKernel cisReal Real.pi (some F) N d (samples (wave P n c) n (P / n) t0) =
      samples (wave P n fun f => c f * (F (f / ((N / 2 : Nat) : ℝ) * (N / n)) : ℝ)) N (P / N) (t0 + d * (P / n)) := by
  have hn0 : (n : ℝ) ≠ 0 := by exact_mod_cast (by omega : n ≠ 0)
  have hN0 : (N : ℝ) ≠ 0 := by exact_mod_cast (by omega : N ≠ 0)
  unfold interpolated interpolatedSpectrum
  dsimp only
  rw [samples_start, forward_samples P hP, binValues_length, if_pos hN, phaseShifted_binValues, resampled_binValues,
    binFiltered_binValues, ← dft_homogeneous, map_scaleBy_binValues, inverse_binValues P hP,
    samples_start P _ _ _ _ (t0 + d * (P / n)), Nat.min_eq_left (by omega)]
  unfold samples
  refine List.map_congr_left fun k _ => ?_
  congr 1
  rw [← wave_inBand P n N (by omega)]
  congr 1
  funext f
  unfold inBand
  split
  · dsimp only
    rw [show (f : ℝ) * (t0 + d * (P / n)) / P = f * t0 / P + d * f / n by field_simp, turn_add]
    have h1 : (n : ℂ) ≠ 0 := by exact_mod_cast hn0
    have h2 : (N : ℂ) ≠ 0 := by exact_mod_cast hN0
    push_cast
    field_simp
  · simp

theorem binFrequency_image (m n i : Nat) (hi : i < m * n) (c : ℤ → ℂ) :
    c (binFrequency n (i % n)) = imageOf n c (binFrequency (m * n) i) := by
  unfold imageOf
  have hn : 1 ≤ n := Nat.pos_of_ne_zero fun h => by subst h; omega
  congr 1
  have hr : i % n < n := Nat.mod_lt _ hn
  have e : ∃ q : ℤ, binFrequency (m * n) i = binFrequency n (i % n) + n * q := by
    have h1 := Nat.div_add_mod i n
    generalize i % n = r at *
    generalize i / n = q at *
    unfold binFrequency
    split <;> split
    · exact ⟨q, by rw [← h1]; push_cast; ring⟩
    · exact ⟨q + 1, by rw [← h1]; push_cast; ring⟩
    · exact ⟨q - m, by rw [← h1]; push_cast; ring⟩
    · exact ⟨q + 1 - m, by rw [← h1]; push_cast; ring⟩
  obtain ⟨q, hq⟩ := e
  have hb := Finset.mem_Ico.1 (binFrequency_mem n (i % n) hr)
  rw [hq, show binFrequency n (i % n) + n * q + ((n / 2 : Nat) : ℤ) = binFrequency n (i % n) + ((n / 2 : Nat) : ℤ) + n * q by ring,
    Int.add_mul_emod_self_left, Int.emod_eq_of_lt (by omega) (by omega)]
  ring

/-- The bins of a signal with zeros between the points: the bins of the signal, repeated. -/
theorem repeated_binValues (m n : Nat) (hm : 1 ≤ m) (c : ℤ → ℂ) :
    (List.replicate m (binValues n c)).flatten = binValues (m * n) (imageOf n c) := by
  have key : ∀ m', (List.replicate m' (binValues n c)).flatten = (List.range (m' * n)).map fun (i : Nat) => Cx.ofC (c (binFrequency n (i % n))) := by
    intro m'
    induction m' with
    | zero => simp
    | succ m' ih =>
      rw [List.replicate_succ', List.flatten_append, ih, Nat.succ_mul, List.range_add, List.map_append]
      congr 1
      simp only [List.flatten_cons, List.flatten_nil, List.append_nil, List.map_map]
      unfold binValues
      refine List.map_congr_left fun i hi => ?_
      have hi := List.mem_range.1 hi
      simp only [Function.comp]
      rw [Nat.add_comm, Nat.add_mul_mod_self_right, Nat.mod_eq_of_lt hi]
  rw [key]
  conv_rhs => unfold binValues
  refine List.map_congr_left fun i hi => ?_
  rw [binFrequency_image m n i (List.mem_range.1 hi) c]

/-- The interpolation by a whole factor: the images of the amplitudes are multiplied with the response. -/
theorem interpolatedBy_samples (P : ℝ) (hP : P ≠ 0) (n m : Nat) (hn : 1 ≤ n) (hm : 1 ≤ m) (F : ℝ → ℝ) (c : ℤ → ℂ) :
    interpolatedBy dftKernel F m (samples (wave P n c) n (P / n) 0) =
      samples (wave P (m * n) fun f => imageOf n c f * (F (f / ((m * n / 2 : Nat) : ℝ) * m) : ℝ)) (m * n) (P / n / m) 0 := by
  have hn0 : (n : ℝ) ≠ 0 := by exact_mod_cast (by omega : n ≠ 0)
  have hm0 : (m : ℝ) ≠ 0 := by exact_mod_cast (by omega : m ≠ 0)
  unfold interpolatedBy
  rw [dft_repeats m _ hm, forward_samples P hP, repeated_binValues m n hm, binFiltered_binValues, ← dft_homogeneous,
    map_scaleBy_binValues, inverse_binValues P hP, samples_length]
  rw [show P / n / m = P / (m * n : Nat) by push_cast; field_simp]
  congr 2
  funext f
  unfold imageOf
  have h1 : (n : ℂ) ≠ 0 := by exact_mod_cast hn0
  have h2 : (m : ℂ) ≠ 0 := by exact_mod_cast hm0
  push_cast
  field_simp

end Dsp
