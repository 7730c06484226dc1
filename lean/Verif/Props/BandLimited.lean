import Verif.Lemmas.BandLimited
import Verif.Props.Interpft
import Verif.Props.Fft
import Verif.Props.InterpftCases
/-
C91: band limited signals. What the transforms and the interpolations in the frequency domain mean for the wave of which the
vector holds the points.
-/
namespace Dsp
open DspVec

theorem isDft_keepsLength {K : FftKernel ℝ} (hK : K.IsDft) : K.KeepsLength := ⟨hK.forward_length, hK.inverse_length⟩

theorem isDft_inverts {K : FftKernel ℝ} (hK : K.IsDft) : K.Inverts where
  length := isDft_keepsLength hK
  back cs := by rw [hK.inverse_eq, hK.forward_eq, dft_inverts.back]
  forth cs := by rw [hK.inverse_eq, hK.forward_eq, dft_inverts.forth]

theorem forward_points (x : ℝ) (hx : x ≠ 0) (n : Nat) (hn : n ≠ 0) (c : ℤ → ℂ) :
    dftKernel.forward (samples (wave (n * x) n c) n x 0) = binValues n fun f => (n : ℝ) * c f := by
  have hn0 : (n : ℝ) ≠ 0 := by exact_mod_cast hn
  have := forward_samples (n * x) (mul_ne_zero hn0 hx) n c
  rwa [show (n : ℝ) * x / n = x by field_simp] at this

theorem inverse_points (x : ℝ) (hx : x ≠ 0) (n : Nat) (hn : n ≠ 0) (c : ℤ → ℂ) :
    dftKernel.inverse (binValues n c) = samples (wave (n * x) n c) n x 0 := by
  have hn0 : (n : ℝ) ≠ 0 := by exact_mod_cast hn
  have := inverse_binValues (n * x) (mul_ne_zero hn0 hx) n c
  rwa [show (n : ℝ) * x / n = x by field_simp] at this

theorem interpolated_dft {K : FftKernel ℝ} (hK : K.IsDft) (f : Option (ℝ → ℝ)) (N : Nat) (d : ℝ) (a : List (Cx ℝ)) :
    interpolated K cisReal Real.pi f N d a = interpolated dftKernel cisReal Real.pi f N d a := by
  unfold interpolated; rw [hK.forward_eq, hK.inverse_eq]

/-- C91: every signal consists of the points of one wave, whose frequencies are below half of the sampling rate: for all points there
    are amplitudes, and they are unique. -/
theorem C91_every_signal (a : List (Cx ℝ)) (x t0 : ℝ) (hx : x ≠ 0) :
    (∃ c : ℤ → ℂ, a = samples (wave (a.length * x) a.length c) a.length x t0) ∧
    ∀ c c' : ℤ → ℂ, samples (wave (a.length * x) a.length c) a.length x t0 = samples (wave (a.length * x) a.length c') a.length x t0 →
      ∀ f : ℤ, -((a.length / 2 : Nat) : ℤ) ≤ f → f < ((a.length - a.length / 2 : Nat) : ℤ) → c f = c' f := by
  generalize hn : a.length = n
  by_cases h0 : n = 0
  · subst h0
    rw [List.eq_nil_of_length_eq_zero hn]
    refine ⟨⟨fun _ => 0, rfl⟩, fun c c' _ f h1 h2 => ?_⟩
    simp at h1 h2; omega
  have hn0 : (n : ℝ) ≠ 0 := by exact_mod_cast h0
  constructor
  · -- the amplitudes are the bins of the transform
    let A : ℤ → ℂ := fun f => ((dftKernel.forward a).getD ((f % n).toNat) ⟨0, 0⟩).toC / n
    have hA : binValues n A = (dftKernel.forward a).map (Cx.scaleBy (1 / (n : ℝ))) := by
      have hl := dft_inverts.length.1 a
      apply list_ext_toC (by simp [hl, hn])
      intro i hi
      have hi : i < n := by simpa using hi
      rw [binValues_getD _ _ _ _ hi, Cx.toC_ofC, getD_map _ _ _ (by omega)]
      have hb : (binFrequency n i % (n : ℤ)).toNat = i := by
        unfold binFrequency
        split
        · rw [Int.emod_eq_of_lt (by omega) (by omega)]; omega
        · rw [Int.sub_emod_right, Int.emod_eq_of_lt (by omega) (by omega)]; omega
      show ((dftKernel.forward a).getD ((binFrequency n i % (n : ℤ)).toNat) ⟨0, 0⟩).toC / n = _
      rw [hb]
      generalize (dftKernel.forward a).getD i ⟨0, 0⟩ = z
      have : (n : ℂ) = ((n : ℝ) : ℂ) := by push_cast; rfl
      rw [this]
      apply Complex.ext <;> simp [Cx.toC, Cx.scaleBy] <;> ring
    refine ⟨fun f => A f * turn (-(f * t0 / (n * x))), ?_⟩
    rw [samples_start]
    have e : (fun f : ℤ => A f * turn (-(f * t0 / (n * x))) * turn (f * t0 / (n * x))) = A := by
      funext f; rw [mul_assoc, ← turn_add, neg_add_cancel, turn_zero, mul_one]
    rw [e]
    rw [← inverse_points x hx n h0 A, hA, dft_homogeneous, dft_inverts.back, scaleBy_scaleBy, hn, one_div_mul_cancel hn0, scaleBy_one]
  · intro c c' h f h1 h2
    rw [samples_start, samples_start (n * x) n n c'] at h
    have h := congrArg dftKernel.forward h
    rw [forward_points x hx n h0, forward_points x hx n h0] at h
    have key : ∀ i < n, c (binFrequency n i) = c' (binFrequency n i) := by
      intro i hi
      have := congrArg (fun l => (List.getD l i (⟨0, 0⟩ : Cx ℝ)).toC) h
      rw [binValues_getD _ _ _ _ hi, binValues_getD _ _ _ _ hi, Cx.toC_ofC, Cx.toC_ofC] at this
      have h3 : ((n : ℝ) : ℂ) ≠ 0 := by exact_mod_cast h0
      exact mul_right_cancel₀ (turn_ne _) (mul_left_cancel₀ h3 this)
    by_cases hf : 0 ≤ f
    · have := key f.toNat (by omega)
      unfold binFrequency at this
      rw [if_pos (by omega)] at this
      rwa [Int.toNat_of_nonneg hf] at this
    · have := key (f + n).toNat (by omega)
      unfold binFrequency at this
      rw [if_neg (by omega), Int.toNat_of_nonneg (by omega)] at this
      rwa [show f + (n : ℤ) - n = f by ring] at this

/-- C91: `fft` shows the amplitudes of the wave, from the lowest (negative) to the highest frequency, times the number of points. -/
theorem C91_fft (K : FftKernel ℝ) (hK : K.IsDft) (v : DspVec ℝ) (hv : v.WF) (ht : v.Typed) (hd : v.dom = .time) (b : Buffer ℝ)
    (hb : TransformBufferOk K b v) (x : ℝ) (hx : x ≠ 0) (n : Nat) (c : ℤ → ℂ) (hn : 1 ≤ n)
    (hc : v.cpoints = some (samples (wave (n * x) n c) n x 0)) :
    ∃ w b', v.fft K b = some (w, b') ∧ w.dom = .frequency ∧
      w.cpoints = some ((List.range n).map fun (i : Nat) => Cx.ofC ((n : ℝ) * c ((i : ℤ) - ((n / 2 : Nat) : ℤ)))) := by
  obtain ⟨w, b', cs, e1, e2, e3, -, -, e4, -⟩ := C34_fft K (isDft_keepsLength hK) v hv ht hd b hb
  refine ⟨w, b', e1, e4, ?_⟩
  rw [hc] at e2
  rw [e3, ← Option.some.inj e2, samples_length, hK.forward_eq]
  congr 1
  rw [forward_points x hx n (by omega)]
  unfold rotateRight
  rw [binValues_length]
  unfold binValues
  rw [← List.map_drop, ← List.map_take, ← List.map_append]
  apply List.ext_getElem
  · simp
  intro i h1 h2
  have hi : i < n := by simpa using h2
  rw [List.getElem_map, List.getElem_map, List.getElem_append]
  have e : ∀ k, k < n → binFrequency n k = (i : ℤ) - ((n / 2 : Nat) : ℤ) →
      Cx.ofC ((n : ℝ) * c (binFrequency n k)) = Cx.ofC ((n : ℝ) * c (((List.range n)[i]'(by simpa using hi) : ℕ) - ((n / 2 : Nat) : ℤ))) := by
    intro k _ h; rw [h]; simp
  split
  · rename_i h
    have h : i < n / 2 := by simp at h; omega
    rw [List.getElem_drop]
    simp only [List.getElem_range]
    have := e (n - n / 2 + i) (by omega) (by unfold binFrequency; rw [if_neg (by omega)]; omega)
    simpa using this
  · rename_i h
    have h : n / 2 ≤ i := by simp at h; omega
    have := e (i - n / 2) (by omega) (by unfold binFrequency; rw [if_pos (by omega)]; omega)
    simp only [List.getElem_take, List.getElem_range, List.length_drop, List.length_range]
    rw [show i - (n - (n - n / 2)) = i - n / 2 by omega]
    simpa using this

/-- C91 (partial: a delay needs an even number of points, or a multiple of the sampling distance, or a smaller number of points
    in the result; the other cases are wrong, `C57_delay_iff`): the vector holds `n` points of a wave, from the time `t0` with the
    distance `x`. `interpolate` gives `N` points of the wave in the same period, which start at the time `t0 + delay`. If `N` is smaller
    than `n` then the wave loses the frequencies which `N` points cannot show. The new sampling distance is reported. For a real vector
    the real parts remain. -/
theorem C91_interpolate_partial (K : FftKernel ℝ) (hK : K.IsDft) (k : RegKind) (addr : Nat) (st : MultiCoreSettings) (N : Nat)
    (hN : 1 ≤ N) (delay : ℝ) (v : DspVec ℝ) (s : Signal ℝ) (hv : v.Shows s) (x : ℝ) (hx : x ≠ 0) (hs : s.delta = some x)
    (n : Nat) (hn : 1 ≤ n) (c : ℤ → ℂ) (t0 : ℝ) (hc : s.numbers.asCx = samples (wave (n * x) n c) n x t0)
    (hd : N < n ∨ delay = 0 ∨ n % 2 = 0 ∨ ∃ j : ℤ, delay = j * x) (b : Buffer ℝ) (he : InterpolationEnv K k addr v b n N) :
    ∃ w b', Always2 (v.interpolate K k addr cisReal Real.pi st none N delay b) (w, b', .ok ()) ∧
      w.Shows { s with
        numbers := s.numbers.receive (samples (wave (n * x) (min n N) c) N (n * x / N) (t0 + delay))
        delta := some (n * x / N) } := by
  have hcount : s.numbers.count = n := by rw [← length_asCx, hc, samples_length]
  have hn0 : (n : ℝ) ≠ 0 := by exact_mod_cast (by omega : n ≠ 0)
  have hN0 : (N : ℝ) ≠ 0 := by exact_mod_cast (by omega : N ≠ 0)
  obtain ⟨w, b', h2, h3, -⟩ := C57_exact K (isDft_keepsLength hK) k addr cisReal cisReal_zero cisReal_add Real.pi st none N delay
    (delay / x) v s hv (by omega) (.inr ⟨x, hs, rfl⟩) (fun _ f h => by cases h) b he.storage
    (by rw [hcount]; exact he.room.imp_right fun h => ⟨by rw [← hv.isComplex]; exact h.1, h.2⟩) (by rw [hcount]; exact he.before) he.after he.address
  refine ⟨w, b', h2, ?_⟩
  have hfit := (C57_delay_iff K (isDft_inverts hK) cisReal cisReal_zero cisReal_add Real.pi N n hN hn (delay / x)).2 (by
    rcases hd with h | h | h | ⟨j, h⟩
    · exact .inl h
    · exact .inr (.inl (by rw [h, zero_div]))
    · exact .inr (.inr (.inl h))
    · refine .inr (.inr (.inr ?_))
      have e : (cisReal (2 * Real.pi * (delay / x))).toC = 1 := by
        rw [cisReal_toC, h, show 2 * Real.pi * (j * x / x) / (2 * Real.pi) = j by have := Real.pi_ne_zero; field_simp, turn_int]
      rw [← Cx.ofC_toC (cisReal _), e]; rfl) s.numbers.asCx (by rw [length_asCx, hcount])
  rw [hfit, interpolated_dft hK, hc] at h3
  have hx' : x = (n : ℝ) * x / n := by field_simp
  have e := interpolated_samples (n * x) (mul_ne_zero hn0 hx) n N hn hN c t0 (delay / x)
  rw [← hx', div_mul_cancel₀ _ hx] at e
  rw [e, hs, hcount] at h3
  have e2 : Option.map (fun y => y / ((N : ℝ) / (n : ℝ))) (some x) = some (n * x / N) := by
    simp only [Option.map_some, Option.some.injEq]; field_simp
  rw [e2] at h3
  exact h3

/-- C91: `interpft` gives `N` points of the wave in the same period. -/
theorem C91_interpft (K : FftKernel ℝ) (hK : K.IsDft) (k : RegKind) (addr : Nat) (st : MultiCoreSettings) (N : Nat)
    (hN : 1 ≤ N) (v : DspVec ℝ) (s : Signal ℝ) (hv : v.Shows s) (x : ℝ) (hx : x ≠ 0) (hs : s.delta = some x)
    (n : Nat) (hn : 1 ≤ n) (c : ℤ → ℂ) (t0 : ℝ) (hc : s.numbers.asCx = samples (wave (n * x) n c) n x t0)
    (b : Buffer ℝ) (he : InterpolationEnv K k addr v b n N) :
    ∃ w b', Always2 (v.interpft K k addr cisReal Real.pi st N b) (w, b') ∧
      w.Shows { s with
        numbers := s.numbers.receive (samples (wave (n * x) (min n N) c) N (n * x / N) t0)
        delta := some (n * x / N) } := by
  have hcount : s.numbers.count = n := by rw [← length_asCx, hc, samples_length]
  have hn0 : (n : ℝ) ≠ 0 := by exact_mod_cast (by omega : n ≠ 0)
  have hN0 : (N : ℝ) ≠ 0 := by exact_mod_cast (by omega : N ≠ 0)
  obtain ⟨w, b', h2, h3, -⟩ := C57_interpft K (isDft_keepsLength hK) k addr cisReal cisReal_zero cisReal_add Real.pi st N v s hv
    (by omega) hN b (by rw [hcount]; exact he)
  refine ⟨w, b', h2, ?_⟩
  have hl : s.numbers.asCx.length = n := by rw [length_asCx, hcount]
  have h4 := interpolated_none K (isDft_keepsLength hK) cisReal cisReal_zero Real.pi N s.numbers.asCx
  rw [hl] at h4
  have hx' : x = (n : ℝ) * x / n := by field_simp
  have e := interpolated_samples (n * x) (mul_ne_zero hn0 hx) n N hn hN c t0 0
  rw [← hx', zero_mul, add_zero, ← interpolated_dft hK, ← hc, h4] at e
  have e2 : Option.map (fun y => y / ((N : ℝ) / (n : ℝ))) (some x) = some (n * x / N) := by
    simp only [Option.map_some, Option.some.injEq]; field_simp
  simp only [hcount] at h3
  rw [e, hs, e2] at h3
  exact h3

/-- C91 (partial: the conditions of `C57_interpolate_partial` on the response, and as `C91_interpolate_partial`): the interpolation to
    more points with a response: every amplitude is multiplied with the response at its frequency. 1 is half of the
    sampling rate of the vector before the interpolation if `N` is even (`f / (N / 2) * (N / n) = 2 f / n`). -/
theorem C91_interpolate_response_partial (K : FftKernel ℝ) (hK : K.IsDft) (k : RegKind) (addr : Nat) (st : MultiCoreSettings)
    (F : FrequencyResponse ℝ ℝ) (N : Nat) (delay : ℝ) (v : DspVec ℝ) (s : Signal ℝ) (hv : v.Shows s) (x : ℝ) (hx : x ≠ 0)
    (hs : s.delta = some x) (n : Nat) (hn : 1 ≤ n) (hN : n < N) (c : ℤ → ℂ) (t0 : ℝ)
    (hc : s.numbers.asCx = samples (wave (n * x) n c) n x t0)
    (hd : delay = 0 ∨ n % 2 = 0 ∨ ∃ j : ℤ, delay = j * x)
    (hsym : s.numbers.isComplex = false → F.isSymmetric = true) (hF : ResponseFits (some F) N)
    (b : Buffer ℝ) (he : InterpolationEnv K k addr v b n N) :
    ∃ w b', Always2 (v.interpolate K k addr cisReal Real.pi st (some F) N delay b) (w, b', .ok ()) ∧
      w.Shows { s with
        numbers := s.numbers.receive (samples (wave (n * x) n fun f => c f * (F.value (f / ((N / 2 : Nat) : ℝ) * (N / n)) : ℝ)) N
          (n * x / N) (t0 + delay))
        delta := some (n * x / N) } := by
  have hcount : s.numbers.count = n := by rw [← length_asCx, hc, samples_length]
  have hn0 : (n : ℝ) ≠ 0 := by exact_mod_cast (by omega : n ≠ 0)
  have hN0 : (N : ℝ) ≠ 0 := by exact_mod_cast (by omega : N ≠ 0)
  obtain ⟨w, b', h2, h3, -⟩ := C57_interpolate_partial K (isDft_keepsLength hK) k addr cisReal cisReal_zero cisReal_add Real.pi st
    (some F) N delay (delay / x) v s hv (by omega) (by omega) (.inr ⟨x, hs, rfl⟩) (by
    rw [hcount]
    rcases hd with h | h | ⟨j, h⟩
    · exact .inl (by rw [h, zero_div])
    · exact .inr (.inl h)
    · refine .inr (.inr ?_)
      have e : (cisReal (2 * Real.pi * (delay / x))).toC = 1 := by
        rw [cisReal_toC, h, show 2 * Real.pi * (j * x / x) / (2 * Real.pi) = j by have := Real.pi_ne_zero; field_simp, turn_int]
      rw [← Cx.ofC_toC (cisReal _), e]; rfl)
    (fun h f hf => by cases hf; exact hsym h) (fun _ => hF) b he.storage
    (by rw [hcount]; exact he.room.imp_right fun h => ⟨by rw [← hv.isComplex]; exact h.1, h.2⟩) (by rw [hcount]; exact he.before)
    he.after he.address
  refine ⟨w, b', h2, ?_⟩
  rw [Option.map_some, interpolated_dft hK, hc] at h3
  have hx' : x = (n : ℝ) * x / n := by field_simp
  have e := interpolated_filtered (n * x) (mul_ne_zero hn0 hx) n N hn hN F.value c t0 (delay / x)
  rw [← hx', div_mul_cancel₀ _ hx] at e
  rw [e, hs, hcount] at h3
  have e2 : Option.map (fun y => y / ((N : ℝ) / (n : ℝ))) (some x) = some (n * x / N) := by
    simp only [Option.map_some, Option.some.injEq]; field_simp
  rw [e2] at h3
  exact h3

/-- C91 (partial: the conditions of `C58_interpolatei_partial` on the response): `interpolatei` by the factor `m`: the wave repeats its
    amplitudes after every `n` frequencies (`imageOf`), and each of them is multiplied with the response at its frequency.
    The sampling distance `x / m` of the result is not reported (the old one is kept). -/
theorem C91_interpolatei_partial (K : FftKernel ℝ) (hK : K.IsDft) (k : RegKind) (addr : Nat) (st : MultiCoreSettings)
    (F : FrequencyResponse ℝ ℝ) (m : Nat) (hm : 2 ≤ m) (v : DspVec ℝ) (s : Signal ℝ) (hv : v.Shows s) (x : ℝ) (hx : x ≠ 0)
    (n : Nat) (hn : 1 ≤ n) (c : ℤ → ℂ) (hc : s.numbers.asCx = samples (wave (n * x) n c) n x 0)
    (hsym : s.numbers.isComplex = false → F.isSymmetric = true) (hF : ResponseFits (some F) (m * n))
    (b : Buffer ℝ) (hroom : BufferOk b v.data (2 * (m * n))) (hb : ScratchOk K b (m * n))
    (hal : AlignmentAccepted addr k.len (2 * (m * n))) :
    ∃ w b', Always2 (v.interpolatei K k addr st F m b) (w, b', .ok ()) ∧
      w.Shows { s with
        numbers := s.numbers.receive (samples (wave (n * x) (m * n) fun f =>
          imageOf n c f * (F.value (f / ((m * n / 2 : Nat) : ℝ) * m) : ℝ)) (m * n) (x / m) 0) } := by
  have hcount : s.numbers.count = n := by rw [← length_asCx, hc, samples_length]
  have hn0 : (n : ℝ) ≠ 0 := by exact_mod_cast (by omega : n ≠ 0)
  obtain ⟨w, b', h2, h3, -⟩ := C58_interpolatei_partial K (isDft_keepsLength hK) k addr st F m hm v s hv (by omega) hsym
    (by rw [hcount]; exact hF) b (by rw [hcount]; exact hroom) (by rw [hcount]; exact hb) (by rw [hcount]; exact hal)
  refine ⟨w, b', h2, ?_⟩
  have e0 : interpolatedBy K F.value m s.numbers.asCx = interpolatedBy dftKernel F.value m s.numbers.asCx := by
    unfold interpolatedBy; rw [hK.forward_eq, hK.inverse_eq]
  have e := interpolatedBy_samples (n * x) (mul_ne_zero hn0 hx) n m hn (by omega) F.value c
  rw [show (n : ℝ) * x / n = x by field_simp] at e
  rw [e0, hc, e] at h3
  exact h3

/-- C91: with an ideal low pass (1 below half of the sampling rate, 0 above) and an even number of points in the result `interpolatei` gives
    `m` times as many points of the same wave, if the wave does not contain half of the sampling rate. -/
theorem C91_interpolatei_ideal (K : FftKernel ℝ) (hK : K.IsDft) (k : RegKind) (addr : Nat) (st : MultiCoreSettings)
    (F : FrequencyResponse ℝ ℝ) (m : Nat) (hm : 2 ≤ m) (v : DspVec ℝ) (s : Signal ℝ) (hv : v.Shows s) (x : ℝ) (hx : x ≠ 0)
    (n : Nat) (hn : 1 ≤ n) (c : ℤ → ℂ) (t0 : ℝ) (hc : s.numbers.asCx = samples (wave (n * x) n c) n x t0)
    (hs : F.isSymmetric = true) (he : EvenFunction F.value) (hmn : m * n % 2 = 0)
    (low : ∀ y, |y| < 1 → F.value y = 1) (high : ∀ y, 1 < |y| → F.value y = 0)
    (half : n % 2 = 0 → c (-((n / 2 : Nat) : ℤ)) = 0)
    (b : Buffer ℝ) (hroom : BufferOk b v.data (2 * (m * n))) (hb : ScratchOk K b (m * n))
    (hal : AlignmentAccepted addr k.len (2 * (m * n))) :
    ∃ w b', Always2 (v.interpolatei K k addr st F m b) (w, b', .ok ()) ∧
      w.Shows { s with numbers := s.numbers.receive (samples (wave (n * x) n c) (m * n) (x / m) t0) } := by
  have hn0 : (n : ℝ) ≠ 0 := by exact_mod_cast (by omega : n ≠ 0)
  have hn1 : (0 : ℝ) < n := by exact_mod_cast hn
  rw [samples_start] at hc
  obtain ⟨w, b', h2, h3⟩ := C91_interpolatei_partial K hK k addr st F m hm v s hv x hx n hn _ hc (fun _ => hs)
    (fun f h => by cases h; exact ⟨fun _ => ⟨he, hmn⟩, fun h => by rw [hs] at h; cases h⟩) b hroom hb hal
  refine ⟨w, b', h2, ?_⟩
  rw [samples_start]
  set c' : ℤ → ℂ := fun f => c f * turn (f * t0 / (n * x)) with hc'
  have e : samples (wave (n * x) (m * n) fun f => imageOf n c' f * (F.value (f / ((m * n / 2 : Nat) : ℝ) * m) : ℝ)) (m * n) (x / m) 0 =
      samples (wave (n * x) n c') (m * n) (x / m) 0 := by
    unfold samples
    refine List.map_congr_left fun i _ => ?_
    congr 1
    rw [← wave_inBand (n * x) n (m * n) (Nat.le_mul_of_pos_left _ (by omega))]
    congr 1
    funext f
    have hax : (f : ℝ) / ((m * n / 2 : Nat) : ℝ) * m = 2 * f / n := by
      have h1 : (2 : ℝ) * ((m * n / 2 : Nat) : ℝ) = m * n := by exact_mod_cast (by omega : 2 * (m * n / 2) = m * n)
      have hm0 : (m : ℝ) ≠ 0 := by exact_mod_cast (by omega : m ≠ 0)
      have h2 : ((m * n / 2 : Nat) : ℝ) = m * n / 2 := by linarith
      rw [h2]; field_simp
    rw [hax]
    have habs : |2 * (f : ℝ) / n| = 2 * |(f : ℝ)| / n := by
      rw [abs_div, abs_mul, abs_of_pos hn1, abs_of_pos (by norm_num : (0 : ℝ) < 2)]
    have hcast : |(f : ℝ)| = ((|f| : ℤ) : ℝ) := by push_cast; rfl
    unfold inBand
    by_cases h1 : 2 * |f| < n
    · rw [low _ (by rw [habs, hcast, div_lt_one hn1]; exact_mod_cast h1)]
      have hf : -((n / 2 : Nat) : ℤ) ≤ f ∧ f < ((n - n / 2 : Nat) : ℤ) := by rcases abs_cases f with h | h <;> omega
      rw [if_pos (Finset.mem_Ico.2 hf)]
      unfold imageOf
      rw [Int.emod_eq_of_lt (by omega) (by omega), add_sub_cancel_right]; simp
    · by_cases h2 : 2 * |f| = n
      · have hz : c' (-((n / 2 : Nat) : ℤ)) = 0 := by rw [hc']; dsimp only; rw [half (by omega), zero_mul]
        have hi : imageOf n c' f = 0 := by
          unfold imageOf
          have : (f + ((n / 2 : Nat) : ℤ)) % n = 0 := by
            rcases abs_cases f with h | h
            · rw [show f + ((n / 2 : Nat) : ℤ) = n by omega, Int.emod_self]
            · rw [show f + ((n / 2 : Nat) : ℤ) = 0 by omega, Int.zero_emod]
          rw [this, zero_sub]; exact hz
        rw [hi, zero_mul]
        split
        · rename_i h
          rw [Finset.mem_Ico] at h
          rw [show f = -((n / 2 : Nat) : ℤ) by rcases abs_cases f with h' | h' <;> omega, hz]
        · rfl
      · rw [high _ (by rw [habs, hcast, one_lt_div hn1]; exact_mod_cast (by omega : (n : ℤ) < 2 * |f|)), if_neg]
        · simp
        · rw [Finset.mem_Ico]; rcases abs_cases f with h | h <;> omega
  rw [e] at h3
  exact h3

/-- The oscillation with the frequency `-1 / P`. -/
noncomputable def lowestTone (f : ℤ) : ℂ := if f = -1 then 1 else 0

theorem turn_half : turn (-1 / 2) = -1 := by
  unfold turn
  rw [show (2 * Real.pi * ((-1 / 2 : ℝ) : ℂ) * Complex.I : ℂ) = -(Real.pi * Complex.I) by push_cast; ring, Complex.exp_neg,
    Complex.exp_pi_mul_I]
  norm_num

theorem lowestTone_wave (t : ℝ) : wave 2 2 lowestTone t = turn (-t / 2) := by
  rw [wave_bins, Finset.sum_range_succ, Finset.sum_range_one]
  simp [binFrequency, lowestTone]

/-- The hypotheses of `C91_interpolate_partial` and `C91_interpft` are met: the points 1, -1 are points of `exp(-π j t)`; four points from the
    time 1/2. -/
example (k : RegKind) (st : MultiCoreSettings) :
    ([⟨1, 0⟩, ⟨-1, 0⟩] : List (Cx ℝ)) = samples (wave ((2 : Nat) * 1) 2 lowestTone) 2 1 0 ∧
    (∃ w b', Always2 (complexPair.interpolate dftKernel k 0 cisReal Real.pi st none 4 (1 / 2) (.single [])) (w, b', .ok ()) ∧
      w.Shows ⟨.complex (samples (fun t => turn (-t / 2)) 4 (1 / 2) (1 / 2)), .time, false, some (1 / 2)⟩) ∧
    ∃ w b', Always2 (complexPair.interpft dftKernel k 0 cisReal Real.pi st 4 (.single [])) (w, b') ∧
      w.Shows ⟨.complex (samples (fun t => turn (-t / 2)) 4 (1 / 2) 0), .time, false, some (1 / 2)⟩ := by
  have hw : wave ((2 : Nat) * 1) 2 lowestTone = fun t => turn (-t / 2) := by
    funext t; rw [show (((2 : Nat) : ℝ) * 1) = 2 by norm_num, lowestTone_wave]
  have hp : ([⟨1, 0⟩, ⟨-1, 0⟩] : List (Cx ℝ)) = samples (wave ((2 : Nat) * 1) 2 lowestTone) 2 1 0 := by
    rw [hw]
    have h0 := turn_zero
    have h1 := turn_half
    simp only [samples, List.range_succ, List.range_zero, List.nil_append, List.cons_append, List.map_cons, List.map_nil, Nat.cast_zero,
      Nat.cast_one, zero_add, mul_one, neg_zero, zero_div, h0, h1]
    simp [Cx.ofC]
  refine ⟨hp, ?_, ?_⟩
  · obtain ⟨w, b', h1, h2⟩ := C91_interpolate_partial dftKernel dft_isDft k 0 st 4 (by omega) (1 / 2) complexPair _ complexPair_shows 1
      one_ne_zero rfl 2 (by omega) lowestTone 0 hp (.inr (.inr (.inl rfl))) (.single []) (env_vec _ _ _ rfl _ _)
    refine ⟨w, b', h1, ?_⟩
    rw [show min 2 4 = 2 from rfl, hw, show (((2 : Nat) : ℝ) * 1 / ((4 : Nat) : ℝ)) = 1 / 2 by norm_num, zero_add] at h2
    exact h2
  · obtain ⟨w, b', h1, h2⟩ := C91_interpft dftKernel dft_isDft k 0 st 4 (by omega) complexPair _ complexPair_shows 1
      one_ne_zero rfl 2 (by omega) lowestTone 0 hp (.single []) (env_vec _ _ _ rfl _ _)
    refine ⟨w, b', h1, ?_⟩
    rw [show min 2 4 = 2 from rfl, hw, show (((2 : Nat) : ℝ) * 1 / ((4 : Nat) : ℝ)) = 1 / 2 by norm_num] at h2
    exact h2

/-- The hypotheses of `C91_interpolatei_ideal` are met: a constant wave and an ideal low pass. -/
example (k : RegKind) (st : MultiCoreSettings) (F : FrequencyResponse ℝ ℝ) (hs : F.isSymmetric = true)
    (hF : F.value = fun y => if |y| ≤ 1 then 1 else 0) :
    ∃ w b', Always2 (onePoint.interpolatei dftKernel k 0 st F 2 (.single [])) (w, b', .ok ()) ∧
      w.Shows ⟨.complex [⟨3, 4⟩, ⟨3, 4⟩], .time, false, some 1⟩ := by
  have hw : wave ((1 : Nat) * 1) 1 (fun _ => ⟨3, 4⟩) = fun _ => (⟨3, 4⟩ : ℂ) := by
    funext t; rw [wave_bins, Finset.sum_range_one]; simp [binFrequency, turn_zero]
  obtain ⟨w, b', h1, h2⟩ := C91_interpolatei_ideal dftKernel dft_isDft k 0 st F 2 (by omega) onePoint _ onePoint_shows 1 one_ne_zero 1
    (by omega) (fun _ => ⟨3, 4⟩) 0 (by rw [hw]; rfl) hs (by intro y; rw [hF]; simp) rfl
    (by intro y hy; rw [hF]; simp [hy.le]) (by intro y hy; rw [hF]; simp [hy]) (by intro h; cases h) (.single [])
    trivial trivial (.inl (by simp))
  refine ⟨w, b', h1, ?_⟩
  rw [hw] at h2
  exact h2

end Dsp
