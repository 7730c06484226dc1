import Verif.Props.Interpolatei
import Verif.Props.InterpftCases

/-! C57, C58: what `interpolate` and `interpolatei` compute for every delay and response, and exactly when this is the
    interpolated signal. -/

namespace Dsp
open DspVec
variable {T : Type} [Field T] [LinearOrder T] [IsStrictOrderedRing T]

/-- What `interpolate` makes of a signal: as `interpolated`, with the phases and frequencies which the code uses. -/
def computedInterpolation (K : FftKernel T) (cis : T → Cx T) (pi : T) (function : Option (FrequencyResponse T T)) (N : Nat)
    (d : T) (a : List (Cx T)) : List (Cx T) :=
  (K.inverse (usedSpectrum cis pi function N d (K.forward a))).map (Cx.scaleBy (1 / (N : T)))

/-- What `interpolatei` makes of a signal: as `interpolatedBy`, with the frequencies which the code uses. -/
def computedInterpolationBy (K : FftKernel T) (F : FrequencyResponse T T) (m : Nat) (a : List (Cx T)) : List (Cx T) :=
  (K.inverse ((K.forward (interleaveSpec 0 m a)).mapIdx fun i c =>
    c * ⟨(m : T) * F.value (usedAxis F.isSymmetric (m * a.length) i * (m : T)), 0⟩)).map
      (Cx.scaleBy (1 / ((m * a.length : Nat) : T)))

/-- C57: what `interpolate` computes, without a condition on the delay or the response. -/
theorem C57_exact (K : FftKernel T) (hK : K.KeepsLength) (k : RegKind) (addr : Nat) (cis : T → Cx T) (h0 : cis 0 = 1)
    (hadd : ∀ x y, cis (x + y) = cis x * cis y) (pi : T) (st : MultiCoreSettings) (function : Option (FrequencyResponse T T))
    (N : Nat) (delay d : T) (v : DspVec T) (s : Signal T) (hv : v.Shows s) (h1 : 1 ≤ s.numbers.count)
    (hdelay : (delay = 0 ∧ d = 0) ∨ ∃ x, s.delta = some x ∧ d = delay / x)
    (hsym : s.numbers.isComplex = false → ∀ f, function = some f → f.isSymmetric = true)
    (b : Buffer T) (hk : NotInline v.data.kind)
    (hroom : BufferOk b v.data (2 * max s.numbers.count N) ∨
      (s.numbers.isComplex = true ∧ CanHold v.data (2 * max s.numbers.count N)))
    (hb : ScratchOk K b s.numbers.count) (hb' : ScratchOk K b N) (hal : AlignmentAccepted addr k.len (2 * N)) :
    ∃ w b', Always2 (v.interpolate K k addr cis pi st function N delay b) (w, b', .ok ()) ∧
      w.Shows { s with
        numbers := s.numbers.receive (computedInterpolation K cis pi function N d s.numbers.asCx)
        delta := s.delta.map (· / ((N : T) / (s.numbers.count : T))) } ∧
      w.data.kind = v.data.kind :=
  interpolate_used K hK k addr cis h0 hadd pi st function N delay d v s hv h1 hdelay hsym b hk hroom hb hb' hal

/-- C58: what `interpolatei` computes, without a condition on the response. -/
theorem C58_exact (K : FftKernel T) (hK : K.KeepsLength) (k : RegKind) (addr : Nat) (st : MultiCoreSettings)
    (F : FrequencyResponse T T) (m : Nat) (hm : 2 ≤ m) (v : DspVec T) (s : Signal T) (hv : v.Shows s) (h1 : 1 ≤ s.numbers.count)
    (hsym : s.numbers.isComplex = false → F.isSymmetric = true) (b : Buffer T)
    (hroom : BufferOk b v.data (2 * (m * s.numbers.count))) (hb : ScratchOk K b (m * s.numbers.count))
    (hal : AlignmentAccepted addr k.len (2 * (m * s.numbers.count))) :
    ∃ w b', Always2 (v.interpolatei K k addr st F m b) (w, b', .ok ()) ∧
      w.Shows { s with numbers := s.numbers.receive (computedInterpolationBy K F m s.numbers.asCx) } ∧
      w.data.kind = v.data.kind := by
  obtain ⟨w, b', h2, h3, h4⟩ := interpolatei_used K hK k addr st F m hm v s hv h1 hsym b hroom hb hal
  refine ⟨w, b', h2, ?_, h4⟩
  unfold computedInterpolationBy
  rw [length_asCx]
  exact h3

omit [LinearOrder T] [IsStrictOrderedRing T] in
theorem map_scaleBy_injective (x : T) (hx : x ≠ 0) {A B : List (Cx T)} (h : A.map (Cx.scaleBy x) = B.map (Cx.scaleBy x)) : A = B := by
  have := congrArg (List.map (Cx.scaleBy (1 / x))) h
  rw [scaleBy_scaleBy, scaleBy_scaleBy, one_div_mul_cancel hx, scaleBy_one, scaleBy_one] at this
  exact this

theorem inverse_injective (K : FftKernel T) (hK : K.Inverts) {A B : List (Cx T)} (hl : A.length = B.length)
    (h0 : A.length ≠ 0) (h : K.inverse A = K.inverse B) : A = B := by
  have := congrArg K.forward h
  rw [hK.forth, hK.forth, ← hl] at this
  exact map_scaleBy_injective _ (by exact_mod_cast h0) this

/-- Every spectrum is the spectrum of a signal. -/
theorem exists_signal (K : FftKernel T) (hK : K.Inverts) (S : List (Cx T)) (h0 : S.length ≠ 0) :
    ∃ a, a.length = S.length ∧ K.forward a = S := by
  refine ⟨K.inverse (S.map (Cx.scaleBy (1 / (S.length : T)))), by rw [hK.length.2, List.length_map], ?_⟩
  have hne : (S.length : T) ≠ 0 := by exact_mod_cast h0
  rw [hK.forth, List.length_map, scaleBy_scaleBy, mul_one_div_cancel hne, scaleBy_one]

/-- Equal signals for all inputs are equal spectra for all inputs. -/
theorem computed_iff_spectrum (K : FftKernel T) (hK : K.Inverts) (cis : T → Cx T) (pi : T)
    (function : Option (FrequencyResponse T T)) (N n : Nat) (hN : 1 ≤ N) (hn : 1 ≤ n) (d : T) :
    (∀ a : List (Cx T), a.length = n → computedInterpolation K cis pi function N d a =
      interpolated K cis pi (function.map FrequencyResponse.value) N d a) ↔
    ∀ S : List (Cx T), S.length = n → usedSpectrum cis pi function N d S =
      interpolatedSpectrum cis pi (function.map FrequencyResponse.value) N d S := by
  have hN0 : (N : T) ≠ 0 := by exact_mod_cast (by omega : N ≠ 0)
  have hlen : ∀ S : List (Cx T), (interpolatedSpectrum cis pi (function.map FrequencyResponse.value) N d S).length = N := by
    intro S
    unfold interpolatedSpectrum binFiltered
    dsimp only
    cases function with
    | none => simp [length_resampled]
    | some F =>
      simp only [Option.map_some]
      split <;> simp [length_resampled]
  constructor
  · intro h S hS
    obtain ⟨a, a1, a2⟩ := exists_signal K hK S (by omega)
    have := h a (by omega)
    unfold computedInterpolation interpolated at this
    have := map_scaleBy_injective _ (one_div_ne_zero hN0) this
    rw [a2] at this
    exact inverse_injective K hK (by rw [length_usedSpectrum, hlen]) (by rw [length_usedSpectrum]; omega) this
  · intro h a ha
    unfold computedInterpolation interpolated
    rw [h _ (by rw [hK.length.1, ha])]

omit [LinearOrder T] [IsStrictOrderedRing T] in
theorem resampled_get [LinearOrder T] (N : Nat) (S : List (Cx T)) (i : Nat) (hi : i < N) :
    (resampledSpectrum N S)[i]? = some (
      if S.length ≤ N then
        if i < S.length - S.length / 2 then S.getD i 0
        else if N - S.length / 2 ≤ i then S.getD (i - (N - S.length)) 0 else 0
      else if i < N - N / 2 then S.getD i 0 else S.getD (i + (S.length - N)) 0) := by
  simp [resampledSpectrum, hi]

/-- C57: exactly which delays are right for all signals with `n` points (no response): the conditions of
    `C57_interpolate_partial` are necessary, unless the number of points becomes smaller. -/
theorem C57_delay_iff (K : FftKernel T) (hK : K.Inverts) (cis : T → Cx T) (h0 : cis 0 = 1)
    (hadd : ∀ x y, cis (x + y) = cis x * cis y) (pi : T) (N n : Nat) (hN : 1 ≤ N) (hn : 1 ≤ n) (d : T) :
    (∀ a : List (Cx T), a.length = n → computedInterpolation K cis pi none N d a = interpolated K cis pi none N d a) ↔
      N < n ∨ d = 0 ∨ n % 2 = 0 ∨ cis (2 * pi * d) = 1 := by
  have hspec := computed_iff_spectrum K hK cis pi none N n hN hn d
  simp only [Option.map_none] at hspec
  rw [hspec]
  have hn0 : (n : T) ≠ 0 := by exact_mod_cast (by omega : n ≠ 0)
  have hN0 : (N : T) ≠ 0 := by exact_mod_cast (by omega : N ≠ 0)
  have hr : (N : T) / (n : T) ≠ 0 := div_ne_zero hN0 hn0
  constructor
  · intro h
    by_contra hc
    push Not at hc
    obtain ⟨c1, c2, c3, c4⟩ := hc
    have := h (List.replicate n 1) (by simp)
    unfold usedSpectrum interpolatedSpectrum at this
    simp only [List.length_replicate, if_neg c2] at this
    have := map_scaleBy_injective _ hr this
    have hq := congrArg (fun l => l[n / 2]?) this
    rw [resampled_get _ _ _ (by omega), resampled_get _ _ _ (by omega)] at hq
    have hql : n / 2 < n := by omega
    simp only [List.length_mapIdx, List.length_replicate, phaseShifted, if_pos c1, if_pos (by omega : n / 2 < n - n / 2),
      List.getD_eq_getElem?_getD, List.getElem?_mapIdx, List.getElem?_replicate, if_pos hql, Option.map_some,
      Option.getD_some, lt_irrefl, if_false, one_mul, Option.some.injEq, binFrequency] at hq
    apply c4
    have e1 : 2 * pi * d / (n : T) * (((n / 2 : Nat) : T) - (n : T)) =
        2 * pi * d * (((n / 2 : Nat) : Int) : T) / (n : T) + -(2 * pi * d) := by
      rw [Int.cast_natCast]
      field_simp
      ring
    rw [e1, hadd] at hq
    set y := 2 * pi * d * (((n / 2 : Nat) : Int) : T) / (n : T) with hy
    have hinv : ∀ x, cis (-x) * cis x = 1 := fun x => by rw [← hadd, neg_add_cancel, h0]
    have h1 : cis (-y) * (cis y * cis (-(2 * pi * d))) = cis (-y) * cis y := by rw [hq]
    rw [← mul_assoc, hinv, one_mul] at h1
    have h2 := hinv (2 * pi * d)
    rw [h1, one_mul] at h2
    exact h2
  · intro h S hS
    rcases Classical.em (DelayFits cis pi d S.length) with hf | hf
    · exact usedSpectrum_eq cis h0 hadd pi none N d S hf (fun _ f hf => by cases hf)
    · unfold DelayFits at hf
      push Not at hf
      obtain ⟨f1, f2, f3⟩ := hf
      have hNn : N < n := by
        rcases h with h | h | h | h
        · exact h
        · exact absurd h f1
        · rw [hS] at f2; exact absurd h f2
        · exact absurd h f3
      unfold usedSpectrum interpolatedSpectrum
      simp only [if_neg f1]
      congr 1
      -- the two spectra differ in the bin `n / 2` only
      have hbin : ∀ i, i ≠ n / 2 → i < n →
          ((S.mapIdx fun i c => c * cis (2 * pi * d / (S.length : T) *
            (if i < S.length / 2 then (i : T) else (i : T) - (S.length : T)))).getD i 0) =
          (phaseShifted cis pi d S).getD i 0 := by
        intro i hi hin
        have hb : S[i]? = some (S[i]'(by omega)) := List.getElem?_eq_getElem (by omega)
        unfold phaseShifted
        simp only [List.getD_eq_getElem?_getD, List.getElem?_mapIdx, hb, Option.map_some, Option.getD_some, hS]
        congr 2
        unfold binFrequency
        have hodd : n % 2 = 1 := by rw [hS] at f2; omega
        by_cases hlt : i < n / 2
        · rw [if_pos hlt, if_pos (by omega)]; push_cast; field_simp
        · rw [if_neg hlt, if_neg (by omega)]; push_cast; field_simp
      apply List.ext_getElem?
      intro i
      by_cases hi : i < N
      · rw [resampled_get _ _ _ hi, resampled_get _ _ _ hi]
        have hlp : (phaseShifted cis pi d S).length = n := by simp [phaseShifted, hS]
        simp only [List.length_mapIdx, hlp, hS, if_neg (by omega : ¬ n ≤ N)]
        have hodd : n % 2 = 1 := by rw [hS] at f2; omega
        by_cases hh : i < N - N / 2
        · rw [if_pos hh, if_pos hh]
          have := hbin i (by omega) (by omega)
          rw [hS] at this
          rw [this]
        · rw [if_neg hh, if_neg hh]
          have := hbin (i + (n - N)) (by omega) (by omega)
          rw [hS] at this
          rw [this]
      · rw [List.getElem?_eq_none (by rw [length_resampled]; omega), List.getElem?_eq_none (by rw [length_resampled]; omega)]

omit [LinearOrder T] [IsStrictOrderedRing T] in
theorem real_factor_eq {r x y : T} (hr : r ≠ 0) (h : (1 : Cx T) * ⟨r * x, 0⟩ = 1 * ⟨r * y, 0⟩) : x = y := by
  rw [one_mul, one_mul] at h
  have := congrArg Cx.re h
  exact mul_left_cancel₀ hr this

/-- C57: exactly which responses are right for all signals with `n` points (no delay): the response must have the
    same values at the frequencies which the code uses and at the frequencies of the bins, for all bins of the signal. If
    the number of points does not grow then the response is not used. -/
theorem C57_response_iff (K : FftKernel T) (hK : K.Inverts) (cis : T → Cx T) (h0 : cis 0 = 1) (pi : T)
    (F : FrequencyResponse T T) (N n : Nat) (hN : 1 ≤ N) (hn : 1 ≤ n) :
    (∀ a : List (Cx T), a.length = n → computedInterpolation K cis pi (some F) N 0 a =
      interpolated K cis pi (some F.value) N 0 a) ↔
      N ≤ n ∨ ∀ i < N, (i < n - n / 2 ∨ N - n / 2 ≤ i) →
        F.value (usedAxis F.isSymmetric N i * ((N : T) / (n : T))) =
          F.value (((binFrequency N i : Int) : T) / ((N / 2 : Nat) : T) * ((N : T) / (n : T))) := by
  have hspec := computed_iff_spectrum K hK cis pi (some F) N n hN hn 0
  simp only [Option.map_some] at hspec
  rw [hspec]
  have hn0 : (n : T) ≠ 0 := by exact_mod_cast (by omega : n ≠ 0)
  have hN0 : (N : T) ≠ 0 := by exact_mod_cast (by omega : N ≠ 0)
  have hr : (N : T) / (n : T) ≠ 0 := div_ne_zero hN0 hn0
  constructor
  · intro h
    by_cases hle : N ≤ n
    · exact .inl hle
    refine .inr fun i hi hk => ?_
    have := h (List.replicate n 1) (by simp)
    unfold usedSpectrum interpolatedSpectrum at this
    rw [phaseShifted_zero cis h0] at this
    simp only [List.length_replicate, if_true, if_pos (by omega : n < N), binFiltered, length_resampled] at this
    have hq := congrArg (fun l => l[i]?) this
    simp only [List.getElem?_mapIdx] at hq
    rw [resampled_get _ _ _ hi] at hq
    have hone : (if (List.replicate n (1 : Cx T)).length ≤ N then
        if i < (List.replicate n (1 : Cx T)).length - (List.replicate n (1 : Cx T)).length / 2 then (List.replicate n (1 : Cx T)).getD i 0
        else if N - (List.replicate n (1 : Cx T)).length / 2 ≤ i then
          (List.replicate n (1 : Cx T)).getD (i - (N - (List.replicate n (1 : Cx T)).length)) 0 else 0
        else if i < N - N / 2 then (List.replicate n (1 : Cx T)).getD i 0
          else (List.replicate n (1 : Cx T)).getD (i + ((List.replicate n (1 : Cx T)).length - N)) 0) = 1 := by
      simp only [List.length_replicate]
      rw [if_pos (by omega)]
      by_cases h1 : i < n - n / 2
      · rw [if_pos h1, List.getD_eq_getElem?_getD, List.getElem?_replicate, if_pos (by omega)]; rfl
      · rw [if_neg h1, if_pos (by omega), List.getD_eq_getElem?_getD, List.getElem?_replicate, if_pos (by omega)]; rfl
    rw [hone] at hq
    simp only [Option.map_some, Option.some.injEq] at hq
    exact real_factor_eq hr hq
  · rintro h S hS
    unfold usedSpectrum interpolatedSpectrum
    rw [phaseShifted_zero cis h0]
    simp only [if_true, hS]
    by_cases hl : n < N
    · rw [if_pos hl, if_pos hl]
      have h := h.resolve_left (by omega)
      unfold binFiltered
      apply List.ext_getElem?
      intro i
      rw [List.getElem?_mapIdx, List.getElem?_mapIdx, length_resampled]
      by_cases hi : i < N
      · rw [resampled_get _ _ _ hi, hS, if_pos (by omega)]
        simp only [Option.map_some]
        by_cases hk : i < n - n / 2 ∨ N - n / 2 ≤ i
        · rw [h i hi hk]
        · push Not at hk
          rw [if_neg (by omega), if_neg (by omega), zero_mul, zero_mul]
      · rw [List.getElem?_eq_none (by rw [length_resampled]; omega)]; rfl
    · rw [if_neg hl, if_neg hl]

/-- C58: exactly which responses are right for all signals with `n` points: those with the same values at the
    frequencies which the code uses and at the frequencies of the bins. -/
theorem C58_iff (K : FftKernel T) (hK : K.Inverts) (hR : K.Repeats) (F : FrequencyResponse T T) (m n : Nat) (hm : 2 ≤ m)
    (hn : 1 ≤ n) :
    (∀ a : List (Cx T), a.length = n → computedInterpolationBy K F m a = interpolatedBy K F.value m a) ↔
      ∀ i < m * n, F.value (usedAxis F.isSymmetric (m * n) i * (m : T)) =
        F.value (((binFrequency (m * n) i : Int) : T) / ((m * n / 2 : Nat) : T) * (m : T)) := by
  have hmn : 2 ≤ m * n := by nlinarith
  have hm0 : (m : T) ≠ 0 := by exact_mod_cast (by omega : m ≠ 0)
  have hmn0 : (1 / ((m * n : Nat) : T)) ≠ 0 := one_div_ne_zero (by exact_mod_cast (by omega : m * n ≠ 0))
  constructor
  · intro h i hi
    obtain ⟨a, a1, a2⟩ := exists_signal K hK (List.replicate n 1) (by rw [List.length_replicate]; omega)
    rw [List.length_replicate] at a1
    have := h a a1
    unfold computedInterpolationBy interpolatedBy at this
    rw [a1] at this
    have := map_scaleBy_injective _ hmn0 this
    have hX : (K.forward (interleaveSpec 0 m a)) = List.replicate (m * n) 1 := by
      rw [hR m a (by omega), a2, List.flatten_replicate_replicate]
    rw [hX] at this
    have := inverse_injective K hK (by simp [binFiltered]) (by simp; omega) this
    have hq := congrArg (fun l => l[i]?) this
    simp only [binFiltered, List.getElem?_mapIdx, List.getElem?_replicate, if_pos hi, Option.map_some, Option.some.injEq,
      List.length_replicate] at hq
    exact real_factor_eq hm0 hq
  · intro h a ha
    unfold computedInterpolationBy interpolatedBy
    rw [ha]
    congr 2
    have hl : (K.forward (interleaveSpec 0 m a)).length = m * n := by
      rw [hK.length.1, interleaveSpec_length _ _ (by omega), ha]
    unfold binFiltered
    rw [hl]
    apply List.ext_getElem (by simp)
    intro i i1 i2
    simp only [List.getElem_mapIdx]
    rw [List.length_mapIdx, hl] at i1
    rw [h i i1]

/-- Both cases of the conditions occur: the square with an odd number of points. -/
example : dftKernel.Repeats ∧ (∀ i < 4, ((fun x : ℚ => x * x) (usedAxis true 4 i * 2)) =
      (fun x => x * x) (((binFrequency 4 i : Int) : ℚ) / ((4 / 2 : Nat) : ℚ) * 2)) ∧
    ¬ (∀ i < 3, ((fun x : ℚ => x * x) (usedAxis true 3 i * 3)) =
      (fun x => x * x) (((binFrequency 3 i : Int) : ℚ) / ((3 / 2 : Nat) : ℚ) * 3)) := by
  refine ⟨dft_repeats, ?_, fun h => ?_⟩
  · intro i hi
    have : i = 0 ∨ i = 1 ∨ i = 2 ∨ i = 3 := by omega
    rcases this with rfl | rfl | rfl | rfl <;> norm_num [usedAxis, binFrequency]
  · have := h 2 (by omega)
    norm_num [usedAxis, binFrequency] at this

end Dsp
