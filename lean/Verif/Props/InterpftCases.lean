import Verif.Props.Interpolatei
/-
C57, C58: counterexamples, and concrete cases which meet the hypotheses of the theorems.
-/
namespace Dsp
open DspVec

section
variable {T : Type} [Field T] [LinearOrder T] [IsStrictOrderedRing T]

omit [LinearOrder T] [IsStrictOrderedRing T] in
theorem length_interpolatedSpectrum (cis : T → Cx T) (pi : T) (function : Option (T → T)) (N : Nat) (d : T) (S : List (Cx T)) :
    (interpolatedSpectrum cis pi function N d S).length = N := by
  unfold interpolatedSpectrum
  dsimp only
  split
  · rw [List.length_map, length_resampled]
  · split
    · unfold binFiltered; rw [List.length_mapIdx, length_resampled]
    · rw [List.length_map, length_resampled]

/-- The transform of the interpolated signal is the spectrum of the specification. -/
theorem forward_interpolated (K : FftKernel T) (hK : K.Inverts) (hH : K.Homogeneous) (cis : T → Cx T) (pi : T) (function : Option (T → T))
    (N : Nat) (hN : 1 ≤ N) (d : T) (a : List (Cx T)) :
    K.forward (interpolated K cis pi function N d a) = interpolatedSpectrum cis pi function N d (K.forward a) := by
  have hN0 : (N : T) ≠ 0 := by exact_mod_cast (by omega : N ≠ 0)
  unfold interpolated
  rw [← hH, hK.forth, scaleBy_scaleBy, List.length_map, length_interpolatedSpectrum, mul_one_div_cancel hN0, scaleBy_one]
end

/-- Two real numbers. -/
def realPair : DspVec ℝ := ⟨⟨.vec, [1, -1]⟩, some 1, .time, .real, 2⟩
/-- The same numbers as complex numbers, with unused storage. -/
def complexPair : DspVec ℝ := ⟨⟨.vec, [1, 0, -1, 0, 9, 9]⟩, some 1, .time, .complex, 4⟩
/-- One complex number. -/
def onePoint : DspVec ℝ := ⟨⟨.vec, [3, 4]⟩, some 1, .time, .complex, 2⟩

theorem realPair_shows : realPair.Shows ⟨.real [1, -1], .time, false, some 1⟩ := ⟨rfl, rfl, rfl, rfl⟩
theorem complexPair_shows : complexPair.Shows ⟨.complex [⟨1, 0⟩, ⟨-1, 0⟩], .time, false, some 1⟩ := ⟨rfl, rfl, rfl, rfl⟩
theorem onePoint_shows : onePoint.Shows ⟨.complex [⟨3, 4⟩], .time, false, some 1⟩ := ⟨rfl, rfl, rfl, rfl⟩

theorem env_vec (K : FftKernel ℝ) (k : RegKind) (v : DspVec ℝ) (hv : v.data.kind = .vec) (n N : Nat) :
    InterpolationEnv K k 0 v (.single []) n N :=
  ⟨fun c h => (by rw [hv] at h; cases h), .inl trivial, trivial, trivial, .inl (by simp)⟩

theorem cx_zero_mk : (⟨0, 0⟩ : Cx ℝ) = 0 := rfl

/-- C57 is violated: the delay of a signal with an odd number of points. One point is moved by half of the sampling distance: it
    should stay the same (there is only the frequency 0), but it changes its sign. -/
theorem C57_delay_odd_violated (k : RegKind) (st : MultiCoreSettings) :
    ∃ w b', Always2 (onePoint.interpolate dftKernel k 0 cisReal Real.pi st none 1 (1 / 2) (.single [])) (w, b', .ok ()) ∧
      w.Shows ⟨.complex [⟨-3, -4⟩], .time, false, some 1⟩ ∧
      interpolated dftKernel cisReal Real.pi none 1 (1 / 2) [⟨3, 4⟩] = [⟨3, 4⟩] := by
  have he := env_vec dftKernel k onePoint rfl 1 1
  obtain ⟨w, b', h2, h3, -⟩ := interpolate_used dftKernel dft_inverts.length k 0 cisReal cisReal_zero cisReal_add Real.pi st none 1 (1 / 2)
    (1 / 2) onePoint _ onePoint_shows (by decide) (.inr ⟨1, rfl, by norm_num⟩) (fun _ f h => by cases h) (.single []) he.storage
    (he.room.imp_right fun h => ⟨rfl, h.2⟩) he.before he.after he.address
  refine ⟨w, b', h2, ?_, ?_⟩
  · have hc : cisReal (-Real.pi) = ⟨-1, 0⟩ := by ext <;> simp [cisReal]
    have e : usedSpectrum cisReal Real.pi none 1 (1 / 2) [(⟨3, 4⟩ : Cx ℝ)] = [⟨-3, -4⟩] := by
      simp [usedSpectrum, resampledSpectrum, Cx.scaleBy]
      rw [show -(2 * Real.pi * 2⁻¹) = -Real.pi by ring, hc]
      norm_num
    simp only [Numbers.asCx, (dft_one _).1, e, (dft_one _).2] at h3
    convert h3 using 2
    · simp [Numbers.receive, Cx.scaleBy]
    · simp [Numbers.count]
  · simp [interpolated, (dft_one _).1, interpolatedSpectrum, phaseShifted, binFrequency, resampledSpectrum, Cx.scaleBy, (dft_one _).2,
      cisReal_zero]

theorem dft_pair : dftKernel.forward [(⟨1, 0⟩ : Cx ℝ), ⟨-1, 0⟩] = [⟨0, 0⟩, ⟨2, 0⟩] := by
  rw [(dft_two _ _).1]
  congr 1
  · ext <;> simp
  · congr 1; ext <;> simp; norm_num

theorem dft_zeros (n : Nat) : dftKernel.inverse (List.replicate n (0 : Cx ℝ)) = List.replicate n 0 ∧
    dftKernel.forward (List.replicate n (0 : Cx ℝ)) = List.replicate n 0 := by
  have key : ∀ w : ℂ, dftList w (List.replicate n (0 : Cx ℝ)) = List.replicate n 0 := by
    intro w
    apply List.ext_getElem (by simp [dftList])
    intro i h1 h2
    have hz : ∀ m, ((List.replicate n (0 : Cx ℝ)).getD m ⟨0, 0⟩).toC = 0 := by
      intro m
      rw [List.getD_eq_getElem?_getD, List.getElem?_replicate]
      split <;> simp [Cx.toC] <;> rfl
    simp only [dftList, dftPoint, hz, List.getElem_map, zero_mul, Finset.sum_const_zero, List.getElem_replicate]
    ext <;> simp [Cx.ofC]
  exact ⟨key _, key _⟩

/-- A signal with more than one value is not the zero signal after the interpolation. -/
theorem interpolated_ne_zero (f : ℝ → ℝ) (N : Nat) (hN : 1 ≤ N) (i : Nat)
    (h : (interpolatedSpectrum cisReal Real.pi (some f) N 0 [⟨0, 0⟩, ⟨2, 0⟩]).getD i 0 ≠ 0) :
    interpolated dftKernel cisReal Real.pi (some f) N 0 [⟨1, 0⟩, ⟨-1, 0⟩] ≠ List.replicate N 0 := by
  intro e
  apply h
  have := congrArg dftKernel.forward e
  rw [forward_interpolated dftKernel dft_inverts dft_homogeneous _ _ _ _ hN, dft_pair, (dft_zeros N).2] at this
  rw [this, List.getD_eq_getElem?_getD, List.getElem?_replicate]
  split <;> rfl

theorem pair_zeroed (k : RegKind) (st : MultiCoreSettings) (F : FrequencyResponse ℝ ℝ) (N : Nat)
    (h : usedSpectrum cisReal Real.pi (some F) N 0 [⟨0, 0⟩, ⟨2, 0⟩] = List.replicate N 0) :
    ∃ w b', Always2 (complexPair.interpolate dftKernel k 0 cisReal Real.pi st (some F) N 0 (.single [])) (w, b', .ok ()) ∧
      w.Shows ⟨.complex (List.replicate N 0), .time, false, some (1 / ((N : ℝ) / 2))⟩ := by
  have he := env_vec dftKernel k complexPair rfl 2 N
  obtain ⟨w, b', h2, h3, -⟩ := interpolate_used dftKernel dft_inverts.length k 0 cisReal cisReal_zero cisReal_add Real.pi st (some F) N 0
    0 complexPair _ complexPair_shows (by decide) (.inl ⟨rfl, rfl⟩) (fun h => by cases h) (.single []) he.storage
    (he.room.imp_right fun h => ⟨rfl, h.2⟩) he.before he.after he.address
  refine ⟨w, b', h2, ?_⟩
  simp only [Numbers.asCx, dft_pair, h, (dft_zeros N).1] at h3
  convert h3 using 2
  · simp only [Numbers.receive, List.map_replicate]
    congr 2
    ext <;> simp [Cx.scaleBy]
  · simp [Numbers.count]

/-- C57 is violated: a symmetric response and an odd number of points. The response is `x²`, two points (1, -1) are interpolated to
    three points: the highest frequency gets the value of the response at 0, the result are only zeros. -/
theorem C57_response_odd_violated (k : RegKind) (st : MultiCoreSettings) :
    EvenFunction (fun x : ℝ => x * x) ∧
    ∃ w b', Always2 (complexPair.interpolate dftKernel k 0 cisReal Real.pi st (some ⟨true, fun x => x * x⟩) 3 0 (.single []))
        (w, b', .ok ()) ∧
      w.Shows ⟨.complex [0, 0, 0], .time, false, some (1 / (3 / 2))⟩ ∧
      interpolated dftKernel cisReal Real.pi (some fun x => x * x) 3 0 [⟨1, 0⟩, ⟨-1, 0⟩] ≠ [0, 0, 0] := by
  refine ⟨fun x => by ring, ?_⟩
  obtain ⟨w, b', h1, h2⟩ := pair_zeroed k st ⟨true, fun x => x * x⟩ 3 (by
    simp [usedSpectrum, resampledSpectrum, List.range_succ, usedAxis, cx_zero_mk]
    norm_num [cx_zero_mk])
  refine ⟨w, b', h1, ?_, ?_⟩
  · exact_mod_cast h2
  · apply interpolated_ne_zero _ 3 (by omega) 2
    simp [interpolatedSpectrum, phaseShifted_zero cisReal cisReal_zero, resampledSpectrum, List.range_succ, binFiltered, binFrequency]
    intro h
    have := congrArg Cx.re h
    norm_num at this

/-- C57 is violated: a response which is not symmetric and an even number of points. The response is `x + 2`, two points (1, -1)
    are interpolated to four points: the frequency `-1` of the signal gets the value of the response at `-2`. -/
theorem C57_response_even_violated (k : RegKind) (st : MultiCoreSettings) :
    ∃ w b', Always2 (complexPair.interpolate dftKernel k 0 cisReal Real.pi st (some ⟨false, fun x => x + 2⟩) 4 0 (.single []))
        (w, b', .ok ()) ∧
      w.Shows ⟨.complex [0, 0, 0, 0], .time, false, some (1 / (4 / 2))⟩ ∧
      interpolated dftKernel cisReal Real.pi (some fun x => x + 2) 4 0 [⟨1, 0⟩, ⟨-1, 0⟩] ≠ [0, 0, 0, 0] := by
  obtain ⟨w, b', h1, h2⟩ := pair_zeroed k st ⟨false, fun x => x + 2⟩ 4 (by
    simp [usedSpectrum, resampledSpectrum, List.range_succ, usedAxis, cx_zero_mk]
    norm_num [cx_zero_mk])
  refine ⟨w, b', h1, ?_, ?_⟩
  · exact_mod_cast h2
  · apply interpolated_ne_zero _ 4 (by omega) 3
    simp [interpolatedSpectrum, phaseShifted_zero cisReal cisReal_zero, resampledSpectrum, List.range_succ, binFiltered, binFrequency]
    intro h
    have := congrArg Cx.re h
    norm_num at this

/-- C57 is violated: more points and back does not restore a real vector with an even number of points. (1, -1) is interpolated to
    (1, 0, -1, 0) and back to (1/2, -1/2): the highest frequency is only kept on the negative side. -/
theorem C57_real_round_trip_violated (k : RegKind) (st : MultiCoreSettings) :
    ∃ w b', Always2 (realPair.interpft dftKernel k 0 cisReal Real.pi st 4 (.single [])) (w, b') ∧
      w.Shows ⟨.real [1, 0, -1, 0], .time, false, some (1 / 2)⟩ ∧ w.data.kind = .vec ∧
      ∃ u b2, Always2 (w.interpft dftKernel k 0 cisReal Real.pi st 2 (.single [])) (u, b2) ∧
        u.Shows ⟨.real [1 / 2, -1 / 2], .time, false, some 1⟩ := by
  obtain ⟨w, b', h2, h3, h4⟩ := C57_interpft dftKernel dft_inverts.length k 0 cisReal cisReal_zero cisReal_add Real.pi st 4 realPair _
    realPair_shows (by decide) (by decide) (.single []) (env_vec dftKernel k realPair rfl 2 4)
  have e1 : (resampledSpectrum 4 [(⟨0, 0⟩ : Cx ℝ), ⟨2, 0⟩]).map (Cx.scaleBy ((4 : ℝ) / 2)) = [⟨0, 0⟩, ⟨0, 0⟩, ⟨0, 0⟩, ⟨4, 0⟩] := by
    simp [resampledSpectrum, List.range_succ, Cx.scaleBy]
  have h3' : w.Shows ⟨.real [1, 0, -1, 0], .time, false, some (1 / 2)⟩ := by
    have e0 : (Numbers.real [1, -1]).asCx = [(⟨1, 0⟩ : Cx ℝ), ⟨-1, 0⟩] := rfl
    have en : (Numbers.real [(1 : ℝ), -1]).count = 2 := rfl
    simp only [e0, dft_pair, en, Nat.cast_ofNat, e1, (dft_four _ _ _ _).2] at h3
    convert h3 using 2
    · simp [Numbers.receive, Cx.scaleBy]
    · norm_num
  refine ⟨w, b', h2, h3', h4, ?_⟩
  obtain ⟨u, b2, u2, u3, -⟩ := C57_interpft dftKernel dft_inverts.length k 0 cisReal cisReal_zero cisReal_add Real.pi st 2 w _
    h3' (by decide) (by decide) (.single []) (env_vec dftKernel k w h4 4 2)
  refine ⟨u, b2, u2, ?_⟩
  have e0 : (Numbers.real [1, 0, -1, 0]).asCx = [(⟨1, 0⟩ : Cx ℝ), ⟨0, 0⟩, ⟨-1, 0⟩, ⟨0, 0⟩] := rfl
  have en : (Numbers.real [(1 : ℝ), 0, -1, 0]).count = 4 := rfl
  have ef : dftKernel.forward [(⟨1, 0⟩ : Cx ℝ), ⟨0, 0⟩, ⟨-1, 0⟩, ⟨0, 0⟩] = [⟨0, 0⟩, ⟨2, 0⟩, ⟨0, 0⟩, ⟨2, 0⟩] := by
    rw [(dft_four _ _ _ _).1]
    simp only [List.cons.injEq, and_true]
    refine ⟨?_, ?_, ?_, ?_⟩ <;> ext <;> simp <;> norm_num
  have er : (resampledSpectrum 2 [(⟨0, 0⟩ : Cx ℝ), ⟨2, 0⟩, ⟨0, 0⟩, ⟨2, 0⟩]).map (Cx.scaleBy ((2 : ℝ) / 4)) = [⟨0, 0⟩, ⟨1, 0⟩] := by
    simp [resampledSpectrum, List.range_succ, Cx.scaleBy]
    norm_num
  simp only [e0, ef, en, Nat.cast_ofNat, er, (dft_two _ _).2] at u3
  convert u3 using 2
  · simp [Numbers.receive, Cx.scaleBy]
    norm_num
  · norm_num

/-- C57 is violated: an empty real vector panics. -/
theorem C57_empty_violated {T : Type} [Field T] [LinearOrder T] (K : FftKernel T) (k : RegKind) (addr : Nat) (cis : T → Cx T) (pi : T) (st : MultiCoreSettings) (N : Nat)
    (s1 s2 : List Nat) :
    let v : DspVec T := ⟨⟨.vec, []⟩, some 1, .time, .real, 0⟩
    v.WF ∧ v.interpft K k addr cis pi st N (.single []) s1 s2 = .panic := by
  refine ⟨by simp [WF, isComplex], ?_⟩
  unfold interpft interpolate
  rw [if_neg (by rintro ⟨⟨f, h, -⟩, -⟩; cases h)]
  have e : ∀ v : DspVec T, v = ⟨⟨.vec, []⟩, some 1, .time, .real, 0⟩ → v.zeroInterleaveB (.single []) 2 = none ∧ v.isComplex = false := by
    rintro v rfl
    exact ⟨rfl, rfl⟩
  obtain ⟨e1, e2⟩ := e _ rfl
  simp only [e1, e2]
  rfl

/-- C58 is violated: a symmetric response and an odd number of points in the result. The response is one up to the frequency 1 and
    zero above. One point 1 is interpolated by the factor three: all frequencies but 0 should vanish and the result should be
    (1, 1, 1); but the last frequency gets the value of the response at 0, and the imaginary parts are not zero. -/
theorem C58_response_odd_violated (k : RegKind) (st : MultiCoreSettings) (F : FrequencyResponse ℝ ℝ) (hs : F.isSymmetric = true)
    (hF : EvenFunction F.value) (f0 : F.value 0 = 1) (f3 : F.value 3 = 0) (v : DspVec ℝ)
    (hv : v.Shows ⟨.complex [1], .time, false, some 1⟩) :
    ∃ w b' r, Always2 (v.interpolatei dftKernel k 0 st F 3 (.single [])) (w, b', .ok ()) ∧
      w.Shows ⟨.complex r, .time, false, some 1⟩ ∧ dftKernel.forward r = [⟨3, 0⟩, 0, ⟨3, 0⟩] ∧
      dftKernel.forward (interpolatedBy dftKernel F.value 3 [1]) = [⟨3, 0⟩, 0, 0] := by
  obtain ⟨w, b', h1, h2, -⟩ := interpolatei_used dftKernel dft_inverts.length k 0 st F 3 (by omega) v _ hv (by decide) (fun h => by cases h)
    (.single []) trivial trivial (.inl (by simp))
  have hfi : dftKernel.forward (interleaveSpec 0 3 [(1 : Cx ℝ)]) = [1, 1, 1] := by
    rw [dft_repeats 3 _ (by omega), (dft_one _).1]; rfl
  refine ⟨w, b', _, h1, h2, ?_, ?_⟩
  · show dftKernel.forward ((dftKernel.inverse ((dftKernel.forward (interleaveSpec 0 3 [(1 : Cx ℝ)])).mapIdx _)).map _) = _
    rw [← dft_homogeneous, dft_inverts.forth, scaleBy_scaleBy, hfi, hs]
    norm_num [usedAxis, f0, f3, Numbers.count, Cx.scaleBy]
    rfl
  · unfold interpolatedBy
    have fm : F.value (-3) = 0 := by rw [hF, f3]
    rw [← dft_homogeneous, dft_inverts.forth, scaleBy_scaleBy, hfi]
    norm_num [binFiltered, binFrequency, f0, f3, fm, Cx.scaleBy]
    rfl

/-! ### Non-vacuity -/

/-- The hypotheses of `C57_interpft`, `C57_spectrum`, `C57_same_points`, `C57_round_trip`. -/
example (k : RegKind) : dftKernel.Inverts ∧ dftKernel.Homogeneous ∧ cisReal 0 = 1 ∧ (∀ x y, cisReal (x + y) = cisReal x * cisReal y) ∧
    complexPair.Shows ⟨.complex [⟨1, 0⟩, ⟨-1, 0⟩], .time, false, some 1⟩ ∧
    InterpolationEnv dftKernel k 0 complexPair (.single []) 2 5 ∧ InterpolationEnv dftKernel k 0 complexPair (.single []) 2 2 :=
  ⟨dft_inverts, dft_homogeneous, cisReal_zero, cisReal_add, complexPair_shows, env_vec _ _ _ rfl _ _, env_vec _ _ _ rfl _ _⟩

/-- The hypotheses of `C57_keeps_points` (a real vector, from two to six points). -/
example (k : RegKind) : dftKernel.Stretches ∧ realPair.Shows ⟨.real [1, -1], .time, false, some 1⟩ ∧
    InterpolationEnv dftKernel k 0 realPair (.single []) 2 (3 * 2) := ⟨dft_stretches, realPair_shows, env_vec _ _ _ rfl _ _⟩

/-- The hypotheses of `C57_whole_delay_partial`: a delay of three sampling distances. -/
example : dftKernel.Moves cisReal Real.pi ∧ cisReal (2 * Real.pi * ((3 : Nat) : ℝ)) = 1 := by
  refine ⟨dft_moves, ?_⟩
  have h := Real.cos_nat_mul_two_pi 3
  have h' := Real.sin_nat_mul_pi 6
  ext
  · show Real.cos _ = 1; rw [← h]; congr 1; ring
  · show Real.sin _ = 0; rw [← h']; congr 1; push_cast; ring

/-- The hypotheses of `C57_interpolate_partial`: a response and half a sampling distance. -/
example : DelayFits cisReal Real.pi (1 / 2) 2 ∧ ResponseFits (some (⟨true, fun x : ℝ => x * x⟩ : FrequencyResponse ℝ ℝ)) 4 ∧
    ResponseFits (some (⟨false, fun x : ℝ => x + 2⟩ : FrequencyResponse ℝ ℝ)) 5 := by
  refine ⟨.inr (.inl rfl), ?_, ?_⟩
  · rintro f h; cases h
    exact ⟨fun _ => ⟨fun x => by ring, rfl⟩, fun h => by cases h⟩
  · rintro f h; cases h
    exact ⟨fun h => (by cases h), fun _ => rfl⟩

/-- A response which is a triangle. -/
noncomputable def triangleResponse : FrequencyResponse ℝ ℝ := ⟨true, fun x => max 0 (1 - |x| / 2)⟩

/-- The hypotheses of the theorems C58: the triangle, two real points, the factor two. -/
example : dftKernel.Repeats ∧ dftKernel.Folds ∧ ResponseFits (some triangleResponse) (2 * 2) ∧
    NyquistResponse triangleResponse.value 2 2 ∧ triangleResponse.isSymmetric = true ∧
    BufferOk (.single []) realPair.data (2 * (2 * 2)) ∧ ScratchOk dftKernel (.single []) (2 * 2) := by
  refine ⟨dft_repeats, dft_folds, ?_, ?_, rfl, trivial, trivial⟩
  · rintro f h; cases h
    exact ⟨fun _ => ⟨fun x => by simp [triangleResponse], rfl⟩, fun h => by cases h⟩
  · intro k hk
    have : k = 0 ∨ k = 1 := by omega
    rcases this with rfl | rfl <;> norm_num [List.range_succ, binFrequency, triangleResponse]

/-- The hypotheses of `C58_response_odd_violated`. -/
example : EvenFunction (fun x : ℝ => if |x| ≤ 1 then (1 : ℝ) else 0) ∧
    (⟨⟨.vec, [1, 0]⟩, some 1, .time, .complex, 2⟩ : DspVec ℝ).Shows ⟨.complex [1], .time, false, some 1⟩ :=
  ⟨fun x => by simp, ⟨rfl, rfl, rfl, rfl⟩⟩

end Dsp
