import Verif.Props.RoundTrips
/-
C92: interpolation and back.
-/
namespace Dsp
open DspVec ComplexConjugate

theorem interpft_points {K : FftKernel ℝ} (hK : K.IsDft) (N : Nat) (a : List (Cx ℝ)) :
    (K.inverse ((resampledSpectrum N (K.forward a)).map (Cx.scaleBy ((N : ℝ) / (a.length : ℝ))))).map (Cx.scaleBy (1 / (N : ℝ))) =
      interpolated dftKernel cisReal Real.pi none N 0 a := by
  rw [← interpolated_dft hK, interpolated_none K (isDft_keepsLength hK) cisReal cisReal_zero]

theorem interpolated_length (N : Nat) (d : ℝ) (a : List (Cx ℝ)) (ha : a ≠ []) (hN : 1 ≤ N) :
    (interpolated dftKernel cisReal Real.pi none N d a).length = N := by
  have hn : 1 ≤ a.length := List.length_pos_iff.2 ha
  obtain ⟨⟨c, hc⟩, -⟩ := C91_every_signal a 1 0 one_ne_zero
  have e := interpolated_samples ((a.length : ℝ) * 1) (by simpa using ha) a.length N hn hN c 0 d
  rw [mul_one, div_self (by simpa using ha)] at e
  rw [mul_one] at hc
  rw [← hc] at e
  rw [e, samples_length]

/-- Two interpolations are one: if the number of points in between can show all frequencies of the result. -/
theorem interpolated_twice (a : List (Cx ℝ)) (ha : a ≠ []) (N M : Nat) (hN : 1 ≤ N) (hM : 1 ≤ M) (h : min a.length M ≤ N) (d e : ℝ) :
    interpolated dftKernel cisReal Real.pi none M e (interpolated dftKernel cisReal Real.pi none N d a) =
      interpolated dftKernel cisReal Real.pi none M (d + e * a.length / N) a := by
  have hn : 1 ≤ a.length := List.length_pos_iff.2 ha
  have hn0 : (a.length : ℝ) ≠ 0 := by simpa using ha
  have hN0 : (N : ℝ) ≠ 0 := by exact_mod_cast (by omega : N ≠ 0)
  obtain ⟨⟨c, hc⟩, -⟩ := C91_every_signal a 1 0 one_ne_zero
  rw [mul_one] at hc
  generalize a.length = n at *
  have e1 := interpolated_samples (n : ℝ) hn0 n N hn hN c 0 d
  have e3 := interpolated_samples (n : ℝ) hn0 n M hn hM c 0 (d + e * n / N)
  rw [div_self hn0, ← hc] at e1 e3
  rw [e1, e3]
  have hw : ∀ m k (c : ℤ → ℂ), m ≤ k → wave (n : ℝ) k (inBand m c) = wave n m c := fun m k c hk => funext fun t => wave_inBand _ _ _ hk c t
  rw [← hw (min n N) N c (by omega)]
  rw [interpolated_samples (n : ℝ) hn0 N M hN hM]
  have ht : 0 + d * 1 + e * ((n : ℝ) / N) = 0 + (d + e * n / N) * 1 := by ring
  rw [ht]
  congr 1
  by_cases hm : min n N ≤ M
  · rw [show min N M = min N M from rfl, hw (min n N) (min N M) c (by omega), show min n N = min n M by omega]
  · have e4 : min N M = M := by omega
    have e5 : min n M = M := by omega
    rw [e4, e5]
    funext t
    unfold wave
    refine Finset.sum_congr rfl fun f hf => ?_
    rw [inBand, if_pos]
    rw [Finset.mem_Ico] at *
    omega

theorem interpolated_same (a : List (Cx ℝ)) (ha : a ≠ []) : interpolated dftKernel cisReal Real.pi none a.length 0 a = a := by
  have hn : 1 ≤ a.length := List.length_pos_iff.2 ha
  have hn0 : (a.length : ℝ) ≠ 0 := by simpa using ha
  obtain ⟨⟨c, hc⟩, -⟩ := C91_every_signal a 1 0 one_ne_zero
  rw [mul_one] at hc
  have e1 := interpolated_samples (a.length : ℝ) hn0 a.length a.length hn hn c 0 0
  rw [div_self hn0, ← hc] at e1
  rw [e1]
  conv_rhs => rw [hc]
  simp

/-- C92: `interpft` of a complex vector to more points and back. -/
theorem C92_interpft (K : FftKernel ℝ) (hK : K.IsDft) (w : World ℝ) (x : Nat) (hx : (w.sig x).numbers.isComplex = true)
    (hn : 1 ≤ (w.sig x).numbers.count) (N : Nat) (hN : (w.sig x).numbers.count ≤ N) :
    Restores w [.unary x (.interpft K N), .unary x (.interpft K (w.sig x).numbers.count)] x := by
  apply restores_of
  conv_run
  generalize w.sig x = s at *
  obtain ⟨S, dom, g, dl⟩ := s
  cases S with
  | real l => cases hx
  | complex a =>
    simp only [Numbers.count] at hn hN
    have ha : a ≠ [] := List.length_pos_iff.1 hn
    have hn0 : (a.length : ℝ) ≠ 0 := by simpa using ha
    have hN0 : (N : ℝ) ≠ 0 := by exact_mod_cast (by omega : N ≠ 0)
    simp only [UnCall.meaning, Numbers.receive, Numbers.asCx, Numbers.count]
    rw [interpft_points hK, interpft_points hK, interpolated_length N 0 a ha (by omega),
      interpolated_twice a ha N a.length (by omega) hn (by omega), zero_mul, zero_div, add_zero, interpolated_same a ha]
    congr 1
    cases dl with
    | none => rfl
    | some y =>
      simp only [Option.map_some, Option.some.injEq]
      field_simp

/-- C92: `interpft` to `N` and then to `M` points is `interpft` to `M` points, if `N` points are enough to show the frequencies. -/
theorem C92_interpft_twice (K : FftKernel ℝ) (hK : K.IsDft) (w : World ℝ) (x : Nat) (hx : (w.sig x).numbers.isComplex = true)
    (hn : 1 ≤ (w.sig x).numbers.count) (N M : Nat) (hN : 1 ≤ N) (hM : 1 ≤ M) (h : min (w.sig x).numbers.count M ≤ N) :
    SameResult w [.unary x (.interpft K N), .unary x (.interpft K M)] [.unary x (.interpft K M)] x := by
  apply same_of
  · conv_run
    generalize w.sig x = s at *
    obtain ⟨S, dom, g, dl⟩ := s
    cases S with
    | real l => cases hx
    | complex a =>
      simp only [Numbers.count] at hn h
      have ha : a ≠ [] := List.length_pos_iff.1 hn
      simp only [UnCall.meaning, Numbers.receive, Numbers.asCx, Numbers.count]
      rw [interpft_points hK, interpft_points hK, interpft_points hK, interpolated_twice a ha N M hN hM h, zero_mul, zero_div, add_zero]
  · conv_run
    rfl

/-- C92: `interpolate` of a complex vector to more points and back, with a delay and its opposite. -/
theorem C92_interpolate (K : FftKernel ℝ) (hK : K.IsDft) (w : World ℝ) (x : Nat) (hx : (w.sig x).numbers.isComplex = true)
    (hn : 1 ≤ (w.sig x).numbers.count) (y : ℝ) (hy : y ≠ 0) (hd : (w.sig x).delta = some y) (N : Nat)
    (hN : (w.sig x).numbers.count ≤ N) (delay : ℝ) :
    Restores w [.unary x (.interpolate K cisReal Real.pi none N delay),
      .unary x (.interpolate K cisReal Real.pi none (w.sig x).numbers.count (-delay))] x := by
  apply restores_of
  conv_run
  generalize w.sig x = s at *
  obtain ⟨S, dom, g, dl⟩ := s
  cases S with
  | real l => cases hx
  | complex a =>
    simp only at hd
    subst hd
    simp only [Numbers.count] at hn hN
    have ha : a ≠ [] := List.length_pos_iff.1 hn
    have hn0 : (a.length : ℝ) ≠ 0 := by simpa using ha
    have hN0 : (N : ℝ) ≠ 0 := by exact_mod_cast (by omega : N ≠ 0)
    simp only [UnCall.meaning, Numbers.receive, Numbers.asCx, Numbers.count]
    have e : (if delay = 0 then (0 : ℝ) else Option.elim (some y) 0 (delay / ·)) = delay / y := by
      split
      · rename_i h; rw [h, zero_div]
      · rfl
    have e2 : (if -delay = 0 then (0 : ℝ) else Option.elim (Option.map (· / ((N : ℝ) / a.length)) (some y)) 0 (-delay / ·)) =
        -delay / (y / ((N : ℝ) / a.length)) := by
      split
      · rename_i h; rw [h, zero_div]
      · rfl
    rw [e, e2]
    simp only [interpolated_dft hK]
    rw [interpolated_length N _ a ha (by omega), interpolated_twice a ha N a.length (by omega) hn (by omega)]
    have e3 : delay / y + -delay / (y / (N / a.length)) * a.length / N = 0 := by field_simp; ring
    rw [e3, interpolated_same a ha]
    congr 1
    simp only [Option.map_some, Option.some.injEq]
    field_simp

/-- C92: the original points are among the interpolated ones: `interpft` by a whole factor, then `decimatei`. (The sampling distance is not restored:
    `decimatei` does not update it.) -/
theorem C92_interpft_decimate (K : FftKernel ℝ) (hK : K.IsDft) (w : World ℝ) (x : Nat) (a : List (Cx ℝ))
    (ha : (w.sig x).numbers = .complex a) (hn : a ≠ []) (m : Nat) (hm : 1 ≤ m) :
    Leaves w [.unary x (.interpft K (m * a.length)), .single x (.decimate m 0)] x (.complex a) (w.sig x).dom := by
  have hn1 : 1 ≤ a.length := List.length_pos_iff.2 hn
  have hn0 : (a.length : ℝ) ≠ 0 := by simpa using hn
  have hm0 : (m : ℝ) ≠ 0 := by exact_mod_cast (by omega : m ≠ 0)
  have hN : 1 ≤ m * a.length := Nat.mul_pos hm hn1
  apply leaves_of
  · conv_run
    generalize w.sig x = s at *
    obtain ⟨S, dom, g, dl⟩ := s
    simp only at ha
    subst ha
    simp only [UnCall.meaning, Call.meaning, Numbers.receive, Numbers.asCx, Numbers.count, Numbers.rearrange]
    congr 1
    rw [interpft_points hK]
    obtain ⟨⟨c, hc⟩, -⟩ := C91_every_signal a 1 0 one_ne_zero
    rw [mul_one] at hc
    generalize hl : a.length = n at *
    have e1 := interpolated_samples (n : ℝ) hn0 n (m * n) hn1 hN c 0 0
    rw [div_self hn0, ← hc, zero_mul, zero_add, show min n (m * n) = n from Nat.min_eq_left (Nat.le_mul_of_pos_left _ hm)] at e1
    rw [e1, everyNth_eq ⟨0, 0⟩ m n hm _ (samples_length _ _ _ _), hc]
    unfold samples
    refine List.map_congr_left fun t ht => ?_
    have ht := List.mem_range.1 ht
    have hmt : m * t < m * n := Nat.mul_lt_mul_of_pos_left ht hm
    rw [List.getD_eq_getElem?_getD, List.getElem?_map, List.getElem?_range hmt]
    simp only [Option.map_some, Option.getD_some]
    congr 2
    push_cast
    field_simp
  · conv_run
    rfl

/-! ### Real vectors -/

theorem wave_conj (P : ℝ) (n : Nat) (hn : n % 2 = 1) (c : ℤ → ℂ) (t : ℝ) : conj (wave P n c t) = wave P n (fun f => conj (c (-f))) t := by
  unfold wave
  rw [map_sum]
  refine Finset.sum_equiv (Equiv.neg ℤ) (fun f => ?_) (fun f _ => ?_)
  · simp only [Finset.mem_Ico, Equiv.neg_apply]
    omega
  · simp only [map_mul, conj_turn, Equiv.neg_apply, neg_neg]
    congr 2
    push_cast; ring

/-- A wave with an odd number of frequencies whose points are real is real everywhere. -/
theorem wave_real (a : List ℝ) (hn : a.length % 2 = 1) (c : ℤ → ℂ)
    (hc : a.map Cx.ofReal = samples (wave a.length a.length c) a.length 1 0) (t : ℝ) : (wave a.length a.length c t).im = 0 := by
  have hu := (C91_every_signal (a.map Cx.ofReal) 1 0 one_ne_zero).2 c (fun f => conj (c (-f)))
  simp only [List.length_map, mul_one] at hu
  have hs : samples (wave a.length a.length c) a.length 1 0 = samples (wave a.length a.length fun f => conj (c (-f))) a.length 1 0 := by
    unfold samples
    refine List.map_congr_left fun i hi => ?_
    have hi := List.mem_range.1 hi
    rw [← wave_conj _ _ hn]
    have h1 : (a.map Cx.ofReal).getD i ⟨0, 0⟩ = Cx.ofC (wave a.length a.length c (0 + i * 1)) := by rw [hc, samples_getD _ _ _ _ _ _ hi]
    rw [List.getD_eq_getElem?_getD, List.getElem?_map, List.getElem?_eq_getElem hi] at h1
    have h2 : (wave a.length a.length c (0 + i * 1)).im = 0 := (congrArg Cx.im h1).symm
    congr 1
    apply Complex.ext
    · simp
    · rw [Complex.conj_im, h2, neg_zero]
  have hw : wave (a.length : ℝ) a.length c t = wave a.length a.length (fun f => conj (c (-f))) t := by
    unfold wave
    refine Finset.sum_congr rfl fun f hf => ?_
    rw [Finset.mem_Ico] at hf
    rw [hu hs f hf.1 hf.2]
  rw [← wave_conj _ _ hn] at hw
  have := congrArg Complex.im hw
  rw [Complex.conj_im] at this
  linarith

theorem interpolated_real (a : List ℝ) (hn : a.length % 2 = 1) (N : Nat) (hN : a.length ≤ N) (d : ℝ) :
    ((interpolated dftKernel cisReal Real.pi none N d (a.map Cx.ofReal)).map Cx.re).map Cx.ofReal =
      interpolated dftKernel cisReal Real.pi none N d (a.map Cx.ofReal) := by
  obtain ⟨⟨c, hc⟩, -⟩ := C91_every_signal (a.map Cx.ofReal) 1 0 one_ne_zero
  rw [List.length_map, mul_one] at hc
  have hn0 : (a.length : ℝ) ≠ 0 := by exact_mod_cast (by omega : a.length ≠ 0)
  have e := interpolated_samples (a.length : ℝ) hn0 a.length N (by omega) (by omega) c 0 d
  rw [div_self hn0, ← hc, Nat.min_eq_left hN] at e
  rw [e]
  unfold samples
  simp only [List.map_map]
  refine List.map_congr_left fun i _ => ?_
  have := wave_real a hn c hc (0 + d * 1 + i * (a.length / N))
  simp only [Function.comp, Cx.ofC, Cx.ofReal, this]

/-- C92: `interpft` of a real vector with an odd number of points to more points and back. -/
theorem C92_interpft_real (K : FftKernel ℝ) (hK : K.IsDft) (w : World ℝ) (x : Nat) (a : List ℝ) (hx : (w.sig x).numbers = .real a)
    (hn : a.length % 2 = 1) (N : Nat) (hN : a.length ≤ N) :
    Restores w [.unary x (.interpft K N), .unary x (.interpft K a.length)] x := by
  apply restores_of
  conv_run
  generalize w.sig x = s at *
  obtain ⟨S, dom, g, dl⟩ := s
  simp only at hx
  subst hx
  have ha : a.map Cx.ofReal ≠ [] := by intro h; rw [List.map_eq_nil_iff] at h; subst h; cases hn
  have hl : (a.map (Cx.ofReal (T := ℝ))).length = a.length := List.length_map ..
  have hn0 : (a.length : ℝ) ≠ 0 := by exact_mod_cast (by omega : a.length ≠ 0)
  have hN0 : (N : ℝ) ≠ 0 := by exact_mod_cast (by omega : N ≠ 0)
  simp only [UnCall.meaning, Numbers.receive, Numbers.asCx, Numbers.count]
  have e1 := interpft_points hK N (a.map Cx.ofReal)
  rw [hl] at e1
  rw [e1]
  have e2 := interpft_points hK a.length (((interpolated dftKernel cisReal Real.pi none N 0 (a.map Cx.ofReal)).map Cx.re).map Cx.ofReal)
  simp only [List.length_map] at e2 ⊢
  rw [e2, interpolated_real a hn N hN, interpolated_length N 0 _ ha (by omega)]
  have e3 := interpolated_twice (a.map Cx.ofReal) ha N a.length (by omega) (by omega) (by rw [hl]; omega) 0 0
  have e4 := interpolated_same (a.map Cx.ofReal) ha
  rw [hl] at e4
  rw [e3, zero_mul, zero_div, add_zero, e4]
  congr 1
  · rw [List.map_map]; congr 1; exact List.map_id a
  · cases dl with
    | none => rfl
    | some y =>
      simp only [Option.map_some, Option.some.injEq]
      field_simp

/-- C92 does not hold for real vectors with an even number of points: half of the sampling rate loses half of its amplitude on the way. `[1, -1]` becomes
    `[1, 0, -1, 0]` with `interpft` to four points, and `[1 / 2, -1 / 2]` after the way back. -/
theorem C92_interpft_even_violated (K : FftKernel ℝ) (hK : K.IsDft) (w : World ℝ) (x : Nat) (hx : (w.sig x).numbers = .real [1, -1]) :
    Leaves w [.unary x (.interpft K 4)] x (.real [1, 0, -1, 0]) (w.sig x).dom ∧
      Leaves w [.unary x (.interpft K 4), .unary x (.interpft K 2)] x (.real [1 / 2, -(1 / 2)]) (w.sig x).dom := by
  have hp : ([⟨1, 0⟩, ⟨-1, 0⟩] : List (Cx ℝ)) = samples (wave 2 2 lowestTone) 2 1 0 := by
    rw [show wave 2 2 lowestTone = fun t => turn (-t / 2) from funext lowestTone_wave]
    simp only [samples, List.range_succ, List.range_zero, List.nil_append, List.cons_append, List.map_cons, List.map_nil, Nat.cast_zero,
      Nat.cast_one, zero_add, mul_one, neg_zero, zero_div, turn_zero, turn_half]
    simp [Cx.ofC]
  have turn_quarter : turn (-1 / 4) = -Complex.I := by
    unfold turn
    rw [show (2 * Real.pi * ((-1 / 4 : ℝ) : ℂ) * Complex.I : ℂ) = -(Real.pi / 2 * Complex.I) by push_cast; ring, Complex.exp_neg,
      Complex.exp_pi_div_two_mul_I, Complex.inv_I]
  have e1 : interpolated dftKernel cisReal Real.pi none 4 0 [⟨1, 0⟩, ⟨-1, 0⟩] = [⟨1, 0⟩, ⟨0, -1⟩, ⟨-1, 0⟩, ⟨0, 1⟩] := by
    have e := interpolated_samples 2 two_ne_zero 2 4 (by omega) (by omega) lowestTone 0 0
    rw [show ((2 : ℝ) / ((2 : Nat) : ℝ)) = 1 by norm_num, ← hp, show min 2 4 = 2 from rfl] at e
    rw [e, show wave 2 2 lowestTone = fun t => turn (-t / 2) from funext lowestTone_wave]
    have h3 : turn (-(3 / 4)) = Complex.I := by
      rw [show (-(3 / 4) : ℝ) = -1 / 4 + -1 / 2 by norm_num, turn_add, turn_quarter, turn_half]; simp
    simp only [samples, List.range_succ, List.range_zero, List.nil_append, List.cons_append, List.map_cons, List.map_nil]
    norm_num [turn_zero]
    rw [show (-(1 / 4) : ℝ) = -1 / 4 by norm_num, show (-(1 / 2) : ℝ) = -1 / 2 by norm_num, turn_quarter, h3, turn_half]
    simp [Cx.ofC]
  have e2 : interpolated dftKernel cisReal Real.pi none 2 0 [⟨1, 0⟩, ⟨0, 0⟩, ⟨-1, 0⟩, ⟨0, 0⟩] = [⟨1 / 2, 0⟩, ⟨-(1 / 2), 0⟩] := by
    let c : ℤ → ℂ := fun f => if f = 1 ∨ f = -1 then 1 / 2 else 0
    have hw4 : ∀ t, wave 2 4 c t = 1 / 2 * turn (t / 2) + 1 / 2 * turn (-t / 2) := by
      intro t
      rw [wave_bins, Finset.sum_range_succ, Finset.sum_range_succ, Finset.sum_range_succ, Finset.sum_range_one]
      simp [binFrequency, c]
    have hw2 : ∀ t, wave 2 2 c t = 1 / 2 * turn (-t / 2) := by
      intro t
      rw [wave_bins, Finset.sum_range_succ, Finset.sum_range_one]
      simp [binFrequency, c]
    have q1 : turn (1 / 4) = Complex.I := by
      rw [show (1 / 4 : ℝ) = -(-1 / 4) by norm_num, ← conj_turn, turn_quarter]; simp
    have q2 : turn (1 / 2) = -1 := by
      rw [show (1 / 2 : ℝ) = -(-1 / 2) by norm_num, ← conj_turn, turn_half]; simp
    have q3 : turn (3 / 4) = -Complex.I := by
      rw [show (3 / 4 : ℝ) = 1 / 4 + 1 / 2 by norm_num, turn_add, q1, q2]; simp
    have q4 : turn (-(3 / 4)) = Complex.I := by rw [← conj_turn, q3]; simp
    have h4 : ([⟨1, 0⟩, ⟨0, 0⟩, ⟨-1, 0⟩, ⟨0, 0⟩] : List (Cx ℝ)) = samples (wave 2 4 c) 4 (1 / 2) 0 := by
      rw [show wave 2 4 c = _ from funext hw4]
      simp only [samples, List.range_succ, List.range_zero, List.nil_append, List.cons_append, List.map_cons, List.map_nil]
      norm_num [turn_zero]
      rw [show (-(1 / 4) : ℝ) = -1 / 4 by norm_num, show (-(1 / 2) : ℝ) = -1 / 2 by norm_num, turn_quarter, turn_half, q1, q2, q3, q4]
      simp [Cx.ofC]
      norm_num
    have e := interpolated_samples 2 two_ne_zero 4 2 (by omega) (by omega) c 0 0
    rw [show ((2 : ℝ) / ((4 : Nat) : ℝ)) = 1 / 2 by norm_num, ← h4, show min 4 2 = 2 from rfl, show wave 2 2 c = _ from funext hw2] at e
    rw [e]
    simp only [samples, List.range_succ, List.range_zero, List.nil_append, List.cons_append, List.map_cons, List.map_nil]
    norm_num [turn_zero]
    rw [show (-(1 / 2) : ℝ) = -1 / 2 by norm_num, turn_half]
    simp [Cx.ofC]
    norm_num
  have r1 : ((w.after [.unary x (.interpft K 4)]).sig x) = { w.sig x with numbers := .real [1, 0, -1, 0], delta := (w.sig x).delta.map (· / ((4 : Nat) / ((2 : Nat) : ℝ))) } := by
    conv_run
    generalize w.sig x = s at *
    obtain ⟨S, dom, g, dl⟩ := s
    simp only at hx
    subst hx
    simp only [UnCall.meaning, Numbers.receive, Numbers.asCx, Numbers.count]
    have e3 := interpft_points hK 4 ([1, -1].map Cx.ofReal)
    simp only [List.length_map] at e3
    rw [e3, show ([1, -1] : List ℝ).map Cx.ofReal = [⟨1, 0⟩, ⟨-1, 0⟩] from rfl, e1]
    rfl
  have r2 : ((w.after [.unary x (.interpft K 4), .unary x (.interpft K 2)]).sig x).numbers = .real [1 / 2, -(1 / 2)] := by
    rw [show ([.unary x (.interpft K 4), .unary x (.interpft K 2)] : List (StmtCall ℝ)) = [.unary x (.interpft K 4)] ++ [.unary x (.interpft K 2)] from rfl,
      after_append]
    generalize w.after [.unary x (.interpft K 4)] = w1 at r1 ⊢
    conv_run
    rw [r1]
    simp only [UnCall.meaning, Numbers.receive, Numbers.asCx, Numbers.count]
    have e3 := interpft_points hK 2 ([1, 0, -1, 0].map Cx.ofReal)
    simp only [List.length_map] at e3
    rw [e3, show ([1, 0, -1, 0] : List ℝ).map Cx.ofReal = [⟨1, 0⟩, ⟨0, 0⟩, ⟨-1, 0⟩, ⟨0, 0⟩] from rfl, e2]
    rfl
  refine ⟨leaves_of (by rw [r1]) (by rw [r1]), leaves_of r2 ?_⟩
  conv_run
  rfl

/-! ### Cases in which the hypotheses hold -/

/-- A law as a program which runs: the vector `[1, 2, 0]` is summed up and differentiated. -/
example : ∃ f, (∃ o, runProgram o 0 lawMachine [.single 0 .cumSum, .single 0 .diffWithStart] = .finished f) ∧
    (f.vec 0).content = some [1, 2, ((0 : Nat) : ℝ)] ∧ (f.vec 0).delta = some 1 := by
  have s1 : lawMachine.SafeAll [.single 0 .cumSum, .single 0 .diffWithStart] :=
    law_next lawMachine_shows trivial fun _ h => law_next h (fun hc => by
      have h2 := (h.1 0).isComplex
      rw [hc] at h2
      cases h2) fun _ _ => trivial
  obtain ⟨f, -, ⟨o, r⟩, -⟩ := C72_program _ _ _ lawMachine_shows s1
  have h := (C92_diff_sum lawWorld 0).2 _ _ lawMachine_shows rfl s1 _ _ r
  exact ⟨f, ⟨o, r⟩, h.1, h.2.2.2⟩

/-- A copy, a program which changes the vector, and back. -/
example : ∃ f, (∃ o, runProgram o 0 lawMachine [.clone 0 1, .single 0 .reverse, .single 0 .cumSum, .clone 1 0] = .finished f) ∧
    (f.vec 0).content = some [1, 2, ((0 : Nat) : ℝ)] := by
  have s1 : lawMachine.SafeAll [.clone 0 1, .single 0 .reverse, .single 0 .cumSum, .clone 1 0] :=
    law_next lawMachine_shows trivial fun _ h => law_next h trivial fun _ h => law_next h trivial fun _ h => law_next h trivial fun _ _ => trivial
  obtain ⟨f, -, ⟨o, r⟩, -⟩ := C72_program _ _ _ lawMachine_shows s1
  have h := C92_clone lawWorld 0 1 [.single 0 .reverse, .single 0 .cumSum] (by
    intro c hc; simp only [List.mem_cons, List.not_mem_nil, or_false] at hc; rcases hc with rfl | rfl <;> simp [StmtCall.writes])
    _ _ lawMachine_shows rfl s1 _ _ r
  exact ⟨f, ⟨o, r⟩, h.1⟩

/-- Addition and subtraction. -/
example : ∃ f, (∃ o, runProgram o 0 lawMachine [.binary 0 1 (.elem .add .sseF64x2 0), .binary 0 1 (.elem .sub .avxF64x4 4)] = .finished f) ∧
    (f.vec 0).content = some [1, 2, ((0 : Nat) : ℝ)] := by
  have s1 : lawMachine.SafeAll [.binary 0 1 (.elem .add .sseF64x2 0), .binary 0 1 (.elem .sub .avxF64x4 4)] := by
    refine law_next lawMachine_shows ⟨fun e he => ?_, fun _ _ => ⟨.inl rfl, fun _ hop => by rcases hop with h | h <;> cases h⟩⟩ fun m' h =>
      law_next h ⟨fun e he => ?_, fun _ _ => ⟨.inl rfl, fun _ hop => by rcases hop with h | h <;> cases h⟩⟩ fun _ _ => trivial
    · cases he; norm_num
    · rw [(h.1 1).delta] at he
      have : ((World.put lawWorld 0 (BinCall.meaning (lawWorld.sig 0) (lawWorld.sig 1) (.elem .add)).1
        (BinCall.meaning (lawWorld.sig 0) (lawWorld.sig 1) (.elem .add)).2).sig 1).delta = some e := he
      rw [sig_put_other _ (by decide)] at this
      cases this; norm_num
  obtain ⟨f, -, ⟨o, r⟩, -⟩ := C72_program _ _ _ lawMachine_shows s1
  have h := ((C92_add_sub lawWorld 0 1 (by decide) lawWorld_agrees).1 rfl).1 _ _ lawMachine_shows rfl s1 _ _ r
  exact ⟨f, ⟨o, r⟩, h.1⟩

/-- The complex numbers 1, -1 in every variable. -/
def pairMachine : Machine ℝ := ⟨fun _ => complexPair, []⟩

/-- What the machine shows. -/
def pairWorld : World ℝ := ⟨fun _ => ⟨.complex [⟨1, 0⟩, ⟨-1, 0⟩], .time, false, some 1⟩, []⟩

theorem pairMachine_shows : pairMachine.Shows pairWorld := ⟨fun _ => complexPair_shows, rfl⟩

/-- `interpft` of two points to four points and back. -/
example (k : RegKind) (st : MultiCoreSettings) : ∃ f, (∃ o, runProgram o 0 pairMachine
      [.unary 0 (.interpft dftKernel k 0 cisReal Real.pi st (.single []) 4), .unary 0 (.interpft dftKernel k 0 cisReal Real.pi st (.single []) 2)] = .finished f) ∧
    (f.vec 0).content = some [1, 0, -1, 0] ∧ (f.vec 0).delta = some 1 := by
  have hcis : IsCis cisReal := ⟨cisReal_zero, cisReal_add⟩
  have hs1 : (Stmt.unary 0 (.interpft dftKernel k 0 cisReal Real.pi st (.single []) 4)).Safe pairMachine :=
    ⟨isDft_keepsLength dft_isDft, hcis, by decide, by decide, env_vec _ _ _ rfl _ _⟩
  have s1 : pairMachine.SafeAll [.unary 0 (.interpft dftKernel k 0 cisReal Real.pi st (.single []) 4),
      .unary 0 (.interpft dftKernel k 0 cisReal Real.pi st (.single []) 2)] := by
    refine ⟨hs1, fun a b m' hf => ?_⟩
    have hk : (m'.vec 0).data.kind = .vec := by
      obtain ⟨u, b', h2, -, h4⟩ := C57_interpft dftKernel (isDft_keepsLength dft_isDft) k 0 cisReal cisReal_zero cisReal_add Real.pi st 4 complexPair _
        complexPair_shows (by decide) (by decide) (.single []) (env_vec _ _ _ rfl _ _)
      have h5 : ((UnOp.interpft dftKernel k 0 cisReal Real.pi st (.single []) 4).run complexPair a b).andThen
        (fun r => Outcome.finished (pairMachine.put 0 r.1 r.2)) = .finished m' := hf
      simp only [UnOp.run] at h5
      rcases h2.1 a b with h | h <;> rw [h] at h5
      · cases h5
      · cases h5
        exact h4
    obtain ⟨m'', ⟨a1, -⟩, a3⟩ := C72_step pairMachine pairWorld _ pairMachine_shows hs1
    have hm : m'.Shows (StmtCall.meaning pairWorld (Stmt.unary 0 (UnOp.interpft dftKernel k 0 cisReal Real.pi st (Buffer.single []) 4)).call) := by
      rcases a1 a b with e | e <;> beta_reduce at e <;> rw [hf] at e <;> cases e
      exact a3
    refine law_next hm ⟨isDft_keepsLength dft_isDft, hcis, ?_, by decide, env_vec _ _ _ hk _ _⟩ fun _ _ => trivial
    have h1 := (hm.1 0).len
    have h2 := (hm.1 0).isComplex
    have e4 : interpolated dftKernel cisReal Real.pi none 4 0 [⟨1, 0⟩, ⟨-1, 0⟩] = 
        (dftKernel.inverse ((resampledSpectrum 4 (dftKernel.forward [⟨1, 0⟩, ⟨-1, 0⟩])).map (Cx.scaleBy ((4 : Nat) / (([⟨1, 0⟩, ⟨-1, 0⟩] : List (Cx ℝ)).length : ℝ))))).map (Cx.scaleBy (1 / ((4 : Nat) : ℝ))) :=
      (interpft_points dft_isDft 4 [⟨1, 0⟩, ⟨-1, 0⟩]).symm
    have e5 := interpolated_length 4 0 [⟨1, 0⟩, ⟨-1, 0⟩] (by simp) (by omega)
    rw [e4] at e5
    simp only [Stmt.call, UnOp.call, StmtCall.meaning, sig_put_same, pairWorld, UnCall.meaning, Numbers.receive, Numbers.asCx, Numbers.count,
      Numbers.flat, Numbers.isComplex] at h1 h2
    have h6 : (m'.vec 0).len = 8 := by
      rw [h1, length_fromComplex]
      simp only [List.length_cons, List.length_nil] at e5 ⊢
      rw [e5]
    unfold DspVec.points
    rw [if_pos h2]
    simp only [DspVec.len] at h6
    omega
  obtain ⟨f, -, ⟨o, r⟩, -⟩ := C72_program _ _ _ pairMachine_shows s1
  have h := C92_interpft dftKernel dft_isDft pairWorld 0 rfl (by decide) 4 (by decide) _ _ pairMachine_shows rfl s1 _ _ r
  exact ⟨f, ⟨o, r⟩, h.1, h.2.2.2⟩

end Dsp
