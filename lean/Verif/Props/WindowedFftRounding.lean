import Verif.Spec.WindowedFftRounding
import Verif.Props.FftRounding
import Verif.Props.ModulationRounding
import Verif.Props.WindowRounding
/-
C97: the transforms with a window, with rounded numbers.
-/
namespace Dsp
open DspVec
variable {R : Rounding}

noncomputable section

theorem pointValue_eq {cs : List (Cx (Fl R))} {i : Nat} {c : Cx (Fl R)} (h : cs[i]? = some c) : pointValue cs i = Fl.complex c := by
  unfold pointValue
  rw [List.getD_eq_getElem?_getD, h]
  rfl

theorem real_point (x : Fl R) : Fl.complex (Cx.ofReal x) = (x.val : ℂ) := by
  apply Complex.ext
  · simp [Fl.complex, Cx.ofReal]
  · rfl

theorem transformBuffer_of_replaced {K : FftKernel (Fl R)} {b : Buffer (Fl R)} {v u : DspVec (Fl R)} {c : List (Fl R)}
    (h : Replaced v u c) (hb : TransformBufferOk K b v) : TransformBufferOk K b u ∧ u.points = v.points ∧ u.len = v.len ∧
      (u.Typed ↔ v.Typed) ∧ u.dom = v.dom := by
  have hcx := replaced_isComplex h
  obtain ⟨h1, h2, ⟨m1, m2, m3, m4⟩, h4, -⟩ := h
  have hp : u.points = v.points := by unfold points; rw [h2, hcx]
  obtain ⟨b1, b2⟩ := hb
  refine ⟨⟨fun hc => ?_, by rw [hp]; exact b2⟩, hp, h2, by unfold Typed; rw [m2, m3], by unfold dom; rw [m2]⟩
  rw [hcx] at hc
  have := b1 hc
  rw [show u.len = v.len from h2]
  refine ⟨this.1, ?_⟩
  have := this.2
  unfold BufferOk at *
  rw [h4]
  exact this

/-- A window with the values `f`: every point is multiplied with its weight, up to three roundings. -/
theorem weighted_points (st : MultiCoreSettings) (sym : Bool) (f : Nat → Nat → Fl R) (hu : R.u ≤ 1 / 1000) (v : DspVec (Fl R))
    (hv : v.WF) (hp : (sym = true ∧ 2 ≤ v.points ∧ st.coreLimit ≠ 0) ∨ (sym = false ∧ 1 ≤ v.points)) :
    ∃ u c cs ds, Always (v.multiplyWindowBy st sym f) u ∧ Replaced v u c ∧ v.cpoints = some cs ∧ u.cpoints = some ds ∧
      ∀ i < v.points,
        ‖pointValue ds i - pointValue cs i *
          (weightAt sym (determineNumberOfChunks v.points .medium st) (fun i n => (f i n).val) v.points i : ℝ)‖ ≤
        3 * R.u * (‖pointValue cs i‖ *
          |weightAt sym (determineNumberOfChunks v.points .medium st) (fun i n => (f i n).val) v.points i|) := by
  obtain ⟨hreal, hcomplex⟩ := window_bitwise st sym f v hv hp
  have hu0 := R.u_nonneg
  cases hc : v.isComplex with
  | false =>
    obtain ⟨a, u, h1, h2, h3, h4⟩ := hreal hc
    refine ⟨u, _, a.map Cx.ofReal, _, h3, h4, (cpoints_real hc).mpr ⟨a, h1, rfl⟩,
      (cpoints_real ((replaced_isComplex h4).trans hc)).mpr ⟨_, h4.1, rfl⟩, fun i hi => ?_⟩
    have hx : a[i]? = some a[i] := List.getElem?_eq_getElem (by omega)
    rw [pointValue_eq (cs := a.map Cx.ofReal) (by rw [List.getElem?_map, hx]; rfl),
      pointValue_eq (cs := (List.mapIdx _ a).map Cx.ofReal) (by rw [List.getElem?_map, List.getElem?_mapIdx, hx]; rfl), real_point, real_point]
    unfold weightAt
    cases windowIndex sym (determineNumberOfChunks v.points .medium st) v.points i with
    | none => simp; positivity
    | some j =>
      have er : |(a[i] * f j v.points : Fl R).val - a[i].val * (f j v.points).val| ≤ _ := R.error (a[i].val * (f j v.points).val)
      rw [abs_mul] at er
      show ‖((a[i] * f j v.points : Fl R).val : ℂ) - (a[i].val : ℂ) * ((f j v.points).val : ℂ)‖ ≤ _
      rw [← Complex.ofReal_mul, ← Complex.ofReal_sub, Complex.norm_real, Complex.norm_real, Real.norm_eq_abs, Real.norm_eq_abs]
      have : 0 ≤ R.u * (|a[i].val| * |(f j v.points).val|) := by positivity
      linarith
  | true =>
    obtain ⟨cs, u, h1, h2, h3, h4⟩ := hcomplex hc
    refine ⟨u, _, cs, _, h3, h4, (cpoints_complex hc).mpr h1, (cpoints_complex ((replaced_isComplex h4).trans hc)).mpr h4.1,
      fun i hi => ?_⟩
    have hx : cs[i]? = some cs[i] := List.getElem?_eq_getElem (by omega)
    rw [pointValue_eq hx, pointValue_eq (cs := List.mapIdx _ cs) (by rw [List.getElem?_mapIdx, hx]; rfl)]
    unfold weightAt
    cases windowIndex sym (determineNumberOfChunks v.points .medium st) v.points i with
    | none => simp; positivity
    | some j =>
      have er := cx_mul_three hu cs[i] ⟨f j v.points, 0⟩
      have ec : Fl.complex (⟨f j v.points, 0⟩ : Cx (Fl R)) = ((f j v.points).val : ℂ) := real_point _
      rw [ec, norm_mul, Complex.norm_real, Real.norm_eq_abs] at er
      exact er

/-- The window value is taken at one of the points. -/
theorem windowIndex_lt {sym : Bool} {workers n i j : Nat} (hi : i < n) (h : windowIndex sym workers n i = some j) : j < n := by
  unfold windowIndex at h
  cases sym
  · cases h; exact hi
  simp only [if_true] at h
  unfold symmetricIndex at h
  rcases Nat.eq_zero_or_pos workers with rfl | hw
  · simp at h; omega
  generalize hs : (n + 2 * workers - 1) / (2 * workers) = size at h
  have hs0 : 1 ≤ size := by rw [← hs, Nat.le_div_iff_mul_le (by omega)]; omega
  have hc : (n + size - 1) / size * size ≤ n + size - 1 := Nat.div_mul_le_self _ _
  have h3 : size ≤ workers * size := Nat.le_mul_of_pos_left _ hw
  dsimp only at h
  generalize (n + size - 1) / size = chunks at h hc
  split at h
  · cases h; exact hi
  · split at h
    · cases h
    · split at h <;> cases h <;> omega

/-- The weights of the computed window differ from those of the exact window by at most the error of the window function. -/
theorem weight_error {f W : Nat → Nat → ℝ} {e : ℝ} (he : 0 ≤ e) {n : Nat} (hw : ∀ i < n, |f i n - W i n| ≤ e) (sym : Bool)
    (workers i : Nat) (hi : i < n) : |weightAt sym workers f n i - weightAt sym workers W n i| ≤ e := by
  unfold weightAt
  cases h : windowIndex sym workers n i with
  | none => simp [he]
  | some j => exact hw j (windowIndex_lt hi h)

/-- C97: `windowed_fft` with rounded numbers, for every schedule: point `k` of the result is frequency `k - n / 2` of the exact
    transform of the points multiplied with the weights of the window, up to an error in the Euclidean norm: `e` is the relative error
    of the FFT library, `δ` what the window contributes - the error `ew` of the window function and three roundings -, `M` bounds the
    weights. -/
theorem C97_windowed_fft (K : FftKernel (Fl R)) (e : ℝ) (he : 0 ≤ e) (hK : K.Accurate e) (hu : R.u ≤ 1 / 1000)
    (st : MultiCoreSettings) (win : WindowFunction (Fl R)) (W : Nat → Nat → ℝ) (ew : ℝ) (hew : 0 ≤ ew)
    (v : DspVec (Fl R)) (hw : ∀ i < v.points, |(win.window i v.points).val - W i v.points| ≤ ew) (hv : v.WF) (ht : v.Typed) (hd : v.dom = .time)
    (b : Buffer (Fl R)) (hb : TransformBufferOk K b v)
    (hp : (win.isSymmetric = true ∧ 2 ≤ v.points ∧ st.coreLimit ≠ 0) ∨ (win.isSymmetric = false ∧ 1 ≤ v.points))
    (M : ℝ) (hM : ∀ i < v.points,
      |weightAt win.isSymmetric (determineNumberOfChunks v.points .medium st) W v.points i| ≤ M) :
    ∃ w b' cs ws, Always (v.windowedFft K st win b) (w, b') ∧ v.cpoints = some cs ∧ w.cpoints = some ws ∧
      ws.length = v.points ∧ w.isComplex = true ∧ w.dom = .frequency ∧
      l2 v.points (fun k => pointValue ws k - dftAt v.points (fun i => pointValue cs i *
          (weightAt win.isSymmetric (determineNumberOfChunks v.points .medium st) W v.points i : ℝ)) (k - (v.points / 2 : Nat))) ≤
        (e * (M + (ew + 3 * R.u * (M + ew))) + (ew + 3 * R.u * (M + ew))) * (Real.sqrt v.points * l2 v.points (pointValue cs)) := by
  obtain ⟨u, c, cs, ds, h1, h2, h3, h4, h5⟩ := weighted_points st win.isSymmetric win.window hu v hv hp
  obtain ⟨hb', hpt, -, htt, hdd⟩ := transformBuffer_of_replaced h2 hb
  obtain ⟨w, b', ds', ws, f1, f2, f3, f4, f5, f6, f7, f8⟩ := C95_fft K e hK u (replaced_wf hv h2) (htt.2 ht) (hdd.trans hd) b hb'
  rw [h4] at f2
  cases f2
  rw [hpt] at f5 f8
  have h1 : Always (v.applyWindow st win) u := h1
  refine ⟨w, b', cs, ws, h1.andThen (by rw [f1]; rfl), h3, f3, f5, f6, f7, ?_⟩
  have hu0 := R.u_nonneg
  set g := weightAt win.isSymmetric (determineNumberOfChunks v.points .medium st) W v.points with hg
  set n := v.points
  have hM0 : 0 ≤ M := (abs_nonneg _).trans (hM 0 (by rcases hp with ⟨-, h, -⟩ | ⟨-, h⟩ <;> omega))
  have hδ : 0 ≤ ew + 3 * R.u * (M + ew) := by positivity
  generalize hdef : ew + 3 * R.u * (M + ew) = δ at *
  have hpoint : ∀ i < n, ‖pointValue ds i - pointValue cs i * (g i : ℝ)‖ ≤ δ * ‖pointValue cs i‖ := by
    intro i hi
    have a1 := h5 i hi
    have a2 := weight_error (f := fun i n => (win.window i n).val) hew hw win.isSymmetric (determineNumberOfChunks v.points .medium st) i hi
    rw [← hg] at a2
    generalize weightAt win.isSymmetric (determineNumberOfChunks v.points .medium st) (fun i n => (win.window i n).val) v.points i = t at a1 a2
    have a3 := hM i hi
    have a4 : |t| ≤ M + ew := by
      have := abs_add_le (t - g i) (g i)
      rw [sub_add_cancel] at this
      linarith
    have tri := norm_add_le (pointValue ds i - pointValue cs i * (t : ℂ)) (pointValue cs i * (t : ℂ) - pointValue cs i * (g i : ℂ))
    rw [sub_add_sub_cancel, ← mul_sub, norm_mul (pointValue cs i), ← Complex.ofReal_sub, Complex.norm_real, Real.norm_eq_abs] at tri
    have a5 := mul_le_mul_of_nonneg_left a2 (norm_nonneg (pointValue cs i))
    have a6 := mul_le_mul_of_nonneg_left a4 (norm_nonneg (pointValue cs i))
    have a7 := mul_le_mul_of_nonneg_left a6 (show 0 ≤ 3 * R.u by positivity)
    have e1 : δ * ‖pointValue cs i‖ = 3 * R.u * (‖pointValue cs i‖ * (M + ew)) + ‖pointValue cs i‖ * ew := by rw [← hdef]; ring
    linarith
  exact windowed_error hM0 hδ he hM hpoint f8
where
  windowed_error {n : Nat} {f g F : Nat → ℂ} {t : Nat → ℝ} {e M δ : ℝ} (hM0 : 0 ≤ M) (hδ : 0 ≤ δ) (he : 0 ≤ e) (hM : ∀ i < n, |t i| ≤ M)
      (h : ∀ i < n, ‖g i - f i * (t i : ℂ)‖ ≤ δ * ‖f i‖)
      (hF : l2 n (fun k => F k - dftAt n g (k - (n / 2 : Nat))) ≤ e * (Real.sqrt n * l2 n g)) :
      l2 n (fun k => F k - dftAt n (fun i => f i * (t i : ℂ)) (k - (n / 2 : Nat))) ≤ (e * (M + δ) + δ) * (Real.sqrt n * l2 n f) := by
    have h0 : 0 ≤ Real.sqrt n := Real.sqrt_nonneg _
    have b1 : l2 n (fun i => g i - f i * (t i : ℂ)) ≤ δ * l2 n f := l2_mul_le hδ h
    have b2 : l2 n (fun i => f i * (t i : ℂ)) ≤ M * l2 n f := l2_mul_le hM0 fun i hi => by
      rw [norm_mul, Complex.norm_real, Real.norm_eq_abs, mul_comm]
      exact mul_le_mul_of_nonneg_right (hM i hi) (norm_nonneg _)
    have b3 := l2_add_le n (fun i => g i - f i * (t i : ℂ)) (fun i => f i * (t i : ℂ))
    simp only [sub_add_cancel] at b3
    have b4 : l2 n g ≤ (M + δ) * l2 n f := by linarith [show l2 n g = l2 n (fun i => g i) from rfl]
    have b5 : l2 n (fun k => dftAt n g (k - (n / 2 : Nat)) - dftAt n (fun i => f i * (t i : ℂ)) (k - (n / 2 : Nat))) =
        Real.sqrt n * l2 n (fun i => g i - f i * (t i : ℂ)) := by
      rw [← l2_shifted_dft]
      exact l2_congr fun k _ => (dftAt_sub n g (fun i => f i * (t i : ℂ)) _).symm
    have b6 := l2_add_le n (fun k => F k - dftAt n g (k - (n / 2 : Nat)))
      (fun k => dftAt n g (k - (n / 2 : Nat)) - dftAt n (fun i => f i * (t i : ℂ)) (k - (n / 2 : Nat)))
    simp only [sub_add_sub_cancel] at b6
    rw [b5] at b6
    have b7 := mul_le_mul_of_nonneg_left b1 h0
    have b8 := mul_le_mul_of_nonneg_left (mul_le_mul_of_nonneg_left b4 h0) he
    have e2 : (e * (M + δ) + δ) * (Real.sqrt n * l2 n f) = e * (Real.sqrt n * ((M + δ) * l2 n f)) + Real.sqrt n * (δ * l2 n f) := by ring
    rw [e2]
    linarith
  l2_shifted_dft (n : Nat) (f : Nat → ℂ) : l2 n (fun k => dftAt n f (k - (n / 2 : Nat))) = Real.sqrt n * l2 n f := by
    rw [← l2_dft, ← l2_circle n (n - n / 2) (fun k => dftAt n f k)]
    apply l2_congr
    intro k hk
    apply dftAt_congr
    push_cast
    rw [Int.emod_emod_of_dvd _ (dvd_refl _), Nat.cast_sub (by omega)]
    rw [show (k : ℤ) + ((n : ℤ) - (n / 2 : Nat)) = (k - (n / 2 : Nat)) + n by ring, Int.add_emod_right]
    push_cast
    rfl

/-- One core - the default settings - and a symmetric exact window: the weights are the values of the window. -/
theorem weightAt_one_core {sym : Bool} {W : Nat → Nat → ℝ} {n i : Nat} (h2 : 2 ≤ n ∨ sym = false)
    (hW : ∀ i < n, W i n = W (n - 1 - i) n) (hi : i < n) : weightAt sym 1 W n i = W i n := by
  obtain ⟨j, hj, hj'⟩ := windowIndex_one sym n i h2 hi
  unfold weightAt
  rw [hj]
  rcases hj' with rfl | rfl
  · rfl
  · exact (hW i hi).symm

/-- C97: `windowed_fft` with the default settings (one core) and a window which is symmetric as it says: the exact transform of the
    points times the window. -/
theorem C97_windowed_fft_one_core (K : FftKernel (Fl R)) (e : ℝ) (he : 0 ≤ e) (hK : K.Accurate e) (hu : R.u ≤ 1 / 1000)
    (st : MultiCoreSettings) (h1 : st.coreLimit = 1) (win : WindowFunction (Fl R)) (W : Nat → Nat → ℝ) (ew : ℝ) (hew : 0 ≤ ew)
    (v : DspVec (Fl R)) (hw : ∀ i < v.points, |(win.window i v.points).val - W i v.points| ≤ ew)
    (hW : ∀ i < v.points, W i v.points = W (v.points - 1 - i) v.points)
    (hv : v.WF) (ht : v.Typed) (hd : v.dom = .time) (b : Buffer (Fl R)) (hb : TransformBufferOk K b v) (hp : 2 ≤ v.points)
    (M : ℝ) (hM : ∀ i < v.points, |W i v.points| ≤ M) :
    ∃ w b' cs ws, Always (v.windowedFft K st win b) (w, b') ∧ v.cpoints = some cs ∧ w.cpoints = some ws ∧
      ws.length = v.points ∧ w.isComplex = true ∧ w.dom = .frequency ∧
      l2 v.points (fun k => pointValue ws k -
          dftAt v.points (fun i => pointValue cs i * (W i v.points : ℝ)) (k - (v.points / 2 : Nat))) ≤
        (e * (M + (ew + 3 * R.u * (M + ew))) + (ew + 3 * R.u * (M + ew))) * (Real.sqrt v.points * l2 v.points (pointValue cs)) := by
  have hn : determineNumberOfChunks v.points .medium st = 1 := by unfold determineNumberOfChunks; rw [if_pos h1]; exact h1
  have hwt : ∀ i < v.points, weightAt win.isSymmetric (determineNumberOfChunks v.points .medium st) W v.points i = W i v.points :=
    fun i hi => by rw [hn]; exact weightAt_one_core (.inl hp) hW hi
  obtain ⟨w, b', cs, ws, g1, g2, g3, g4, g5, g6, g7⟩ := C97_windowed_fft K e he hK hu st win W ew hew v hw hv ht hd b hb (by
    cases hs : win.isSymmetric
    · exact .inr ⟨rfl, by omega⟩
    · exact .inl ⟨rfl, hp, by omega⟩) M (fun i hi => by rw [hwt i hi]; exact hM i hi)
  refine ⟨w, b', cs, ws, g1, g2, g3, g4, g5, g6, ?_⟩
  have : l2 v.points (fun k => pointValue ws k -
          dftAt v.points (fun i => pointValue cs i * (W i v.points : ℝ)) (k - (v.points / 2 : Nat))) =
      l2 v.points (fun k => pointValue ws k - dftAt v.points (fun i => pointValue cs i *
          (weightAt win.isSymmetric (determineNumberOfChunks v.points .medium st) W v.points i : ℝ)) (k - (v.points / 2 : Nat))) := by
    apply l2_congr
    intro k _
    congr 1
    unfold dftAt
    exact Finset.sum_congr rfl fun i hi => by dsimp only; rw [hwt i (Finset.mem_range.mp hi)]
  rw [this]
  exact g7

/-- C97: `windowed_ifft` after `windowed_fft` with the same window and settings, with rounded numbers, for every schedule of each call:
    the points are back. The errors of the two transforms are amplified by the ratio of the largest to the smallest weight of the
    computed window; its own inaccuracy does not count. -/
theorem C97_windowed_round_trip (K : FftKernel (Fl R)) (e : ℝ) (he : 0 ≤ e) (hK : K.Accurate e) (hu : R.u ≤ 1 / 1000)
    (k : RegKind) (addr : Nat) (st : MultiCoreSettings) (win : WindowFunction (Fl R)) (v : DspVec (Fl R)) (hv : v.WF) (ht : v.Typed)
    (hd : v.dom = .time) (b : Buffer (Fl R)) (hb : TransformBufferOk K b v) (h1 : v.points ≠ 1)
    (hn : R.rnd v.points = v.points) (hal : AlignmentAccepted addr k.len (2 * v.points))
    (hp : (win.isSymmetric = true ∧ 2 ≤ v.points ∧ st.coreLimit ≠ 0) ∨ (win.isSymmetric = false ∧ 1 ≤ v.points))
    (m M : ℝ) (hm : 0 < m)
    (hM : ∀ i < v.points,
      m ≤ |weightAt win.isSymmetric (determineNumberOfChunks v.points .medium st) (fun i n => (win.window i n).val) v.points i| ∧
      |weightAt win.isSymmetric (determineNumberOfChunks v.points .medium st) (fun i n => (win.window i n).val) v.points i| ≤ M) :
    ∃ w b' u b'' cs us, Always (v.windowedFft K st win b) (w, b') ∧
      (∀ sched sched2, w.windowedIfft K k addr st win b' sched sched2 = .running ∨
        w.windowedIfft K k addr st win b' sched sched2 = .finished (u, b'')) ∧
      (∃ sched sched2, w.windowedIfft K k addr st win b' sched sched2 = .finished (u, b'')) ∧
      v.cpoints = some cs ∧ u.cpoints = some us ∧ us.length = cs.length ∧ u.isComplex = true ∧
      l2 v.points (fun i => pointValue us i - pointValue cs i) ≤
        ((1 + R.u) * (1 + 3 * R.u) ^ 2 * (((1 + e) ^ 2 * (1 + R.u) ^ 2 - 1) * (M / m) + 1) - 1) * l2 v.points (pointValue cs) := by
  obtain ⟨x, c, cs, ds, x1, x2, x3, x4, x5⟩ := weighted_points st win.isSymmetric win.window hu v hv hp
  obtain ⟨hb', hpt, -, htt, hdd⟩ := transformBuffer_of_replaced x2 hb
  have hp1 : 1 ≤ v.points := by rcases hp with ⟨-, h, -⟩ | ⟨-, h⟩ <;> omega
  obtain ⟨w, b', y, b'', ds', ys, e1, e2, e3, e4, e5, e6, e7⟩ := C95_round_trip K e he hK k addr st x (replaced_wf hv x2) (htt.2 ht)
    (hdd.trans hd) b hb' (by omega) (by omega) (by rw [hpt]; exact hn) (by rw [hpt]; exact hal)
  rw [x4] at e3
  cases e3
  have hyp : y.points = v.points := by rw [← length_of_cpoints e4, e5, length_of_cpoints x4, hpt]
  have hyw : y.WF := wf_of_content_complex ((cpoints_complex e6).mp e4)
  obtain ⟨u, c', ys', us, u1, u2, u3, u4, u5⟩ := weighted_points st win.isSymmetric (fun i n => 1 / win.window i n) hu y hyw
    (by rw [hyp]; exact hp)
  rw [e4] at u3
  cases u3
  have u1 : Always (y.unapplyWindow st win) u := u1
  have x1 : Always (v.applyWindow st win) x := x1
  obtain ⟨-, -, -, -, -⟩ := transformBuffer_of_replaced u2 (K := K) (b := .noBuffer) ⟨fun h => absurd (e6.symm.trans h) (by decide), trivial⟩
  refine ⟨w, b', u, b'', cs, us, x1.andThen (by rw [e1]; rfl), ?_, ?_, x3, u4, ?_, (replaced_isComplex u2).trans e6, ?_⟩
  · intro s s2
    unfold windowedIfft
    rcases e2.1 s with h | h <;> rw [h]
    · exact .inl rfl
    · rcases u1.1 s2 with h | h <;> simp [Outcome.andThen, h]
  · obtain ⟨s, hs⟩ := e2.2
    obtain ⟨s2, hs2⟩ := u1.2
    exact ⟨s, s2, by unfold windowedIfft; rw [hs]; simp [Outcome.andThen, hs2]⟩
  · have : u.points = y.points := by unfold points; rw [u2.2.1, replaced_isComplex u2]
    rw [length_of_cpoints u4, this, hyp, length_of_cpoints x3]
  · rw [hpt] at e7
    rw [hyp] at u5
    set n := v.points
    set q := determineNumberOfChunks v.points .medium st
    have hu0 := R.u_nonneg
    have hM0 : m ≤ M := (hM 0 hp1).1.trans (hM 0 hp1).2
    exact trip_error (t := weightAt win.isSymmetric q (fun i n => (win.window i n).val) n)
      (t' := weightAt win.isSymmetric q (fun i n => (1 / win.window i n : Fl R).val) n) hm hM
      (fun i hi => by
        have hmi := (hM i hi).1
        revert hmi
        unfold weightAt
        cases windowIndex win.isSymmetric q n i with
        | none => intro _; simp [hu0]
        | some j => intro _; exact R.error (1 / (win.window j n).val)) x5 u5 (by
        have : 0 ≤ (1 + e) ^ 2 * (1 + R.u) ^ 2 - 1 := by
          have a1 : 1 ≤ (1 + e) ^ 2 := one_le_pow₀ (by linarith)
          have a2 : 1 ≤ (1 + R.u) ^ 2 := one_le_pow₀ (by linarith)
          nlinarith
        exact this) e7
where
  trip_error {n : Nat} {f g y z : Nat → ℂ} {t t' : Nat → ℝ} {m M E : ℝ} (hm : 0 < m)
      (hM : ∀ i < n, m ≤ |t i| ∧ |t i| ≤ M)
      (ht : ∀ i < n, |t' i - 1 / t i| ≤ R.u * |1 / t i|)
      (hg : ∀ i < n, ‖g i - f i * (t i : ℂ)‖ ≤ 3 * R.u * (‖f i‖ * |t i|))
      (hz : ∀ i < n, ‖z i - y i * (t' i : ℂ)‖ ≤ 3 * R.u * (‖y i‖ * |t' i|))
      (hE : 0 ≤ E) (hy : l2 n (fun i => y i - g i) ≤ E * l2 n g) :
      l2 n (fun i => z i - f i) ≤ ((1 + R.u) * (1 + 3 * R.u) ^ 2 * (E * (M / m) + 1) - 1) * l2 n f := by
    have hu0 := R.u_nonneg
    have hf := l2_nonneg n f
    have hMm : n ≠ 0 → 0 ≤ M := fun h => hm.le.trans ((hM 0 (by omega)).1.trans (hM 0 (by omega)).2)
    rcases Nat.eq_zero_or_pos n with rfl | hn
    · simp [l2]
    have hM0 := hMm (by omega)
    -- the points which are transformed
    have b1 : l2 n g ≤ (1 + 3 * R.u) * M * l2 n f := by
      refine l2_mul_le (by positivity) fun i hi => ?_
      have := norm_add_le (g i - f i * (t i : ℂ)) (f i * (t i : ℂ))
      rw [sub_add_cancel, norm_mul (f i), Complex.norm_real, Real.norm_eq_abs] at this
      have a1 := hg i hi
      have a2 := mul_le_mul_of_nonneg_left (hM i hi).2 (show 0 ≤ (1 + 3 * R.u) * ‖f i‖ by positivity)
      calc ‖g i‖ ≤ (1 + 3 * R.u) * ‖f i‖ * |t i| := by linarith
        _ ≤ _ := a2
        _ = _ := by ring
    -- one point
    have b2 : ∀ i < n, ‖z i - f i‖ ≤
        ‖((((1 + R.u) * (1 + 3 * R.u) / m : ℝ) : ℂ) * ((‖y i - g i‖ : ℝ) : ℂ) +
          (((1 + R.u) * (1 + 3 * R.u) ^ 2 - 1 : ℝ) : ℂ) * ((‖f i‖ : ℝ) : ℂ))‖ := by
      intro i hi
      have hc : 0 ≤ (1 + R.u) * (1 + 3 * R.u) ^ 2 - 1 := by
        have a2 : 1 ≤ (1 + 3 * R.u) ^ 2 := one_le_pow₀ (by linarith)
        nlinarith
      rw [← Complex.ofReal_mul, ← Complex.ofReal_mul, ← Complex.ofReal_add, Complex.norm_real, Real.norm_eq_abs,
        abs_of_nonneg (by positivity)]
      obtain ⟨hm1, -⟩ := hM i hi
      have hti : 0 < |t i| := lt_of_lt_of_le hm hm1
      have htc : (t i : ℂ) ≠ 0 := by
        intro h
        rw [Complex.ofReal_eq_zero] at h
        rw [h, abs_zero] at hti
        exact lt_irrefl _ hti
      have eq : z i - f i = (z i - y i * (t' i : ℂ)) + y i * ((t' i : ℂ) - 1 / (t i : ℂ)) + (y i - g i) / (t i : ℂ) +
          (g i - f i * (t i : ℂ)) / (t i : ℂ) := by field_simp; ring
      have n1 := hz i hi
      have n2 : ‖y i * ((t' i : ℂ) - 1 / (t i : ℂ))‖ ≤ ‖y i‖ * (R.u * |1 / t i|) := by
        rw [norm_mul]
        refine mul_le_mul_of_nonneg_left ?_ (norm_nonneg _)
        have := ht i hi
        rwa [← Real.norm_eq_abs, ← Complex.norm_real, Complex.ofReal_sub, Complex.ofReal_div, Complex.ofReal_one] at this
      have n3 : ‖(y i - g i) / (t i : ℂ)‖ = ‖y i - g i‖ / |t i| := by rw [norm_div, Complex.norm_real, Real.norm_eq_abs]
      have n4 : ‖(g i - f i * (t i : ℂ)) / (t i : ℂ)‖ ≤ 3 * R.u * ‖f i‖ := by
        rw [norm_div, Complex.norm_real, Real.norm_eq_abs, div_le_iff₀ hti]
        calc _ ≤ _ := hg i hi
          _ = _ := by ring
      have n5 : |t' i| ≤ (1 + R.u) * |1 / t i| := by
        have := abs_add_le (t' i - 1 / t i) (1 / t i)
        rw [sub_add_cancel] at this
        have := ht i hi
        linarith
      have n6 : ‖y i‖ ≤ ‖y i - g i‖ + (1 + 3 * R.u) * (‖f i‖ * |t i|) := by
        have h1 := norm_add_le (y i - g i) (g i)
        have h2 := norm_add_le (g i - f i * (t i : ℂ)) (f i * (t i : ℂ))
        rw [sub_add_cancel] at h1 h2
        rw [norm_mul (f i), Complex.norm_real, Real.norm_eq_abs] at h2
        have := hg i hi
        linarith
      have e1 : |1 / t i| = 1 / |t i| := by rw [abs_div, abs_one]
      rw [e1] at n2 n5
      have tri := (norm_add_le (z i - y i * (t' i : ℂ) + y i * ((t' i : ℂ) - 1 / (t i : ℂ)) + (y i - g i) / (t i : ℂ))
        ((g i - f i * (t i : ℂ)) / (t i : ℂ)))
      have tri2 := (norm_add_le (z i - y i * (t' i : ℂ) + y i * ((t' i : ℂ) - 1 / (t i : ℂ))) ((y i - g i) / (t i : ℂ)))
      have tri3 := (norm_add_le (z i - y i * (t' i : ℂ)) (y i * ((t' i : ℂ) - 1 / (t i : ℂ))))
      rw [← eq] at tri
      -- `‖y‖ / |t|`
      have n7 : ‖y i‖ / |t i| ≤ ‖y i - g i‖ / |t i| + (1 + 3 * R.u) * ‖f i‖ := by
        rw [div_le_iff₀ hti, add_mul, div_mul_cancel₀ _ hti.ne']
        linarith
      have n8 : 3 * R.u * (‖y i‖ * |t' i|) ≤ 3 * R.u * (1 + R.u) * (‖y i‖ / |t i|) := by
        have := mul_le_mul_of_nonneg_left n5 (show 0 ≤ 3 * R.u * ‖y i‖ by positivity)
        calc _ = 3 * R.u * ‖y i‖ * |t' i| := by ring
          _ ≤ _ := this
          _ = _ := by ring
      have n9 : ‖y i‖ * (R.u * (1 / |t i|)) = R.u * (‖y i‖ / |t i|) := by ring
      have n10 : ‖y i - g i‖ / |t i| ≤ ‖y i - g i‖ / m := div_le_div_of_nonneg_left (norm_nonneg _) hm hm1
      have n11 := mul_le_mul_of_nonneg_left n7 (show 0 ≤ 3 * R.u * (1 + R.u) + R.u by positivity)
      have n12 := mul_le_mul_of_nonneg_left n10 (show 0 ≤ (1 + R.u) * (1 + 3 * R.u) by positivity)
      calc ‖z i - f i‖ ≤ (3 * R.u * (1 + R.u) + R.u) * (‖y i‖ / |t i|) + ‖y i - g i‖ / |t i| + 3 * R.u * ‖f i‖ := by
            rw [n3] at *; linarith
        _ ≤ (1 + R.u) * (1 + 3 * R.u) * (‖y i - g i‖ / |t i|) + ((1 + R.u) * (1 + 3 * R.u) ^ 2 - 1) * ‖f i‖ := by linarith
        _ ≤ (1 + R.u) * (1 + 3 * R.u) * (‖y i - g i‖ / m) + ((1 + R.u) * (1 + 3 * R.u) ^ 2 - 1) * ‖f i‖ := by linarith
        _ = _ := by ring
    have b3 := (l2_mono b2).trans (l2_add_le n _ _)
    rw [l2_mul, l2_mul, Complex.norm_real, Complex.norm_real, Real.norm_eq_abs, Real.norm_eq_abs,
      abs_of_nonneg (show 0 ≤ (1 + R.u) * (1 + 3 * R.u) / m by positivity),
      abs_of_nonneg (show 0 ≤ (1 + R.u) * (1 + 3 * R.u) ^ 2 - 1 by
        have a2 : 1 ≤ (1 + 3 * R.u) ^ 2 := one_le_pow₀ (by linarith)
        nlinarith)] at b3
    have s1 : ∀ h : Nat → ℂ, l2 n (fun i => ((‖h i‖ : ℝ) : ℂ)) = l2 n h := fun h => by unfold l2; simp
    rw [s1 f, s1 (fun i => y i - g i)] at b3
    have b4 := hy.trans (mul_le_mul_of_nonneg_left b1 hE)
    have b5 := mul_le_mul_of_nonneg_left b4 (show 0 ≤ (1 + R.u) * (1 + 3 * R.u) / m by positivity)
    calc _ ≤ _ := b3
      _ ≤ (1 + R.u) * (1 + 3 * R.u) / m * (E * ((1 + 3 * R.u) * M * l2 n f)) +
          ((1 + R.u) * (1 + 3 * R.u) ^ 2 - 1) * l2 n f := by linarith
      _ = _ := by ring

/-- C97: the Hamming windows of the crate: with the default settings the transform is wrong by the relative error `e` of the FFT library
    plus `2 ew + 200 u` of the window (`ew` is the error of the cosine of the library), roughly. -/
theorem C97_hamming (K : FftKernel (Fl R)) (e : ℝ) (he : 0 ≤ e) (hK : K.Accurate e) (hu : R.u ≤ 1 / 1000)
    (st : MultiCoreSettings) (h1 : st.coreLimit = 1) {l : WindowLib (Fl R)} {ew : ℝ} (hl : WindowLibAccurate l ew) (hew : ew ≤ 1 / 2)
    (alpha : Fl R) (ha0 : 0 ≤ alpha.val) (ha1 : alpha.val ≤ 1) (v : DspVec (Fl R)) (hv : v.WF) (ht : v.Typed) (hd : v.dom = .time)
    (b : Buffer (Fl R)) (hb : TransformBufferOk K b v) (hp : 2 ≤ v.points) (δ : ℝ)
    (hδ : δ = (2 * ew + 200 * R.u) + 3 * R.u * (1 + (2 * ew + 200 * R.u))) :
    ∃ w b' cs ws, Always (v.windowedFft K st (hammingWindow l alpha) b) (w, b') ∧ v.cpoints = some cs ∧ w.cpoints = some ws ∧
      ws.length = v.points ∧ w.isComplex = true ∧ w.dom = .frequency ∧
      l2 v.points (fun k => pointValue ws k - dftAt v.points (fun i => pointValue cs i *
          ((alpha.val - (1 - alpha.val) * Real.cos (2 * Real.pi * i / ((v.points : ℝ) - 1)) : ℝ) : ℂ)) (k - (v.points / 2 : Nat))) ≤
        (e * (1 + δ) + δ) * (Real.sqrt v.points * l2 v.points (pointValue cs)) := by
  have hu0 := R.u_nonneg
  have hew0 : 0 ≤ ew := (abs_nonneg _).trans (hl.cos 0)
  subst hδ
  exact C97_windowed_fft_one_core K e he hK hu st h1 (hammingWindow l alpha) (hamming alpha.val).window (2 * ew + 200 * R.u)
    (by positivity) v (fun i hi => C94_hamming hl hu hew alpha ha0 ha1 i v.points hp hi)
    ((C16_shipped_windows_symmetric v.points (by omega) alpha.val).2.1) hv ht hd b hb hp 1 (fun i hi => by
      show |alpha.val - (1 - alpha.val) * Real.cos _| ≤ 1
      have h1 := Real.neg_one_le_cos (2 * Real.pi * (i : ℝ) / ((v.points : ℝ) - 1))
      have h2 := Real.cos_le_one (2 * Real.pi * (i : ℝ) / ((v.points : ℝ) - 1))
      rw [abs_le]
      constructor <;> nlinarith)

/-! ### Examples -/

/-- Numbers like `f32`, an FFT library with an error of one millionth, the Hamming window of the crate, four real points, one core. -/
example : let R := binaryRounding 23; let K := tooLarge R (1 / 1000000); let v := roundedVec R .real
    K.Accurate (1 / 1000000) ∧ R.u ≤ 1 / 1000 ∧ (⟨1, 2, 3, 2, 3⟩ : MultiCoreSettings).coreLimit = 1 ∧ WindowLibAccurate (roundedWindowLib R) R.u ∧
    R.u ≤ 1 / 2 ∧ v.WF ∧ v.Typed ∧ v.dom = .time ∧ TransformBufferOk K .noBuffer v ∧ 2 ≤ v.points := by
  intro R K v
  have hu : R.u = 1 / 2 ^ 24 := rfl
  exact ⟨tooLarge_accurate (by norm_num), by rw [hu]; norm_num, rfl, roundedWindowLib_accurate, by rw [hu]; norm_num, rounded_wf _ _,
    .inr ⟨.inl rfl, .inl rfl⟩, rfl, ⟨fun _ => ⟨by decide, trivial⟩, trivial⟩, by rw [(rounded_points R).1]; omega⟩

/-- Several workers, a window which is not declared symmetric with the values 1, 2, 3, 4: the round trip amplifies the error of the
    transforms at most four times. -/
example : let R := binaryRounding 23; let v := roundedVec R .real
    let win : WindowFunction (Fl R) := ⟨false, fun i _ => ⟨i + 1⟩⟩
    v.points ≠ 1 ∧ R.rnd v.points = v.points ∧ AlignmentAccepted 0 RegKind.avxF32x8.len (2 * v.points) ∧
    (win.isSymmetric = false ∧ 1 ≤ v.points) ∧ ∀ i < v.points,
      1 ≤ |weightAt win.isSymmetric (determineNumberOfChunks v.points .medium fourWorkers) (fun i n => (win.window i n).val) v.points i| ∧
      |weightAt win.isSymmetric (determineNumberOfChunks v.points .medium fourWorkers) (fun i n => (win.window i n).val) v.points i| ≤ 4 := by
  intro R v win
  have e4 : v.points = 4 := (rounded_points R).1
  rw [e4]
  refine ⟨by omega, count_exact 23 4 (by norm_num), .inl rfl, ⟨rfl, by omega⟩, fun i hi => ?_⟩
  have : weightAt win.isSymmetric (determineNumberOfChunks 4 .medium fourWorkers) (fun i n => (win.window i n).val) 4 i = (i : ℝ) + 1 := rfl
  rw [this, abs_of_nonneg (by positivity)]
  have h2 : (i : ℝ) ≤ 3 := by exact_mod_cast (show i ≤ 3 by omega)
  have h3 : (0 : ℝ) ≤ i := Nat.cast_nonneg i
  constructor <;> linarith

end
end Dsp
