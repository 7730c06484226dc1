import Verif.Spec.FftRounding
import Verif.Spec.ModulationRounding
import Verif.Lemmas.DftLaws
import Verif.Props.Fft
import Verif.Props.ElementaryRounding
import Mathlib.Analysis.InnerProductSpace.PiL2
/-
C95: the transforms with floating point numbers.
-/
namespace Dsp
open DspVec
open scoped ComplexConjugate

/-! ### The Euclidean norm -/

theorem l2_eq (n : Nat) (f : Nat → ℂ) : l2 n f = ‖(WithLp.toLp 2 (fun i : Fin n => f i) : EuclideanSpace ℂ (Fin n))‖ := by
  rw [EuclideanSpace.norm_eq, l2]
  congr 1
  exact Finset.sum_range fun i => ‖f i‖ ^ 2

theorem l2_nonneg (n : Nat) (f : Nat → ℂ) : 0 ≤ l2 n f := Real.sqrt_nonneg _

theorem l2_add_le (n : Nat) (f g : Nat → ℂ) : l2 n (fun i => f i + g i) ≤ l2 n f + l2 n g := by
  rw [l2_eq, l2_eq, l2_eq]
  exact norm_add_le (WithLp.toLp 2 (fun i : Fin n => f i) : EuclideanSpace ℂ (Fin n)) (WithLp.toLp 2 (fun i : Fin n => g i))

theorem l2_congr {n : Nat} {f g : Nat → ℂ} (h : ∀ i < n, f i = g i) : l2 n f = l2 n g := by
  unfold l2
  rw [Finset.sum_congr rfl fun i hi => by rw [h i (Finset.mem_range.mp hi)]]

theorem l2_mono {n : Nat} {f g : Nat → ℂ} (h : ∀ i < n, ‖f i‖ ≤ ‖g i‖) : l2 n f ≤ l2 n g :=
  Real.sqrt_le_sqrt (Finset.sum_le_sum fun i hi => pow_le_pow_left₀ (norm_nonneg _) (h i (Finset.mem_range.mp hi)) 2)

theorem l2_mul (n : Nat) (c : ℂ) (f : Nat → ℂ) : l2 n (fun i => c * f i) = ‖c‖ * l2 n f := by
  unfold l2
  simp only [norm_mul, mul_pow]
  rw [← Finset.mul_sum, Real.sqrt_mul (by positivity), Real.sqrt_sq (norm_nonneg _)]

theorem l2_mul_le {n : Nat} {f g : Nat → ℂ} {c : ℝ} (hc : 0 ≤ c) (h : ∀ i < n, ‖f i‖ ≤ c * ‖g i‖) : l2 n f ≤ c * l2 n g := by
  have := l2_mul n (c : ℂ) g
  rw [Complex.norm_real, Real.norm_of_nonneg hc] at this
  rw [← this]
  exact l2_mono fun i hi => by rw [norm_mul, Complex.norm_real, Real.norm_of_nonneg hc]; exact h i hi

/-- A sum over all points of a circle does not depend on where it starts. -/
theorem sum_circle (g : Nat → ℝ) (n s : Nat) : ∑ i ∈ Finset.range n, g ((i + s) % n) = ∑ i ∈ Finset.range n, g i := by
  have h := shift_sum (fun i => (g i : ℂ)) n s 0
  simp only [Int.cast_zero, neg_zero, zero_mul, zero_div, turn_zero, mul_one, one_mul] at h
  exact_mod_cast h

theorem l2_circle (n s : Nat) (f : Nat → ℂ) : l2 n (fun i => f ((i + s) % n)) = l2 n f := by
  unfold l2
  rw [sum_circle (fun i => ‖f i‖ ^ 2)]

/-! ### The exact transforms -/

/-- The points as a list. -/
noncomputable def asList (n : Nat) (f : Nat → ℂ) : List (Cx ℝ) := (List.range n).map fun i => ⟨(f i).re, (f i).im⟩

theorem asList_length (n : Nat) (f : Nat → ℂ) : (asList n f).length = n := by simp [asList]

theorem asList_getD {n : Nat} (f : Nat → ℂ) {i : Nat} (h : i < n) : ((asList n f).getD i ⟨0, 0⟩).toC = f i := by
  rw [getD_lt _ _ (by rw [asList_length]; exact h)]
  simp [asList, Cx.toC]

theorem dftAt_eq (n : Nat) (f : Nat → ℂ) (k : ℤ) : dftAt n f k = fourierAt (asList n f) k := by
  unfold dftAt fourierAt
  rw [asList_length]
  exact Finset.sum_congr rfl fun m hm => by rw [asList_getD f (Finset.mem_range.mp hm)]

theorem dftAt_congr (n : Nat) (f : Nat → ℂ) {k j : ℤ} (h : k % n = j % n) : dftAt n f k = dftAt n f j := by
  rw [dftAt_eq, dftAt_eq]
  exact fourierAt_congr _ (by rw [asList_length]; exact h)

theorem dftAt_sub (n : Nat) (f g : Nat → ℂ) (k : ℤ) : dftAt n (fun i => f i - g i) k = dftAt n f k - dftAt n g k := by
  unfold dftAt
  rw [← Finset.sum_sub_distrib]
  exact Finset.sum_congr rfl fun m _ => by ring

/-- Parseval: the spectrum of `n` points is `√n` times as large as the points. -/
theorem l2_dft (n : Nat) (f : Nat → ℂ) : l2 n (fun k => dftAt n f k) = Real.sqrt n * l2 n f := by
  have h := parseval dft_isDft (asList n f)
  rw [asList_length] at h
  unfold l2
  rw [← Real.sqrt_mul (by positivity)]
  congr 1
  have e1 : ∀ k ∈ Finset.range n, ‖dftAt n f k‖ ^ 2 = Complex.normSq ((dftKernel.forward (asList n f)).getD k ⟨0, 0⟩).toC := by
    intro k hk
    rw [Complex.sq_norm, dftAt_eq, ← dft_isDft.forward _ _ (by rw [asList_length]; exact Finset.mem_range.mp hk)]
  have e2 : ∀ k ∈ Finset.range n, ‖f k‖ ^ 2 = Complex.normSq ((asList n f).getD k ⟨0, 0⟩).toC := by
    intro k hk
    rw [Complex.sq_norm, asList_getD f (Finset.mem_range.mp hk)]
  rw [Finset.sum_congr rfl e1, Finset.sum_congr rfl e2]
  exact h

theorem dftAt_conj (n : Nat) (f : Nat → ℂ) (k : ℤ) : dftAt n f (-k) = conj (dftAt n (fun i => conj (f i)) k) := by
  unfold dftAt
  rw [map_sum]
  refine Finset.sum_congr rfl fun m _ => ?_
  rw [map_mul, Complex.conj_conj, conj_turn]
  congr 2
  push_cast; ring

theorem l2_dft_neg (n : Nat) (f : Nat → ℂ) : l2 n (fun k => dftAt n f (-k)) = Real.sqrt n * l2 n f := by
  have h := l2_dft n (fun i => conj (f i))
  have e1 : l2 n (fun i => conj (f i)) = l2 n f := by unfold l2; simp
  have e2 : l2 n (fun k => dftAt n f (-k)) = l2 n (fun k => dftAt n (fun i => conj (f i)) k) := by
    unfold l2
    congr 1
    exact Finset.sum_congr rfl fun k _ => by dsimp only; rw [dftAt_conj, Complex.norm_conj]
  rw [e2, h, e1]

/-- The rotated spectrum, transformed back. -/
theorem inverseAt_eq (n : Nat) (f : Nat → ℂ) (i : Nat) :
    inverseAt n f i = (1 / n) * dftAt n (fun k => f ((k + n / 2) % n)) (-i) := by
  unfold inverseAt dftAt
  have h := shift_sum f n (n / 2) (-i)
  rw [h]
  congr 1
  rw [Finset.mul_sum]
  refine Finset.sum_congr rfl fun k _ => ?_
  rw [mul_left_comm, ← turn_add]
  congr 2
  push_cast; ring

theorem l2_inverseAt (n : Nat) (hn : n ≠ 0) (f : Nat → ℂ) : l2 n (fun i => inverseAt n f i) = l2 n f / Real.sqrt n := by
  simp only [inverseAt_eq]
  rw [l2_mul, l2_dft_neg, l2_circle]
  have hn' : (0 : ℝ) < n := by positivity
  have : (n : ℝ) = Real.sqrt n * Real.sqrt n := (Real.mul_self_sqrt hn'.le).symm
  have hs : 0 < Real.sqrt n := Real.sqrt_pos.mpr hn'
  rw [norm_div, norm_one, Complex.norm_natCast]
  conv_lhs => rw [this]
  rw [Real.sqrt_mul_self hs.le]
  field_simp

theorem inverseAt_sub (n : Nat) (f g : Nat → ℂ) (i : Nat) : inverseAt n (fun k => f k - g k) i = inverseAt n f i - inverseAt n g i := by
  unfold inverseAt
  rw [← mul_sub, ← Finset.sum_sub_distrib]
  congr 1
  exact Finset.sum_congr rfl fun m _ => by ring

/-- The exact inverse of the exact transform. -/
theorem inverse_dft (n : Nat) (f : Nat → ℂ) (i : Nat) (hi : i < n) :
    inverseAt n (fun k => dftAt n f (k - (n / 2 : Nat))) i = f i := by
  rw [inverseAt_eq]
  have h := fourierAt_forward dft_isDft (asList n f) i (by rw [asList_length]; exact hi)
  rw [asList_getD f hi, asList_length] at h
  have hn : (n : ℂ) ≠ 0 := by
    have : n ≠ 0 := by omega
    exact_mod_cast this
  have e : dftAt n (fun k => dftAt n f (((k + n / 2) % n : Nat) - (n / 2 : Nat))) (-i) =
      fourierAt (dftKernel.forward (asList n f)) (-i) := by
    unfold fourierAt
    rw [dft_isDft.forward_length, asList_length]
    unfold dftAt
    refine Finset.sum_congr rfl fun k hk => ?_
    rw [dft_isDft.forward _ _ (by rw [asList_length]; exact Finset.mem_range.mp hk), ← dftAt_eq]
    congr 1
    apply dftAt_congr
    push_cast
    rw [Int.emod_sub_emod]
    congr 1
    ring
  rw [e, h]
  field_simp

/-! ### Transforms with rounding errors -/

section
variable {R : Rounding}

theorem pointValue_lt (cs : List (Cx (Fl R))) {i : Nat} (h : i < cs.length) : pointValue cs i = Fl.complex cs[i] := by
  unfold pointValue
  rw [List.getD_eq_getElem?_getD, List.getElem?_eq_getElem h]
  rfl

theorem accurate_keeps {K : FftKernel (Fl R)} {e : ℝ} (hK : K.Accurate e) : K.KeepsLength :=
  ⟨hK.forward_length, hK.inverse_length⟩

/-- The rotated result of the FFT library. -/
theorem forward_error_eq {K : FftKernel (Fl R)} {e : ℝ} (hK : K.Accurate e) (cs : List (Cx (Fl R))) :
    l2 cs.length (fun k => pointValue (rotateRight (K.forward cs) (cs.length / 2)) k -
        dftAt cs.length (pointValue cs) (k - (cs.length / 2 : Nat))) =
      l2 cs.length (fun k => pointValue (K.forward cs) k - dftAt cs.length (pointValue cs) k) := by
  rw [← l2_circle cs.length (cs.length - cs.length / 2) (fun k => pointValue (K.forward cs) k - dftAt cs.length (pointValue cs) k)]
  apply l2_congr
  intro k hk
  have e1 : pointValue (rotateRight (K.forward cs) (cs.length / 2)) k =
      pointValue (K.forward cs) ((k + (cs.length - cs.length / 2)) % cs.length) := by
    unfold pointValue
    rw [rotateRight_getD _ _ _ _ (by rw [hK.forward_length]; omega) (by rw [hK.forward_length]; exact hk), hK.forward_length]
  rw [e1]
  congr 1
  apply dftAt_congr
  push_cast
  rw [Int.emod_emod_of_dvd _ (dvd_refl _), Nat.cast_sub (by omega)]
  rw [show (k : ℤ) + ((cs.length : ℤ) - (cs.length / 2 : Nat)) = (k - (cs.length / 2 : Nat)) + cs.length by ring,
    Int.add_emod_right]
  push_cast
  rfl

theorem forward_error {K : FftKernel (Fl R)} {e : ℝ} (hK : K.Accurate e) (cs : List (Cx (Fl R))) :
    l2 cs.length (fun k => pointValue (rotateRight (K.forward cs) (cs.length / 2)) k -
        dftAt cs.length (pointValue cs) (k - (cs.length / 2 : Nat))) ≤ e * (Real.sqrt cs.length * l2 cs.length (pointValue cs)) := by
  have h := hK.forward cs
  rw [l2_dft] at h
  rw [forward_error_eq hK]
  exact h

/-- Dividing by the number of points. -/
theorem divided_error (n : Nat) (hn : R.rnd n = n) (c : Cx (Fl R)) :
    ‖Fl.complex (⟨c.re * (1 / (n : Fl R)), c.im * (1 / (n : Fl R))⟩ : Cx (Fl R)) - Fl.complex c / n‖ ≤
      ((1 + R.u) ^ 2 - 1) * ‖Fl.complex c / n‖ := by
  have hu := R.u_nonneg
  obtain ⟨q, hq⟩ : ∃ q : ℝ, q = R.rnd (1 / n) := ⟨_, rfl⟩
  have hv : ∀ x : Fl R, (x * (1 / (n : Fl R))).val = R.rnd (x.val * q) := by
    intro x
    show R.rnd (x.val * R.rnd (1 / R.rnd n)) = _
    rw [hn, hq]
  have hqe : |q - 1 / n| ≤ R.u * (1 / n) := by
    have := R.error (1 / n)
    rw [abs_of_nonneg (a := (1 / n : ℝ)) (by positivity)] at this
    rw [hq]; exact this
  have hx : ∀ x : ℝ, |R.rnd (x * q) - x * (1 / n)| ≤ ((1 + R.u) ^ 2 - 1) * |x * (1 / n)| := by
    intro x
    have h1 := R.error (x * q)
    have h2 : |x * q - x * (1 / n)| ≤ R.u * |x * (1 / n)| := by
      rw [← mul_sub, abs_mul, abs_mul, abs_of_nonneg (a := (1 / n : ℝ)) (by positivity)]
      have := mul_le_mul_of_nonneg_left hqe (abs_nonneg x)
      linarith
    have h3 : |x * q| ≤ (1 + R.u) * |x * (1 / n)| := by
      have := abs_sub_abs_le_abs_sub (x * q) (x * (1 / n))
      linarith
    have h4 : |R.rnd (x * q) - x * (1 / n)| ≤ |R.rnd (x * q) - x * q| + |x * q - x * (1 / n)| := abs_sub_le _ _ _
    have h5 := mul_le_mul_of_nonneg_left h3 hu
    have : ((1 + R.u) ^ 2 - 1) * |x * (1 / n)| = R.u * ((1 + R.u) * |x * (1 / n)|) + R.u * |x * (1 / n)| := by ring
    linarith
  have hd : 0 ≤ (1 + R.u) ^ 2 - 1 := R.two_nonneg
  refine complex_error_of_parts (norm_nonneg _) ?_ hd
  have e1 : (Fl.complex c / n : ℂ) = ⟨c.re.val * (1 / n), c.im.val * (1 / n)⟩ := by
    apply Complex.ext
    · rw [Complex.div_natCast_re]; show c.re.val / n = _; ring
    · rw [Complex.div_natCast_im]; show c.im.val / n = _; ring
  rw [e1, Complex.sq_norm, Complex.normSq_apply]
  have h1 := sq_of_abs_le (hx c.re.val)
  have h2 := sq_of_abs_le (hx c.im.val)
  rw [mul_pow, sq_abs] at h1 h2
  show ((c.re * (1 / (n : Fl R))).val - c.re.val * (1 / n)) ^ 2 + ((c.im * (1 / (n : Fl R))).val - c.im.val * (1 / n)) ^ 2 ≤
    ((1 + R.u) ^ 2 - 1) ^ 2 * (c.re.val * (1 / n) * (c.re.val * (1 / n)) + c.im.val * (1 / n) * (c.im.val * (1 / n)))
  rw [hv, hv]
  linarith [h1, h2]

/-- `ifft` of a list of points. -/
theorem inverse_error {K : FftKernel (Fl R)} {e : ℝ} (he : 0 ≤ e) (hK : K.Accurate e) (cs : List (Cx (Fl R)))
    (hn0 : cs.length ≠ 0) (hn : R.rnd cs.length = cs.length) :
    l2 cs.length (fun i => pointValue (K.inverse (rotateLeft (cs.map fun c =>
        (⟨c.re * (1 / (cs.length : Fl R)), c.im * (1 / (cs.length : Fl R))⟩ : Cx (Fl R))) (cs.length / 2))) i -
        inverseAt cs.length (pointValue cs) i) ≤
      ((1 + e) * (1 + R.u) ^ 2 - 1) * (l2 cs.length (pointValue cs) / Real.sqrt cs.length) := by
  obtain ⟨n, hnn⟩ : ∃ n, n = cs.length := ⟨_, rfl⟩
  obtain ⟨ds, hds⟩ : ∃ ds, ds = cs.map fun c => (⟨c.re * (1 / (cs.length : Fl R)), c.im * (1 / (cs.length : Fl R))⟩ : Cx (Fl R)) :=
    ⟨_, rfl⟩
  have hdl : ds.length = n := by rw [hds, List.length_map, hnn]
  rw [← hds, ← hnn]
  rw [← hnn] at hn0 hn
  have hrl : (rotateLeft ds (n / 2)).length = n := by rw [rotateLeft_length, hdl]
  have hnp : (0 : ℝ) < n := by positivity
  have hs : 0 < Real.sqrt n := Real.sqrt_pos.mpr hnp
  have hss : Real.sqrt n * Real.sqrt n = n := Real.mul_self_sqrt hnp.le
  obtain ⟨L, hL⟩ : ∃ L, L = l2 n (pointValue cs) := ⟨_, rfl⟩
  have hL0 : 0 ≤ L := by rw [hL]; exact l2_nonneg _ _
  have hd := R.two_nonneg
  unfold Rounding.two at hd
  -- the scaled points
  have hsc : l2 n (fun k => pointValue ds k - pointValue cs k / n) ≤ ((1 + R.u) ^ 2 - 1) * (L / n) := by
    have h1 : l2 n (fun k => pointValue ds k - pointValue cs k / n) ≤ ((1 + R.u) ^ 2 - 1) * l2 n (fun k => pointValue cs k / n) := by
      apply l2_mul_le hd
      intro i hi
      rw [pointValue_lt ds (by omega), pointValue_lt cs (by omega)]
      have := divided_error (R := R) n hn (cs[i]'(by omega))
      simp only [hds, List.getElem_map, ← hnn]
      exact this
    have h2 : l2 n (fun k => pointValue cs k / n) = L / n := by
      have := l2_mul n (1 / n) (pointValue cs)
      rw [norm_div, norm_one, Complex.norm_natCast] at this
      rw [hL, div_eq_mul_one_div (l2 n (pointValue cs)), mul_comm, ← this]
      exact l2_congr fun i _ => by ring
    rw [h2] at h1
    exact h1
  have hdn : l2 n (pointValue ds) ≤ (1 + R.u) ^ 2 * (L / n) := by
    have h2 : l2 n (fun k => pointValue cs k / n) = L / n := by
      have := l2_mul n (1 / n) (pointValue cs)
      rw [norm_div, norm_one, Complex.norm_natCast] at this
      rw [hL, div_eq_mul_one_div (l2 n (pointValue cs)), mul_comm, ← this]
      exact l2_congr fun i _ => by ring
    have := l2_add_le n (fun k => pointValue ds k - pointValue cs k / n) (fun k => pointValue cs k / n)
    simp only [sub_add_cancel] at this
    rw [h2] at this
    have e1 : (1 + R.u) ^ 2 * (L / n) = ((1 + R.u) ^ 2 - 1) * (L / n) + L / n := by ring
    rw [e1]; linarith
  have hrot : ∀ k < n, pointValue (rotateLeft ds (n / 2)) k = pointValue ds ((k + n / 2) % n) := by
    intro k hk
    unfold pointValue
    rw [rotateLeft_getD _ _ _ _ (by omega) (by omega), hdl]
  -- the FFT library
  have hk := hK.inverse (rotateLeft ds (n / 2))
  rw [hrl, l2_dft_neg, l2_congr hrot, l2_circle] at hk
  -- the exact transform of the errors
  have hex : ∀ i < n, dftAt n (pointValue (rotateLeft ds (n / 2))) (-i) - inverseAt n (pointValue cs) i =
      dftAt n (fun k => pointValue ds ((k + n / 2) % n) - pointValue cs ((k + n / 2) % n) / n) (-i) := by
    intro i _
    rw [inverseAt_eq, dftAt_sub]
    congr 1
    · unfold dftAt
      exact Finset.sum_congr rfl fun k hk => by rw [hrot k (Finset.mem_range.mp hk)]
    · unfold dftAt
      rw [Finset.mul_sum]
      exact Finset.sum_congr rfl fun k _ => by ring
  have h2 := l2_dft_neg n (fun k => pointValue ds ((k + n / 2) % n) - pointValue cs ((k + n / 2) % n) / n)
  rw [l2_circle n (n / 2) (fun k => pointValue ds k - pointValue cs k / n)] at h2
  have h3 := l2_add_le n (fun i => pointValue (K.inverse (rotateLeft ds (n / 2))) i - dftAt n (pointValue (rotateLeft ds (n / 2))) (-i))
    (fun i => dftAt n (pointValue (rotateLeft ds (n / 2))) (-i) - inverseAt n (pointValue cs) i)
  simp only [sub_add_sub_cancel] at h3
  rw [l2_congr hex, h2] at h3
  have h4 := mul_le_mul_of_nonneg_left hsc hs.le
  have h5 := mul_le_mul_of_nonneg_left (mul_le_mul_of_nonneg_left hdn hs.le) he
  have h6 : Real.sqrt n * (L / n) = L / Real.sqrt n := by
    rw [div_eq_div_iff_mul_eq_mul_aux hs hnp L hss]
  rw [← hL]
  have h7 : ((1 + e) * (1 + R.u) ^ 2 - 1) * (L / Real.sqrt n) =
      e * (Real.sqrt n * ((1 + R.u) ^ 2 * (L / n))) + Real.sqrt n * (((1 + R.u) ^ 2 - 1) * (L / n)) := by
    rw [← h6]; ring
  rw [h7]
  linarith
where
  div_eq_div_iff_mul_eq_mul_aux {s n : ℝ} (hs : 0 < s) (hn : 0 < n) (L : ℝ) (h : s * s = n) : s * (L / n) = L / s := by
    rw [← h]; field_simp

/-! ### The operations on vectors -/

/-- `scale`, for all kinds of numbers. -/
theorem scale_bits {T : Type} [Add T] [Mul T] (k : RegKind) (addr : Nat) (st : MultiCoreSettings) (x : T)
    (v : DspVec T) (hv : v.WF) (hal : AlignmentAccepted addr k.len v.len) :
    ∃ a v', v.content = some a ∧ Always (v.scale k addr st x) v' ∧ Replaced v v' (a.map (· * x)) := by
  have e1 := hv.content_length hv.content_eq
  obtain ⟨h1, h2⟩ := C20_offset_scale k addr x (v.data.cells.take v.validLen) st
    (by rw [e1]; exact hal)
  refine ⟨_, _, hv.content_eq, h2.mapOutcome.congr (fun s => ?_), replaced_splice hv _ (by rw [List.length_map, e1])⟩
  unfold scale; rw [hv.content_eq]

/-- `ifft`, for all kinds of numbers: divides by the number of points, rotates and transforms. -/
theorem ifft_bits {T : Type} [Zero T] [One T] [Add T] [Mul T] [Div T] [NatCast T] (K : FftKernel T) (hK : K.KeepsLength)
    (k : RegKind) (addr : Nat)
    (st : MultiCoreSettings) (v : DspVec T) (hv : v.WF) (ht : v.Typed) (hc : v.isComplex = true)
    (hd : v.dom = .frequency) (b : Buffer T) (hb : ScratchOk K b v.points)
    (h1 : v.points ≠ 1) (hal : AlignmentAccepted addr k.len v.len) :
    ∃ w b' cs, Always (v.ifft K k addr st b) (w, b') ∧ v.cpoints = some cs ∧
      w.cpoints = some (K.inverse (rotateLeft (cs.map fun c => ⟨c.re * (1 / (v.points : T)), c.im * (1 / (v.points : T))⟩)
        (cs.length / 2))) ∧
      w.points = v.points ∧ w.isComplex = true := by
  obtain ⟨cs, hcs, hlen⟩ := hv.exists_cpoints
  have hcont := (cpoints_complex hc).mp hcs
  obtain ⟨a, u, a1, a2, r1, r2, ⟨m1, m2, m3, m4⟩, r5, r6⟩ := scale_bits k addr st (1 / ((v.points : Nat) : T)) v hv hal
  rw [hcont] at a1
  cases a1
  rw [map_fromComplex] at r1
  have huc : u.isComplex = true := by unfold isComplex at *; rw [m3]; exact hc
  have hup : u.points = v.points := by unfold points isComplex; rw [m3, r2]
  have hud : u.dom = .frequency := by unfold dom at *; rw [m2]; exact hd
  have hut : u.Typed := by unfold Typed at *; rw [m2, m3]; exact ht
  have huw := wf_of_content_complex r1
  have hucp := (cpoints_complex huc).mpr r1
  obtain ⟨x, s1, s2⟩ := C06_ifft_shift u huw (by rw [hup]; exact h1)
  obtain ⟨p1, p2, p3, p4, p5, p6, p7⟩ := permutes_meta s2
  have hp := cpoints_of_permutes (F := fun _ l => rotateLeft l (l.length / 2))
    (by intro α β m l; simp [rotateLeft]) huc hucp s2
  rw [List.length_map] at hp
  obtain ⟨w, b', cs', i1, i2, i3, i4, i5, -⟩ :=
    C34_plain_ifft K hK x (s2.wf huw) (p5 hut) (by rw [p2, hud]) b
    ⟨fun h => by rw [p1, huc] at h; exact absurd h (by simp), by rw [p3, hup]; exact hb⟩
  rw [hp] at i2
  cases i2
  refine ⟨w, b', cs, ?_, hcs, i3, by rw [i4, p3, hup], i5⟩
  exact a2.andThen (f := fun w => .ofOption (do
      let u ← w.ifftShift
      u.plainIfft K b)) (by simp only [s1, Option.bind_eq_bind, Option.bind_some, i1]; rfl)

/-- C95: `fft` of a vector with rounded numbers: point `k` of the result is frequency `k - n / 2` of the exact transform, with the
    relative error of the FFT library (in the Euclidean norm of all points). -/
theorem C95_fft (K : FftKernel (Fl R)) (e : ℝ) (hK : K.Accurate e) (v : DspVec (Fl R)) (hv : v.WF)
    (ht : v.Typed) (hd : v.dom = .time) (b : Buffer (Fl R)) (hb : TransformBufferOk K b v) :
    ∃ w b' cs ws, v.fft K b = some (w, b') ∧ v.cpoints = some cs ∧ w.cpoints = some ws ∧
      cs.length = v.points ∧ ws.length = v.points ∧ w.isComplex = true ∧ w.dom = .frequency ∧
      l2 v.points (fun k => pointValue ws k - dftAt v.points (pointValue cs) (k - (v.points / 2 : Nat))) ≤
        e * (Real.sqrt v.points * l2 v.points (pointValue cs)) := by
  obtain ⟨w, b', cs, f1, f2, f3, f4, f5, f6, -⟩ := C34_fft K (accurate_keeps hK) v hv ht hd b hb
  have hl := length_of_cpoints f2
  refine ⟨w, b', cs, _, f1, f2, f3, hl, ?_, f5, f6, ?_⟩
  · rw [rotateRight_length, hK.forward_length, hl]
  · rw [← hl]; exact forward_error hK cs

/-- C95: Parseval with rounding errors. -/
theorem C95_parseval (K : FftKernel (Fl R)) (e : ℝ) (hK : K.Accurate e) (v : DspVec (Fl R)) (hv : v.WF)
    (ht : v.Typed) (hd : v.dom = .time) (b : Buffer (Fl R)) (hb : TransformBufferOk K b v) :
    ∃ w b' cs ws, v.fft K b = some (w, b') ∧ v.cpoints = some cs ∧ w.cpoints = some ws ∧
      |l2 v.points (pointValue ws) - Real.sqrt v.points * l2 v.points (pointValue cs)| ≤
        e * (Real.sqrt v.points * l2 v.points (pointValue cs)) := by
  obtain ⟨w, b', cs, ws, f1, f2, f3, f4, f5, f6, f7, f8⟩ := C95_fft K e hK v hv ht hd b hb
  refine ⟨w, b', cs, ws, f1, f2, f3, ?_⟩
  exact le_trans (spectrum_level _ _ _) f8
where
  spectrum_level (n : Nat) (f g : Nat → ℂ) : |l2 n g - Real.sqrt n * l2 n f| ≤
      l2 n (fun k => g k - dftAt n f (k - (n / 2 : Nat))) := by
    have h1 : l2 n (fun k => dftAt n f (k - (n / 2 : Nat))) = Real.sqrt n * l2 n f := by
      rw [← l2_dft, ← l2_circle n (n - n / 2) (fun k => dftAt n f k)]
      apply l2_congr
      intro k hk
      apply dftAt_congr
      push_cast
      rw [Int.emod_emod_of_dvd _ (dvd_refl _), Nat.cast_sub (by omega)]
      rw [show (k : ℤ) + ((n : ℤ) - (n / 2 : Nat)) = (k - (n / 2 : Nat)) + n by ring, Int.add_emod_right]
      push_cast
      rfl
    have h2 := l2_add_le n (fun k => g k - dftAt n f (k - (n / 2 : Nat))) (fun k => dftAt n f (k - (n / 2 : Nat)))
    have h3 := l2_add_le n (fun k => dftAt n f (k - (n / 2 : Nat)) - g k) g
    have h4 : l2 n (fun k => dftAt n f (k - (n / 2 : Nat)) - g k) = l2 n (fun k => g k - dftAt n f (k - (n / 2 : Nat))) := by
      unfold l2
      congr 1
      exact Finset.sum_congr rfl fun k _ => by dsimp only; rw [norm_sub_rev]
    simp only [sub_add_cancel] at h2 h3
    rw [h1] at h2 h3
    rw [h4] at h3
    rw [abs_le]
    constructor <;> linarith

/-- C95: `ifft` of a vector with rounded numbers: the exact inverse transform, with the relative error of the FFT library and of two
    roundings. The number of points has to be a number of the floating point type (up to 2^24 for f32, 2^53 for f64, every number of
    points is). -/
theorem C95_ifft (K : FftKernel (Fl R)) (e : ℝ) (he : 0 ≤ e) (hK : K.Accurate e) (k : RegKind) (addr : Nat)
    (st : MultiCoreSettings) (v : DspVec (Fl R)) (hv : v.WF) (ht : v.Typed) (hc : v.isComplex = true) (hd : v.dom = .frequency)
    (b : Buffer (Fl R)) (hb : ScratchOk K b v.points) (h0 : v.points ≠ 0) (h1 : v.points ≠ 1) (hn : R.rnd v.points = v.points)
    (hal : AlignmentAccepted addr k.len v.len) :
    ∃ w b' cs ws, Always (v.ifft K k addr st b) (w, b') ∧ v.cpoints = some cs ∧ w.cpoints = some ws ∧
      cs.length = v.points ∧ ws.length = v.points ∧ w.isComplex = true ∧
      l2 v.points (fun i => pointValue ws i - inverseAt v.points (pointValue cs) i) ≤
        ((1 + e) * (1 + R.u) ^ 2 - 1) * (l2 v.points (pointValue cs) / Real.sqrt v.points) := by
  obtain ⟨w, b', cs, f1, f2, f3, f4, f5⟩ := ifft_bits K (accurate_keeps hK) k addr st v hv ht hc hd b hb h1 hal
  have hl := length_of_cpoints f2
  refine ⟨w, b', cs, _, f1, f2, f3, hl, ?_, f5, ?_⟩
  · rw [hK.inverse_length, rotateLeft_length, List.length_map, hl]
  · have := inverse_error he hK cs (by omega) (by rw [hl]; exact hn)
    rw [hl] at this ⊢
    exact this

/-- C95: `ifft` after `fft`: the points are back with the relative error of two transforms and two roundings, for every register type,
    settings, schedule and buffer. -/
theorem C95_round_trip (K : FftKernel (Fl R)) (e : ℝ) (he : 0 ≤ e) (hK : K.Accurate e) (k : RegKind) (addr : Nat)
    (st : MultiCoreSettings) (v : DspVec (Fl R)) (hv : v.WF) (ht : v.Typed) (hd : v.dom = .time)
    (b : Buffer (Fl R)) (hb : TransformBufferOk K b v) (h0 : v.points ≠ 0) (h1 : v.points ≠ 1)
    (hn : R.rnd v.points = v.points) (hal : AlignmentAccepted addr k.len (2 * v.points)) :
    ∃ w b' u b'' cs us, v.fft K b = some (w, b') ∧ Always (w.ifft K k addr st b') (u, b'') ∧
      v.cpoints = some cs ∧ u.cpoints = some us ∧ us.length = cs.length ∧ u.isComplex = true ∧
      l2 v.points (fun i => pointValue us i - pointValue cs i) ≤
        ((1 + e) ^ 2 * (1 + R.u) ^ 2 - 1) * l2 v.points (pointValue cs) := by
  obtain ⟨w, b', cs, f1, f2, f3, f4, f5, f6, f7, -, f9, f10, -⟩ := C34_fft K (accurate_keeps hK) v hv ht hd b hb
  have hl := length_of_cpoints f2
  have hwl : w.len = 2 * v.points := by
    rw [← f4]
    have := f9.2 f5
    unfold points
    rw [if_pos f5]
    unfold len
    omega
  obtain ⟨u, b'', ws, us, g1, g2, g3, g4, g5, g6, g7⟩ := C95_ifft K e he hK k addr st w f9 f7 f5 f6 b'
    (by rw [f4]; exact f10.2 _ _ hb.2) (by rw [f4]; exact h0) (by rw [f4]; exact h1) (by rw [f4]; exact hn)
    (by rw [hwl]; exact hal)
  rw [f3] at g2
  cases g2
  rw [f4] at g4 g5 g7
  refine ⟨w, b', u, b'', cs, us, f1, g1, f2, g3, by rw [g5, hl], g6, ?_⟩
  have h := forward_error hK cs
  rw [hl] at h g7
  exact chain_error he h0 h g7
where
  chain_error {n : Nat} {f F g : Nat → ℂ} {e : ℝ} (he : 0 ≤ e) (hn0 : n ≠ 0)
      (h1 : l2 n (fun k => F k - dftAt n f (k - (n / 2 : Nat))) ≤ e * (Real.sqrt n * l2 n f))
      (h2 : l2 n (fun i => g i - inverseAt n F i) ≤ ((1 + e) * (1 + R.u) ^ 2 - 1) * (l2 n F / Real.sqrt n)) :
      l2 n (fun i => g i - f i) ≤ ((1 + e) ^ 2 * (1 + R.u) ^ 2 - 1) * l2 n f := by
    have hs : 0 < Real.sqrt n := Real.sqrt_pos.mpr (by positivity)
    have hu := R.u_nonneg
    have h3 := C95_parseval.spectrum_level n f F
    have h4 : l2 n F ≤ (1 + e) * (Real.sqrt n * l2 n f) := by have := (abs_le.mp (h3.trans h1)).2; linarith
    have h5 : l2 n F / Real.sqrt n ≤ (1 + e) * l2 n f := by
      rw [div_le_iff₀ hs]; linarith
    have h6 : l2 n (fun i => inverseAt n F i - f i) ≤ e * l2 n f := by
      have e1 : l2 n (fun i => inverseAt n F i - f i) =
          l2 n (fun i => inverseAt n (fun k => F k - dftAt n f (k - (n / 2 : Nat))) i) :=
        l2_congr fun i hi => by rw [inverseAt_sub, inverse_dft n f i hi]
      rw [e1, l2_inverseAt n hn0, div_le_iff₀ hs]
      linarith
    have h7 := l2_add_le n (fun i => g i - inverseAt n F i) (fun i => inverseAt n F i - f i)
    simp only [sub_add_sub_cancel] at h7
    have hc : 0 ≤ (1 + e) * (1 + R.u) ^ 2 - 1 := by nlinarith [mul_nonneg he hu]
    have h8 := mul_le_mul_of_nonneg_left h5 hc
    have e2 : ((1 + e) ^ 2 * (1 + R.u) ^ 2 - 1) * l2 n f =
        ((1 + e) * (1 + R.u) ^ 2 - 1) * ((1 + e) * l2 n f) + e * l2 n f := by ring
    rw [e2]
    linarith

/-- C95: a filter in the frequency domain - `fft`, `mul` with a spectrum, `ifft` - with rounded numbers: for a filter which amplifies no
    frequency by more than `M` the distance to the exact result is at most `M` times the size of the points, times the relative error of
    two transforms, one multiplication and two roundings. -/
theorem C95_filter [DeltaBounds (Fl R)] (K : FftKernel (Fl R)) (e M : ℝ) (he : 0 ≤ e) (hM : 0 ≤ M) (hK : K.Accurate e)
    (k k' : RegKind) (addr addr' : Nat) (st : MultiCoreSettings) (v o w x : DspVec (Fl R)) (b b' : Buffer (Fl R)) (hv : v.WF)
    (ht : v.Typed) (hd : v.dom = .time) (hb : TransformBufferOk K b v) (h0 : v.points ≠ 0) (h1 : v.points ≠ 1)
    (hn : R.rnd v.points = v.points) (hu : R.u ≤ 1 / 1000) (ho : o.WF)
    (hal : ComplexAlignmentAccepted addr k.len (2 * v.points)) (hal' : AlignmentAccepted addr' k'.len (2 * v.points))
    (hw : v.fft K b = some (w, b')) (hx : w.mul k addr o = some (x, .ok ()))
    (hH : ∀ hs, o.content = some (fromComplex hs) → ∀ i < v.points, ‖pointValue hs i‖ ≤ M) :
    ∃ y b'' cs hs ys, Always (x.ifft K k' addr' st b') (y, b'') ∧ v.cpoints = some cs ∧ o.content = some (fromComplex hs) ∧
      hs.length = cs.length ∧ y.cpoints = some ys ∧ ys.length = cs.length ∧ y.isComplex = true ∧
      l2 v.points (fun i => pointValue ys i - exactFilter v.points (pointValue cs) (pointValue hs) i) ≤
        M * l2 v.points (pointValue cs) * ((1 + e) ^ 2 * (1 + 3 * R.u) * (1 + R.u) ^ 2 - 1) := by
  obtain ⟨w', c', cs, f1, f2, f3, f4, f5, f6, f7, -, f9, f10, -⟩ := C34_fft K (accurate_keeps hK) v hv ht hd b hb
  rw [hw] at f1
  cases f1
  have hl := length_of_cpoints f2
  have hwl : w.len = 2 * v.points := by
    rw [← f4]
    have := f9.2 f5
    unfold points
    rw [if_pos f5]
    unfold len
    omega
  obtain ⟨ws, hs, xs, g1, g2, g3, g4, g5, g6⟩ := C87_complex .mul k addr w o x f9 ho f5 (by rw [hwl]; exact hal) hu hx
  rw [(cpoints_complex f5).mp f3] at g1
  have g1 := fromComplex_injective (Option.some.inj g1)
  have hxc : x.isComplex = true := by rw [← f5]; exact replaced_isComplex g3
  have hxw : x.WF := replaced_wf f9 g3
  have hxp : x.points = v.points := by rw [← f4]; unfold points isComplex; rw [g3.2.2.1.2.2.1, g3.2.1]
  have hxd : x.dom = .frequency := by rw [← f6]; unfold dom; rw [g3.2.2.1.2.1]
  have hxt : x.Typed := by unfold Typed at *; rw [g3.2.2.1.2.1, g3.2.2.1.2.2.1]; exact f7
  have hxl : x.len = 2 * v.points := by rw [← hwl]; exact g3.2.1
  obtain ⟨y, b'', zs, ys, i1, i2, i3, i4, i5, i6, i7⟩ := C95_ifft K e he hK k' addr' st x hxw hxt hxc hxd b'
    (by rw [hxp]; exact f10.2 _ _ hb.2) (by rw [hxp]; exact h0) (by rw [hxp]; exact h1) (by rw [hxp]; exact hn)
    (by rw [hxl]; exact hal')
  rw [(cpoints_complex hxc).mpr g3.1] at i2
  cases i2
  rw [hxp] at i4 i5 i7
  have hwl' : ws.length = v.points := by rw [← g5, i4]
  refine ⟨y, b'', cs, hs, ys, i1, f2, g2, by rw [g4, hwl', hl], i3, by rw [i5, hl], i6, ?_⟩
  have h := forward_error hK cs
  rw [hl] at h
  have g1' : rotateRight (K.forward cs) (v.points / 2) = ws := by rw [← g1, hl]
  rw [g1'] at h
  refine filter_error he hM h0 h (hH hs g2) ?_ i7
  intro i hi
  have a1 : i < ws.length := by omega
  have a2 : i < hs.length := by omega
  obtain ⟨z, hz, hz'⟩ := g6 i _ _ (List.getElem?_eq_getElem a1) (List.getElem?_eq_getElem a2) (by simp)
  have a3 : i < xs.length := by omega
  rw [List.getElem?_eq_getElem a3] at hz
  cases hz
  rw [pointValue_lt _ a1, pointValue_lt _ a2, pointValue_lt _ a3]
  exact hz'
where
  filter_error {n : Nat} {f F X g H : Nat → ℂ} {e M : ℝ} (he : 0 ≤ e) (hM : 0 ≤ M) (hn0 : n ≠ 0)
      (h1 : l2 n (fun k => F k - dftAt n f (k - (n / 2 : Nat))) ≤ e * (Real.sqrt n * l2 n f))
      (hH : ∀ i < n, ‖H i‖ ≤ M) (hX : ∀ i < n, ‖X i - F i * H i‖ ≤ 3 * R.u * ‖F i * H i‖)
      (h2 : l2 n (fun i => g i - inverseAt n X i) ≤ ((1 + e) * (1 + R.u) ^ 2 - 1) * (l2 n X / Real.sqrt n)) :
      l2 n (fun i => g i - exactFilter n f H i) ≤ M * l2 n f * ((1 + e) ^ 2 * (1 + 3 * R.u) * (1 + R.u) ^ 2 - 1) := by
    have hs : 0 < Real.sqrt n := Real.sqrt_pos.mpr (by positivity)
    have hu := R.u_nonneg
    have hL := l2_nonneg n f
    have h3 := C95_parseval.spectrum_level n f F
    have h4 : l2 n F ≤ (1 + e) * (Real.sqrt n * l2 n f) := by have := (abs_le.mp (h3.trans h1)).2; linarith
    have h5 : l2 n (fun i => F i * H i) ≤ M * l2 n F :=
      l2_mul_le hM fun i hi => by
        rw [norm_mul, mul_comm]
        exact mul_le_mul_of_nonneg_right (hH i hi) (norm_nonneg _)
    have h6 : l2 n (fun i => X i - F i * H i) ≤ 3 * R.u * l2 n (fun i => F i * H i) :=
      l2_mul_le (by positivity) hX
    have h7 : l2 n X ≤ l2 n (fun i => X i - F i * H i) + l2 n (fun i => F i * H i) := by
      have := l2_add_le n (fun i => X i - F i * H i) (fun i => F i * H i)
      simpa only [sub_add_cancel] using this
    have h8 : l2 n (fun i => F i * H i - dftAt n f (i - (n / 2 : Nat)) * H i) ≤ M * (e * (Real.sqrt n * l2 n f)) := by
      refine le_trans (l2_mul_le (g := fun i => F i - dftAt n f (i - (n / 2 : Nat))) hM fun i hi => ?_)
        (mul_le_mul_of_nonneg_left h1 hM)
      rw [← sub_mul, norm_mul, mul_comm]
      exact mul_le_mul_of_nonneg_right (hH i hi) (norm_nonneg _)
    -- the spectrum after the multiplication
    have hP : l2 n (fun i => F i * H i) ≤ M * ((1 + e) * (Real.sqrt n * l2 n f)) :=
      h5.trans (mul_le_mul_of_nonneg_left h4 hM)
    have hD : l2 n (fun i => X i - dftAt n f (i - (n / 2 : Nat)) * H i) ≤
        Real.sqrt n * (M * l2 n f * ((1 + e) * (1 + 3 * R.u) - 1)) := by
      have h := l2_add_le n (fun i => X i - F i * H i) (fun i => F i * H i - dftAt n f (i - (n / 2 : Nat)) * H i)
      simp only [sub_add_sub_cancel] at h
      have hq := mul_le_mul_of_nonneg_left hP (by positivity : 0 ≤ 3 * R.u)
      calc _ ≤ _ := h
        _ ≤ 3 * R.u * (M * ((1 + e) * (Real.sqrt n * l2 n f))) + M * (e * (Real.sqrt n * l2 n f)) := by linarith
        _ = _ := by ring
    have hXn : l2 n X / Real.sqrt n ≤ M * l2 n f * ((1 + e) * (1 + 3 * R.u)) := by
      rw [div_le_iff₀ hs]
      have hq := mul_le_mul_of_nonneg_left hP (by positivity : 0 ≤ 1 + 3 * R.u)
      calc _ ≤ _ := h7
        _ ≤ (1 + 3 * R.u) * l2 n (fun i => F i * H i) := by linarith
        _ ≤ _ := hq
        _ = _ := by ring
    have h9 : l2 n (fun i => inverseAt n X i - exactFilter n f H i) ≤ M * l2 n f * ((1 + e) * (1 + 3 * R.u) - 1) := by
      have e1 : l2 n (fun i => inverseAt n X i - exactFilter n f H i) =
          l2 n (fun i => inverseAt n (fun k => X k - dftAt n f (k - (n / 2 : Nat)) * H k) i) :=
        l2_congr fun i hi => by rw [inverseAt_sub]; rfl
      rw [e1, l2_inverseAt n hn0, div_le_iff₀ hs]
      linarith
    have h10 := l2_add_le n (fun i => g i - inverseAt n X i) (fun i => inverseAt n X i - exactFilter n f H i)
    simp only [sub_add_sub_cancel] at h10
    have hc : 0 ≤ (1 + e) * (1 + R.u) ^ 2 - 1 := by nlinarith [mul_nonneg he hu]
    have h11 := mul_le_mul_of_nonneg_left hXn hc
    have e2 : M * l2 n f * ((1 + e) ^ 2 * (1 + 3 * R.u) * (1 + R.u) ^ 2 - 1) =
        ((1 + e) * (1 + R.u) ^ 2 - 1) * (M * l2 n f * ((1 + e) * (1 + 3 * R.u))) +
          M * l2 n f * ((1 + e) * (1 + 3 * R.u) - 1) := by ring
    rw [e2]
    linarith

/-! ### Non-vacuity -/

/-- An FFT library all of whose results are too large by the factor `1 + e`. -/
noncomputable def tooLarge (R : Rounding) (e : ℝ) : FftKernel (Fl R) where
  forward cs := (List.range cs.length).map fun (k : Nat) =>
    ⟨⟨((1 + e) * dftAt cs.length (pointValue cs) k).re⟩, ⟨((1 + e) * dftAt cs.length (pointValue cs) k).im⟩⟩
  inverse cs := (List.range cs.length).map fun (k : Nat) =>
    ⟨⟨((1 + e) * dftAt cs.length (pointValue cs) (-k)).re⟩, ⟨((1 + e) * dftAt cs.length (pointValue cs) (-k)).im⟩⟩
  scratch n := n
  useRust _ := true

theorem pointValue_map (n : Nat) (f : Nat → ℂ) {k : Nat} (hk : k < n) :
    pointValue (R := R) ((List.range n).map fun k => ⟨⟨(f k).re⟩, ⟨(f k).im⟩⟩) k = f k := by
  rw [pointValue_lt _ (by simpa using hk)]
  simp [Fl.complex]

theorem tooLarge_error {n : Nat} {e : ℝ} (he : 0 ≤ e) (f : Nat → ℂ) :
    l2 n (fun k => pointValue (R := R) ((List.range n).map fun k => ⟨⟨((1 + e) * f k).re⟩, ⟨((1 + e) * f k).im⟩⟩) k - f k) =
      e * l2 n f := by
  have h := l2_mul n (e : ℂ) f
  rw [Complex.norm_real, Real.norm_of_nonneg he] at h
  rw [← h]
  exact l2_congr fun k hk => by rw [pointValue_map n (fun k => (1 + e) * f k) hk]; ring

theorem tooLarge_accurate {e : ℝ} (he : 0 ≤ e) : (tooLarge R e).Accurate e where
  forward_length cs := by simp [tooLarge]
  inverse_length cs := by simp [tooLarge]
  forward cs := (tooLarge_error (R := R) he fun k => dftAt cs.length (pointValue cs) k).le
  inverse cs := (tooLarge_error (R := R) he fun k => dftAt cs.length (pointValue cs) (-k)).le

/-- C95: the bound of `fft` cannot be improved: it is reached by an FFT library whose results are all too large by the factor `1 + e`. -/
theorem C95_fft_reached (e : ℝ) (he : 0 ≤ e) (v : DspVec (Fl R)) (hv : v.WF) (ht : v.Typed) (hd : v.dom = .time)
    (b : Buffer (Fl R)) (hb : TransformBufferOk (tooLarge R e) b v) :
    ∃ w b' cs ws, v.fft (tooLarge R e) b = some (w, b') ∧ v.cpoints = some cs ∧ w.cpoints = some ws ∧
      l2 v.points (fun k => pointValue ws k - dftAt v.points (pointValue cs) (k - (v.points / 2 : Nat))) =
        e * (Real.sqrt v.points * l2 v.points (pointValue cs)) := by
  have hK := tooLarge_accurate (R := R) he
  obtain ⟨w, b', cs, f1, f2, f3, f4, f5, f6, -⟩ := C34_fft (tooLarge R e) (accurate_keeps hK) v hv ht hd b hb
  have hl := length_of_cpoints f2
  refine ⟨w, b', cs, _, f1, f2, f3, ?_⟩
  rw [← hl, forward_error_eq hK cs, ← l2_dft]
  exact tooLarge_error (R := R) he fun k => dftAt cs.length (pointValue cs) k

/-- All counts below `2^(p + 1)` are numbers of a type with `p + 1` binary digits. -/
theorem count_exact (p n : Nat) (h : n < 2 ^ (p + 1)) : (binaryRounding p).rnd n = n := by
  by_cases h0 : n = 0
  · subst h0; simp [binaryRounding]
  show (round ((n : ℝ) / (2 : ℝ) ^ (Int.log 2 |(n : ℝ)| - p)) : ℝ) * (2 : ℝ) ^ (Int.log 2 |(n : ℝ)| - p) = n
  rw [abs_of_nonneg (by positivity), Int.log_natCast]
  have hp : Nat.log 2 n ≤ p := by
    have := Nat.log_lt_of_lt_pow h0 h
    omega
  obtain ⟨j, hj⟩ : ∃ j : Nat, p = Nat.log 2 n + j := ⟨p - Nat.log 2 n, by omega⟩
  have e1 : ((Nat.log 2 n : Nat) : ℤ) - (p : ℤ) = -(j : ℤ) := by omega
  rw [e1, zpow_neg, zpow_natCast, div_inv_eq_mul]
  have e2 : (n : ℝ) * 2 ^ j = ((n * 2 ^ j : Nat) : ℝ) := by push_cast; ring
  rw [e2, round_natCast]
  push_cast
  field_simp

theorem rounded_points (R : Rounding) : (roundedVec R .real).points = 4 ∧ (roundedVec R .complex).points = 2 := by
  constructor <;> simp [points, roundedVec, isComplex, NumberSpace.isComplex]

/-- Numbers like `f32`, an FFT library with an error of one millionth, four real and two complex points: `fft` and `ifft`. -/
example : let R := binaryRounding 23; let K := tooLarge R (1 / 1000000); let v := roundedVec R .real; let z := roundedVec R .complex
    K.Accurate (1 / 1000000) ∧ v.WF ∧ v.Typed ∧ v.dom = .time ∧ v.points = 4 ∧ TransformBufferOk K .noBuffer v ∧
    R.rnd v.points = v.points ∧ AlignmentAccepted 0 RegKind.avxF32x8.len (2 * v.points) ∧
    z.WF ∧ z.Typed ∧ z.points = 2 ∧ TransformBufferOk K .noBuffer z ∧ R.rnd z.points = z.points := by
  intro R K v z
  have e4 : v.points = 4 := (rounded_points R).1
  have e2 : z.points = 2 := (rounded_points R).2
  refine ⟨tooLarge_accurate (by norm_num), rounded_wf _ _, .inr ⟨.inl rfl, .inl rfl⟩, rfl, e4, ⟨fun _ => ⟨by decide, trivial⟩, trivial⟩,
    ?_, .inl rfl, rounded_wf _ _, .inr ⟨.inr rfl, .inl rfl⟩, e2, ⟨fun h => absurd h (by decide), trivial⟩, ?_⟩
  · rw [e4]; exact count_exact 23 4 (by norm_num)
  · rw [e2]; exact count_exact 23 2 (by norm_num)

/-- A filter: the spectrum of two complex points times itself. -/
example [DeltaBounds (Fl (binaryRounding 23))] :
    let R := binaryRounding 23; let K := tooLarge R (1 / 1000000); let z := roundedVec R .complex
    ∃ w b' x, z.fft K .noBuffer = some (w, b') ∧ w.mul .sseF32x4 0 w = some (x, .ok ()) ∧ w.WF ∧
      ComplexAlignmentAccepted 0 RegKind.sseF32x4.len (2 * z.points) ∧
      ∃ M : ℝ, 0 ≤ M ∧ ∀ hs, w.content = some (fromComplex hs) → ∀ i < z.points, ‖pointValue hs i‖ ≤ M := by
  intro R K z
  have hK : K.Accurate (1 / 1000000) := tooLarge_accurate (by norm_num)
  obtain ⟨w, b', cs, f1, f2, f3, f4, f5, f6, f7, -, f9, f10, -⟩ := C34_fft K (accurate_keeps hK) z (rounded_wf _ _)
    (.inr ⟨.inr rfl, .inl rfl⟩) rfl .noBuffer ⟨fun h => absurd h (by decide), trivial⟩
  have hwl : w.len = 4 := by
    have := f9.2 f5
    have hp : w.points = 2 := f4.trans (rounded_points R).2
    unfold points at hp
    rw [if_pos f5] at hp
    unfold len
    omega
  obtain ⟨u, r1, r2, r3, r4, -, -, -, r8⟩ := fftRaw_spec K (accurate_keeps hK) .forward z .noBuffer cs
    ((cpoints_complex rfl).mp f2) trivial
  have hp : z.plainFft K .noBuffer = some ({ u with domain := u.domain.toFreq }.rededicateForce z.freqType, .noBuffer) := by
    unfold plainFft ensureComplex
    rw [if_neg (fun h => h rfl), if_pos (show z.isComplex = true from rfl)]
    simp only [Option.bind_eq_bind, Option.bind_some, r1]
  obtain ⟨d1, d2, d3⟩ := rededicateForce_data { u with domain := u.domain.toFreq } z.freqType
  generalize { u with domain := u.domain.toFreq }.rededicateForce z.freqType = q at hp d1 d2 d3
  have hf : w.delta = none ∧ w.allocLen = 4 := by
    obtain ⟨q', s1, s2⟩ := C06_fft_shift q ⟨by rw [d1, d2, r3, r4]; exact (rounded_wf _ _).1, fun _ => by rw [d2, r3]; exact (rounded_wf R .complex).2 rfl⟩
    have h : z.fft K .noBuffer = some (q', .noBuffer) := by
      unfold fft
      simp only [hp, Option.bind_eq_bind, Option.bind_some, s1]
    rw [f1] at h
    cases h
    refine ⟨?_, ?_⟩
    · rw [(permutes_meta s2).2.2.2.2.2.2, d3, r8]
      show (if _ then Option.map _ none else none) = none
      split <;> rfl
    · obtain ⟨-, -, -, h5, -⟩ := s2
      unfold allocLen
      rw [h5, d1, r4]
      rfl
  have hm : w.metaMismatch w = false := by
    unfold metaMismatch deltaRatioBad
    rw [hf.1]
    simp
  obtain ⟨-, -, x, -, -, e1, -⟩ := runs_complex .mul .sseF32x4 0 w w f9 f9 rfl hm f5 (by rw [hwl]; exact .inl rfl)
    (fun _ => ⟨rfl, by rw [hf.2]⟩)
  refine ⟨w, b', x, f1, e1, f9, ⟨.inl rfl, rfl⟩, ∑ i ∈ Finset.range z.points, ‖pointValue (rotateRight (K.forward cs) (cs.length / 2)) i‖,
    Finset.sum_nonneg fun i _ => norm_nonneg _, ?_⟩
  intro hs h i hi
  rw [(cpoints_complex f5).mp f3] at h
  rw [← fromComplex_injective (Option.some.inj h)]
  exact Finset.single_le_sum (f := fun i => ‖pointValue (rotateRight (K.forward cs) (cs.length / 2)) i‖)
    (fun i _ => norm_nonneg _) (Finset.mem_range.mpr hi)

end

end Dsp
