import Verif.Props.Interleave
import Verif.Spec.Interpolate
import Verif.Props.DftCorr
import Verif.Props.ComplexOps
/-
The discrete Fourier transform meets the assumptions of the theorems about the interpolation in the frequency domain (C57).
-/
namespace Dsp
open DspVec

theorem root1_pow (m n : Nat) (hm : m ≠ 0) : root1 (m * n) ^ m = root1 n := by
  unfold root1
  rw [← Complex.exp_nat_mul]
  congr 1
  have : (m : ℂ) ≠ 0 := by exact_mod_cast hm
  push_cast
  by_cases hn : (n : ℂ) = 0
  · simp [hn]
  · field_simp

theorem resampled_getD (N : Nat) (S : List (Cx ℝ)) (i : Nat) (hi : i < N) (h : S.length ≤ N) :
    (resampledSpectrum N S).getD i ⟨0, 0⟩ = if i < S.length - S.length / 2 then S.getD i 0
      else if N - S.length / 2 ≤ i then S.getD (i - (N - S.length)) 0 else 0 := by
  rw [List.getD_eq_getElem?_getD]
  simp [resampledSpectrum, hi, h]

theorem dftPoint_resampled (m : Nat) (S : List (Cx ℝ)) (hm : 1 ≤ m) (hn : S.length ≠ 0) (k : Nat) :
    dftPoint (root1 (m * S.length)) (resampledSpectrum (m * S.length) S) (m * k) = dftPoint (root1 S.length) S k := by
  set n := S.length with hS
  set w := root1 n with hw
  have hw1 : w ^ n = 1 := (root1_prim hn).pow_eq_one
  have hle : n ≤ m * n := Nat.le_mul_of_pos_left _ hm
  have hpow : ∀ i, root1 (m * n) ^ (m * k * i) = w ^ (k * i) := by
    intro i
    rw [Nat.mul_assoc, pow_mul, root1_pow m n (by omega)]
  unfold dftPoint
  rw [show (resampledSpectrum (m * n) S).length = m * n by simp [resampledSpectrum]]
  simp only [hpow]
  rw [← hS]
  have e1 : m * n = (n - n / 2 + (m * n - n)) + n / 2 := by omega
  have e2 : ∑ i ∈ Finset.range (m * n), ((resampledSpectrum (m * n) S).getD i ⟨0, 0⟩).toC * w ^ (k * i) =
      ∑ i ∈ Finset.range (m * n), ((if i < n - n / 2 then S.getD i 0
      else if m * n - n / 2 ≤ i then S.getD (i - (m * n - n)) 0 else 0).toC * w ^ (k * i)) := by
    refine Finset.sum_congr rfl fun i hi => ?_
    rw [resampled_getD _ _ _ (Finset.mem_range.1 hi) hle]
  rw [e2]
  have e3 : ∑ i ∈ Finset.range n, (S.getD i ⟨0, 0⟩).toC * w ^ (k * i) =
      ∑ i ∈ Finset.range (n - n / 2), (S.getD i 0).toC * w ^ (k * i) +
      ∑ j ∈ Finset.range (n / 2), (S.getD (n - n / 2 + j) 0).toC * w ^ (k * (n - n / 2 + j)) := by
    conv_lhs => rw [show n = n - n / 2 + n / 2 by omega]
    rw [Finset.sum_range_add]
    rfl
  rw [e3]
  generalize hM : m * n = M at *
  rw [Finset.sum_congr (congrArg Finset.range e1) (fun _ _ => rfl), Finset.sum_range_add, Finset.sum_range_add]
  have z : ∑ x ∈ Finset.range (M - n), ((if n - n / 2 + x < n - n / 2 then S.getD (n - n / 2 + x) 0
      else if M - n / 2 ≤ n - n / 2 + x then S.getD (n - n / 2 + x - (M - n)) 0 else 0).toC * w ^ (k * (n - n / 2 + x))) = 0 := by
    refine Finset.sum_eq_zero fun x hx => ?_
    have := Finset.mem_range.1 hx
    rw [if_neg (by omega), if_neg (by omega), Cx.toC_zero, zero_mul]
  rw [z, add_zero]
  congr 1
  · refine Finset.sum_congr rfl fun i hi => ?_
    rw [if_pos (Finset.mem_range.1 hi)]
  · refine Finset.sum_congr rfl fun j hj => ?_
    have := Finset.mem_range.1 hj
    rw [if_neg (by omega), if_pos (by omega), show n - n / 2 + (M - n) + j - (M - n) = n - n / 2 + j by omega]
    congr 1
    have hd : M - n = (m - 1) * n := by rw [← hM, Nat.sub_mul, one_mul]
    rw [hd, show k * (n - n / 2 + (m - 1) * n + j) = k * (n - n / 2 + j) + n * (k * (m - 1)) by ring, pow_add, pow_mul w n, hw1,
      one_pow, mul_one]

/-- Every `m`-th point of the stretched signal is a point of the signal. -/
theorem dft_stretches : dftKernel.Stretches := by
  intro m S hm i hi
  have hl : (resampledSpectrum (m * S.length) S).length = m * S.length := by simp [resampledSpectrum]
  show (dftList (root1 (resampledSpectrum (m * S.length) S).length) (resampledSpectrum (m * S.length) S))[m * i]? =
    (dftList (root1 S.length) S)[i]?
  rw [hl, dftList_getElem? _ _ _ (by rw [hl]; exact Nat.mul_lt_mul_of_pos_left hi hm), dftList_getElem? _ _ _ hi,
    dftPoint_resampled m S hm (by omega)]

theorem toC_cisReal (x : ℝ) : (cisReal x).toC = Complex.exp (x * Complex.I) := by
  apply Complex.ext
  · simp [cisReal, Cx.toC, Complex.exp_ofReal_mul_I_re]
  · simp [cisReal, Cx.toC, Complex.exp_ofReal_mul_I_im]

/-- The linear phase moves the points. -/
theorem dft_moves : dftKernel.Moves cisReal Real.pi := by
  intro r S i hi
  have hl : (phaseShifted cisReal Real.pi (r : ℝ) S).length = S.length := by simp [phaseShifted]
  have hn : S.length ≠ 0 := by omega
  set n := S.length with hS
  set w := root1 n with hw
  have hw1 : w ^ n = 1 := (root1_prim hn).pow_eq_one
  have hw0 : w ≠ 0 := (root1_prim hn).ne_zero hn
  show (dftList (root1 (phaseShifted cisReal Real.pi (r : ℝ) S).length) (phaseShifted cisReal Real.pi (r : ℝ) S))[i]? =
    (dftList (root1 S.length) S)[(i + r) % n]?
  rw [hl, dftList_getElem? _ _ _ (by rw [hl]; exact hi), dftList_getElem? _ _ _ (by rw [← hS]; exact Nat.mod_lt _ (by omega))]
  congr 2
  unfold dftPoint
  rw [hl, ← hS, ← hw]
  refine Finset.sum_congr rfl fun m hm => ?_
  have hm := Finset.mem_range.1 hm
  have hphase : (cisReal (2 * Real.pi * (r : ℝ) * ((binFrequency n m : Int) : ℝ) / (n : ℝ))).toC = w ^ (r * m) := by
    rw [toC_cisReal]
    have hz : w ^ ((r : ℤ) * binFrequency n m) = w ^ (r * m) := by
      unfold binFrequency
      split
      · rw [← zpow_natCast]; push_cast; rfl
      · rw [mul_sub, zpow_sub₀ hw0, mul_comm (r : ℤ) (n : ℤ), zpow_mul w (n : ℤ), zpow_natCast w n, hw1, one_zpow, div_one, ← zpow_natCast]
        push_cast; rfl
    rw [← hz, hw]
    unfold root1
    rw [← Complex.exp_int_mul]
    congr 1
    push_cast
    ring
  have hget : ((phaseShifted cisReal Real.pi (r : ℝ) S).getD m ⟨0, 0⟩).toC = (S.getD m ⟨0, 0⟩).toC * w ^ (r * m) := by
    rw [← hphase, ← Cx.toC_mul]
    congr 1
    rw [List.getD_eq_getElem?_getD, List.getD_eq_getElem?_getD]
    have hm' : m < S.length := by rw [← hS]; exact hm
    simp only [phaseShifted, List.getElem?_mapIdx, List.getElem?_eq_getElem hm', Option.map_some, Option.getD_some, ← hS]
  rw [hget, mul_assoc, ← pow_add]
  congr 1
  have h3 := pow_mod_of_one hw1 m (i + r)
  rw [mul_comm ((i + r) % n) m, h3]
  congr 1; ring

/-! ### Zeros between the points, every `m`-th point -/

theorem sum_range_mul {α : Type} [AddCommMonoid α] (m n : Nat) (f : Nat → α) :
    ∑ p ∈ Finset.range (m * n), f p = ∑ j ∈ Finset.range m, ∑ k ∈ Finset.range n, f (k + j * n) := by
  induction m with
  | zero => simp
  | succ m ih =>
    rw [Finset.sum_congr (congrArg Finset.range (Nat.succ_mul m n)) (fun _ _ => rfl), Finset.sum_range_add, ih, Finset.sum_range_succ]
    congr 1
    exact Finset.sum_congr rfl fun k _ => by rw [Nat.add_comm]

theorem toC_list_sum (l : List (Cx ℝ)) : l.sum.toC = (l.map Cx.toC).sum := by
  induction l with
  | nil => rfl
  | cons x l ih => rw [List.sum_cons, Cx.toC_add, ih, List.map_cons, List.sum_cons]

theorem list_sum_range_complex (f : Nat → ℂ) (m : Nat) : ((List.range m).map f).sum = ∑ j ∈ Finset.range m, f j := by
  induction m with
  | zero => rfl
  | succ m ih => rw [List.range_succ, List.map_append, List.sum_append, ih, Finset.sum_range_succ]; simp

theorem dft_folds : dftKernel.Folds := by
  intro m n S hm hS i hi
  have hl : (foldedSpectrum m n S).length = n := by simp [foldedSpectrum]
  have hn : n ≠ 0 := by omega
  have hw1 : root1 n ^ n = 1 := (root1_prim hn).pow_eq_one
  have hmi : m * i < S.length := by rw [hS]; exact Nat.mul_lt_mul_of_pos_left hi hm
  show (dftList (root1 S.length) S)[m * i]? = (dftList (root1 (foldedSpectrum m n S).length) (foldedSpectrum m n S))[i]?
  rw [dftList_getElem? _ _ _ hmi, dftList_getElem? _ _ _ (by rw [hl]; exact hi), hl]
  congr 2
  unfold dftPoint
  rw [hl, Finset.sum_congr (congrArg Finset.range hS) (fun _ _ => rfl), sum_range_mul, Finset.sum_comm]
  refine Finset.sum_congr rfl fun k hk => ?_
  have hk := Finset.mem_range.1 hk
  have hf : ((foldedSpectrum m n S).getD k ⟨0, 0⟩).toC = ∑ j ∈ Finset.range m, (S.getD (k + j * n) 0).toC := by
    rw [List.getD_eq_getElem?_getD]
    simp only [foldedSpectrum, List.getElem?_map, List.getElem?_range hk, Option.map_some, Option.getD_some]
    rw [toC_list_sum, List.map_map, ← list_sum_range_complex]
    rfl
  rw [hf, Finset.sum_mul]
  refine Finset.sum_congr rfl fun j _ => ?_
  congr 1
  rw [hS, Nat.mul_assoc, pow_mul, root1_pow m n (by omega), Nat.mul_add, pow_add,
    show i * (j * n) = n * (i * j) by ring, pow_mul _ n, hw1, one_pow, mul_one]

theorem getElem?_flatten_replicate {α : Type} (m : Nat) (l : List α) (p : Nat) (h : p < m * l.length) :
    (List.replicate m l).flatten[p]? = l[p % l.length]? := by
  induction m generalizing p with
  | zero => omega
  | succ m ih =>
    rw [List.replicate_succ, List.flatten_cons]
    by_cases hp : p < l.length
    · rw [List.getElem?_append_left hp, Nat.mod_eq_of_lt hp]
    · rw [List.getElem?_append_right (by omega), ih _ (by rw [Nat.succ_mul] at h; omega), ← Nat.mod_eq_sub_mod (by omega : l.length ≤ p)]

theorem dft_repeats : dftKernel.Repeats := by
  intro m a hm
  set A := interleaveSpec 0 m a with hA
  have hAl : A.length = m * a.length := interleaveSpec_length _ _ hm _
  have hfl : (dftKernel.forward a).length = a.length := dft_inverts.length.1 a
  apply List.ext_getElem?
  intro p
  by_cases hp : p < m * a.length
  · rw [getElem?_flatten_replicate _ _ _ (by rw [hfl]; exact hp), hfl]
    have hn : a.length ≠ 0 := by intro h; rw [h] at hp; omega
    have hw1 : (root1 a.length)⁻¹ ^ a.length = 1 := by rw [inv_pow, (root1_prim hn).pow_eq_one, inv_one]
    have hpn : p % a.length < a.length := Nat.mod_lt _ (by omega)
    show (dftList (root1 A.length)⁻¹ A)[p]? = (dftList (root1 a.length)⁻¹ a)[p % a.length]?
    rw [dftList_getElem? _ _ _ (by rw [hAl]; exact hp), dftList_getElem? _ _ _ hpn]
    congr 2
    unfold dftPoint
    rw [Finset.sum_congr (congrArg Finset.range (hAl.trans (Nat.mul_comm _ _))) (fun _ _ => rfl), sum_range_mul]
    refine Finset.sum_congr rfl fun j hj => ?_
    have hj := Finset.mem_range.1 hj
    have hget : ∀ r, r < m → A.getD (r + j * m) ⟨0, 0⟩ = if r = 0 then a.getD j ⟨0, 0⟩ else 0 := by
      intro r hr
      rw [List.getD_eq_getElem?_getD, hA, interleaveSpec_getElem? 0 m hm a (r + j * m) (by nlinarith)]
      have e1 : (r + j * m) % m = r := by rw [Nat.add_mul_mod_self_right, Nat.mod_eq_of_lt hr]
      have e2 : (r + j * m) / m = j := by rw [Nat.add_mul_div_right _ _ (by omega), Nat.div_eq_of_lt hr, Nat.zero_add]
      rw [e1, e2]
      by_cases h : r = 0
      · simp [h]
      · simp [h]
    rw [Finset.sum_eq_single 0]
    · rw [hget 0 (by omega), if_pos rfl, hAl, Nat.zero_add]
      congr 1
      have hpj : (root1 (m * a.length))⁻¹ ^ (p * (j * m)) = (root1 a.length)⁻¹ ^ (j * p) := by
        rw [show p * (j * m) = m * (j * p) by ring, pow_mul, inv_pow (root1 _) m, root1_pow _ _ (by omega)]
      rw [hpj, ← pow_mod_of_one hw1, Nat.mul_comm]
    · intro r hr hr0
      rw [hget r (Finset.mem_range.1 hr), if_neg hr0, Cx.toC_zero, zero_mul]
    · intro h; exact absurd (Finset.mem_range.2 (by omega)) h
  · rw [List.getElem?_eq_none, List.getElem?_eq_none]
    · rw [List.length_flatten, List.map_replicate, List.sum_replicate, hfl]; simpa using hp
    · rw [dft_inverts.length.1, hAl]; omega

/-! ### Short transforms -/

theorem root1_two : root1 2 = -1 := by
  unfold root1
  rw [show (2 * Real.pi * Complex.I / (2 : ℕ) : ℂ) = Real.pi * Complex.I by push_cast; ring, Complex.exp_pi_mul_I]

theorem root1_four : root1 4 = Complex.I := by
  unfold root1
  rw [show (2 * Real.pi * Complex.I / (4 : ℕ) : ℂ) = Real.pi / 2 * Complex.I by push_cast; ring, Complex.exp_pi_div_two_mul_I]

theorem dft_one (c : Cx ℝ) : dftKernel.forward [c] = [c] ∧ dftKernel.inverse [c] = [c] := by
  constructor
  · simp [dftKernel, dftList, dftPoint]
  · simp [dftKernel, dftList, dftPoint]

theorem dft_two (a b : Cx ℝ) : dftKernel.forward [a, b] = [a + b, a - b] ∧ dftKernel.inverse [a, b] = [a + b, a - b] := by
  constructor
  · simp [dftKernel, dftList, dftPoint, List.range_succ, Finset.sum_range_succ, root1_two]
    constructor <;> ext <;> simp [Cx.ofC, Cx.toC, sub_eq_add_neg]
  · simp [dftKernel, dftList, dftPoint, List.range_succ, Finset.sum_range_succ, root1_two]
    constructor <;> ext <;> simp [Cx.ofC, Cx.toC, sub_eq_add_neg]

theorem dft_four (a b c d : Cx ℝ) :
    dftKernel.forward [a, b, c, d] = [a + b + c + d, a - Cx.mk 0 1 * b - c + Cx.mk 0 1 * d, a - b + c - d, a + Cx.mk 0 1 * b - c - Cx.mk 0 1 * d] ∧
    dftKernel.inverse [a, b, c, d] = [a + b + c + d, a + Cx.mk 0 1 * b - c - Cx.mk 0 1 * d, a - b + c - d, a - Cx.mk 0 1 * b - c + Cx.mk 0 1 * d] := by
  have i2 := Complex.I_sq
  have i3 : Complex.I ^ 3 = -Complex.I := by rw [pow_succ, i2]; ring
  have i4 : Complex.I ^ 4 = 1 := Complex.I_pow_four
  have i6 : Complex.I ^ 6 = -1 := by rw [show 6 = 4 + 2 by rfl, pow_add, i4, i2]; ring
  have i9 : Complex.I ^ 9 = Complex.I := by rw [show 9 = 4 + 4 + 1 by rfl, pow_add, pow_add, i4]; ring
  constructor
  · simp [dftKernel, dftList, dftPoint, List.range_succ, Finset.sum_range_succ, root1_four, i3, i4, i6, i9]
    refine ⟨?_, ?_, ?_, ?_⟩ <;> ext <;> simp [Cx.ofC, Cx.toC, sub_eq_add_neg]
  · simp [dftKernel, dftList, dftPoint, List.range_succ, Finset.sum_range_succ, root1_four, i3, i4, i6, i9]
    refine ⟨?_, ?_, ?_, ?_⟩ <;> ext <;> simp [Cx.ofC, Cx.toC, sub_eq_add_neg]

theorem cisReal_zero : cisReal 0 = 1 := by ext <;> simp [cisReal]
theorem cisReal_add (x y : ℝ) : cisReal (x + y) = cisReal x * cisReal y := by
  ext <;> simp [cisReal, Real.cos_add, Real.sin_add]; ring

end Dsp
