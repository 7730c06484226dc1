import Verif.Props.SymFft
import Mathlib.RingTheory.RootsOfUnity.Complex
import Mathlib.Analysis.SpecialFunctions.Trigonometric.Basic
import Mathlib.Algebra.Field.GeomSum
/-
The discrete Fourier transform meets all assumptions which the theorems about the transforms make
about the transform kernel (non-vacuity of C34, C48, C49).
-/
namespace Dsp
open DspVec
open scoped ComplexConjugate

/-- A complex number of the model as a complex number of Mathlib. -/
def Cx.toC (c : Cx ℝ) : ℂ := ⟨c.re, c.im⟩
/-- The inverse of `Cx.toC`. -/
def Cx.ofC (z : ℂ) : Cx ℝ := ⟨z.re, z.im⟩

@[simp] theorem Cx.ofC_toC (c : Cx ℝ) : Cx.ofC c.toC = c := rfl
@[simp] theorem Cx.toC_ofC (z : ℂ) : (Cx.ofC z).toC = z := rfl

/-- Point `k` of the result is the sum of `cs[m] * ω^(k*m)`. -/
noncomputable def dftPoint (ω : ℂ) (cs : List (Cx ℝ)) (k : Nat) : ℂ :=
  ∑ m ∈ Finset.range cs.length, (cs.getD m ⟨0, 0⟩).toC * ω ^ (k * m)

/-- The transform with the root `ω`. -/
noncomputable def dftList (ω : ℂ) (cs : List (Cx ℝ)) : List (Cx ℝ) :=
  (List.range cs.length).map (fun k => Cx.ofC (dftPoint ω cs k))

/-- `exp (2 π j / n)`. -/
noncomputable def root1 (n : Nat) : ℂ := Complex.exp (2 * Real.pi * Complex.I / n)

/-- The discrete Fourier transform `X[k] = Σ x[m] exp(-2 π j k m / n)` and its (not normalised)
    inverse. -/
noncomputable def dftKernel : FftKernel ℝ where
  forward cs := dftList (root1 cs.length)⁻¹ cs
  inverse cs := dftList (root1 cs.length) cs
  scratch n := n
  useRust _ := true

theorem dftList_length (ω : ℂ) (cs : List (Cx ℝ)) : (dftList ω cs).length = cs.length := by
  simp [dftList]

theorem dftList_getElem? (ω : ℂ) (cs : List (Cx ℝ)) (k : Nat) (h : k < cs.length) :
    (dftList ω cs)[k]? = some (Cx.ofC (dftPoint ω cs k)) := by
  simp [dftList, h]

theorem dftList_getD (ω : ℂ) (cs : List (Cx ℝ)) (k : Nat) (h : k < cs.length) :
    ((dftList ω cs).getD k ⟨0, 0⟩).toC = dftPoint ω cs k := by
  rw [List.getD_eq_getElem?_getD, dftList_getElem? ω cs k h]; simp

theorem geom_zero {r : ℂ} {n : Nat} (h1 : r ^ n = 1) (h2 : r ≠ 1) :
    ∑ k ∈ Finset.range n, r ^ k = 0 := by
  rw [geom_sum_eq h2, h1, sub_self, zero_div]

/-- The inversion of the discrete Fourier transform. -/
theorem dftList_inv {ω : ℂ} {cs : List (Cx ℝ)} (hω : IsPrimitiveRoot ω cs.length) :
    dftList ω⁻¹ (dftList ω cs) = cs.map (Cx.scaleBy (cs.length : ℝ)) := by
  have hl := dftList_length ω cs
  apply List.ext_getElem?
  intro j
  by_cases hj : j < cs.length
  · have hn : cs.length ≠ 0 := by omega
    have hω0 : ω ≠ 0 := hω.ne_zero hn
    rw [dftList_getElem? _ _ _ (by rw [hl]; exact hj)]
    have e : dftPoint ω⁻¹ (dftList ω cs) j = (cs.length : ℂ) * (cs.getD j ⟨0, 0⟩).toC := by
      unfold dftPoint
      rw [hl]
      have e1 : ∀ k ∈ Finset.range cs.length,
          ((dftList ω cs).getD k ⟨0, 0⟩).toC * ω⁻¹ ^ (j * k) =
          ∑ m ∈ Finset.range cs.length, (cs.getD m ⟨0, 0⟩).toC * (ω ^ m * ω⁻¹ ^ j) ^ k := by
        intro k hk
        rw [dftList_getD _ _ _ (Finset.mem_range.mp hk), dftPoint, Finset.sum_mul]
        refine Finset.sum_congr rfl fun m _ => ?_
        rw [mul_pow, ← pow_mul, ← pow_mul, mul_assoc, Nat.mul_comm k m]
      rw [Finset.sum_congr rfl e1, Finset.sum_comm]
      have e2 : ∀ m ∈ Finset.range cs.length,
          ∑ k ∈ Finset.range cs.length, (cs.getD m ⟨0, 0⟩).toC * (ω ^ m * ω⁻¹ ^ j) ^ k =
          if m = j then (cs.length : ℂ) * (cs.getD j ⟨0, 0⟩).toC else 0 := by
        intro m hm
        have hm := Finset.mem_range.mp hm
        rw [← Finset.mul_sum]
        split
        · rename_i h
          subst h
          have : ω ^ m * ω⁻¹ ^ m = 1 := by rw [← mul_pow, mul_inv_cancel₀ hω0, one_pow]
          rw [this]; simp [mul_comm]
        · rename_i h
          rw [geom_zero, mul_zero]
          · rw [mul_pow, ← pow_mul, ← pow_mul, Nat.mul_comm m, Nat.mul_comm j, pow_mul, pow_mul,
              hω.pow_eq_one, inv_pow, hω.pow_eq_one]; simp
          · intro h1
            have h2 : ω ^ m = ω ^ j := by
              rw [inv_pow] at h1
              exact (mul_inv_eq_one₀ (pow_ne_zero _ hω0)).mp h1
            exact h (hω.pow_inj hm hj h2)
      rw [Finset.sum_congr rfl e2, Finset.sum_ite_eq' _ _ _, if_pos (Finset.mem_range.mpr hj)]
    rw [e, List.getElem?_map]
    have e3 : cs[j]? = some cs[j] := List.getElem?_eq_getElem hj
    rw [List.getD_eq_getElem?_getD, e3]
    simp [Cx.ofC, Cx.scaleBy, Cx.toC]
  · rw [List.getElem?_eq_none (by rw [dftList_length, hl]; omega), List.getElem?_eq_none (by simp; omega)]

theorem root1_prim {n : Nat} (h : n ≠ 0) : IsPrimitiveRoot (root1 n) n :=
  Complex.isPrimitiveRoot_exp n h

/-- The discrete Fourier transform is inverted up to the factor `n`. -/
theorem dft_inverts : dftKernel.Inverts where
  length := ⟨fun _ => dftList_length _ _, fun _ => dftList_length _ _⟩
  back cs := by
    by_cases h : cs.length = 0
    · have := List.length_eq_zero_iff.mp h
      subst this; rfl
    · show dftList (root1 (dftList _ cs).length) (dftList (root1 cs.length)⁻¹ cs) = _
      rw [dftList_length]
      have := dftList_inv (root1_prim h).inv
      rwa [inv_inv] at this
  forth cs := by
    by_cases h : cs.length = 0
    · have := List.length_eq_zero_iff.mp h
      subst this; rfl
    · show dftList (root1 (dftList _ cs).length)⁻¹ (dftList (root1 cs.length) cs) = _
      rw [dftList_length]
      exact dftList_inv (root1_prim h)

theorem dft_homogeneous : dftKernel.Homogeneous := by
  intro x cs
  show dftList (root1 (cs.map _).length) (cs.map _) = (dftList (root1 cs.length) cs).map _
  rw [List.length_map]
  apply List.ext_getElem?
  intro j
  by_cases hj : j < cs.length
  · rw [dftList_getElem? _ _ _ (by simpa using hj), List.getElem?_map, dftList_getElem? _ _ _ hj]
    have : dftPoint (root1 cs.length) (cs.map (Cx.scaleBy x)) j = (x : ℂ) * dftPoint (root1 cs.length) cs j := by
      unfold dftPoint
      rw [Finset.mul_sum, List.length_map]
      refine Finset.sum_congr rfl fun m hm => ?_
      have hm := Finset.mem_range.mp hm
      rw [← mul_assoc]
      congr 1
      simp only [List.getD_eq_getElem?_getD, List.getElem?_map, List.getElem?_eq_getElem hm]
      apply Complex.ext <;> simp [Cx.toC, Cx.scaleBy]
    rw [this]
    simp [Cx.ofC, Cx.scaleBy]
  · rw [List.getElem?_eq_none (by rw [dftList_length]; simpa using hj),
      List.getElem?_eq_none (by rw [List.length_map, dftList_length]; omega)]

theorem sum_range_two (f : Nat → ℂ) (n : Nat) :
    ∑ i ∈ Finset.range (2 * n), f i = ∑ i ∈ Finset.range n, (f (2 * i) + f (2 * i + 1)) := by
  induction n with
  | zero => simp
  | succ n ih =>
    rw [Nat.mul_add, Finset.sum_range_succ, Finset.sum_range_succ, ih, Finset.sum_range_succ]
    ring

theorem dft_periodic : dftKernel.Periodic := by
  intro cs
  have hl := interleaveSpec_length (⟨0, 0⟩ : Cx ℝ) 2 (by omega) cs
  show dftList (root1 (interleaveSpec _ 2 cs).length)⁻¹ (interleaveSpec _ 2 cs) =
    dftList (root1 cs.length)⁻¹ cs ++ dftList (root1 cs.length)⁻¹ cs
  rw [hl]
  by_cases h0 : cs.length = 0
  · have := List.length_eq_zero_iff.mp h0
    subst this; rfl
  have hroot : root1 (2 * cs.length) ^ 2 = root1 cs.length := by
    have hc : (cs.length : ℂ) ≠ 0 := by exact_mod_cast h0
    unfold root1
    rw [← Complex.exp_nat_mul]
    congr 1
    push_cast
    field_simp
  have hpt : ∀ k, dftPoint (root1 (2 * cs.length))⁻¹ (interleaveSpec ⟨0, 0⟩ 2 cs) k =
      dftPoint (root1 cs.length)⁻¹ cs k := by
    intro k
    unfold dftPoint
    rw [hl, sum_range_two]
    refine Finset.sum_congr rfl fun m hm => ?_
    have hm := Finset.mem_range.mp hm
    simp only [List.getD_eq_getElem?_getD]
    rw [interleaveSpec_getElem? _ 2 (by omega) _ _ (by omega), interleaveSpec_getElem? _ 2 (by omega) _ _ (by omega),
      if_pos (by omega), if_neg (by omega)]
    have e : 2 * m / 2 = m := by omega
    have e0 : (⟨0, 0⟩ : Cx ℝ).toC = 0 := rfl
    rw [e]
    simp only [Option.getD_some, e0, zero_mul, add_zero]
    rw [← hroot, ← inv_pow, ← pow_mul]
    congr 2
    ring
  apply List.ext_getElem?
  intro k
  by_cases hk : k < 2 * cs.length
  · rw [dftList_getElem? _ _ _ (by rw [hl]; exact hk), hpt]
    by_cases hk2 : k < cs.length
    · rw [List.getElem?_append_left (by rw [dftList_length]; exact hk2), dftList_getElem? _ _ _ hk2]
    · rw [List.getElem?_append_right (by rw [dftList_length]; omega), dftList_length,
        dftList_getElem? _ _ _ (by omega)]
      congr 2
      unfold dftPoint
      refine Finset.sum_congr rfl fun m hm => ?_
      congr 1
      have : k * m = (k - cs.length) * m + cs.length * m := by
        rw [← Nat.add_mul]; congr 1; omega
      rw [this, pow_add, pow_mul _ cs.length, (root1_prim h0).inv.pow_eq_one]
      simp
  · rw [List.getElem?_eq_none (by rw [dftList_length, hl]; omega),
      List.getElem?_eq_none (by rw [List.length_append, dftList_length]; omega)]

theorem dft_real_symmetric : dftKernel.RealSymmetric := by
  intro c
  have hl : (dftKernel.forward (c.map Cx.ofReal)).length = c.length := by
    show (dftList _ _).length = _
    rw [dftList_length, List.length_map]
  have hreal : ∀ m, conj ((c.map Cx.ofReal).getD m ⟨0, 0⟩ : Cx ℝ).toC = ((c.map Cx.ofReal).getD m ⟨0, 0⟩ : Cx ℝ).toC := by
    intro m
    rw [List.getD_eq_getElem?_getD, List.getElem?_map]
    cases c[m]? <;> apply Complex.ext <;> simp [Cx.toC, Cx.ofReal]
  constructor
  · intro k hk hkl
    rw [hl] at hkl ⊢
    show (dftList _ _)[_]? = ((dftList _ _)[_]?).map _
    rw [dftList_getElem? _ _ _ (by rw [List.length_map]; omega), dftList_getElem? _ _ _ (by rw [List.length_map]; omega)]
    have hn : c.length ≠ 0 := by omega
    have hp := root1_prim hn
    simp only [List.length_map]
    have hconj : conj (root1 c.length)⁻¹ = root1 c.length := by
      unfold root1
      rw [← Complex.exp_neg, ← Complex.exp_conj]
      congr 1
      simp only [map_neg, map_div₀, map_mul, Complex.conj_ofReal, Complex.conj_I, Complex.conj_natCast]
      have : conj (2 : ℂ) = 2 := Complex.conj_ofNat 2
      rw [this]; ring
    have e : dftPoint (root1 c.length)⁻¹ (c.map Cx.ofReal) (c.length - k) =
        conj (dftPoint (root1 c.length)⁻¹ (c.map Cx.ofReal) k) := by
      unfold dftPoint
      rw [map_sum]
      refine Finset.sum_congr rfl fun m _ => ?_
      rw [map_mul, hreal, map_pow, hconj]
      congr 1
      have h1 : (root1 c.length)⁻¹ ^ ((c.length - k) * m) * (root1 c.length)⁻¹ ^ (k * m) = 1 := by
        rw [← pow_add, ← Nat.add_mul, Nat.sub_add_cancel (by omega), pow_mul, inv_pow, hp.pow_eq_one]; simp
      have h2 : (root1 c.length)⁻¹ ^ (k * m) ≠ 0 := pow_ne_zero _ (inv_ne_zero (hp.ne_zero hn))
      have h3 : root1 c.length ^ (k * m) * (root1 c.length)⁻¹ ^ (k * m) = 1 := by
        rw [← mul_pow, mul_inv_cancel₀ (hp.ne_zero hn), one_pow]
      exact mul_right_cancel₀ h2 (h1.trans h3.symm)
    rw [e]
    simp [Cx.ofC, Cx.conj]
  · intro c0 h0
    by_cases hn : c.length = 0
    · have := List.length_eq_zero_iff.mp hn
      subst this
      cases h0
    · have h0 : (dftList _ _)[0]? = some c0 := h0
      rw [dftList_getElem? _ _ _ (by rw [List.length_map]; omega)] at h0
      have e := Option.some.inj h0
      have him : (dftPoint (root1 (c.map Cx.ofReal).length)⁻¹ (c.map Cx.ofReal) 0).im = 0 := by
        rw [← Complex.conj_eq_iff_im]
        unfold dftPoint
        rw [map_sum]
        refine Finset.sum_congr rfl fun m _ => ?_
        rw [map_mul, hreal]; simp
      rw [← e]; exact him

/-- A real time vector with three numbers. -/
def threeReals : DspVec ℝ := ⟨⟨.vec, [1, 2, 3]⟩, some 1, .time, .real, 3⟩
/-- A generic complex time vector with two points. -/
def twoPoints : DspVec ℝ := ⟨⟨.vec, [1, 2, 3, 4, 5]⟩, some 1, .timeOrFreq .time, .realOrComplex true, 4⟩

/-- The hypotheses of `C34_round_trip` are met by the discrete Fourier transform. -/
example : dftKernel.Inverts ∧ dftKernel.Homogeneous ∧ twoPoints.WF ∧ twoPoints.Typed ∧
    twoPoints.dom = .time ∧ TransformBufferOk dftKernel (.single []) twoPoints ∧ twoPoints.points ≠ 1 ∧
    AlignmentAccepted 0 RegKind.fallbackF32x4.len (2 * twoPoints.points) :=
  ⟨dft_inverts, dft_homogeneous, ⟨by simp [twoPoints], fun _ => rfl⟩, .inl ⟨_, _, rfl, rfl⟩, rfl,
    ⟨fun h => absurd h (by simp [twoPoints, isComplex, NumberSpace.isComplex]), trivial⟩,
    by simp [twoPoints, points, isComplex, NumberSpace.isComplex], .inl (by decide)⟩

/-- The hypotheses of `C49_round_trip_partial` are met by the discrete Fourier transform. -/
example : dftKernel.Inverts ∧ dftKernel.Periodic ∧ dftKernel.RealSymmetric ∧ threeReals.WF ∧
    threeReals.len % 2 = 1 ∧ BufferOk (.single [7]) threeReals.data (4 * threeReals.len) ∧
    ScratchOk dftKernel (.single [7]) 6 :=
  ⟨dft_inverts, dft_periodic, dft_real_symmetric,
    ⟨by simp [threeReals], fun h => absurd h (by simp [threeReals, isComplex, NumberSpace.isComplex])⟩,
    rfl, trivial, trivial⟩

end Dsp
