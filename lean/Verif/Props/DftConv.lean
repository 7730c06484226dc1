import Verif.Props.Dft
import Verif.Props.ConvFreq
/-
The convolution theorem for the discrete Fourier transform: it meets the assumption of
`C37_overlap_discard_partial`.
-/
namespace Dsp
open DspVec

theorem Cx.toC_add (a b : Cx ℝ) : (a + b).toC = a.toC + b.toC := by
  apply Complex.ext <;> simp [Cx.toC]
theorem Cx.toC_mul (a b : Cx ℝ) : (a * b).toC = a.toC * b.toC := by
  apply Complex.ext <;> simp [Cx.toC]
theorem Cx.toC_zero : (0 : Cx ℝ).toC = 0 := rfl
theorem Cx.toC_inj {a b : Cx ℝ} (h : a.toC = b.toC) : a = b := by
  have := congrArg Cx.ofC h
  simpa using this

theorem toC_foldl (f : Nat → Cx ℝ) (n : Nat) :
    ((List.range n).foldl (fun sum k => sum + f k) 0).toC = ∑ k ∈ Finset.range n, (f k).toC := by
  induction n with
  | zero => rfl
  | succ n ih => rw [List.range_succ, List.foldl_append, Finset.sum_range_succ, ← ih]; simp [Cx.toC_add]

theorem pow_mod_of_one {W : ℂ} {n : Nat} (hW : W ^ n = 1) (k i : Nat) : W ^ (k * (i % n)) = W ^ (k * i) := by
  conv_rhs => rw [← Nat.div_add_mod i n, Nat.mul_add, pow_add, ← Nat.mul_assoc, Nat.mul_comm k n, Nat.mul_assoc,
    pow_mul, hW, one_pow, one_mul]

/-- A sum over all points of the circle does not change by a rotation. -/
theorem sum_rotate {W : ℂ} {n : Nat} (hW : W ^ n = 1) (A : Nat → ℂ) (k l : Nat) (hl : l < n) :
    ∑ i ∈ Finset.range n, A ((i + (n - l)) % n) * W ^ (k * i) =
      W ^ (k * l) * ∑ i ∈ Finset.range n, A i * W ^ (k * i) := by
  rw [Finset.mul_sum]
  refine Finset.sum_nbij' (fun i => (i + (n - l)) % n) (fun i => (i + l) % n) ?_ ?_ ?_ ?_ ?_
  · intro i _; exact Finset.mem_range.mpr (Nat.mod_lt _ (by omega))
  · intro i _; exact Finset.mem_range.mpr (Nat.mod_lt _ (by omega))
  · intro i hi
    have hi := Finset.mem_range.mp hi
    rw [Nat.mod_add_mod]
    have : i + (n - l) + l = i + n := by omega
    rw [this, Nat.add_mod_right, Nat.mod_eq_of_lt hi]
  · intro i hi
    have hi := Finset.mem_range.mp hi
    rw [Nat.mod_add_mod]
    have : i + l + (n - l) = i + n := by omega
    rw [this, Nat.add_mod_right, Nat.mod_eq_of_lt hi]
  · intro i _
    rw [pow_mod_of_one hW, mul_left_comm, ← pow_add, ← Nat.mul_add]
    have : l + (i + (n - l)) = i + n := by omega
    rw [this, Nat.mul_add, pow_add, Nat.mul_comm k n, pow_mul W n, hW, one_pow, mul_one]

/-- The cyclic convolution of two lists of the same length. -/
noncomputable def cyclicConv (a b : List (Cx ℝ)) : List (Cx ℝ) :=
  (List.range a.length).map fun (i : Nat) => (List.range a.length).foldl (fun sum (k : Nat) =>
    sum + (cyclic a ((i : Int) - k)).getD 0 * b.getD k 0) 0

theorem cyclic_getD (a : List (Cx ℝ)) (i k : Nat) (hk : k < a.length) :
    (cyclic a ((i : Int) - k)).getD 0 = a.getD ((i + (a.length - k)) % a.length) ⟨0, 0⟩ := by
  rw [List.getD_eq_getElem?_getD]
  unfold cyclic
  have : (((i : Int) - k) % (a.length : Int)) = (((i + (a.length - k)) % a.length : Nat) : Int) := by
    rw [Int.natCast_mod]
    have : (((i + (a.length - k) : Nat)) : Int) = ((i : Int) - k) + a.length := by omega
    rw [this, Int.add_emod_right]
  rw [this, Int.toNat_natCast]
  rfl

/-- The convolution theorem. -/
theorem dftPoint_cyclicConv {W : ℂ} (a b : List (Cx ℝ)) (hab : a.length = b.length) (hW : W ^ a.length = 1)
    (k : Nat) : dftPoint W (cyclicConv a b) k = dftPoint W a k * dftPoint W b k := by
  have hl : (cyclicConv a b).length = a.length := by simp [cyclicConv]
  unfold dftPoint
  rw [hl, ← hab]
  have e : ∀ i ∈ Finset.range a.length, ((cyclicConv a b).getD i ⟨0, 0⟩).toC * W ^ (k * i) =
      ∑ l ∈ Finset.range a.length,
        (b.getD l ⟨0, 0⟩).toC * ((a.getD ((i + (a.length - l)) % a.length) ⟨0, 0⟩).toC * W ^ (k * i)) := by
    intro i hi
    have hi := Finset.mem_range.mp hi
    have : (cyclicConv a b).getD i ⟨0, 0⟩ = (List.range a.length).foldl (fun sum (k : Nat) =>
        sum + (cyclic a ((i : Int) - k)).getD 0 * b.getD k 0) 0 := by
      rw [List.getD_eq_getElem?_getD]
      simp [cyclicConv, hi]
    rw [this, toC_foldl, Finset.sum_mul]
    refine Finset.sum_congr rfl fun l hlm => ?_
    have hlm := Finset.mem_range.mp hlm
    rw [Cx.toC_mul, cyclic_getD a i l hlm]
    have : b.getD l 0 = b.getD l ⟨0, 0⟩ := rfl
    rw [this]; ring
  rw [Finset.sum_congr rfl e, Finset.sum_comm, Finset.mul_sum]
  refine Finset.sum_congr rfl fun l hlm => ?_
  rw [← Finset.mul_sum, sum_rotate hW (fun i => (a.getD i ⟨0, 0⟩).toC) k l (Finset.mem_range.mp hlm)]
  ring

/-- The convolution theorem holds for the discrete Fourier transform. -/
theorem dft_convolves : dftKernel.Convolves := by
  refine ⟨dft_inverts.length, fun a b hab i hi => ?_⟩
  have hn : a.length ≠ 0 := by omega
  have hW : (root1 a.length)⁻¹ ^ a.length = 1 := (root1_prim hn).inv.pow_eq_one
  have hl : (cyclicConv a b).length = a.length := by simp [cyclicConv]
  have hfwd : List.zipWith (scaledMul (a.length : ℝ)) (dftKernel.forward a) (dftKernel.forward b) =
      (dftKernel.forward (cyclicConv a b)).map (Cx.scaleBy (a.length : ℝ)⁻¹) := by
    show List.zipWith _ (dftList _ a) (dftList _ b) = (dftList _ (cyclicConv a b)).map _
    apply List.ext_getElem?
    intro k
    by_cases hk : k < a.length
    · rw [List.getElem?_map, dftList_getElem? _ _ _ (by omega), List.getElem?_zipWith_eq_some.mpr
        ⟨_, _, dftList_getElem? _ _ _ hk, dftList_getElem? _ _ _ (by omega), rfl⟩, hl, ← hab,
        dftPoint_cyclicConv a b hab hW k]
      simp only [Option.map_some, Option.some.injEq]
      generalize dftPoint _ a k = x
      generalize dftPoint _ b k = y
      simp [scaledMul, Cx.mul, Cx.scaleBy, Cx.ofC, div_eq_inv_mul]
    · rw [List.getElem?_eq_none (by rw [List.length_zipWith, dftList_length]; omega),
        List.getElem?_eq_none (by rw [List.length_map, dftList_length]; omega)]
  rw [hfwd, dft_homogeneous, dft_inverts.back, hl, List.map_map]
  have : (Cx.scaleBy (a.length : ℝ)⁻¹ ∘ Cx.scaleBy (a.length : ℝ)) = id := by
    funext c
    have hc : (a.length : ℝ) ≠ 0 := by exact_mod_cast hn
    simp [Cx.scaleBy, hc]
  rw [this, List.map_id]
  simp [cyclicConv, hi]

end Dsp
