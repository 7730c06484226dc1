import Verif.Props.DftConv
import Verif.Spec.Correlation
/-
The cross correlation theorem for the discrete Fourier transform: it meets the assumption of the
theorems about `correlate` (C54).
-/
namespace Dsp
open DspVec
open scoped ComplexConjugate

theorem toC_sum_range (f : Nat → Cx ℝ) (n : Nat) :
    (((List.range n).map f).sum).toC = ∑ k ∈ Finset.range n, (f k).toC := by
  induction n with
  | zero => rfl
  | succ n ih => rw [List.range_succ, List.map_append, List.sum_append, Finset.sum_range_succ, ← ih]; simp [Cx.toC_add]

theorem Cx.toC_conj (c : Cx ℝ) : c.conj.toC = conj c.toC := by
  apply Complex.ext <;> simp [Cx.toC, Cx.conj]

theorem conj_root1 (n : Nat) : conj (root1 n)⁻¹ = root1 n := by
  unfold root1
  rw [← Complex.exp_neg, ← Complex.exp_conj]
  congr 1
  simp only [map_neg, map_div₀, map_mul, Complex.conj_ofReal, Complex.conj_I, Complex.conj_natCast]
  have : conj (2 : ℂ) = 2 := Complex.conj_ofNat 2
  rw [this]; ring

theorem circularCorrelation_length (a b : List (Cx ℝ)) : (circularCorrelation a b).length = a.length := by
  simp [circularCorrelation]

/-- The cross correlation theorem, for one frequency. -/
theorem dftPoint_correlation (a b : List (Cx ℝ)) (hab : a.length = b.length) (hn : a.length ≠ 0) (k : Nat) :
    dftPoint (root1 a.length)⁻¹ (circularCorrelation a b) k =
      dftPoint (root1 a.length)⁻¹ a k * conj (dftPoint (root1 a.length)⁻¹ b k) := by
  have hp := root1_prim hn
  have hW : (root1 a.length)⁻¹ ^ a.length = 1 := hp.inv.pow_eq_one
  have hcj : conj (root1 a.length)⁻¹ = root1 a.length := conj_root1 _
  have hW1 : root1 a.length ^ a.length = 1 := hp.pow_eq_one
  have hWW : (root1 a.length)⁻¹ * root1 a.length = 1 := inv_mul_cancel₀ (hp.ne_zero hn)
  generalize hWdef : (root1 a.length)⁻¹ = W at *
  generalize root1 a.length = R at *
  unfold dftPoint
  rw [circularCorrelation_length, ← hab, map_sum]
  have e : ∀ i ∈ Finset.range a.length, ((circularCorrelation a b).getD i ⟨0, 0⟩).toC * W ^ (k * i) =
      ∑ l ∈ Finset.range a.length,
        conj (b.getD l ⟨0, 0⟩).toC * ((a.getD ((l + i) % a.length) ⟨0, 0⟩).toC * W ^ (k * i)) := by
    intro i hi
    have hi := Finset.mem_range.mp hi
    have : (circularCorrelation a b).getD i ⟨0, 0⟩ = ((List.range a.length).map fun (k : Nat) =>
        a.getD ((k + i) % a.length) 0 * (b.getD k 0).conj).sum := by
      rw [List.getD_eq_getElem?_getD]
      simp [circularCorrelation, hi]
    rw [this, toC_sum_range, Finset.sum_mul]
    refine Finset.sum_congr rfl fun l hlm => ?_
    rw [Cx.toC_mul, Cx.toC_conj]
    have h1 : b.getD l 0 = b.getD l ⟨0, 0⟩ := rfl
    have h2 : a.getD ((l + i) % a.length) 0 = a.getD ((l + i) % a.length) ⟨0, 0⟩ := rfl
    rw [h1, h2]; ring
  rw [Finset.sum_congr rfl e, Finset.sum_comm, Finset.mul_sum]
  refine Finset.sum_congr rfl fun l hlm => ?_
  have hlm := Finset.mem_range.mp hlm
  have hl' : (a.length - l) % a.length < a.length := Nat.mod_lt _ (by omega)
  have hrot := sum_rotate hW (fun i => (a.getD i ⟨0, 0⟩).toC) k ((a.length - l) % a.length) hl'
  have hidx : ∀ i, (i + (a.length - (a.length - l) % a.length)) % a.length = (l + i) % a.length := by
    intro i
    by_cases h0 : l = 0
    · subst h0; simp
    · rw [Nat.mod_eq_of_lt (show a.length - l < a.length by omega)]
      congr 1; omega
  simp only [hidx] at hrot
  rw [← Finset.mul_sum, hrot, pow_mod_of_one hW, map_mul, map_pow, hcj]
  have hpow : W ^ (k * (a.length - l)) = R ^ (k * l) := by
    have h1 : W ^ (k * (a.length - l)) * W ^ (k * l) = 1 := by
      rw [← pow_add, ← Nat.mul_add, Nat.sub_add_cancel (by omega), Nat.mul_comm, pow_mul, hW, one_pow]
    have h3 : R ^ (k * l) * W ^ (k * l) = 1 := by rw [← mul_pow, mul_comm R W, hWW, one_pow]
    have hW0 : W ≠ 0 := by
      intro h; rw [h, zero_mul] at hWW; exact zero_ne_one hWW
    exact mul_right_cancel₀ (pow_ne_zero _ hW0) (h1.trans h3.symm)
  rw [hpow]; ring

/-- The cross correlation theorem holds for the discrete Fourier transform. -/
theorem dft_correlates : dftKernel.Correlates := by
  refine ⟨dft_inverts.length, fun a b hab => ?_⟩
  by_cases hn : a.length = 0
  · have ha := List.length_eq_zero_iff.mp hn
    subst ha
    have hb := List.length_eq_zero_iff.mp (hab.symm.trans hn)
    subst hb
    rfl
  have hl := circularCorrelation_length a b
  have hfwd : List.zipWith (· * ·) (dftKernel.forward a) ((dftKernel.forward b).map Cx.conj) =
      dftKernel.forward (circularCorrelation a b) := by
    show List.zipWith _ (dftList _ a) ((dftList _ b).map _) = dftList _ (circularCorrelation a b)
    apply List.ext_getElem?
    intro k
    by_cases hk : k < a.length
    · rw [dftList_getElem? _ _ _ (by omega), hl, dftPoint_correlation a b hab hn k,
        List.getElem?_zipWith_eq_some.mpr ⟨_, _, dftList_getElem? _ _ _ hk, by
          rw [List.getElem?_map, dftList_getElem? _ _ _ (by omega)]; rfl, rfl⟩, ← hab, Option.some.injEq]
      apply Cx.toC_inj
      rw [Cx.toC_mul, Cx.toC_conj]
      simp
    · rw [List.getElem?_eq_none (by rw [List.length_zipWith, dftList_length]; omega),
        List.getElem?_eq_none (by rw [dftList_length]; omega)]
  rw [hfwd, dft_inverts.back, hl]

end Dsp
