import Verif.Spec.ConvFftRounding
import Verif.Props.FftRounding
import Verif.Props.ConvRounding
import Verif.Props.ConvVec
/-
C84: the convolution in frequency domain with rounded numbers.
-/
namespace Dsp
open DspVec
variable {R : Rounding}

noncomputable section

/-! ### One block -/

theorem l2_sum_le (n : Nat) (g : Nat → ℂ) : l2 n g ≤ ∑ i ∈ Finset.range n, ‖g i‖ := by
  unfold l2
  rw [Real.sqrt_le_left (Finset.sum_nonneg fun i _ => norm_nonneg _)]
  exact Finset.sum_sq_le_sq_sum_of_nonneg fun i _ => norm_nonneg _

theorem norm_le_l2 {n : Nat} (f : Nat → ℂ) {i : Nat} (hi : i < n) : ‖f i‖ ≤ l2 n f := by
  unfold l2
  refine Real.le_sqrt_of_sq_le ?_
  exact Finset.single_le_sum (f := fun i => ‖f i‖ ^ 2) (fun i _ => by positivity) (Finset.mem_range.mpr hi)

theorem norm_turn (x : ℝ) : ‖turn x‖ = 1 := by
  have h := Complex.mul_conj (turn x)
  rw [conj_turn, ← turn_add, add_neg_cancel, turn_zero] at h
  have h2 : Complex.normSq (turn x) = 1 := by exact_mod_cast h.symm
  rw [← Complex.sq_norm] at h2
  nlinarith [norm_nonneg (turn x)]

theorem norm_dft_le (n : Nat) (g : Nat → ℂ) (k : ℤ) : ‖dftAt n g k‖ ≤ ∑ i ∈ Finset.range n, ‖g i‖ := by
  unfold dftAt
  refine (norm_sum_le _ _).trans (Finset.sum_le_sum fun i _ => ?_)
  rw [norm_mul, norm_turn, mul_one]

theorem dft_inverse_sub (n : Nat) (f g : Nat → ℂ) (k : ℤ) : dftAt n f k - dftAt n g k = dftAt n (fun i => f i - g i) k :=
  (dftAt_sub n f g k).symm

theorem dftAt_mul (n : Nat) (c : ℂ) (f : Nat → ℂ) (k : ℤ) : dftAt n (fun i => c * f i) k = c * dftAt n f k := by
  unfold dftAt
  rw [Finset.mul_sum]
  exact Finset.sum_congr rfl fun i _ => by ring

/-- The propagation of the errors. -/
theorem spectra_block {n : Nat} (hn : n ≠ 0) {f X S G P z : Nat → ℂ} {e q H : ℝ} (he : 0 ≤ e) (hq : 1 ≤ q) (hH : 0 ≤ H)
    (hX : l2 n (fun k => X k - dftAt n f k) ≤ e * (Real.sqrt n * l2 n f))
    (hG : l2 n (fun k => G k - S k) ≤ e * (Real.sqrt n * H)) (hS : ∀ k < n, ‖S k‖ ≤ H)
    (hP : ∀ k < n, ‖P k - X k * G k / n‖ ≤ (q - 1) * ‖X k * G k / n‖)
    (hz : l2 n (fun i => z i - dftAt n P (-i)) ≤ e * (Real.sqrt n * l2 n P)) :
    l2 n (fun i => z i - (1 / n) * dftAt n (fun k => dftAt n f k * S k) (-i)) ≤
      ((1 + e) ^ 2 * (1 + e * Real.sqrt n) * q - 1) * (l2 n f * H) := by
  have hn' : (0 : ℝ) < n := by positivity
  set s := Real.sqrt n with hs
  have hs0 : 0 < s := Real.sqrt_pos.mpr hn'
  have hss : s * s = n := Real.mul_self_sqrt hn'.le
  set L := l2 n f with hLd
  have hL : 0 ≤ L := l2_nonneg n f
  -- the spectrum of the signal
  have x1 : l2 n X ≤ (1 + e) * (s * L) := by
    have h := l2_add_le n (fun k => X k - dftAt n f k) (fun k => dftAt n f k)
    simp only [sub_add_cancel] at h
    rw [l2_dft] at h
    linarith
  -- the spectrum of the response
  have g1 : ∀ k < n, ‖G k - S k‖ ≤ e * s * H := fun k hk => by
    have h1 := norm_le_l2 (fun k => G k - S k) hk
    calc _ ≤ _ := h1
      _ ≤ _ := hG
      _ = e * s * H := by ring
  have g2 : ∀ k < n, ‖G k‖ ≤ (1 + e * s) * H := fun k hk => by
    have h1 := norm_add_le (G k - S k) (S k)
    rw [sub_add_cancel] at h1
    have := g1 k hk
    have := hS k hk
    linarith
  -- the product
  have p1 : l2 n (fun k => X k * G k) ≤ (1 + e * s) * H * l2 n X :=
    l2_mul_le (by positivity) fun k hk => by
      rw [norm_mul, mul_comm]
      exact mul_le_mul_of_nonneg_right (g2 k hk) (norm_nonneg _)
  have p1' : l2 n (fun k => X k * G k) ≤ (1 + e * s) * H * ((1 + e) * (s * L)) :=
    p1.trans (mul_le_mul_of_nonneg_left x1 (by positivity))
  have p2 : l2 n (fun k => X k * G k - dftAt n f k * S k) ≤ (e * s * H) * ((1 + e) * (s * L)) + H * (e * (s * L)) := by
    have h := l2_add_le n (fun k => X k * (G k - S k)) (fun k => (X k - dftAt n f k) * S k)
    have e1 : l2 n (fun i => X i * (G i - S i) + (X i - dftAt n f i) * S i) =
        l2 n (fun k => X k * G k - dftAt n f k * S k) := l2_congr fun k _ => by ring
    rw [e1] at h
    have h1 : l2 n (fun k => X k * (G k - S k)) ≤ (e * s * H) * l2 n X :=
      l2_mul_le (by positivity) fun k hk => by
        rw [norm_mul, mul_comm]
        exact mul_le_mul_of_nonneg_right (g1 k hk) (norm_nonneg _)
    have h2 : l2 n (fun k => (X k - dftAt n f k) * S k) ≤ H * l2 n (fun k => X k - dftAt n f k) :=
      l2_mul_le hH fun k hk => by
        rw [norm_mul, mul_comm]
        exact mul_le_mul_of_nonneg_right (hS k hk) (norm_nonneg _)
    have h3 := mul_le_mul_of_nonneg_left x1 (by positivity : 0 ≤ e * s * H)
    have h4 := mul_le_mul_of_nonneg_left hX hH
    linarith
  have div_l2 : ∀ a : Nat → ℂ, l2 n (fun k => a k / n) = l2 n a / n := fun a => by
    have h := l2_mul n (1 / n : ℂ) a
    rw [norm_div, norm_one, Complex.norm_natCast] at h
    rw [div_eq_mul_one_div, mul_comm, ← h]
    exact l2_congr fun k _ => by ring
  have hq0 : 0 ≤ q - 1 := by linarith
  have r1 : l2 n (fun k => P k - X k * G k / n) ≤ (q - 1) * (l2 n (fun k => X k * G k) / n) := by
    rw [← div_l2]; exact l2_mul_le hq0 hP
  have r2 : l2 n (fun k => X k * G k) / n ≤ (1 + e * s) * H * ((1 + e) * (s * L)) / n :=
    div_le_div_of_nonneg_right p1' hn'.le
  have r3 : l2 n P ≤ q * ((1 + e * s) * H * ((1 + e) * (s * L)) / n) := by
    have h := l2_add_le n (fun k => P k - X k * G k / n) (fun k => X k * G k / n)
    simp only [sub_add_cancel] at h
    rw [div_l2] at h
    have := mul_le_mul_of_nonneg_left r2 (by linarith : 0 ≤ q)
    linarith
  have r4 : l2 n (fun k => P k - dftAt n f k * S k / n) ≤
      (q * (1 + e) * (1 + e * s) - 1) * (s * L * H / n) := by
    have h := l2_add_le n (fun k => P k - X k * G k / n) (fun k => X k * G k / n - dftAt n f k * S k / n)
    simp only [sub_add_sub_cancel] at h
    have h1 : l2 n (fun k => X k * G k / n - dftAt n f k * S k / n) =
        l2 n (fun k => X k * G k - dftAt n f k * S k) / n := by
      rw [← div_l2]; exact l2_congr fun k _ => by ring
    have h2 := div_le_div_of_nonneg_right p2 hn'.le
    have h3 := mul_le_mul_of_nonneg_left r2 hq0
    rw [h1] at h
    calc _ ≤ _ := h
      _ ≤ (q - 1) * ((1 + e * s) * H * ((1 + e) * (s * L)) / n) +
          ((e * s * H) * ((1 + e) * (s * L)) + H * (e * (s * L))) / n := by linarith
      _ = _ := by field_simp; ring
  -- back
  have b1 : l2 n (fun i => z i - dftAt n P (-i)) ≤ e * q * (1 + e) * (1 + e * s) * (L * H) := by
    have h := mul_le_mul_of_nonneg_left r3 (by positivity : 0 ≤ e * s)
    calc _ ≤ _ := hz
      _ = e * s * l2 n P := by ring
      _ ≤ _ := h
      _ = e * q * (1 + e) * (1 + e * s) * (L * H) * (s * s / n) := by ring
      _ = _ := by rw [hss, div_self hn'.ne', mul_one]
  have b2 : l2 n (fun i => dftAt n P (-i) - (1 / n) * dftAt n (fun k => dftAt n f k * S k) (-i)) ≤
      (q * (1 + e) * (1 + e * s) - 1) * (L * H) := by
    have e1 : l2 n (fun i => dftAt n P (-i) - (1 / n) * dftAt n (fun k => dftAt n f k * S k) (-i)) =
        l2 n (fun i => dftAt n (fun k => P k - dftAt n f k * S k / n) (-i)) := by
      refine l2_congr fun i _ => ?_
      rw [dftAt_sub]
      congr 1
      rw [← dftAt_mul]
      congr 1
      funext k
      ring
    rw [e1, l2_dft_neg]
    have h := mul_le_mul_of_nonneg_left r4 hs0.le
    calc _ ≤ _ := h
      _ = (q * (1 + e) * (1 + e * s) - 1) * (L * H) * (s * s / n) := by ring
      _ = _ := by rw [hss, div_self hn'.ne', mul_one]
  have h := l2_add_le n (fun i => z i - dftAt n P (-i))
    (fun i => dftAt n P (-i) - (1 / n) * dftAt n (fun k => dftAt n f k * S k) (-i))
  simp only [sub_add_sub_cancel] at h
  calc _ ≤ _ := h
    _ ≤ e * q * (1 + e) * (1 + e * s) * (L * H) + (q * (1 + e) * (1 + e * s) - 1) * (L * H) := by linarith
    _ = _ := by ring

/-- The same for a convolution. -/
theorem convolve_block {n : Nat} (hn : n ≠ 0) {f g X G P z : Nat → ℂ} {e q : ℝ} (he : 0 ≤ e) (hq : 1 ≤ q)
    (hX : l2 n (fun k => X k - dftAt n f k) ≤ e * (Real.sqrt n * l2 n f))
    (hG : l2 n (fun k => G k - dftAt n g k) ≤ e * (Real.sqrt n * l2 n g))
    (hP : ∀ k < n, ‖P k - X k * G k / n‖ ≤ (q - 1) * ‖X k * G k / n‖)
    (hz : l2 n (fun i => z i - dftAt n P (-i)) ≤ e * (Real.sqrt n * l2 n P)) :
    l2 n (fun i => z i - (1 / n) * dftAt n (fun k => dftAt n f k * dftAt n g k) (-i)) ≤
      ((1 + e) ^ 2 * (1 + e * Real.sqrt n) * q - 1) * (l2 n f * ∑ i ∈ Finset.range n, ‖g i‖) :=
  spectra_block hn (S := fun k => dftAt n g k) he hq (Finset.sum_nonneg fun i _ => norm_nonneg _) hX
    (hG.trans (mul_le_mul_of_nonneg_left (mul_le_mul_of_nonneg_left (l2_sum_le n g) (Real.sqrt_nonneg _)) he))
    (fun k _ => norm_dft_le n g k) hP hz

/-- One multiplication of spectra. -/
theorem scaledMul_error (n : Nat) (hn : R.rnd n = n) (hu : R.u ≤ 1 / 1000) (a b : Cx (Fl R)) :
    ‖Fl.complex (scaledMul (n : Fl R) a b) - Fl.complex a * Fl.complex b / n‖ ≤
      ((1 + 3 * R.u) * (1 + R.u) - 1) * ‖Fl.complex a * Fl.complex b / n‖ := by
  have h0 := R.u_nonneg
  have h1 := cx_error .mul a b hu (by simp)
  simp only [ElemOp.exactComplex, ElemOp.complexUnits] at h1
  change ‖Fl.complex (Cx.mul a b) - _‖ ≤ _ at h1
  have h2 := rnd_parts (R := R) ((Cx.mul a b).re.val / n) ((Cx.mul a b).im.val / n)
  have e1 : Fl.complex (scaledMul (n : Fl R) a b) = ⟨R.rnd ((Cx.mul a b).re.val / n), R.rnd ((Cx.mul a b).im.val / n)⟩ := by
    show (⟨R.rnd ((Cx.mul a b).re.val / R.rnd n), R.rnd ((Cx.mul a b).im.val / R.rnd n)⟩ : ℂ) = _
    rw [hn]
  have e2 : (⟨(Cx.mul a b).re.val / n, (Cx.mul a b).im.val / n⟩ : ℂ) = Fl.complex (Cx.mul a b) / n := by
    apply Complex.ext <;> simp [Fl.complex, Complex.div_natCast_re, Complex.div_natCast_im]
  rw [e2] at h2
  rw [e1]
  have h3 : ‖Fl.complex (Cx.mul a b) / n - Fl.complex a * Fl.complex b / n‖ ≤ 3 * R.u * ‖Fl.complex a * Fl.complex b / n‖ := by
    rw [← sub_div, norm_div, norm_div, ← mul_div_assoc]
    exact div_le_div_of_nonneg_right h1 (norm_nonneg _)
  have h4 := norm_add_le (Fl.complex (Cx.mul a b) / n - Fl.complex a * Fl.complex b / n) (Fl.complex a * Fl.complex b / n)
  rw [sub_add_cancel] at h4
  have h5 : ‖Fl.complex (Cx.mul a b) / n‖ ≤ (1 + 3 * R.u) * ‖Fl.complex a * Fl.complex b / n‖ := by linarith
  have h6 := norm_add_le ((⟨R.rnd ((Cx.mul a b).re.val / n), R.rnd ((Cx.mul a b).im.val / n)⟩ : ℂ) - Fl.complex (Cx.mul a b) / n)
    (Fl.complex (Cx.mul a b) / n - Fl.complex a * Fl.complex b / n)
  rw [sub_add_sub_cancel] at h6
  have h7 := mul_le_mul_of_nonneg_left h5 h0
  calc _ ≤ _ := h6
    _ ≤ _ := add_le_add h2 h3
    _ ≤ R.u * ((1 + 3 * R.u) * ‖Fl.complex a * Fl.complex b / n‖) + 3 * R.u * ‖Fl.complex a * Fl.complex b / n‖ := by linarith
    _ = _ := by ring

/-- The value which a rounded number stands for, for complex numbers. -/
def Fl.toReal (c : Cx (Fl R)) : Cx ℝ := ⟨c.re.val, c.im.val⟩

theorem toReal_toC (c : Cx (Fl R)) : (Fl.toReal c).toC = Fl.complex c := rfl

theorem pointValue_toReal (cs : List (Cx (Fl R))) (i : Nat) : (((cs.map Fl.toReal).getD i ⟨0, 0⟩).toC) = pointValue cs i := by
  unfold pointValue
  rw [List.getD_eq_getElem?_getD, List.getD_eq_getElem?_getD, List.getElem?_map]
  cases cs[i]? <;> rfl

theorem dftAt_pointValue (cs : List (Cx (Fl R))) (k : ℤ) : dftAt cs.length (pointValue cs) k = fourierAt (cs.map Fl.toReal) k := by
  unfold dftAt fourierAt
  rw [List.length_map]
  exact Finset.sum_congr rfl fun m _ => by rw [pointValue_toReal]

/-- A filtered block, with rounded numbers. -/
theorem block_error (K : FftKernel (Fl R)) {e : ℝ} (he : 0 ≤ e) (hK : K.Accurate e) (hu : R.u ≤ 1 / 1000) (F : Nat) (hF0 : F ≠ 0)
    (hF : R.rnd F = F) (block g : List (Cx (Fl R))) (hb : block.length = F) (hg : g.length = F) :
    l2 F (fun i => pointValue (filterBlock K F (K.forward g) block) i -
        (1 / F) * dftAt F (fun k => dftAt F (pointValue block) k * dftAt F (pointValue g) k) (-i)) ≤
      fftConvError e R.u F * (l2 F (pointValue block) * ∑ i ∈ Finset.range F, ‖pointValue g i‖) := by
  have h0 := R.u_nonneg
  have h1 := hK.forward block
  have h2 := hK.forward g
  rw [l2_dft, hb] at h1
  rw [l2_dft, hg] at h2
  have hl : (List.zipWith (scaledMul (F : Fl R)) (K.forward block) (K.forward g)).length = F := by
    rw [List.length_zipWith, hK.forward_length, hK.forward_length, hb, hg, Nat.min_self]
  have h3 := hK.inverse (List.zipWith (scaledMul (F : Fl R)) (K.forward block) (K.forward g))
  rw [l2_dft_neg, hl] at h3
  refine convolve_block hF0 (q := (1 + 3 * R.u) * (1 + R.u)) he (by nlinarith) h1 h2 (fun k hk => ?_) h3
  have a1 : k < (K.forward block).length := by rw [hK.forward_length, hb]; exact hk
  have a2 : k < (K.forward g).length := by rw [hK.forward_length, hg]; exact hk
  rw [pointValue_lt _ (by rw [hl]; exact hk), pointValue_lt _ a1, pointValue_lt _ a2, List.getElem_zipWith]
  exact scaledMul_error F hF hu _ _

/-! ### The exact values -/

theorem cyclic_toReal (x : List (Cx (Fl R))) (p : Int) :
    (((cyclic (x.map Fl.toReal) p).getD 0).toC) = Fl.complex ((cyclic x p).getD 0) := by
  unfold cyclic
  rw [List.length_map, List.getElem?_map]
  cases x[(p % (x.length : Int)).toNat]? <;> rfl

theorem convAt_toReal (x h : List (Cx (Fl R))) (i : Nat) :
    (convAt (x.map Fl.toReal) (h.map Fl.toReal) i).toC = exactConvAt x h i := by
  rw [← C84_pairs, toC_list_sum]
  unfold exactConvAt convPairs
  simp only [List.map_map, List.length_map]
  congr 1
  apply List.map_congr_left
  intro k _
  simp only [Function.comp_apply, Cx.toC_mul, cyclic_toReal]
  congr 1
  have := pointValue_toReal h k
  unfold pointValue at this
  exact this

/-- The block, in exact arithmetic. -/
theorem block_exact (F m : Nat) (hm : 1 ≤ m) (hF : m ≤ F) (x h : List (Cx (Fl R))) (hh : h.length = m) (p : Nat)
    (hp : p + F ≤ x.length) (j : Nat) (h1 : m - 1 ≤ j) (h2 : j < F) :
    (1 / F : ℂ) * dftAt F (fun k => dftAt F (pointValue ((x.drop p).take F)) k *
        dftAt F (pointValue (h ++ List.replicate (F - m) 0)) k) (-j) = exactConvAt x h (p + j - (m - 1) + m / 2) := by
  have hb : ((x.drop p).take F).length = F := by simp; omega
  have hg : (h ++ List.replicate (F - m) (0 : Cx (Fl R))).length = F := by simp; omega
  obtain ⟨g1, g2⟩ := filterBlock_good dftKernel dft_convolves F m hm hF (x.map Fl.toReal) (h.map Fl.toReal) (by simpa using hh) p
    (by simpa using hp)
  obtain ⟨c, c1, c2⟩ := g2 j h1 h2
  have c2 : c = convAt (x.map Fl.toReal) (h.map Fl.toReal) (p + j - (m - 1) + m / 2) := c2
  rw [← convAt_toReal, ← c2]
  have eb : ((x.map Fl.toReal).drop p).take F = ((x.drop p).take F).map Fl.toReal := by rw [List.map_take, List.map_drop]
  have eg : h.map Fl.toReal ++ List.replicate (F - m) 0 = (h ++ List.replicate (F - m) 0).map Fl.toReal := by
    rw [List.map_append, List.map_replicate]; rfl
  rw [eb, eg] at c1
  unfold filterBlock at c1
  generalize (x.drop p).take F = block at *
  generalize h ++ List.replicate (F - m) 0 = g at *
  have hl : (List.zipWith (scaledMul (F : ℝ)) (dftKernel.forward (block.map Fl.toReal)) (dftKernel.forward (g.map Fl.toReal))).length = F := by
    rw [List.length_zipWith, dft_isDft.forward_length, dft_isDft.forward_length, List.length_map, List.length_map, hb, hg, Nat.min_self]
  have h3 := dft_isDft.inverse (List.zipWith (scaledMul (F : ℝ)) (dftKernel.forward (block.map Fl.toReal))
    (dftKernel.forward (g.map Fl.toReal))) j (by rw [hl]; exact h2)
  rw [List.getD_eq_getElem?_getD, c1, Option.getD_some] at h3
  rw [h3]
  unfold fourierAt
  rw [hl]
  unfold dftAt
  rw [Finset.mul_sum]
  refine Finset.sum_congr rfl fun k hk => ?_
  have hk := Finset.mem_range.mp hk
  have a1 : k < (dftKernel.forward (block.map Fl.toReal)).length := by
    rw [dft_isDft.forward_length, List.length_map, hb]; exact hk
  have a2 : k < (dftKernel.forward (g.map Fl.toReal)).length := by
    rw [dft_isDft.forward_length, List.length_map, hg]; exact hk
  have f1 := dft_isDft.forward (block.map Fl.toReal) k (by rw [List.length_map, hb]; exact hk)
  have f2 := dft_isDft.forward (g.map Fl.toReal) k (by rw [List.length_map, hg]; exact hk)
  rw [getD_lt _ _ a1, ← dftAt_pointValue, hb] at f1
  rw [getD_lt _ _ a2, ← dftAt_pointValue, hg] at f2
  unfold dftAt at f1 f2
  dsimp only
  rw [getD_lt _ _ (by rw [hl]; exact hk), List.getElem_zipWith, ← f1, ← f2]
  have e3 : ∀ a b : Cx ℝ, (scaledMul (F : ℝ) a b).toC = a.toC * b.toC / F := by
    intro a b
    have e4 : (scaledMul (F : ℝ) a b).toC = (a * b).toC / F := by
      apply Complex.ext
      · simp only [Complex.div_natCast_re]; rfl
      · simp only [Complex.div_natCast_im]; rfl
    rw [e4, Cx.toC_mul]
  rw [e3]
  ring

/-! ### The sizes -/

theorem sum_pointValue (g : List (Cx (Fl R))) : ∑ i ∈ Finset.range g.length, ‖pointValue g i‖ = l1 g := by
  have h : ((List.range g.length).map fun i => ‖pointValue g i‖) = g.map fun c => ‖Fl.complex c‖ := by
    apply List.ext_getElem
    · simp
    · intro k g1 g2
      have hk : k < g.length := by simpa using g2
      simp only [List.getElem_map, List.getElem_range]
      rw [pointValue_lt _ hk]
  unfold l1
  rw [← h]
  rfl

theorem l1_append_zeros (h : List (Cx (Fl R))) (k : Nat) : l1 (h ++ List.replicate k 0) = l1 h := by
  unfold l1
  have : ‖Fl.complex (0 : Cx (Fl R))‖ = 0 := by
    rw [norm_eq_zero]; rfl
  simp [this]

theorem l1_nonneg (h : List (Cx (Fl R))) : 0 ≤ l1 h :=
  List.sum_nonneg fun y hy => by
    obtain ⟨c, -, rfl⟩ := List.mem_map.mp hy
    exact norm_nonneg _

theorem l2_block_le (x : List (Cx (Fl R))) (p F : Nat) (hp : p + F ≤ x.length) :
    l2 F (pointValue ((x.drop p).take F)) ≤ l2 x.length (pointValue x) := by
  unfold l2
  refine Real.sqrt_le_sqrt ?_
  have e1 : ∑ i ∈ Finset.range F, ‖pointValue ((x.drop p).take F) i‖ ^ 2 = ∑ i ∈ Finset.Ico p (p + F), ‖pointValue x i‖ ^ 2 := by
    rw [Finset.sum_Ico_eq_sum_range, Nat.add_sub_cancel_left]
    refine Finset.sum_congr rfl fun i hi => ?_
    have hi := Finset.mem_range.mp hi
    unfold pointValue
    rw [List.getD_eq_getElem?_getD, List.getD_eq_getElem?_getD, List.getElem?_take_of_lt hi, List.getElem?_drop]
  rw [e1]
  refine Finset.sum_le_sum_of_subset_of_nonneg ?_ fun i _ _ => by positivity
  intro i hi
  rw [Finset.mem_Ico] at hi
  exact Finset.mem_range.mpr (by omega)

theorem pointValue_le (x : List (Cx (Fl R))) (p : Int) : ‖Fl.complex ((cyclic x p).getD 0)‖ ≤ l2 x.length (pointValue x) := by
  unfold cyclic
  by_cases h : (p % (x.length : Int)).toNat < x.length
  · rw [List.getElem?_eq_getElem h, Option.getD_some, ← pointValue_lt _ h]
    exact norm_le_l2 _ h
  · rw [List.getElem?_eq_none (by omega), Option.getD_none]
    have : ‖Fl.complex (0 : Cx (Fl R))‖ = 0 := by
      rw [norm_eq_zero]; rfl
    rw [this]
    exact l2_nonneg _ _

/-! ### The convolution by definition -/

theorem products_le (a b c d : ℝ) : |a * c| + |b * d| ≤ ‖(⟨a, b⟩ : ℂ)‖ * ‖(⟨c, d⟩ : ℂ)‖ := by
  rw [Complex.norm_eq_sqrt_sq_add_sq, Complex.norm_eq_sqrt_sq_add_sq, ← Real.sqrt_mul (by positivity)]
  refine Real.le_sqrt_of_sq_le ?_
  rw [abs_mul, abs_mul]
  simp only
  rw [← sq_abs a, ← sq_abs b, ← sq_abs c, ← sq_abs d]
  nlinarith [sq_nonneg (|a| * |d| - |b| * |c|)]

theorem re_sum {α : Type} (f : α → ℂ) (l : List α) : (l.map f).sum.re = (l.map fun a => (f a).re).sum := by
  induction l with
  | nil => rfl
  | cons a l ih => simp [ih]

theorem im_sum {α : Type} (f : α → ℂ) (l : List α) : (l.map f).sum.im = (l.map fun a => (f a).im).sum := by
  induction l with
  | nil => rfl
  | cons a l ih => simp [ih]

/-- The sum of the absolute values of the products. -/
theorem pairs_le (x h : List (Cx (Fl R))) (i : Nat) (f : Cx (Fl R) × Cx (Fl R) → ℝ)
    (hf : ∀ p, f p ≤ ‖Fl.complex p.1‖ * ‖Fl.complex p.2‖) :
    ((convPairs x h i).map f).sum ≤ l2 x.length (pointValue x) * l1 h := by
  have h1 : ((convPairs x h i).map f).sum ≤ ((convPairs x h i).map fun p => l2 x.length (pointValue x) * ‖Fl.complex p.2‖).sum := by
    refine List.sum_le_sum fun p hp => (hf p).trans ?_
    refine mul_le_mul_of_nonneg_right ?_ (norm_nonneg _)
    unfold convPairs at hp
    obtain ⟨k, -, rfl⟩ := List.mem_map.mp hp
    exact pointValue_le x _
  refine h1.trans (le_of_eq ?_)
  unfold convPairs l1
  rw [List.map_map, ← List.sum_map_mul_left]
  congr 1
  apply List.ext_getElem
  · simp
  · intro k g1 g2
    have hk : k < h.length := by simpa using g2
    simp only [List.getElem_map, List.getElem_range, Function.comp_apply]
    rw [List.getD_eq_getElem?_getD, List.getElem?_eq_getElem hk]
    rfl

/-- From the parts to the absolute value. -/
theorem near_of_parts {d : Nat} {x h : List (Cx (Fl R))} {i : Nat} {y : Cx (Fl R)}
    (h1 : |y.re.val - ((convPairs x h i).map fun p => p.1.re.val * p.2.re.val - p.1.im.val * p.2.im.val).sum| ≤
      ((1 + R.u) ^ (d + 2) - 1) *
        ((convPairs x h i).map fun p => |p.1.re.val * p.2.re.val| + |p.1.im.val * p.2.im.val|).sum)
    (h2 : |y.im.val - ((convPairs x h i).map fun p => p.1.re.val * p.2.im.val + p.1.im.val * p.2.re.val).sum| ≤
      ((1 + R.u) ^ (d + 2) - 1) *
        ((convPairs x h i).map fun p => |p.1.re.val * p.2.im.val| + |p.1.im.val * p.2.re.val|).sum) :
    ‖Fl.complex y - exactConvAt x h i‖ ≤ directConvError R.u d * (l2 x.length (pointValue x) * l1 h) := by
  have h0 := R.u_nonneg
  have hone : (1 : ℝ) ≤ (1 + R.u) ^ (d + 2) := one_le_pow₀ (by linarith)
  have hG : 0 ≤ (1 + R.u) ^ (d + 2) - 1 := by linarith
  have hB : 0 ≤ l2 x.length (pointValue x) * l1 h := mul_nonneg (l2_nonneg _ _) (l1_nonneg _)
  have a1 := h1.trans (mul_le_mul_of_nonneg_left (pairs_le x h i _ fun p => products_le _ _ _ _) hG)
  have a2 := h2.trans (mul_le_mul_of_nonneg_left (pairs_le x h i (fun p => |p.1.re.val * p.2.im.val| + |p.1.im.val * p.2.re.val|)
    fun p => by
      have h := products_le p.1.re.val p.1.im.val p.2.im.val p.2.re.val
      have e : ‖(⟨p.2.im.val, p.2.re.val⟩ : ℂ)‖ = ‖Fl.complex p.2‖ := by
        rw [Complex.norm_eq_sqrt_sq_add_sq, Complex.norm_eq_sqrt_sq_add_sq, add_comm]; rfl
      rw [e] at h
      exact h) hG)
  unfold directConvError
  refine complex_error_of_parts hB ?_ (by positivity)
  have e1 : (exactConvAt x h i).re = ((convPairs x h i).map fun p => p.1.re.val * p.2.re.val - p.1.im.val * p.2.im.val).sum := by
    unfold exactConvAt; rw [re_sum]; rfl
  have e2 : (exactConvAt x h i).im = ((convPairs x h i).map fun p => p.1.re.val * p.2.im.val + p.1.im.val * p.2.re.val).sum := by
    unfold exactConvAt; rw [im_sum]; rfl
  rw [e1, e2]
  have s1 := sq_of_abs_le a1
  have s2 := sq_of_abs_le a2
  rw [mul_pow (Real.sqrt 2), Real.sq_sqrt (by norm_num)]
  rw [mul_pow] at s1 s2
  show (y.re.val - _) ^ 2 + (y.im.val - _) ^ 2 ≤ _
  linarith

theorem near_of_within {d : Nat} {x h z : List (Cx (Fl R))} (hz : ComplexConvWithin d x h z) :
    ConvNear (directConvError R.u d) x h z :=
  ⟨hz.1, fun i y hy => near_of_parts (hz.2 i y hy).1 (hz.2 i y hy).2⟩

theorem ConvNear.mono {E E' : ℝ} (hE : E ≤ E') {x h z : List (Cx (Fl R))} (hz : ConvNear E x h z) : ConvNear E' x h z :=
  ⟨hz.1, fun i y hy => (hz.2 i y hy).trans (mul_le_mul_of_nonneg_right hE (mul_nonneg (l2_nonneg _ _) (l1_nonneg _)))⟩

theorem convAt_near (x h : List (Cx (Fl R))) (i : Nat) :
    ‖Fl.complex (convAt x h i) - exactConvAt x h i‖ ≤ directConvError R.u h.length * (l2 x.length (pointValue x) * l1 h) := by
  obtain ⟨h1, h2⟩ := complex_pairs_error _ (convAt_sumOf x h i)
  exact near_of_parts h1 h2

/-! ### The method -/

/-- The points which `overlap_discard` computes. -/
theorem overlapDiscard_near (K : FftKernel (Fl R)) {e : ℝ} (he : 0 ≤ e) (hK : K.Accurate e) (hu : R.u ≤ 1 / 1000)
    (junk : List (Cx (Fl R)) → List (Cx (Fl R))) (hj : ∀ l, (junk l).length = l.length) (F m : Nat) (hm : 1 ≤ m)
    (hF : 4 * m ≤ F + 4) (hF1 : m ≤ F) (hev : F % 2 = 0) (hFr : R.rnd F = F) (x hs tmp : List (Cx (Fl R))) (hhs : m ≤ hs.length)
    (hx : F ≤ x.length) (ht : tmp.length = F) (hgap : NoGap x.length m F) :
    ∃ r, overlapDiscard K junk F m x hs tmp = some r ∧
      ConvNear (max (fftConvError e R.u F) (directConvError R.u m)) x (hs.take m) r := by
  have hB0 : 0 ≤ l2 x.length (pointValue x) * l1 (hs.take m) := mul_nonneg (l2_nonneg _ _) (l1_nonneg _)
  have hml : (hs.take m).length = m := by simp; omega
  have hdir : ∀ j, ‖Fl.complex (convAt x (hs.take m) j) - exactConvAt x (hs.take m) j‖ ≤
      max (fftConvError e R.u F) (directConvError R.u m) * (l2 x.length (pointValue x) * l1 (hs.take m)) := by
    intro j
    have h := convAt_near x (hs.take m) j
    rw [hml] at h
    exact h.trans (mul_le_mul_of_nonneg_right (le_max_right _ _) hB0)
  obtain ⟨r, P, r1, r2, r3, r4, r5, r6, r7, r8⟩ := overlapDiscard_spec K junk hj F m hm (by omega) hF1 x hs tmp hhs hx
    ht (fun j c => ‖Fl.complex c - exactConvAt x (hs.take m) j‖ ≤
      max (fftConvError e R.u F) (directConvError R.u m) * (l2 x.length (pointValue x) * l1 (hs.take m))) hdir
    (fun p hp => by
      have hb : ((x.drop p).take F).length = F := by simp; omega
      have hg : (hs.take m ++ List.replicate (F - m) (0 : Cx (Fl R))).length = F := by simp; omega
      have hlen : (filterBlock K F (K.forward (hs.take m ++ List.replicate (F - m) 0)) ((x.drop p).take F)).length = F := by
        unfold filterBlock
        rw [hK.inverse_length, List.length_zipWith, hK.forward_length, hK.forward_length, hb, hg, Nat.min_self]
      refine ⟨hlen, fun j h1 h2 => ⟨_, List.getElem?_eq_getElem (by rw [hlen]; exact h2), ?_⟩⟩
      have hE := block_error K he hK hu F (by omega) hFr _ _ hb hg
      have hn := (norm_le_l2 _ h2).trans hE
      rw [pointValue_lt _ (by rw [hlen]; exact h2), block_exact F m hm hF1 x _ hml p hp j h1 h2] at hn
      refine hn.trans ?_
      have hs1 := sum_pointValue (hs.take m ++ List.replicate (F - m) (0 : Cx (Fl R)))
      rw [hg, l1_append_zeros] at hs1
      rw [hs1]
      have hE0 : 0 ≤ fftConvError e R.u F := by
        unfold fftConvError
        have h0 := R.u_nonneg
        have a1 : (1 : ℝ) ≤ (1 + e) ^ 2 := one_le_pow₀ (by linarith)
        have a2 : (1 : ℝ) ≤ 1 + e * Real.sqrt F := by have := mul_nonneg he (Real.sqrt_nonneg F); linarith
        have a3 : (1 : ℝ) ≤ (1 + 3 * R.u) * (1 + R.u) := by nlinarith
        have := one_le_mul_of_one_le_of_one_le (one_le_mul_of_one_le_of_one_le a1 a2) a3
        linarith
      have b1 := mul_le_mul_of_nonneg_right (l2_block_le x p F hp) (l1_nonneg (hs.take m))
      exact (mul_le_mul_of_nonneg_left b1 hE0).trans (mul_le_mul_of_nonneg_right (le_max_left _ _) hB0))
  refine ⟨r, r1, r2, fun i y hy => ?_⟩
  have hi : i < x.length := by
    by_contra hc
    rw [List.getElem?_eq_none (by omega)] at hy; cases hy
  have hF0 : 0 < F := by omega
  have hmod := Nat.mod_lt x.length hF0
  have hdm := Nat.div_add_mod x.length F
  have hq : 1 ≤ x.length / F := (Nat.one_le_div_iff hF0).mpr hx
  have hcover : x.length - (x.length - x.length % F) / 2 ≤ P + m / 2 := by
    by_cases h2 : 2 ≤ x.length / F
    · have : F * 2 ≤ F * (x.length / F) := Nat.mul_le_mul_left _ h2
      omega
    · have : x.length / F = 1 := by omega
      rw [this] at hdm
      obtain ⟨k, hk1, hk2⟩ := r4
      unfold NoGap at hgap
      rcases hgap with hg | hg
      · have : F - (m - 1) ≤ P := by rw [hk2]; exact Nat.le_mul_of_pos_left _ hk1
        omega
      · have hk : 2 ≤ k := by
          by_contra hc
          have : k = 1 := by omega
          subst this
          omega
        have : 2 * (F - (m - 1)) ≤ P := by rw [hk2]; exact Nat.mul_le_mul_right _ hk
        omega
  by_cases hc : i < P + m / 2
  · obtain ⟨c, c1, c2⟩ := r6 i hc
    rw [hy] at c1
    cases c1
    exact c2
  · have hc2 : x.length - (x.length - x.length % F) / 2 ≤ i := by omega
    rw [r7 i hc2 hi] at hy
    cases hy
    exact hdir i

theorem directConvError_mono {d d' : Nat} (h : d ≤ d') : directConvError R.u d ≤ directConvError R.u d' := by
  have h0 := R.u_nonneg
  unfold directConvError
  have := pow_le_pow_right₀ (by linarith : 1 ≤ 1 + R.u) (by omega : d + 2 ≤ d' + 2)
  exact mul_le_mul_of_nonneg_left (by linarith) (Real.sqrt_nonneg _)

/-- C84: `convolve_signal` of complex vectors with rounded numbers, whichever implementation the method selects - also the one with the
    FFT library: every point of the result is the exact one up to the errors of the library, of the multiplications and of the
    additions, relative to the sizes of the signal and of the response. -/
theorem C84_complex_error [DeltaBounds (Fl R)] (K : FftKernel (Fl R)) (e : ℝ) (he : 0 ≤ e) (hK : K.Accurate e) (hu : R.u ≤ 1 / 1000)
    (junk : List (Cx (Fl R)) → List (Cx (Fl R))) (hj : ∀ l, (junk l).length = l.length)
    (k : RegKind) (addr : Nat) (st : MultiCoreSettings) (v h : DspVec (Fl R)) (hv : v.WF) (hh : h.WF)
    (hc : v.isComplex = true) (hm : v.metaMismatch h = false) (hd : v.dom = .time) (hn : v.points ≠ 0)
    (hle : h.points ≤ v.points) (b : Buffer (Fl R)) (hb : BufferOk b v.data v.len)
    (hsimd : v.convPath h = .simd → ConvAligned k addr)
    (hfreq : v.convPath h = .frequency → NoGap v.points h.points (freqLen h.points) ∧
      h.data.cells.length % 2 = 0 ∧ FreqBufferOk K b v.points h.points ∧ R.rnd (freqLen h.points) = freqLen h.points) :
    ∃ v' b' x y z, Always (v.convolveSignal K junk k addr st h b) (v', b', .ok ()) ∧ v'.validLen = v.validLen ∧ v'.SameMeta v ∧
      v.content = some (fromComplex x) ∧ h.content = some (fromComplex y) ∧ v'.content = some (fromComplex z) ∧
      ConvNear (max (fftConvError e R.u (freqLen h.points)) (directConvError R.u (h.points + k.len + 2))) x y z := by
  by_cases hp : v.convPath h = .frequency
  · have hsp : h.isComplex = v.isComplex := by
      unfold metaMismatch at hm
      simp only [Bool.or_eq_false_iff, bne_eq_false_iff_eq] at hm
      exact hm.1.1.symm
    have hcond : v.len > 10000 ∧ h.len > 15 ∧ v.len > 10 * h.len ∧ v.isComplex = true := by
      unfold convPath at hp
      split at hp
      · cases hp
      · split at hp
        · assumption
        · cases hp
    obtain ⟨c1, c2, c3, c4⟩ := hcond
    have hc' : h.isComplex = true := by rw [hsp, c4]
    obtain ⟨hg, hev, hbf, hFr⟩ := hfreq hp
    obtain ⟨x, hvc, hvl⟩ := hv.content_even c4
    obtain ⟨y, hhc, hhl⟩ := hh.content_even hc'
    obtain ⟨hs, hhs⟩ := exists_fromComplex hev
    have hpv : v.points = x.length := by simp only [points, c4, if_true]; omega
    have hph : h.points = y.length := by simp only [points, hc', if_true]; omega
    unfold len at c1 c2 c3
    obtain ⟨f1, f2, f3, f4⟩ := freqLen_spec h.points (by omega)
    have hfx : freqLen h.points ≤ x.length := by omega
    obtain ⟨tmp, t1, t2⟩ := overlapDiscard_vec K junk v h b x hs c4 hm hvc hhs (by omega) (by omega) hfx hbf
    have hhsl : h.points ≤ hs.length := by
      have := hh.1
      rw [hhs, length_fromComplex] at this; omega
    rw [hpv] at hg
    obtain ⟨r, hr, hnear⟩ := overlapDiscard_near K he hK hu junk hj (freqLen h.points) h.points (by omega) f1 (by omega) f4 hFr
      x hs tmp hhsl hfx t1 hg
    obtain ⟨v', e1, e2, e3, e4⟩ := t2 _ hr hnear.1
    have hy : hs.take h.points = y := by
      have h1 := hh.content_eq
      rw [hhc] at h1
      have h2 := Option.some.inj h1
      rw [hhs] at h2
      have h3 : (fromComplex hs).take h.validLen = fromComplex (hs.take h.points) := by
        rw [fromComplex_take]; congr 1; omega
      rw [h3] at h2
      have := congrArg toComplex? h2
      simpa using this.symm
    rw [hy] at hnear
    refine ⟨v', b, x, y, r, (Always.const _).congr (fun s => ?_), e2, e3, hvc, hhc, e4,
      hnear.mono (max_le_max le_rfl (directConvError_mono (by omega)))⟩
    unfold convolveSignal
    rw [if_neg (by simp [hm]), if_neg (by simp [hd]), if_neg (by omega), hp]
    simp only [e1]
    rfl
  · obtain ⟨v', b', g1, g2, g3, -, g5⟩ := C84_convolve_error K junk k addr st v h hv hh hm hd hn hle b hb hsimd hp
    obtain ⟨x, y, z, x1, x2, x3, x4⟩ := g5 hc
    exact ⟨v', b', x, y, z, g1, g2, g3, x1, x2, x3, (near_of_within x4).mono (le_max_right _ _)⟩

/-- C84: the two implementations of the convolution agree up to the sum of their errors. -/
theorem C84_near_agree {E E' : ℝ} {x h y z : List (Cx (Fl R))} (hy : ConvNear E x h y) (hz : ConvNear E' x h z) (i : Nat)
    (a b : Cx (Fl R)) (ha : y[i]? = some a) (hb : z[i]? = some b) :
    ‖Fl.complex a - Fl.complex b‖ ≤ (E + E') * (l2 x.length (pointValue x) * l1 h) := by
  have h1 := hy.2 i a ha
  have h2 := hz.2 i b hb
  have h3 := norm_sub_le_norm_sub_add_norm_sub (Fl.complex a) (exactConvAt x h i) (Fl.complex b)
  rw [norm_sub_rev (exactConvAt x h i)] at h3
  linarith

/-- Numbers like `f64` and a complex vector with 5003 points and a response with 200 points: the method selects the implementation with
    the FFT library, and all conditions hold. -/
example :
    let R := binaryRounding 52
    let _ : DeltaBounds (Fl R) := ⟨⟨11 / 10⟩, ⟨9 / 10⟩⟩
    let v : DspVec (Fl R) := ⟨⟨.vec, List.replicate 10006 ⟨1 / 3⟩⟩, none, .time, .complex, 10006⟩
    let h : DspVec (Fl R) := ⟨⟨.vec, List.replicate 400 ⟨-5⟩⟩, none, .time, .complex, 400⟩
    (tooLarge R (1 / 10 ^ 15)).Accurate (1 / 10 ^ 15) ∧ R.u ≤ 1 / 1000 ∧ v.convPath h = .frequency ∧ v.WF ∧ h.WF ∧
    v.metaMismatch h = false ∧ BufferOk .noBuffer v.data v.len ∧ NoGap v.points h.points (freqLen h.points) ∧
    h.data.cells.length % 2 = 0 ∧ FreqBufferOk (tooLarge R (1 / 10 ^ 15)) .noBuffer v.points h.points ∧
    R.rnd (freqLen h.points) = freqLen h.points := by
  intro R i v h
  have hpv : v.points = 5003 := by simp [v, points, isComplex, NumberSpace.isComplex]
  have hph : h.points = 200 := by simp [h, points, isComplex, NumberSpace.isComplex]
  have hF : freqLen 200 = 1024 := by decide
  rw [hpv, hph, hF]
  refine ⟨tooLarge_accurate (by norm_num), by norm_num [R, binaryRounding], ?_, ⟨?_, fun _ => ?_⟩, ⟨?_, fun _ => ?_⟩, ?_, trivial,
    .inr (by norm_num), ?_, ?_, count_exact 52 1024 (by norm_num)⟩
  · simp [-List.reduceReplicate, convPath, v, h, len, isComplex, NumberSpace.isComplex]
  · simp [-List.reduceReplicate, v]
  · simp [-List.reduceReplicate, v]
  · simp [-List.reduceReplicate, h]
  · simp [-List.reduceReplicate, h]
  · simp [-List.reduceReplicate, metaMismatch, v, h, deltaRatioBad, isComplex, dom]
  · simp [-List.reduceReplicate, h]
  · intro mem hmem
    cases hmem

end
end Dsp
