import Verif.Spec.FourierLaws
import Verif.Props.DftCorr
import Verif.Props.DftStretch
/- Helper lemmas for the laws of the Fourier transform. -/
namespace Dsp
open DspVec
open scoped ComplexConjugate

theorem turn_add (x y : ℝ) : turn (x + y) = turn x * turn y := by
  unfold turn; rw [← Complex.exp_add]; congr 1; push_cast; ring

theorem turn_zero : turn 0 = 1 := by simp [turn]

theorem turn_int (k : ℤ) : turn k = 1 := by
  unfold turn
  rw [show (2 * Real.pi * ((k : ℝ) : ℂ) * Complex.I : ℂ) = k * (2 * Real.pi * Complex.I) by push_cast; ring]
  exact Complex.exp_int_mul_two_pi_mul_I k

theorem turn_add_int (x : ℝ) (k : ℤ) : turn (x + k) = turn x := by rw [turn_add, turn_int, mul_one]

theorem turn_ne (x : ℝ) : turn x ≠ 0 := Complex.exp_ne_zero _

theorem conj_turn (x : ℝ) : conj (turn x) = turn (-x) := by
  unfold turn
  rw [← Complex.exp_conj]
  congr 1
  simp only [map_mul, Complex.conj_ofReal, Complex.conj_I]
  have : conj (2 : ℂ) = 2 := Complex.conj_ofNat 2
  rw [this]; push_cast; ring

theorem root1_pow_turn (n k : Nat) : (root1 n) ^ k = turn (k / n) := by
  unfold root1 turn
  rw [← Complex.exp_nat_mul]
  congr 1; push_cast; ring

theorem root1_inv_pow_turn (n k : Nat) : (root1 n)⁻¹ ^ k = turn (-k / n) := by
  rw [inv_pow, root1_pow_turn]
  have : turn ((k : ℝ) / n) * turn (-k / n) = 1 := by
    rw [← turn_add, neg_div, add_neg_cancel, turn_zero]
  exact inv_eq_of_mul_eq_one_right this

theorem fourierAt_eq (cs : List (Cx ℝ)) (k : Nat) : fourierAt cs k = dftPoint (root1 cs.length)⁻¹ cs k := by
  unfold fourierAt dftPoint
  refine Finset.sum_congr rfl fun m _ => ?_
  rw [root1_inv_pow_turn]; push_cast; rfl

theorem fourierAt_neg (cs : List (Cx ℝ)) (k : Nat) : fourierAt cs (-k) = dftPoint (root1 cs.length) cs k := by
  unfold fourierAt dftPoint
  refine Finset.sum_congr rfl fun m _ => ?_
  rw [root1_pow_turn]; push_cast; rw [neg_mul, neg_neg]

/-- The spectrum is periodic. -/
theorem fourierAt_add_mul (cs : List (Cx ℝ)) (k j : ℤ) : fourierAt cs (k + j * cs.length) = fourierAt cs k := by
  unfold fourierAt
  refine Finset.sum_congr rfl fun m hm => ?_
  have hn : (cs.length : ℝ) ≠ 0 := by have := Finset.mem_range.mp hm; exact_mod_cast (by omega : cs.length ≠ 0)
  have : (-(((k + j * cs.length : ℤ) : ℝ) * m) / cs.length : ℝ) = -(k * m) / cs.length + ((-(j * m) : ℤ) : ℝ) := by
    push_cast; field_simp; ring
  rw [this, turn_add_int]

theorem fourierAt_emod (cs : List (Cx ℝ)) (k : ℤ) : fourierAt cs (k % cs.length) = fourierAt cs k := by
  conv_rhs => rw [← Int.emod_add_mul_ediv k cs.length, mul_comm, fourierAt_add_mul]

theorem fourierAt_congr (cs : List (Cx ℝ)) {k j : ℤ} (h : k % cs.length = j % cs.length) : fourierAt cs k = fourierAt cs j := by
  rw [← fourierAt_emod, h, fourierAt_emod]

/-- The transform of this model is what the specification expects. -/
theorem dft_isDft : dftKernel.IsDft where
  forward_length := dft_inverts.length.1
  inverse_length := dft_inverts.length.2
  forward cs k h := by rw [fourierAt_eq]; exact dftList_getD _ _ _ h
  inverse cs k h := by rw [fourierAt_neg]; exact dftList_getD _ _ _ h

theorem getD_lt {α : Type} (z : α) (l : List α) {i : Nat} (h : i < l.length) : l.getD i z = l[i] := by
  rw [List.getD_eq_getElem?_getD, List.getElem?_eq_getElem h]; rfl

theorem list_ext_toC {a b : List (Cx ℝ)} (hl : a.length = b.length)
    (h : ∀ i < a.length, (a.getD i ⟨0, 0⟩).toC = (b.getD i ⟨0, 0⟩).toC) : a = b := by
  apply List.ext_getElem hl
  intro i h1 h2
  have := Cx.toC_inj (h i h1)
  rwa [getD_lt _ _ h1, getD_lt _ _ h2] at this

theorem FftKernel.IsDft.forward_eq {K : FftKernel ℝ} (h : K.IsDft) (cs : List (Cx ℝ)) : K.forward cs = dftKernel.forward cs :=
  list_ext_toC (by rw [h.forward_length, dft_isDft.forward_length]) fun i hi => by
    rw [h.forward_length] at hi; rw [h.forward _ _ hi, dft_isDft.forward _ _ hi]

theorem FftKernel.IsDft.inverse_eq {K : FftKernel ℝ} (h : K.IsDft) (cs : List (Cx ℝ)) : K.inverse cs = dftKernel.inverse cs :=
  list_ext_toC (by rw [h.inverse_length, dft_isDft.inverse_length]) fun i hi => by
    rw [h.inverse_length] at hi; rw [h.inverse _ _ hi, dft_isDft.inverse _ _ hi]

/-! ### Sums, multiples, conjugates -/

theorem getD_zipWith (f : Cx ℝ → Cx ℝ → Cx ℝ) (a b : List (Cx ℝ)) (hl : a.length = b.length) (i : Nat) (h : i < a.length) :
    (List.zipWith f a b).getD i ⟨0, 0⟩ = f (a.getD i ⟨0, 0⟩) (b.getD i ⟨0, 0⟩) := by
  rw [getD_lt _ _ (by simp; omega), getD_lt _ _ h, getD_lt _ _ (by omega)]; simp

theorem getD_map (f : Cx ℝ → Cx ℝ) (a : List (Cx ℝ)) (i : Nat) (h : i < a.length) :
    (a.map f).getD i ⟨0, 0⟩ = f (a.getD i ⟨0, 0⟩) := by
  rw [getD_lt _ _ (by simpa using h), getD_lt _ _ h]; simp

theorem Cx.toC_sub (a b : Cx ℝ) : (a - b).toC = a.toC - b.toC := by apply Complex.ext <;> simp [Cx.toC]

theorem fourierAt_add (a b : List (Cx ℝ)) (hl : a.length = b.length) (k : ℤ) :
    fourierAt (List.zipWith (· + ·) a b) k = fourierAt a k + fourierAt b k := by
  unfold fourierAt
  rw [← hl, ← Finset.sum_add_distrib]
  have : (List.zipWith (· + ·) a b).length = a.length := by simp; omega
  rw [this]
  refine Finset.sum_congr rfl fun m hm => ?_
  rw [getD_zipWith _ a b hl m (Finset.mem_range.mp hm), Cx.toC_add]; ring

theorem fourierAt_sub (a b : List (Cx ℝ)) (hl : a.length = b.length) (k : ℤ) :
    fourierAt (List.zipWith (· - ·) a b) k = fourierAt a k - fourierAt b k := by
  unfold fourierAt
  rw [← hl, ← Finset.sum_sub_distrib]
  have : (List.zipWith (· - ·) a b).length = a.length := by simp; omega
  rw [this]
  refine Finset.sum_congr rfl fun m hm => ?_
  rw [getD_zipWith _ a b hl m (Finset.mem_range.mp hm), Cx.toC_sub]; ring

theorem fourierAt_mul (a : List (Cx ℝ)) (x : Cx ℝ) (k : ℤ) :
    fourierAt (a.map (· * x)) k = fourierAt a k * x.toC := by
  unfold fourierAt
  rw [Finset.sum_mul, List.length_map]
  refine Finset.sum_congr rfl fun m hm => ?_
  rw [getD_map _ a m (Finset.mem_range.mp hm), Cx.toC_mul]; ring

theorem fourierAt_conj (a : List (Cx ℝ)) (k : ℤ) : fourierAt (a.map Cx.conj) k = conj (fourierAt a (-k)) := by
  unfold fourierAt
  rw [map_sum, List.length_map]
  refine Finset.sum_congr rfl fun m hm => ?_
  rw [getD_map _ a m (Finset.mem_range.mp hm), Cx.toC_conj, map_mul, conj_turn]
  congr 2; push_cast; ring

/-- The numbers can be computed from the spectrum. -/
theorem fourierAt_forward {K : FftKernel ℝ} (h : K.IsDft) (a : List (Cx ℝ)) (m : Nat) (hm : m < a.length) :
    fourierAt (K.forward a) (-m) = a.length * (a.getD m ⟨0, 0⟩).toC := by
  have hl : (dftKernel.forward a).length = a.length := dft_isDft.forward_length a
  rw [h.forward_eq, ← dft_isDft.inverse _ _ (by rw [hl]; exact hm), dft_inverts.back, getD_map _ _ _ hm]
  apply Complex.ext <;> simp [Cx.toC, Cx.scaleBy]

/-- Parseval. -/
theorem parseval {K : FftKernel ℝ} (h : K.IsDft) (a : List (Cx ℝ)) :
    ∑ k ∈ Finset.range a.length, Complex.normSq ((K.forward a).getD k ⟨0, 0⟩).toC =
      a.length * ∑ m ∈ Finset.range a.length, Complex.normSq (a.getD m ⟨0, 0⟩).toC := by
  have key : ∑ k ∈ Finset.range a.length, conj ((K.forward a).getD k ⟨0, 0⟩).toC * ((K.forward a).getD k ⟨0, 0⟩).toC =
      (a.length : ℂ) * ∑ m ∈ Finset.range a.length, conj (a.getD m ⟨0, 0⟩).toC * (a.getD m ⟨0, 0⟩).toC := by
    have e1 : ∀ k ∈ Finset.range a.length, conj ((K.forward a).getD k ⟨0, 0⟩).toC * ((K.forward a).getD k ⟨0, 0⟩).toC =
        ∑ m ∈ Finset.range a.length, (a.getD m ⟨0, 0⟩).toC *
          conj (((K.forward a).getD k ⟨0, 0⟩).toC * turn (-((-(m : ℤ) : ℤ) * k) / a.length)) := by
      intro k hk
      conv_lhs => rw [h.forward a k (Finset.mem_range.mp hk), ← h.forward a k (Finset.mem_range.mp hk)]
      conv_lhs => arg 2; rw [h.forward a k (Finset.mem_range.mp hk), fourierAt]
      rw [Finset.mul_sum]
      refine Finset.sum_congr rfl fun m _ => ?_
      rw [map_mul, conj_turn]
      have : -(-((-(m : ℤ) : ℤ) * k : ℝ) / a.length) = -((k : ℤ) * m) / a.length := by push_cast; ring
      rw [this]; ring
    rw [Finset.sum_congr rfl e1, Finset.sum_comm, Finset.mul_sum]
    refine Finset.sum_congr rfl fun m hm => ?_
    rw [← Finset.mul_sum, ← map_sum]
    have := fourierAt_forward h a m (Finset.mem_range.mp hm)
    unfold fourierAt at this
    rw [h.forward_length] at this
    rw [this, map_mul, Complex.conj_natCast]; ring
  have : ∀ z : ℂ, conj z * z = (Complex.normSq z : ℂ) := fun z => by rw [Complex.normSq_eq_conj_mul_self]
  simp only [this] at key
  exact_mod_cast key

/-! ### Rotations -/

theorem rotateRight_length {α : Type} (l : List α) (k : Nat) : (rotateRight l k).length = l.length := by
  simp [rotateRight]

theorem rotateLeft_length {α : Type} (l : List α) (k : Nat) : (rotateLeft l k).length = l.length := by
  simp [rotateLeft]; omega

theorem rotateRight_getD {α : Type} (z : α) (l : List α) (k i : Nat) (hk : k ≤ l.length) (hi : i < l.length) :
    (rotateRight l k).getD i z = l.getD ((i + (l.length - k)) % l.length) z := by
  simp only [rotateRight, List.getD_eq_getElem?_getD]
  rw [List.getElem?_append, List.length_drop, List.getElem?_drop]
  split
  · rw [show l.length - k + i = i + (l.length - k) by omega, Nat.mod_eq_of_lt (by omega)]
  · rw [List.getElem?_take, if_pos (by omega)]
    congr 2
    have : i + (l.length - k) = (i - (l.length - (l.length - k))) + l.length := by omega
    rw [this, Nat.add_mod_right, Nat.mod_eq_of_lt (by omega)]

theorem rotateLeft_getD {α : Type} (z : α) (l : List α) (k i : Nat) (hk : k ≤ l.length) (hi : i < l.length) :
    (rotateLeft l k).getD i z = l.getD ((i + k) % l.length) z := by
  simp only [rotateLeft, List.getD_eq_getElem?_getD]
  rw [List.getElem?_append, List.length_drop, List.getElem?_drop]
  split
  · rw [show k + i = i + k by omega, Nat.mod_eq_of_lt (by omega)]
  · rw [List.getElem?_take, if_pos (by omega)]
    congr 2
    have : i + k = (i - (l.length - k)) + l.length := by omega
    rw [this, Nat.add_mod_right, Nat.mod_eq_of_lt (by omega)]

/-- A sum over all points of the circle, rotated. -/
theorem shift_sum (A : Nat → ℂ) (n s : Nat) (k : ℤ) :
    ∑ i ∈ Finset.range n, A ((i + s) % n) * turn (-(k * i) / n) =
      turn (k * s / n) * ∑ i ∈ Finset.range n, A i * turn (-(k * i) / n) := by
  rw [Finset.mul_sum]
  have hmod : ∀ a b : Nat, a % n = b % n → n ≠ 0 → turn (k * a / n) = turn (k * b / n) := by
    intro a b hab hn
    obtain ⟨q, hq⟩ : ∃ q : ℤ, (a : ℤ) - b = n * q := by
      have : (a : ℤ) % n = b % n := by exact_mod_cast hab
      exact Int.dvd_of_emod_eq_zero (Int.emod_eq_emod_iff_emod_sub_eq_zero.mp this)
    have hn' : (n : ℝ) ≠ 0 := by exact_mod_cast hn
    have e : (k * a / n : ℝ) = k * b / n + ((k * q : ℤ) : ℝ) := by
      have hq' : (a : ℝ) = b + n * q := by
        have : ((a : ℤ) : ℝ) - ((b : ℤ) : ℝ) = n * q := by exact_mod_cast hq
        push_cast at this; linarith
      rw [hq']; push_cast; field_simp
    rw [e, turn_add_int]
  refine Finset.sum_nbij' (fun i => (i + s) % n) (fun i => (i + (n * s - s)) % n) ?_ ?_ ?_ ?_ ?_
  · intro i hi; have := Finset.mem_range.mp hi; exact Finset.mem_range.mpr (Nat.mod_lt _ (by omega))
  · intro i hi; have := Finset.mem_range.mp hi; exact Finset.mem_range.mpr (Nat.mod_lt _ (by omega))
  · intro i hi
    have hi := Finset.mem_range.mp hi
    have h1 : s ≤ n * s := Nat.le_mul_of_pos_left s (by omega)
    rw [Nat.mod_add_mod, show i + s + (n * s - s) = i + n * s by omega, Nat.add_mul_mod_self_left, Nat.mod_eq_of_lt hi]
  · intro i hi
    have hi := Finset.mem_range.mp hi
    have h1 : s ≤ n * s := Nat.le_mul_of_pos_left s (by omega)
    rw [Nat.mod_add_mod, show i + (n * s - s) + s = i + n * s by omega, Nat.add_mul_mod_self_left, Nat.mod_eq_of_lt hi]
  · intro i hi
    have hi := Finset.mem_range.mp hi
    have h1 := hmod ((i + s) % n) (i + s) (Nat.mod_mod _ _) (by omega)
    have h2 : turn (-(k * ((i + s) % n : Nat)) / n) = turn (-(k * (i + s : Nat)) / n) := by
      have := congrArg conj h1
      rw [conj_turn, conj_turn] at this
      rw [neg_div, neg_div]; exact this
    rw [h2, mul_left_comm, ← turn_add]
    congr 2; push_cast; ring

/-- The spectrum of a rotated signal. -/
theorem fourierAt_rotateLeft (a : List (Cx ℝ)) (s : Nat) (hs : s ≤ a.length) (k : ℤ) :
    fourierAt (rotateLeft a s) k = turn (k * s / a.length) * fourierAt a k := by
  unfold fourierAt
  rw [rotateLeft_length, ← shift_sum (fun i => (a.getD i ⟨0, 0⟩).toC)]
  refine Finset.sum_congr rfl fun i hi => ?_
  rw [rotateLeft_getD _ a s i hs (Finset.mem_range.mp hi)]

/-- The spectrum of a convolution of signals with the same number of points. -/
theorem fourierAt_circularConv (a h : List (Cx ℝ)) (hl : a.length = h.length) (k : ℤ) :
    fourierAt (circularConv a h) k = fourierAt a k * fourierAt (rotateLeft h ((h.length - 1) / 2)) k := by
  rw [fourierAt_rotateLeft h _ (by omega), ← hl]
  have hcl : (circularConv a h).length = a.length := by simp [circularConv]
  unfold fourierAt
  rw [hcl, ← hl]
  have e : ∀ i ∈ Finset.range a.length, ((circularConv a h).getD i ⟨0, 0⟩).toC * turn (-(k * i) / a.length) =
      ∑ l ∈ Finset.range a.length, (h.getD l ⟨0, 0⟩).toC *
        ((a.getD ((i + ((a.length - 1) / 2 + (a.length - l))) % a.length) ⟨0, 0⟩).toC * turn (-(k * i) / a.length)) := by
    intro i hi
    have hi := Finset.mem_range.mp hi
    have : (circularConv a h).getD i ⟨0, 0⟩ = convAt a h i := by
      rw [getD_lt _ _ (by rw [hcl]; exact hi)]; simp [circularConv]
    rw [this, convAt, toC_foldl, Finset.sum_mul, ← hl]
    refine Finset.sum_congr rfl fun l hlm => ?_
    have hlm := Finset.mem_range.mp hlm
    have e2 := cyclic_getD a (i + (a.length - 1) / 2) l hlm
    rw [Cx.toC_mul]
    have e3 : ((i : Int) + ((a.length - 1) / 2 : Nat) - l) = ((i + (a.length - 1) / 2 : Nat) : Int) - l := by push_cast; ring
    rw [e3, e2, Nat.add_assoc]
    have : h.getD l 0 = h.getD l ⟨0, 0⟩ := rfl
    rw [this]; ring
  rw [Finset.sum_congr rfl e, Finset.sum_comm, mul_left_comm, Finset.mul_sum, Finset.mul_sum]
  refine Finset.sum_congr rfl fun l hlm => ?_
  have hlm := Finset.mem_range.mp hlm
  have hn : (a.length : ℝ) ≠ 0 := by exact_mod_cast (by omega : a.length ≠ 0)
  rw [← Finset.mul_sum, shift_sum (fun i => (a.getD i ⟨0, 0⟩).toC)]
  have e4 : (k * (((a.length - 1) / 2 + (a.length - l) : Nat) : ℝ) / a.length : ℝ) =
      (k * ((a.length - 1) / 2 : Nat) / a.length + -(k * l) / a.length) + (k : ℝ) := by
    rw [Nat.cast_add, Nat.cast_sub hlm.le]; field_simp; ring
  rw [e4, turn_add_int, turn_add]; ring

/-- The spectrum of a modulated signal. -/
theorem fourierAt_modulated (a : List (Cx ℝ)) (f : Nat → Cx ℝ) (s k : ℤ) (hf : ∀ i < a.length, (f i).toC = turn (s * i / a.length)) :
    fourierAt (a.mapIdx fun i c => c * f i) k = fourierAt a (k - s) := by
  unfold fourierAt
  rw [List.length_mapIdx]
  refine Finset.sum_congr rfl fun i hi => ?_
  have hi := Finset.mem_range.mp hi
  rw [getD_lt _ _ (by simpa using hi), List.getElem_mapIdx, Cx.toC_mul, hf i hi, ← getD_lt ⟨0, 0⟩ a hi, mul_assoc, ← turn_add]
  congr 2; push_cast; ring

/-- The spectrum of a signal with zeros after it. -/
theorem fourierAt_append_zeros (a : List (Cx ℝ)) (m : Nat) (hm : 1 ≤ m) (k : ℤ) :
    fourierAt (a ++ List.replicate ((m - 1) * a.length) ⟨0, 0⟩) (k * m) = fourierAt a k := by
  have hl : (a ++ List.replicate ((m - 1) * a.length) (⟨0, 0⟩ : Cx ℝ)).length = m * a.length := by
    simp only [List.length_append, List.length_replicate]
    obtain ⟨j, rfl⟩ : ∃ j, m = j + 1 := ⟨m - 1, by omega⟩
    rw [Nat.add_sub_cancel, Nat.add_mul, Nat.one_mul, Nat.add_comm]
  unfold fourierAt
  rw [hl]
  have hle : a.length ≤ m * a.length := Nat.le_mul_of_pos_left _ (by omega)
  rw [← Finset.sum_subset (Finset.range_mono hle)]
  · refine Finset.sum_congr rfl fun i hi => ?_
    have hi := Finset.mem_range.mp hi
    have hn : (a.length : ℝ) ≠ 0 := by exact_mod_cast (by omega : a.length ≠ 0)
    have hm' : (m : ℝ) ≠ 0 := by exact_mod_cast (by omega : m ≠ 0)
    rw [List.getD_eq_getElem?_getD, List.getElem?_append_left hi, ← List.getD_eq_getElem?_getD]
    congr 2; push_cast; field_simp
  · intro i _ hi
    have hi : a.length ≤ i := by simpa using hi
    have e : (a ++ List.replicate ((m - 1) * a.length) (⟨0, 0⟩ : Cx ℝ)).getD i ⟨0, 0⟩ = ⟨0, 0⟩ := by
      rw [List.getD_eq_getElem?_getD, List.getElem?_append_right hi, List.getElem?_replicate]
      split <;> rfl
    have : (⟨0, 0⟩ : Cx ℝ).toC = 0 := rfl
    rw [e, this, zero_mul]

/-! ### Every `m`-th point -/

theorem everyNth_eq {α : Type} (z : α) (m n : Nat) (hm : 1 ≤ m) (l : List α) (hl : l.length = m * n) :
    everyNth m 0 l = (List.range n).map fun t => l.getD (m * t) z := by
  unfold everyNth
  have hle : n ≤ l.length := by rw [hl]; exact Nat.le_mul_of_pos_left _ (by omega)
  obtain ⟨r, hr⟩ : ∃ r, l.length = n + r := ⟨l.length - n, by omega⟩
  rw [hr, List.range_add, List.filterMap_append]
  have e1 : (List.range n).filterMap (fun t => l[0 + t * m]?) = (List.range n).map fun t => l.getD (m * t) z := by
    rw [← List.filterMap_eq_map]
    refine List.filterMap_congr fun t ht => ?_
    have ht := List.mem_range.mp ht
    have : m * t < l.length := by rw [hl]; exact Nat.mul_lt_mul_of_pos_left ht (by omega)
    rw [Nat.zero_add, Nat.mul_comm t m, List.getElem?_eq_getElem this, Function.comp, getD_lt _ _ this]
  have e2 : ((List.range r).map (n + ·)).filterMap (fun t => l[0 + t * m]?) = [] := by
    rw [List.filterMap_eq_nil_iff]
    intro t ht
    obtain ⟨j, -, rfl⟩ := List.mem_map.mp ht
    rw [Nat.zero_add, List.getElem?_eq_none_iff, hl, Nat.mul_comm (n + j)]
    exact Nat.mul_le_mul_left _ (by omega)
  rw [e1, e2, List.append_nil]

theorem turn_eq_one_iff (x : ℝ) : turn x = 1 ↔ ∃ k : ℤ, x = k := by
  unfold turn
  rw [Complex.exp_eq_one_iff]
  constructor
  · rintro ⟨k, hk⟩
    refine ⟨k, ?_⟩
    have hI : (2 * Real.pi * Complex.I : ℂ) ≠ 0 := by
      simp [Real.pi_ne_zero, Complex.I_ne_zero]
    have : (x : ℂ) = k := mul_right_cancel₀ hI (by rw [← hk]; ring)
    exact_mod_cast this
  · rintro ⟨k, rfl⟩
    exact ⟨k, by push_cast; ring⟩

theorem turn_pow (x : ℝ) (j : Nat) : turn x ^ j = turn (j * x) := by
  unfold turn
  rw [← Complex.exp_nat_mul]; congr 1; push_cast; ring

/-- The sum of all `m`-th roots of one, each to the power `i`. -/
theorem sum_turns (m i : Nat) (hm : 1 ≤ m) :
    ∑ j ∈ Finset.range m, turn (-(j * i) / m) = if m ∣ i then (m : ℂ) else 0 := by
  have hm' : (m : ℝ) ≠ 0 := by exact_mod_cast (by omega : m ≠ 0)
  have e : ∀ j ∈ Finset.range m, turn (-(j * i) / m) = turn (-i / m) ^ j := by
    intro j _; rw [turn_pow]; congr 1; ring
  rw [Finset.sum_congr rfl e]
  split
  · rename_i h
    obtain ⟨q, rfl⟩ := h
    have : turn (-((m * q : Nat) : ℝ) / m) = 1 := by
      rw [turn_eq_one_iff]
      exact ⟨-q, by push_cast; field_simp⟩
    rw [this]; simp
  · rename_i h
    apply geom_zero
    · rw [turn_pow, turn_eq_one_iff]
      exact ⟨-i, by push_cast; field_simp⟩
    · rw [Ne, turn_eq_one_iff]
      rintro ⟨k, hk⟩
      apply h
      have : (i : ℝ) = m * (-k : ℤ) := by push_cast; field_simp at hk; linarith
      have : (i : ℤ) = m * (-k) := by exact_mod_cast this
      exact Int.natCast_dvd_natCast.mp ⟨_, this⟩

/-- The spectrum of every `m`-th point: the spectrum is folded. -/
theorem fourierAt_everyNth (a : List (Cx ℝ)) (m n : Nat) (hm : 1 ≤ m) (hl : a.length = m * n) (k : ℤ) :
    (m : ℂ) * fourierAt (everyNth m 0 a) k = ∑ j ∈ Finset.range m, fourierAt a (k + j * n) := by
  have hm' : (m : ℝ) ≠ 0 := by exact_mod_cast (by omega : m ≠ 0)
  rw [everyNth_eq ⟨0, 0⟩ m n hm a hl]
  by_cases hn : n = 0
  · subst hn
    have : a = [] := List.length_eq_zero_iff.mp (by omega)
    subst this
    simp [fourierAt]
  have hn' : (n : ℝ) ≠ 0 := by exact_mod_cast hn
  have e1 : ∀ j ∈ Finset.range m, fourierAt a (k + j * n) =
      ∑ i ∈ Finset.range (m * n), (a.getD i ⟨0, 0⟩).toC * turn (-(k * i) / (m * n)) * turn (-(j * i) / m) := by
    intro j _
    unfold fourierAt
    rw [hl]
    refine Finset.sum_congr rfl fun i _ => ?_
    rw [mul_assoc, ← turn_add]
    congr 2
    push_cast; field_simp; ring
  rw [Finset.sum_congr rfl e1, Finset.sum_comm]
  have e2 : ∀ i ∈ Finset.range (m * n), ∑ j ∈ Finset.range m, (a.getD i ⟨0, 0⟩).toC * turn (-(k * i) / (m * n)) * turn (-(j * i) / m) =
      if m ∣ i then (m : ℂ) * ((a.getD i ⟨0, 0⟩).toC * turn (-(k * i) / (m * n))) else 0 := by
    intro i _
    rw [← Finset.mul_sum, sum_turns m i hm]
    split
    · ring
    · ring
  rw [Finset.sum_congr rfl e2, Nat.mul_comm m n, sum_range_mul]
  unfold fourierAt
  rw [List.length_map, List.length_range, Finset.mul_sum]
  refine Finset.sum_congr rfl fun t ht => ?_
  have ht := Finset.mem_range.mp ht
  rw [Finset.sum_eq_single 0]
  · rw [if_pos (by simp), getD_lt _ _ (by simpa using ht)]
    simp only [List.getElem_map, List.getElem_range, Nat.zero_add]
    rw [Nat.mul_comm t m]
    congr 3
    push_cast; field_simp
  · intro j hj h0
    have hj := Finset.mem_range.mp hj
    rw [if_neg]
    intro hd
    have : m ∣ j := (Nat.dvd_add_left (Nat.dvd_mul_left m t)).mp hd
    exact h0 (Nat.eq_zero_of_dvd_of_lt this hj)
  · intro h; exact absurd (Finset.mem_range.mpr (by omega)) h

end Dsp
