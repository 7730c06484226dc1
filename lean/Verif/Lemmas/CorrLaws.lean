import Verif.Props.DftCorr
import Verif.Props.Correlation
import Verif.Lemmas.DftLaws
import Mathlib.Algebra.BigOperators.Finprod
import Mathlib.Algebra.Order.BigOperators.Group.Finset
import Mathlib.Algebra.Order.BigOperators.Ring.Finset
import Mathlib.Analysis.Complex.Basic
/-
The algebra of the cross correlation of lists (`crossCorrelation`), for C88.
-/
namespace Dsp
open scoped ComplexConjugate

/-- A list as a function on all whole numbers, zero outside. -/
noncomputable def ext0 (a : List (Cx ℝ)) (i : ℤ) : ℂ := (atOrZero a i).toC

/-- The correlation of two functions at a lag. -/
noncomputable def corrAt (f g : ℤ → ℂ) (l : ℤ) : ℂ := ∑ᶠ k, f (k + l) * conj (g k)

theorem ext0_nat (a : List (Cx ℝ)) (i : Nat) : ext0 a i = (a.getD i 0).toC := by
  simp [ext0, atOrZero]

theorem ext0_neg (a : List (Cx ℝ)) {i : ℤ} (h : i < 0) : ext0 a i = 0 := by
  unfold ext0 atOrZero; rw [if_neg (by omega)]; rfl

theorem ext0_ge (a : List (Cx ℝ)) {i : ℤ} (h : (a.length : ℤ) ≤ i) : ext0 a i = 0 := by
  unfold ext0 atOrZero
  rw [if_pos (by omega), List.getD_eq_getElem?_getD, List.getElem?_eq_none (by omega)]; rfl

theorem ext0_support (a : List (Cx ℝ)) : Function.support (ext0 a) ⊆ Set.Ico 0 (a.length : ℤ) := by
  intro i hi
  rw [Function.mem_support] at hi
  refine ⟨?_, ?_⟩
  · by_contra h; exact hi (ext0_neg a (by omega))
  · by_contra h; exact hi (ext0_ge a (by omega))

theorem ext0_finite (a : List (Cx ℝ)) : (Function.support (ext0 a)).Finite := (Set.finite_Ico _ _).subset (ext0_support a)

/-- Sums over the indices of a list. -/
theorem sum_range_ext (n : Nat) (F : ℤ → ℂ) (hF : ∀ i, i < 0 ∨ (n : ℤ) ≤ i → F i = 0) :
    ∑ᶠ k, F k = ∑ k ∈ Finset.range n, F (k : ℤ) := by
  have hs : Function.support F ⊆ ((Finset.range n).image (fun k : Nat => (k : ℤ)) : Finset ℤ) := by
    intro i hi
    rw [Function.mem_support] at hi
    have h1 : ¬ (i < 0 ∨ (n : ℤ) ≤ i) := fun h => hi (hF i h)
    rw [Finset.mem_coe, Finset.mem_image]
    exact ⟨i.toNat, by rw [Finset.mem_range]; omega, by omega⟩
  rw [finsum_eq_sum_of_support_subset _ hs, Finset.sum_image (fun x _ y _ h => by exact_mod_cast h)]

/-- The points of the cross correlation. -/
theorem crossCorrelation_get (a b : List (Cx ℝ)) (r : Nat) (h : r < 2 * b.length - 1) :
    ((crossCorrelation a b).getD r 0).toC = corrAt (ext0 a) (ext0 b) ((r : ℤ) - (b.length - 1 : Nat)) := by
  unfold crossCorrelation
  rw [List.getD_eq_getElem?_getD, List.getElem?_map, List.getElem?_range h, Option.map_some, Option.getD_some, toC_sum_range]
  unfold corrAt
  rw [sum_range_ext b.length]
  · refine Finset.sum_congr rfl fun k _ => ?_
    rw [Cx.toC_mul, Cx.toC_conj, ext0_nat]
    unfold ext0
    rw [show (k : ℤ) + ((r : ℤ) - (b.length - 1 : Nat)) = (k : ℤ) + r - (b.length - 1 : Nat) by ring]
  · intro i hi
    rcases hi with hi | hi
    · rw [ext0_neg b hi]; simp
    · rw [ext0_ge b hi]; simp

theorem crossCorrelation_length (a b : List (Cx ℝ)) : (crossCorrelation a b).length = 2 * b.length - 1 := by
  simp [crossCorrelation]

/-- Two lists of the same length with the same correlations. -/
theorem correlation_ext {x y : List (Cx ℝ)} (hl : x.length = y.length) (h : ∀ r < x.length, (x.getD r 0).toC = (y.getD r 0).toC) : x = y :=
  list_ext_toC hl fun i h1 => h i h1

/-! ### Laws -/

theorem corrAt_swap (f g : ℤ → ℂ) (l : ℤ) (hg : (Function.support g).Finite) : corrAt g f (-l) = conj (corrAt f g l) := by
  unfold corrAt
  have h1 : (∑ᶠ k, g (k + -l) * conj (f k)) = ∑ᶠ k, g k * conj (f (k + l)) := by
    rw [← finsum_comp_equiv (Equiv.addRight l)]
    refine finsum_congr fun k => ?_
    simp [Equiv.addRight]
  rw [h1]
  have hfin : (Function.support fun k => f (k + l) * conj (g k)).Finite :=
    hg.subset fun k hk => by
      rw [Function.mem_support] at hk ⊢
      intro h; apply hk; rw [h]; simp
  rw [show conj (∑ᶠ k, f (k + l) * conj (g k)) = (starRingEnd ℂ).toAddMonoidHom (∑ᶠ k, f (k + l) * conj (g k)) from rfl,
    AddMonoidHom.map_finsum _ hfin]
  refine finsum_congr fun k => ?_
  show g k * conj (f (k + l)) = conj (f (k + l) * conj (g k))
  rw [map_mul, Complex.conj_conj]; ring

theorem corrAt_shift (f g : ℤ → ℂ) (d l : ℤ) : corrAt (fun k => f (k - d)) g l = corrAt f g (l - d) := by
  unfold corrAt
  refine finsum_congr fun k => ?_
  show f (k + l - d) * _ = _
  rw [add_sub_assoc]

theorem finite_mul {f g : ℤ → ℂ} (hg : (Function.support g).Finite) (l : ℤ) :
    (Function.support fun k => f (k + l) * conj (g k)).Finite :=
  hg.subset fun k hk => by
    rw [Function.mem_support] at hk ⊢
    intro h; apply hk; rw [h]; simp

theorem corrAt_add_left (f f' g : ℤ → ℂ) (hg : (Function.support g).Finite) (l : ℤ) :
    corrAt (fun k => f k + f' k) g l = corrAt f g l + corrAt f' g l := by
  unfold corrAt
  rw [← finsum_add_distrib (finite_mul hg l) (finite_mul hg l)]
  exact finsum_congr fun k => by ring

theorem corrAt_smul_left (z : ℂ) (f g : ℤ → ℂ) (l : ℤ) :
    corrAt (fun k => f k * z) g l = corrAt f g l * z := by
  unfold corrAt
  rw [mul_comm, mul_finsum]
  exact finsum_congr fun k => by ring

/-- The energy of a function. -/
noncomputable def energyOf (f : ℤ → ℂ) : ℝ := ∑ᶠ k, ‖f k‖ ^ 2

theorem support_norm_sq (f : ℤ → ℂ) (hf : (Function.support f).Finite) (l : ℤ) :
    (Function.support fun k => ‖f (k + l)‖ ^ 2).Finite := by
  refine (hf.image (fun k => k - l)).subset fun k hk => ?_
  rw [Function.mem_support] at hk
  exact ⟨k + l, by rw [Function.mem_support]; intro h; apply hk; rw [h]; simp, by ring⟩

theorem energy_shift (f : ℤ → ℂ) (l : ℤ) : ∑ᶠ k, ‖f (k + l)‖ ^ 2 = energyOf f :=
  finsum_comp_equiv (Equiv.addRight l) (f := fun k => ‖f k‖ ^ 2)

/-- The lag 0 is the energy. -/
theorem corrAt_zero (f : ℤ → ℂ) (hf : (Function.support f).Finite) : corrAt f f 0 = (energyOf f : ℂ) := by
  unfold corrAt energyOf
  have hfin : (Function.support fun k => ‖f k‖ ^ 2).Finite := by simpa using support_norm_sq f hf 0
  rw [show ((∑ᶠ k, ‖f k‖ ^ 2 : ℝ) : ℂ) = Complex.ofRealHom.toAddMonoidHom (∑ᶠ k, ‖f k‖ ^ 2) from rfl, AddMonoidHom.map_finsum _ hfin]
  refine finsum_congr fun k => ?_
  show f (k + 0) * conj (f k) = ((‖f k‖ ^ 2 : ℝ) : ℂ)
  rw [add_zero, Complex.mul_conj, Complex.normSq_eq_norm_sq]

theorem norm_finsum_le (F : ℤ → ℂ) (hF : (Function.support F).Finite) : ‖∑ᶠ k, F k‖ ≤ ∑ᶠ k, ‖F k‖ := by
  rw [finsum_eq_sum _ hF, finsum_eq_sum_of_support_subset (s := hF.toFinset)]
  · exact norm_sum_le _ _
  · intro k hk
    rw [Function.mem_support] at hk
    rw [Set.Finite.coe_toFinset, Function.mem_support]
    intro h; apply hk; rw [h, norm_zero]

/-- The autocorrelation is nowhere as large as in its middle. -/
theorem autocorrelation_peak (f : ℤ → ℂ) (hf : (Function.support f).Finite) (l : ℤ) (hl : l ≠ 0) (hne : ∃ k, f k ≠ 0) :
    ‖corrAt f f l‖ < energyOf f := by
  have hfin := finite_mul (f := f) hf l
  have h1 : ‖corrAt f f l‖ ≤ ∑ᶠ k, ‖f (k + l)‖ * ‖f k‖ := by
    refine (norm_finsum_le _ hfin).trans (le_of_eq (finsum_congr fun k => ?_))
    rw [norm_mul, RCLike.norm_conj]
  have hfin2 : (Function.support fun k => ‖f (k + l)‖ * ‖f k‖).Finite :=
    hf.subset fun k hk => by
      rw [Function.mem_support] at hk ⊢
      intro h; apply hk; rw [h]; simp
  have s1 := support_norm_sq f hf l
  have s0 : (Function.support fun k => ‖f k‖ ^ 2).Finite := by simpa using support_norm_sq f hf 0
  have sd : (Function.support fun k => (‖f (k + l)‖ - ‖f k‖) ^ 2).Finite := by
    refine (s1.union s0).subset fun k hk => ?_
    rw [Function.mem_support] at hk
    by_contra h
    rw [Set.mem_union, Function.mem_support, Function.mem_support] at h
    push Not at h
    have h1 : ‖f (k + l)‖ = 0 := by simpa using h.1
    have h2 : ‖f k‖ = 0 := by simpa using h.2
    apply hk; rw [h1, h2]; simp
  have key : (∑ᶠ k, (‖f (k + l)‖ - ‖f k‖) ^ 2) = 2 * energyOf f - 2 * ∑ᶠ k, ‖f (k + l)‖ * ‖f k‖ := by
    have e : (∑ᶠ k, (‖f (k + l)‖ - ‖f k‖) ^ 2) + 2 * ∑ᶠ k, ‖f (k + l)‖ * ‖f k‖ = ∑ᶠ k, ‖f (k + l)‖ ^ 2 + ∑ᶠ k, ‖f k‖ ^ 2 := by
      have hfin3 : (Function.support fun k => 2 * (‖f (k + l)‖ * ‖f k‖)).Finite :=
        hfin2.subset fun k hk => by
          rw [Function.mem_support] at hk ⊢
          intro h; apply hk; rw [h, mul_zero]
      rw [mul_finsum, ← finsum_add_distrib sd hfin3, ← finsum_add_distrib s1 s0]
      exact finsum_congr fun k => by ring
    rw [energy_shift] at e
    have : (∑ᶠ k, ‖f k‖ ^ 2) = energyOf f := rfl
    linarith
  have hpos : 0 < ∑ᶠ k, (‖f (k + l)‖ - ‖f k‖) ^ 2 := by
    by_contra h
    have h0 : ∀ k, ‖f (k + l)‖ = ‖f k‖ := by
      intro k
      by_contra hk
      apply h
      rw [finsum_eq_sum _ sd]
      refine Finset.sum_pos' (fun i _ => sq_nonneg _) ⟨k, ?_, ?_⟩
      · rw [Set.Finite.mem_toFinset, Function.mem_support]
        exact pow_ne_zero 2 (sub_ne_zero.2 hk)
      · exact lt_of_le_of_ne (sq_nonneg _) (Ne.symm (pow_ne_zero 2 (sub_ne_zero.2 hk)))
    obtain ⟨k, hk⟩ := hne
    have hall : ∀ j : Nat, f (k + j * l) ≠ 0 := by
      intro j
      induction j with
      | zero => simpa using hk
      | succ j ih =>
        have := h0 (k + j * l)
        rw [← norm_ne_zero_iff] at ih ⊢
        rw [show k + ((j + 1 : Nat) : ℤ) * l = k + j * l + l by push_cast; ring, this]; exact ih
    refine (Set.infinite_of_injective_forall_mem (f := fun j : Nat => k + (j : ℤ) * l) ?_ ?_) hf
    · intro i j hij
      have : (i : ℤ) * l = j * l := by
        have : k + (i : ℤ) * l = k + j * l := hij
        linarith
      exact_mod_cast mul_right_cancel₀ hl this
    · intro j; exact hall j
  linarith

/-- The correlation is bounded by the energies. -/
theorem corrAt_bound (f g : ℤ → ℂ) (hf : (Function.support f).Finite) (hg : (Function.support g).Finite) (l : ℤ) :
    ‖corrAt f g l‖ ^ 2 ≤ energyOf f * energyOf g := by
  have hfin := finite_mul (f := f) hg l
  have h1 : ‖corrAt f g l‖ ≤ ∑ᶠ k, ‖f (k + l)‖ * ‖g k‖ := by
    refine (norm_finsum_le _ hfin).trans (le_of_eq (finsum_congr fun k => ?_))
    rw [norm_mul, RCLike.norm_conj]
  have s1 := support_norm_sq f hf l
  have s0 : (Function.support fun k => ‖g k‖ ^ 2).Finite := by simpa using support_norm_sq g hg 0
  set S := s1.toFinset ∪ s0.toFinset with hS
  have e1 : (∑ᶠ k, ‖f (k + l)‖ * ‖g k‖) = ∑ k ∈ S, ‖f (k + l)‖ * ‖g k‖ := by
    apply finsum_eq_sum_of_support_subset
    intro k hk
    rw [Function.mem_support] at hk
    rw [Finset.mem_coe, hS, Finset.mem_union, Set.Finite.mem_toFinset, Set.Finite.mem_toFinset, Function.mem_support,
      Function.mem_support]
    left; intro h; apply hk
    have : ‖f (k + l)‖ = 0 := by simpa using h
    rw [this, zero_mul]
  have e2 : energyOf f = ∑ k ∈ S, ‖f (k + l)‖ ^ 2 := by
    rw [← energy_shift f l]
    apply finsum_eq_sum_of_support_subset
    intro k hk
    rw [Finset.mem_coe, hS, Finset.mem_union, Set.Finite.mem_toFinset]
    exact .inl hk
  have e3 : energyOf g = ∑ k ∈ S, ‖g k‖ ^ 2 := by
    apply finsum_eq_sum_of_support_subset
    intro k hk
    rw [Finset.mem_coe, hS, Finset.mem_union, Set.Finite.mem_toFinset, Set.Finite.mem_toFinset]
    exact .inr hk
  rw [e1] at h1
  rw [e2, e3]
  exact (pow_le_pow_left₀ (norm_nonneg _) h1 2).trans (Finset.sum_mul_sq_le_sq_mul_sq S _ _)

/-- The energy of a list. -/
theorem energyOf_ext0 (a : List (Cx ℝ)) : energyOf (ext0 a) = (a.map Cx.normSq).sum := by
  have h1 : energyOf (ext0 a) = ∑ k ∈ Finset.range a.length, ‖ext0 a k‖ ^ 2 := by
    unfold energyOf
    have hs : Function.support (fun k => ‖ext0 a k‖ ^ 2) ⊆ ((Finset.range a.length).image (fun k : Nat => (k : ℤ)) : Finset ℤ) := by
      intro i hi
      rw [Function.mem_support] at hi
      have h1 : i ∈ Function.support (ext0 a) := by
        rw [Function.mem_support]; intro h; apply hi; rw [h]; simp
      have hb := ext0_support a h1
      rw [Finset.mem_coe, Finset.mem_image]
      exact ⟨i.toNat, by rw [Finset.mem_range]; have h3 := hb.2; have h4 := hb.1; omega, by have h4 := hb.1; omega⟩
    rw [finsum_eq_sum_of_support_subset _ hs, Finset.sum_image (fun x _ y _ h => by exact_mod_cast h)]
  rw [h1]
  clear h1
  induction a using List.reverseRecOn with
  | nil => simp
  | append_singleton a c ih =>
    rw [List.length_append, List.length_singleton, Finset.sum_range_succ, List.map_append, List.sum_append, ← ih]
    congr 1
    · refine Finset.sum_congr rfl fun k hk => ?_
      rw [ext0_nat, ext0_nat, List.getD_eq_getElem?_getD, List.getD_eq_getElem?_getD, List.getElem?_append_left (Finset.mem_range.mp hk)]
    · rw [ext0_nat, List.getD_eq_getElem?_getD, List.getElem?_append_right (le_refl _)]
      simp [← Complex.normSq_eq_norm_sq, Complex.normSq_apply, Cx.normSq, Cx.toC]

theorem corrAt_shift_right (f g : ℤ → ℂ) (d l : ℤ) : corrAt f (fun k => g (k - d)) l = corrAt f g (l + d) := by
  unfold corrAt
  rw [← finsum_comp_equiv (Equiv.addRight d)]
  refine finsum_congr fun k => ?_
  simp only [Equiv.coe_addRight, add_sub_cancel_right]
  rw [show k + d + l = k + (l + d) by ring]

theorem corrAt_smul_right (z : ℂ) (f g : ℤ → ℂ) (l : ℤ) : corrAt f (fun k => g k * z) l = corrAt f g l * conj z := by
  unfold corrAt
  rw [mul_comm, mul_finsum]
  exact finsum_congr fun k => by rw [map_mul]; ring

theorem ext0_map_mul (a : List (Cx ℝ)) (z : Cx ℝ) (i : ℤ) : ext0 (a.map (· * z)) i = ext0 a i * z.toC := by
  by_cases h : i < 0
  · rw [ext0_neg _ h, ext0_neg _ h, zero_mul]
  · obtain ⟨n, rfl⟩ := Int.eq_ofNat_of_zero_le (by omega : 0 ≤ i)
    by_cases h2 : n < a.length
    · rw [ext0_nat, ext0_nat, ← Cx.toC_mul]
      exact congrArg _ (getD_map (· * z) a n h2)
    · rw [ext0_ge _ (by rw [List.length_map]; omega), ext0_ge _ (by omega), zero_mul]

theorem ext0_zipWith (op : Cx ℝ → Cx ℝ → Cx ℝ) (op' : ℂ → ℂ → ℂ) (h : ∀ a b, (op a b).toC = op' a.toC b.toC) (h0 : op' 0 0 = 0)
    (a b : List (Cx ℝ)) (hl : a.length = b.length) (i : ℤ) : ext0 (List.zipWith op a b) i = op' (ext0 a i) (ext0 b i) := by
  by_cases hi : i < 0
  · rw [ext0_neg _ hi, ext0_neg _ hi, ext0_neg _ hi, h0]
  · obtain ⟨n, rfl⟩ := Int.eq_ofNat_of_zero_le (by omega : 0 ≤ i)
    by_cases h2 : n < a.length
    · rw [ext0_nat, ext0_nat, ext0_nat, ← h]
      exact congrArg _ (getD_zipWith op a b hl n h2)
    · rw [ext0_ge _ (by rw [List.length_zipWith]; omega), ext0_ge _ (by omega), ext0_ge _ (by omega), h0]

/-- A pulse with zeros around. -/
theorem ext0_placed (p q : Nat) (c : List (Cx ℝ)) (i : ℤ) :
    ext0 (List.replicate p 0 ++ c ++ List.replicate q 0) i = ext0 c (i - p) := by
  by_cases hi : i < 0
  · rw [ext0_neg _ hi, ext0_neg _ (by omega)]
  · obtain ⟨n, rfl⟩ := Int.eq_ofNat_of_zero_le (by omega : 0 ≤ i)
    by_cases h1 : n < p
    · rw [ext0_neg _ (by omega : ((n : ℤ) - p) < 0), ext0_nat, List.getD_eq_getElem?_getD,
        List.getElem?_append_left (by rw [List.length_append, List.length_replicate]; omega),
        List.getElem?_append_left (by rw [List.length_replicate]; omega), List.getElem?_replicate, if_pos h1]
      rfl
    · obtain ⟨m, rfl⟩ := Nat.exists_eq_add_of_le (Nat.le_of_not_lt h1)
      rw [show (((p + m : Nat) : ℤ) - p) = (m : ℤ) by push_cast; ring]
      by_cases h2 : m < c.length
      · rw [ext0_nat, ext0_nat, List.getD_eq_getElem?_getD, List.getD_eq_getElem?_getD,
          List.getElem?_append_left (by rw [List.length_append, List.length_replicate]; omega),
          List.getElem?_append_right (by rw [List.length_replicate]; omega), List.length_replicate, Nat.add_sub_cancel_left]
      · rw [ext0_ge c (by omega), ext0_nat, List.getD_eq_getElem?_getD,
          List.getElem?_append_right (by rw [List.length_append, List.length_replicate]; omega), List.getElem?_replicate]
        split <;> rfl

/-- Point `r` of a correlation, as lists. -/
theorem cross_toC {a c : List (Cx ℝ)} {R : List (Cx ℝ)} (hl : R.length = 2 * c.length - 1)
    (h : ∀ r < R.length, (R.getD r 0).toC = corrAt (ext0 a) (ext0 c) ((r : ℤ) - (c.length - 1 : Nat))) : R = crossCorrelation a c :=
  correlation_ext (by rw [crossCorrelation_length, hl]) fun r hr => by
    rw [h r hr, crossCorrelation_get a c r (by omega)]

theorem cross_swap (a c : List (Cx ℝ)) (hl : a.length = c.length) :
    ((crossCorrelation c a).map fun z => (⟨z.re, -z.im⟩ : Cx ℝ)).reverse = crossCorrelation a c := by
  refine cross_toC (by rw [List.length_reverse, List.length_map, crossCorrelation_length, hl]) fun r hr => ?_
  rw [List.length_reverse, List.length_map, crossCorrelation_length] at hr
  have h1 : 2 * a.length - 1 - 1 - r < (crossCorrelation c a).length := by rw [crossCorrelation_length]; omega
  have e : ((crossCorrelation c a).map fun z => (⟨z.re, -z.im⟩ : Cx ℝ)).reverse.getD r 0 =
      Cx.conj ((crossCorrelation c a).getD (2 * a.length - 1 - 1 - r) 0) := by
    rw [List.getD_eq_getElem?_getD, List.getElem?_reverse (by rw [List.length_map, crossCorrelation_length]; exact hr), List.length_map,
      crossCorrelation_length, List.getElem?_map, List.getD_eq_getElem?_getD, List.getElem?_eq_getElem h1]
    rfl
  rw [e, Cx.toC_conj, crossCorrelation_get c a _ (by omega), ← corrAt_swap _ _ _ (ext0_finite a)]
  congr 1
  rw [← hl]
  omega

theorem cross_zipWith (op : ElemOp) (hop : op = .add ∨ op = .sub) (a b c : List (Cx ℝ)) (hl : a.length = b.length) :
    crossCorrelation (List.zipWith op.cx a b) c = List.zipWith op.cx (crossCorrelation a c) (crossCorrelation b c) := by
  symm
  refine cross_toC (by rw [List.length_zipWith, crossCorrelation_length, crossCorrelation_length, min_self]) fun r hr => ?_
  rw [List.length_zipWith, crossCorrelation_length, crossCorrelation_length, min_self] at hr
  have e : (List.zipWith op.cx (crossCorrelation a c) (crossCorrelation b c)).getD r 0 = _ :=
    getD_zipWith op.cx (crossCorrelation a c) (crossCorrelation b c) (by rw [crossCorrelation_length, crossCorrelation_length]) r
      (by rw [crossCorrelation_length]; exact hr)
  rw [e]
  have ga := crossCorrelation_get a c r hr
  have gb := crossCorrelation_get b c r hr
  rcases hop with rfl | rfl
  · have e1 : ∀ u v : Cx ℝ, (ElemOp.add.cx u v).toC = u.toC + v.toC := Cx.toC_add
    rw [e1]
    refine (congrArg₂ (· + ·) ga gb).trans ?_
    rw [← corrAt_add_left _ _ _ (ext0_finite c)]
    congr 1
    funext k
    exact (ext0_zipWith _ (· + ·) e1 (add_zero 0) a b hl k).symm
  · have e1 : ∀ u v : Cx ℝ, (ElemOp.sub.cx u v).toC = u.toC - v.toC := Cx.toC_sub
    rw [e1]
    refine (congrArg₂ (· - ·) ga gb).trans ?_
    have : ext0 (List.zipWith ElemOp.sub.cx a b) = fun k => ext0 a k + ext0 b k * (-1) := by
      funext k
      rw [ext0_zipWith _ (· - ·) e1 (sub_zero 0) a b hl k]; ring
    rw [this, corrAt_add_left _ _ _ (ext0_finite c), corrAt_smul_left]
    ring

theorem cross_mul_left (a c : List (Cx ℝ)) (z : Cx ℝ) : crossCorrelation (a.map (· * z)) c = (crossCorrelation a c).map (· * z) := by
  symm
  refine cross_toC (by rw [List.length_map, crossCorrelation_length]) fun r hr => ?_
  rw [List.length_map, crossCorrelation_length] at hr
  have e : ((crossCorrelation a c).map (· * z)).getD r 0 = _ := getD_map (· * z) (crossCorrelation a c) r (by rw [crossCorrelation_length]; exact hr)
  rw [e, Cx.toC_mul]
  refine (congrArg (· * _) (crossCorrelation_get a c r hr)).trans ?_
  rw [← corrAt_smul_left]
  congr 1
  funext k
  exact (ext0_map_mul a z k).symm

theorem cross_mul_right (a c : List (Cx ℝ)) (z : Cx ℝ) : crossCorrelation a (c.map (· * z)) = (crossCorrelation a c).map (· * z.conj) := by
  symm
  refine cross_toC (by rw [List.length_map, crossCorrelation_length, List.length_map]) fun r hr => ?_
  rw [List.length_map, crossCorrelation_length] at hr
  have e : ((crossCorrelation a c).map (· * z.conj)).getD r 0 = _ :=
    getD_map (· * z.conj) (crossCorrelation a c) r (by rw [crossCorrelation_length]; exact hr)
  rw [e, Cx.toC_mul, Cx.toC_conj, List.length_map]
  refine (congrArg (· * _) (crossCorrelation_get a c r hr)).trans ?_
  rw [← corrAt_smul_right]
  congr 1
  funext k
  exact (ext0_map_mul c z k).symm

/-- Sums of lists as sums over indices. -/
theorem toC_sum (l : List (Cx ℝ)) : l.sum.toC = ∑ i ∈ Finset.range l.length, ext0 l i := by
  induction l using List.reverseRecOn with
  | nil => simp [Cx.toC_zero]
  | append_singleton a c ih =>
    rw [List.sum_append, Cx.toC_add, ih, List.length_append, List.length_singleton, Finset.sum_range_succ]
    congr 1
    · refine Finset.sum_congr rfl fun k hk => ?_
      rw [ext0_nat, ext0_nat, List.getD_eq_getElem?_getD, List.getD_eq_getElem?_getD, List.getElem?_append_left (Finset.mem_range.mp hk)]
    · rw [ext0_nat, List.getD_eq_getElem?_getD, List.getElem?_append_right (le_refl _)]
      simp

theorem cross_total (a c : List (Cx ℝ)) (hl : a.length = c.length) : (crossCorrelation a c).sum = a.sum * c.sum.conj := by
  apply Cx.toC_inj
  rw [toC_sum, crossCorrelation_length, Cx.toC_mul, Cx.toC_conj, toC_sum c, map_sum]
  have e : ∀ r ∈ Finset.range (2 * c.length - 1), ext0 (crossCorrelation a c) (r : ℤ) =
      ∑ k ∈ Finset.range c.length, ext0 a ((k : ℤ) + ((r : ℤ) - (c.length - 1 : Nat))) * conj (ext0 c k) := by
    intro r hr
    rw [ext0_nat, crossCorrelation_get a c r (Finset.mem_range.mp hr)]
    unfold corrAt
    exact sum_range_ext c.length _ fun i hi => by
      rcases hi with hi | hi
      · rw [ext0_neg c hi]; simp
      · rw [ext0_ge c hi]; simp
  rw [Finset.sum_congr rfl e, Finset.sum_comm, Finset.mul_sum]
  refine Finset.sum_congr rfl fun k hk => ?_
  have hk := Finset.mem_range.mp hk
  rw [← Finset.sum_mul]
  congr 1
  rw [toC_sum a, ← sum_range_ext a.length (ext0 a) fun i hi => by
    rcases hi with hi | hi
    · exact ext0_neg a hi
    · exact ext0_ge a hi]
  rw [← sum_range_ext (2 * c.length - 1) (fun r => ext0 a ((k : ℤ) + (r - (c.length - 1 : Nat)))) fun i hi => by
    rcases hi with hi | hi
    · exact ext0_neg a (by omega)
    · exact ext0_ge a (by omega)]
  refine Eq.trans ?_ (finsum_comp_equiv (Equiv.addRight ((k : ℤ) - (c.length - 1 : Nat))) (f := ext0 a))
  refine finsum_congr fun i => congrArg _ ?_
  simp only [Equiv.coe_addRight]
  ring

theorem cross_zero (a c : List (Cx ℝ)) (hl : a.length = c.length) (hn : 1 ≤ c.length) :
    (crossCorrelation a c).getD (c.length - 1) 0 = (List.zipWith (· * ·) a (c.map fun z => (⟨z.re, -z.im⟩ : Cx ℝ))).sum := by
  apply Cx.toC_inj
  rw [crossCorrelation_get a c _ (by omega), sub_self, toC_sum, List.length_zipWith, List.length_map, hl, min_self]
  unfold corrAt
  rw [sum_range_ext c.length]
  · refine Finset.sum_congr rfl fun k hk => ?_
    have hk := Finset.mem_range.mp hk
    have e : (List.zipWith (· * ·) a (c.map fun z => (⟨z.re, -z.im⟩ : Cx ℝ))).getD k 0 = _ :=
      getD_zipWith (· * ·) a (c.map fun z => (⟨z.re, -z.im⟩ : Cx ℝ)) (by rw [List.length_map]; exact hl) k (by omega)
    rw [add_zero, ext0_nat (List.zipWith _ _ _), e, getD_map _ c k hk, Cx.toC_mul, ext0_nat, ext0_nat, ← Cx.toC_conj]
    rfl
  · intro i hi
    rcases hi with hi | hi
    · rw [ext0_neg c hi]; simp
    · rw [ext0_ge c hi]; simp

theorem normSq_toC (c : Cx ℝ) : Cx.normSq c = ‖c.toC‖ ^ 2 := by
  simp [← Complex.normSq_eq_norm_sq, Complex.normSq_apply, Cx.normSq, Cx.toC]

end Dsp
