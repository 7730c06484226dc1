import Verif.Spec.ConvLaws
import Verif.Lemmas.Complex
import Verif.Lemmas.ConvSimd
import Verif.Props.ConvVec
import Verif.Lemmas.DftLaws
import Mathlib.Algebra.BigOperators.Intervals
import Mathlib.Algebra.BigOperators.Ring.Finset
/-
The algebra of the circular convolution of lists (`circularConv`), for C86.
-/
namespace Dsp
section
variable {α : Type} [CommRing α]

/-- The periodic continuation of a list, as a function of all whole numbers. -/
def per (x : List α) (p : ℤ) : α := (cyclic x p).getD 0

theorem per_eq (x : List α) (p : ℤ) : per x p = x.getD (p % (x.length : ℤ)).toNat 0 := by
  rw [per, cyclic, List.getD_eq_getElem?_getD]

theorem per_congr (x : List α) {p q : ℤ} (h : p % (x.length : ℤ) = q % (x.length : ℤ)) : per x p = per x q := by
  rw [per_eq, per_eq, h]

theorem per_add_length (x : List α) (p : ℤ) : per x (p + x.length) = per x p := per_congr x (Int.add_emod_right _ _)

theorem per_nat (x : List α) (i : Nat) (h : i < x.length) : per x i = x[i] := by
  rw [per_eq, ← Int.natCast_mod, Int.toNat_natCast, Nat.mod_eq_of_lt h, List.getD_eq_getElem?_getD, List.getElem?_eq_getElem h]
  rfl

theorem ext_per {x y : List α} (hl : x.length = y.length) (h : ∀ p : ℤ, per x p = per y p) : x = y := by
  apply List.ext_getElem hl
  intro i hi hj
  rw [← per_nat x i hi, ← per_nat y i hj, h]

omit [CommRing α] in
theorem idx_lt {x : List α} (hx : x ≠ []) (p : ℤ) : (p % (x.length : ℤ)).toNat < x.length := by
  have : 0 < x.length := List.length_pos_iff.mpr hx
  have h1 := Int.emod_nonneg p (by omega : (x.length : ℤ) ≠ 0)
  have h2 := Int.emod_lt_of_pos p (by omega : (0 : ℤ) < x.length)
  omega

theorem convAt_eq_sum (x h : List α) (i : Nat) :
    convAt x h i = ∑ k ∈ Finset.range h.length, per x ((i : ℤ) + ((h.length - 1) / 2 : Nat) - k) * h.getD k 0 := by
  unfold convAt
  rw [foldl_add_sum (fun k : Nat => (cyclic x ((i : ℤ) + ((h.length - 1) / 2 : Nat) - k)).getD 0 * h.getD k 0), zero_add,
    Finset.sum_range]
  rw [← List.sum_ofFn, List.ofFn_eq_map]
  rw [show List.range h.length = (List.finRange h.length).map Fin.val by simp [List.map_coe_finRange_eq_range], List.map_map]
  rfl

/-- The periodic continuation of the convolution. -/
theorem per_conv (x h : List α) (p : ℤ) :
    per (circularConv x h) p = ∑ k ∈ Finset.range h.length, per x (p + ((h.length - 1) / 2 : Nat) - k) * h.getD k 0 := by
  rcases Decidable.eq_or_ne x [] with rfl | hx
  · have e : ∀ q : ℤ, per ([] : List α) q = 0 := fun q => by simp [per_eq]
    simp only [e, zero_mul, Finset.sum_const_zero]
    exact e p
  · have hl := circularConv_length x h
    have hi := idx_lt hx p
    rw [per_eq, hl]
    have : (circularConv x h).getD (p % (x.length : ℤ)).toNat 0 = convAt x h (p % (x.length : ℤ)).toNat := by
      rw [List.getD_eq_getElem?_getD, List.getElem?_eq_getElem (by rw [hl]; exact hi)]
      simp [circularConv]
    rw [this, convAt_eq_sum]
    refine Finset.sum_congr rfl fun k _ => ?_
    congr 1
    apply per_congr
    have h0 : 0 < x.length := List.length_pos_iff.mpr hx
    rw [Int.toNat_of_nonneg (Int.emod_nonneg p (by omega))]
    rw [add_sub_assoc, add_sub_assoc, Int.emod_add_emod]

/-- Sums over a period do not depend on its start. -/
theorem sum_period (F : ℤ → α) (n : Nat) (hF : ∀ p, F (p + n) = F p) (s : ℤ) :
    ∑ i ∈ Finset.range n, F (i + s) = ∑ i ∈ Finset.range n, F i := by
  have step : ∀ s : ℤ, ∑ i ∈ Finset.range n, F (i + (s + 1)) = ∑ i ∈ Finset.range n, F (i + s) := by
    intro s
    have h1 := Finset.sum_range_succ (fun i : Nat => F (i + s)) n
    have h2 := Finset.sum_range_succ' (fun i : Nat => F (i + s)) n
    rw [h1] at h2
    have e : F (↑n + s) = F (((0 : Nat) : ℤ) + s) := by rw [add_comm, hF]; simp
    rw [e] at h2
    have := add_right_cancel h2
    rw [this]
    refine Finset.sum_congr rfl fun i _ => ?_
    congr 1; push_cast; ring
  induction s using Int.induction_on with
  | zero => simp
  | succ i ih => rw [step, ih]
  | pred i ih => rw [← ih, ← step (-(i : ℤ) - 1)]; simp

/-- Sums over a period, backwards. -/
theorem sum_period_neg (F : ℤ → α) (n : Nat) (hF : ∀ p, F (p + n) = F p) (s : ℤ) :
    ∑ i ∈ Finset.range n, F (s - i) = ∑ i ∈ Finset.range n, F i := by
  have hr := Finset.sum_range_reflect (fun i : Nat => F (s - i)) n
  rw [← hr, ← sum_period F n hF (s - (n - 1))]
  refine Finset.sum_congr rfl fun i hi => ?_
  have := Finset.mem_range.mp hi
  congr 1; omega

theorem sum_getD_per (h : List α) (f : Nat → α) :
    ∑ k ∈ Finset.range h.length, f k * h.getD k 0 = ∑ k ∈ Finset.range h.length, f k * per h k := by
  refine Finset.sum_congr rfl fun k hk => ?_
  have := Finset.mem_range.mp hk
  rw [per_nat h k this, List.getD_eq_getElem?_getD, List.getElem?_eq_getElem this]
  rfl

theorem list_sum_per (x : List α) : x.sum = ∑ i ∈ Finset.range x.length, per x i := by
  rw [Finset.sum_range, ← List.sum_ofFn]
  congr 1
  apply List.ext_getElem (by simp)
  intro i hi hj
  rw [List.getElem_ofFn]
  exact (per_nat x i hi).symm

theorem per_zipWith_add (x y : List α) (hl : x.length = y.length) (p : ℤ) :
    per (List.zipWith (· + ·) x y) p = per x p + per y p := by
  rcases Decidable.eq_or_ne x [] with rfl | hx
  · have : y = [] := List.eq_nil_of_length_eq_zero hl.symm
    subst this
    simp [per_eq]
  · have hi := idx_lt hx p
    rw [per_eq, per_eq, per_eq]
    simp only [List.length_zipWith, ← hl, Nat.min_self, List.getD_eq_getElem?_getD]
    rw [List.getElem?_eq_getElem (by simpa [← hl] using hi), List.getElem?_eq_getElem hi, List.getElem?_eq_getElem (hl ▸ hi)]
    simp

theorem per_map (g : α → α) (g0 : g 0 = 0) (x : List α) (p : ℤ) : per (x.map g) p = g (per x p) := by
  rw [per_eq, per_eq, List.length_map, List.getD_eq_getElem?_getD, List.getD_eq_getElem?_getD, List.getElem?_map]
  cases x[(p % (x.length : ℤ)).toNat]? <;> simp [g0]

theorem per_rotateLeft (x : List α) (s : Nat) (hs : s ≤ x.length) (p : ℤ) : per (rotateLeft x s) p = per x (p + s) := by
  rcases Decidable.eq_or_ne x [] with rfl | hx
  · have : s = 0 := by simpa using hs
    subst this
    simp [per_eq, rotateLeft]
  · have hi := idx_lt hx p
    have h0 : 0 < x.length := List.length_pos_iff.mpr hx
    rw [per_eq, rotateLeft_length, rotateLeft_getD 0 x s _ hs hi, per_eq]
    congr 1
    have h1 := Int.emod_nonneg p (by omega : (x.length : ℤ) ≠ 0)
    zify
    rw [Int.toNat_of_nonneg h1, Int.toNat_of_nonneg (Int.emod_nonneg _ (by omega)), Int.emod_add_emod]

theorem per_reverse (x : List α) (p : ℤ) : per x.reverse p = per x (-1 - p) := by
  rcases Decidable.eq_or_ne x [] with rfl | hx
  · simp [per_eq]
  · have hi := idx_lt hx p
    have h0 : 0 < x.length := List.length_pos_iff.mpr hx
    have hr : (p % (x.length : ℤ)).toNat < x.reverse.length := by rw [List.length_reverse]; exact hi
    rw [per_eq, List.length_reverse, List.getD_eq_getElem?_getD, List.getElem?_eq_getElem hr, List.getElem_reverse]
    have e : per x ((x.length - 1 - (p % (x.length : ℤ)).toNat : Nat) : ℤ) = x[x.length - 1 - (p % (x.length : ℤ)).toNat] :=
      per_nat x _ (by omega)
    simp only [Option.getD_some]
    rw [← e]
    apply per_congr
    have h1 := Int.emod_nonneg p (by omega : (x.length : ℤ) ≠ 0)
    have h2 := Int.emod_add_mul_ediv p x.length
    have h3 : ((x.length - 1 - (p % (x.length : ℤ)).toNat : Nat) : ℤ) = (x.length : ℤ) - 1 - p % (x.length : ℤ) := by omega
    rw [h3, show (x.length : ℤ) - 1 - p % (x.length : ℤ) = (-1 - p % (x.length : ℤ)) + x.length by ring, Int.add_emod_right]
    exact Int.sub_emod_emod _ _ _

/-! ### The laws -/

theorem conv_add_left (x y h : List α) (hl : x.length = y.length) :
    circularConv (List.zipWith (· + ·) x y) h = List.zipWith (· + ·) (circularConv x h) (circularConv y h) := by
  have a := circularConv_length x h
  have b := circularConv_length y h
  refine ext_per (by rw [circularConv_length]; simp [a, b]) fun p => ?_
  rw [per_zipWith_add _ _ (by omega), per_conv, per_conv, per_conv, ← Finset.sum_add_distrib]
  refine Finset.sum_congr rfl fun k _ => ?_
  rw [per_zipWith_add _ _ hl, add_mul]

theorem conv_add_right (x h g : List α) (hl : h.length = g.length) :
    circularConv x (List.zipWith (· + ·) h g) = List.zipWith (· + ·) (circularConv x h) (circularConv x g) := by
  have a := circularConv_length x h
  have b := circularConv_length x g
  refine ext_per (by rw [circularConv_length]; simp [a, b]) fun p => ?_
  rw [per_zipWith_add _ _ (by omega), per_conv, per_conv, per_conv]
  have hz : (List.zipWith (· + ·) h g).length = h.length := by simp [← hl]
  rw [hz, ← hl, ← Finset.sum_add_distrib]
  refine Finset.sum_congr rfl fun k hk => ?_
  have hk := Finset.mem_range.mp hk
  have e : (List.zipWith (· + ·) h g).getD k 0 = h.getD k 0 + g.getD k 0 := by
    simp only [List.getD_eq_getElem?_getD]
    rw [List.getElem?_eq_getElem (by rw [hz]; exact hk), List.getElem?_eq_getElem hk, List.getElem?_eq_getElem (hl ▸ hk)]
    simp
  rw [e, mul_add]

theorem conv_map_left (x h : List α) (c : α) : circularConv (x.map (· * c)) h = (circularConv x h).map (· * c) := by
  refine ext_per (by simp [circularConv_length]) fun p => ?_
  rw [per_map _ (zero_mul c), per_conv, per_conv, Finset.sum_mul]
  refine Finset.sum_congr rfl fun k _ => ?_
  rw [per_map _ (zero_mul c)]; ring

theorem conv_map_right (x h : List α) (c : α) : circularConv x (h.map (· * c)) = (circularConv x h).map (· * c) := by
  refine ext_per (by simp [circularConv_length]) fun p => ?_
  rw [per_map _ (zero_mul c), per_conv, per_conv, Finset.sum_mul, List.length_map]
  refine Finset.sum_congr rfl fun k _ => ?_
  have e : (h.map (· * c)).getD k 0 = h.getD k 0 * c := by
    simp only [List.getD_eq_getElem?_getD, List.getElem?_map]
    cases h[k]? <;> simp
  rw [e]; ring

/-- Functions which keep sums and products, for example the conjugation. -/
theorem conv_hom {β : Type} [CommRing β] (g : α →+* β) (x h : List α) :
    circularConv (x.map g) (h.map g) = (circularConv x h).map g := by
  have e : ∀ (l : List α) (p : ℤ), per (l.map g) p = g (per l p) := by
    intro l p
    rw [per_eq, per_eq, List.length_map, List.getD_eq_getElem?_getD, List.getD_eq_getElem?_getD, List.getElem?_map]
    cases l[(p % (l.length : ℤ)).toNat]? <;> simp
  refine ext_per (by simp [circularConv_length]) fun p => ?_
  rw [e, per_conv, per_conv, List.length_map, map_sum]
  refine Finset.sum_congr rfl fun k _ => ?_
  have e2 : (h.map g).getD k 0 = g (h.getD k 0) := by
    simp only [List.getD_eq_getElem?_getD, List.getElem?_map]
    cases h[k]? <;> simp
  rw [e, e2, map_mul]

theorem conv_rotateLeft (x h : List α) (s : Nat) (hs : s ≤ x.length) :
    circularConv (rotateLeft x s) h = rotateLeft (circularConv x h) s := by
  refine ext_per (by simp [circularConv_length, rotateLeft_length]) fun p => ?_
  rw [per_rotateLeft _ _ (by rw [circularConv_length]; exact hs), per_conv, per_conv]
  refine Finset.sum_congr rfl fun k _ => ?_
  rw [per_rotateLeft _ _ hs]
  congr 2; ring

/-- Two filters can be exchanged, whatever their lengths. -/
theorem conv_exchange (x h g : List α) : circularConv (circularConv x h) g = circularConv (circularConv x g) h := by
  refine ext_per (by simp [circularConv_length]) fun p => ?_
  simp only [per_conv, Finset.sum_mul]
  rw [Finset.sum_comm]
  refine Finset.sum_congr rfl fun k _ => Finset.sum_congr rfl fun j _ => ?_
  rw [mul_assoc, mul_assoc, mul_comm (h.getD k 0)]
  congr 2; ring

theorem conv_comm (x h : List α) (hl : x.length = h.length) : circularConv x h = circularConv h x := by
  refine ext_per (by simp [circularConv_length, hl]) fun p => ?_
  rw [per_conv, per_conv, sum_getD_per, sum_getD_per, ← hl]
  have hF : ∀ q : ℤ, per x (p + ((x.length - 1) / 2 : Nat) - (q + x.length)) * per h (q + x.length) =
      per x (p + ((x.length - 1) / 2 : Nat) - q) * per h q := by
    intro q
    conv_lhs => rw [hl, per_add_length h q, ← hl]
    rw [← per_add_length x (p + ((x.length - 1) / 2 : Nat) - (q + x.length))]
    congr 2; ring
  rw [← sum_period_neg (fun q => per x (p + ((x.length - 1) / 2 : Nat) - q) * per h q) x.length hF (p + ((x.length - 1) / 2 : Nat))]
  refine Finset.sum_congr rfl fun k _ => ?_
  rw [sub_sub_cancel, mul_comm]

/-- Two filters can be combined to one, if the first one has as many points as the signal. -/
theorem conv_assoc (x h g : List α) (hl : x.length = h.length) :
    circularConv (circularConv x h) g = circularConv x (circularConv h g) := by
  rw [conv_comm x h hl, conv_exchange h x g, conv_comm _ x (by rw [circularConv_length, hl])]

theorem conv_unit (x : List α) (m : Nat) (hm : 1 ≤ m) : circularConv x (centredImpulse m) = x := by
  refine ext_per (circularConv_length _ _) fun p => ?_
  have hu : (centredImpulse m : List α).length = m := by simp [centredImpulse]
  rw [per_conv, hu, Finset.sum_eq_single ((m - 1) / 2)]
  · have : (centredImpulse m : List α).getD ((m - 1) / 2) 0 = 1 := by
      rw [List.getD_eq_getElem?_getD, List.getElem?_eq_getElem (by rw [hu]; omega)]
      simp [centredImpulse]
    rw [this, mul_one]
    congr 1; ring
  · intro k hk hne
    have hk := Finset.mem_range.mp hk
    have : (centredImpulse m : List α).getD k 0 = 0 := by
      rw [List.getD_eq_getElem?_getD, List.getElem?_eq_getElem (by rw [hu]; omega)]
      simp [centredImpulse, hne]
    rw [this, mul_zero]
  · intro h
    exact absurd (Finset.mem_range.mpr (by omega)) h

theorem conv_sum (x h : List α) : (circularConv x h).sum = x.sum * h.sum := by
  rw [list_sum_per, circularConv_length]
  simp only [per_conv]
  rw [Finset.sum_comm]
  have e : ∀ k ∈ Finset.range h.length, ∑ i ∈ Finset.range x.length, per x ((i : ℤ) + ((h.length - 1) / 2 : Nat) - k) * h.getD k 0 =
      x.sum * per h k := by
    intro k hk
    have hk := Finset.mem_range.mp hk
    rw [← Finset.sum_mul, list_sum_per x, ← sum_period (per x) x.length (per_add_length x) (((h.length - 1) / 2 : Nat) - k)]
    congr 1
    · refine Finset.sum_congr rfl fun i _ => ?_
      rw [add_sub_assoc]
    · rw [per_nat h k hk, List.getD_eq_getElem?_getD, List.getElem?_eq_getElem hk]; rfl
  rw [Finset.sum_congr rfl e, ← Finset.mul_sum, ← list_sum_per]

theorem getD_reverse (h : List α) (k : Nat) (hk : k < h.length) : h.reverse.getD k 0 = h.getD (h.length - 1 - k) 0 := by
  rw [List.getD_eq_getElem?_getD, List.getD_eq_getElem?_getD, List.getElem?_reverse hk]

/-- For responses with an odd number of points: reversing signal and response reverses the result. -/
theorem conv_reverse (x h : List α) (ho : h.length % 2 = 1) :
    circularConv x.reverse h.reverse = (circularConv x h).reverse := by
  refine ext_per (by simp [circularConv_length]) fun p => ?_
  rw [per_reverse, per_conv, per_conv, List.length_reverse, ← Finset.sum_range_reflect]
  refine Finset.sum_congr rfl fun k hk => ?_
  have hk := Finset.mem_range.mp hk
  rw [per_reverse, getD_reverse h _ (by omega)]
  congr 2
  · omega
  · omega

/-- For responses with an odd number of points: the convolution with the reversed response is the adjoint. -/
theorem conv_adjoint (x y h : List α) (hl : x.length = y.length) (ho : h.length % 2 = 1) :
    (List.zipWith (· * ·) (circularConv x h) y).sum = (List.zipWith (· * ·) x (circularConv y h.reverse)).sum := by
  have dot : ∀ a b : List α, a.length = b.length →
      (List.zipWith (· * ·) a b).sum = ∑ i ∈ Finset.range a.length, per a i * per b i := by
    intro a b hab
    rw [Finset.sum_range, ← List.sum_ofFn]
    congr 1
    apply List.ext_getElem (by simp [← hab])
    intro i hi hj
    rw [List.getElem_ofFn, List.getElem_zipWith]
    simp only [List.length_zipWith] at hi
    rw [per_nat a i (by omega), per_nat b i (by omega)]
  rw [dot _ _ (by rw [circularConv_length, hl]), dot _ _ (by rw [circularConv_length, hl]), circularConv_length]
  simp only [per_conv, Finset.sum_mul, Finset.mul_sum]
  rw [Finset.sum_comm, Finset.sum_comm (s := Finset.range x.length), List.length_reverse,
    ← Finset.sum_range_reflect _ h.length]
  refine Finset.sum_congr rfl fun k hk => ?_
  have hk := Finset.mem_range.mp hk
  rw [getD_reverse h _ hk]
  set s : ℤ := ((h.length - 1) / 2 : Nat) - ((h.length - 1 - k : Nat) : ℤ) with hs
  have hs2 : ((h.length - 1) / 2 : Nat) - (k : ℤ) = -s := by omega
  have hF : ∀ q : ℤ, per x (q + x.length) * per y (q + x.length - s) = per x q * per y (q - s) := by
    intro q
    rw [per_add_length, show q + (x.length : ℤ) - s = (q - s) + x.length by ring]
    rw [hl, per_add_length]
  have := sum_period (fun q => per x q * per y (q - s)) x.length hF s
  simp only [add_sub_assoc, hs2, ← hs]
  calc _ = ∑ i ∈ Finset.range x.length, (per x (i + s) * per y (i + s - s)) * h.getD (h.length - 1 - k) 0 := by
        refine Finset.sum_congr rfl fun i _ => ?_
        rw [add_sub_cancel_right]; ring
    _ = _ := by
        rw [← Finset.sum_mul]
        beta_reduce at this
        rw [this, Finset.sum_mul]
        refine Finset.sum_congr rfl fun i _ => ?_
        rw [sub_eq_add_neg]; ring

end
end Dsp
