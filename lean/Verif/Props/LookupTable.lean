import Verif.Model.LookupTable
import Verif.Lemmas.Complex
import Verif.Lemmas.Slice
import Mathlib.Tactic.LinearCombination
import Mathlib.Tactic.Module
import Mathlib.Tactic.Linarith
import Mathlib.Tactic.Positivity
import Mathlib.Algebra.Order.Floor.Ring
import Mathlib.Data.Rat.Floor
/-
C65: lookup tables.
-/
namespace Dsp
variable {T α : Type}

/-- Complex numbers are a module over the real ones. -/
instance [CommRing T] : Module T (Cx T) where
  one_smul c := by show (⟨c.re * 1, c.im * 1⟩ : Cx T) = c; simp
  mul_smul a b c := by
    show (⟨c.re * (a * b), c.im * (a * b)⟩ : Cx T) = ⟨c.re * b * a, c.im * b * a⟩
    congr 1 <;> ring
  smul_zero a := by show (⟨0 * a, 0 * a⟩ : Cx T) = ⟨0, 0⟩; simp
  smul_add a c d := by
    show (⟨(c.re + d.re) * a, (c.im + d.im) * a⟩ : Cx T) = ⟨c.re * a + d.re * a, c.im * a + d.im * a⟩
    congr 1 <;> ring
  add_smul a b c := by
    show (⟨c.re * (a + b), c.im * (a + b)⟩ : Cx T) = ⟨c.re * a + c.re * b, c.im * a + c.im * b⟩
    congr 1 <;> ring
  zero_smul c := by show (⟨c.re * 0, c.im * 0⟩ : Cx T) = ⟨0, 0⟩; simp

section
variable [Field T] [LinearOrder T] [IsStrictOrderedRing T] [FloorRing T]

/-! ### Rounding -/

omit [IsStrictOrderedRing T] in
theorem roundAway_nonneg {p : T} (h : 0 ≤ p) : roundAway p = ((⌊p + 1 / 2⌋ : Int) : T) := by
  simp [roundAway, not_lt.mpr h]

theorem roundAway_near {p : T} {k : Nat} (h1 : (k : T) - 1 / 2 < p) (h2 : p < k + 1 / 2) : roundAway p = (k : T) := by
  unfold roundAway
  split
  · rename_i h
    have hk : k = 0 := by
      by_contra hne
      have : (1 : T) ≤ k := by exact_mod_cast Nat.one_le_iff_ne_zero.mpr hne
      linarith
    subst hk
    have : ⌊-p + 1 / 2⌋ = 0 := by
      rw [Int.floor_eq_iff]
      constructor <;> push_cast at * <;> linarith
    simp only [this]
    simp
  · have : ⌊p + 1 / 2⌋ = (k : Int) := by
      rw [Int.floor_eq_iff]
      constructor <;> push_cast <;> linarith
    rw [this]
    simp

theorem roundAway_half {p : T} {k : Nat} (h1 : (k : T) - 1 / 2 ≤ p) (h2 : p < k + 1 / 2) (h0 : 0 ≤ p) : roundAway p = (k : T) := by
  rw [roundAway_nonneg h0]
  have : ⌊p + 1 / 2⌋ = (k : Int) := by
    rw [Int.floor_eq_iff]
    constructor <;> push_cast <;> linarith
  rw [this]
  simp

theorem asUsize_natCast (k : Nat) : asUsize (k : T) = k := by simp [asUsize]

theorem asUsize_negative {p : T} (h : p < 0) : asUsize (roundAway p) = 0 := by
  simp only [asUsize, roundAway, if_pos h, Int.floor_intCast]
  have : 0 ≤ ⌊-p + 1 / 2⌋ := Int.floor_nonneg.mpr (by linarith)
  omega

theorem le_asUsize {p : T} {n : Nat} (hn : 0 < n) (h : (n : T) - 1 / 2 ≤ p) : n ≤ asUsize (roundAway p) := by
  have h1 : (1 : T) ≤ n := by exact_mod_cast hn
  rw [roundAway_nonneg (by linarith)]
  simp only [asUsize, Int.floor_intCast]
  have : (n : Int) ≤ ⌊p + 1 / 2⌋ := by
    rw [Int.le_floor]
    push_cast
    linarith
  omega

/-! ### The value at a position of the table -/

section
variable [AddCommGroup α] [Module T α] (L : LookupTable T α)

theorem eval_at {x : T} {k : Nat} {y : α} (hk : L.table[k]? = some y)
    (h : |x / L.delta + (L.table.length / 2 : Nat) - (k : T)| < 1 / 1000000) : L.eval x = some y := by
  have hlt : k < L.table.length := by
    by_contra hn; rw [List.getElem?_eq_none (by omega)] at hk; cases hk
  have h' := abs_lt.mp h
  have hr := roundAway_near (p := x / L.delta + (L.table.length / 2 : Nat)) (k := k) (by linarith) (by linarith)
  unfold LookupTable.eval
  simp only [hr, asUsize_natCast]
  rw [if_neg (by omega), if_pos h]
  exact hk

theorem eval_between {x s : T} {k : Nat} {y0 y1 : α} (h0 : L.table[k]? = some y0) (h1 : L.table[k + 1]? = some y1)
    (hx : x / L.delta + (L.table.length / 2 : Nat) = k + s) (hs0 : 1 / 1000000 ≤ s) (hs1 : s ≤ 1 - 1 / 1000000) :
    L.eval x = some ((1 - s) • y0 + s • y1) := by
  have hlt : k + 1 < L.table.length := by
    by_contra hn; rw [List.getElem?_eq_none (by omega)] at h1; cases h1
  have hk0 : (0 : T) ≤ k := Nat.cast_nonneg k
  unfold LookupTable.eval
  simp only [hx]
  by_cases hh : s < 1 / 2
  · have hr := roundAway_near (p := (k : T) + s) (k := k) (by linarith) (by linarith)
    simp only [hr, asUsize_natCast]
    rw [if_neg (by omega), if_neg (by rw [add_sub_cancel_left, abs_of_nonneg (by linarith)]; linarith)]
    unfold linearBetweenBins
    rw [if_pos (by linarith), if_neg (by omega)]
    simp only [get, h0, h1, Option.bind_eq_bind, Option.bind_some]
    congr 1
    rw [add_sub_cancel_left]
    module
  · have hr := roundAway_half (p := (k : T) + s) (k := k + 1) (by push_cast; linarith) (by push_cast; linarith) (by linarith)
    simp only [hr, asUsize_natCast]
    rw [if_neg (by omega), if_neg (by
      push_cast
      rw [show (k : T) + s - (k + 1) = -(1 - s) by ring, abs_neg, abs_of_nonneg (by linarith)]; linarith)]
    unfold linearBetweenBins
    rw [if_neg (by push_cast; linarith), if_neg (by omega)]
    simp only [get, h0, h1, Option.bind_eq_bind, Option.bind_some, Nat.add_sub_cancel]
    congr 1
    push_cast
    rw [show (k : T) + 1 - (k + s) = 1 - s by ring]
    module

theorem eval_edge {x : T} {y : α} {k : Nat} (hk : k + 1 = L.table.length) (hy : L.table[k]? = some y)
    (h1 : (k : T) < x / L.delta + (L.table.length / 2 : Nat)) (h2 : x / L.delta + (L.table.length / 2 : Nat) < (k : T) + 1 / 2) :
    L.eval x = some y := by
  have hr := roundAway_near (p := x / L.delta + (L.table.length / 2 : Nat)) (k := k) (by linarith) (by linarith)
  unfold LookupTable.eval
  simp only [hr, asUsize_natCast]
  rw [if_neg (by omega)]
  split
  · exact hy
  · unfold linearBetweenBins
    rw [if_pos h1, if_pos (by omega)]
    exact hy

theorem eval_beyond {x : T} (h : (L.table.length : T) - 1 / 2 ≤ x / L.delta + (L.table.length / 2 : Nat)) : L.eval x = some 0 := by
  unfold LookupTable.eval
  simp only
  rw [if_pos]
  rcases Nat.eq_zero_or_pos L.table.length with h0 | h0
  · rw [h0]; exact Nat.zero_le _
  · exact le_asUsize h0 h

theorem eval_before {x : T} {y : α} (hy : L.table[0]? = some y) (h : x / L.delta + (L.table.length / 2 : Nat) < 0) :
    L.eval x = some y := by
  have hlt : 0 < L.table.length := by
    by_contra hn; rw [List.getElem?_eq_none (by omega)] at hy; cases hy
  unfold LookupTable.eval
  simp only [asUsize_negative h]
  rw [if_neg (by omega)]
  split
  · exact hy
  · unfold linearBetweenBins
    rw [if_neg (by push_cast; linarith), if_pos rfl]
    exact hy

end

/-- C65: a table made of raw parts keeps what it was given: its middle entry is the value at zero, the other entries are the values
    at the multiples of the sampling distance around it, and it is as symmetric as the caller says. -/
theorem C65_from_raw_parts [AddCommGroup α] [Module T α] (table : List α) {δ : T} (hδ : δ ≠ 0) (sym : Bool) :
    (∀ (i : Nat) (y : α), table[i]? = some y →
      (LookupTable.fromRawParts table δ sym).toConvFunction.eval (((i : T) - (table.length / 2 : Nat)) * δ) = some y) ∧
    (LookupTable.fromRawParts table δ sym).toConvFunction.isSymmetric = sym := by
  refine ⟨fun i y h => eval_at (LookupTable.fromRawParts table δ sym) (k := i) h ?_, rfl⟩
  show |_ * δ / δ + ((table.length / 2 : Nat) : T) - (i : T)| < 1 / 1000000
  rw [mul_div_cancel_right₀ _ hδ]
  norm_num

example : (LookupTable.fromRawParts [1, 5, 2] (1 / 2 : ℚ) true).toConvFunction.eval ((((2 : Nat) : ℚ) - (3 / 2 : Nat)) * (1 / 2)) = some (2 : ℚ) :=
  (C65_from_raw_parts [1, 5, 2] (δ := (1 / 2 : ℚ)) (by norm_num) true).1 2 2 rfl

/-! ### Tables of functions -/

omit [LinearOrder T] [IsStrictOrderedRing T] [FloorRing T] in
theorem fill_length (f : T → α) (d : T) (n : Nat) (i : Int) : (LookupTable.fill f d n i).length = n := by
  induction n generalizing i with
  | zero => rfl
  | succ n ih => simp [LookupTable.fill, ih]

omit [LinearOrder T] [IsStrictOrderedRing T] [FloorRing T] in
theorem fill_getElem? (f : T → α) (d : T) (n : Nat) (i : Int) (j : Nat) (h : j < n) :
    (LookupTable.fill f d n i)[j]? = some (f ((i + j : Int) * d)) := by
  induction n generalizing i j with
  | zero => omega
  | succ n ih =>
    cases j with
    | zero => simp [LookupTable.fill]
    | succ j =>
      simp only [LookupTable.fill, List.getElem?_cons_succ]
      rw [ih (i + 1) j (by omega)]
      congr 4
      push_cast
      ring

omit [LinearOrder T] [IsStrictOrderedRing T] [FloorRing T] in
/-- C65: a table made of a function has the values of the function at the multiples of `delta` from `-len` to `len`; the sampling
    distance and the symmetry are kept. -/
theorem C65_table (f : ConvFunction T α) (δ : T) (len : Nat) :
    (LookupTable.fromConvFunction f δ len).table.length = 2 * len + 1 ∧
    (∀ k : Int, -len ≤ k → k ≤ len → (LookupTable.fromConvFunction f δ len).table[(k + len).toNat]? = some (f.eval (k * δ))) ∧
    (LookupTable.fromConvFunction f δ len).delta = δ ∧
    (LookupTable.fromConvFunction f δ len).isSymmetric = f.isSymmetric := by
  refine ⟨fill_length _ _ _ _, fun k h1 h2 => ?_, rfl, rfl⟩
  simp only [LookupTable.fromConvFunction]
  rw [fill_getElem? _ _ _ _ _ (by omega)]
  rw [show (-(len : Int) + ((k + len).toNat : Nat)) = k by omega]

section
variable [AddCommGroup α] [Module T α] (f : ConvFunction T α) {δ : T} (len : Nat)

omit [LinearOrder T] [IsStrictOrderedRing T] [FloorRing T] [AddCommGroup α] [Module T α] in
theorem fromConvFunction_position (hδ : δ ≠ 0) (s : T) :
    s * δ / (LookupTable.fromConvFunction f δ len).delta + ((LookupTable.fromConvFunction f δ len).table.length / 2 : Nat) = s + len := by
  rw [(C65_table f δ len).1, (C65_table f δ len).2.2.1, mul_div_cancel_right₀ _ hδ]
  congr 2
  omega

omit [LinearOrder T] [IsStrictOrderedRing T] [FloorRing T] in
theorem cast_toNat (k : Int) (h : -(len : Int) ≤ k) : (((k + len).toNat : Nat) : T) = k + len := by
  have : (((k + len).toNat : Nat) : Int) = k + len := by omega
  calc (((k + len).toNat : Nat) : T) = ((((k + len).toNat : Nat) : Int) : T) := (Int.cast_natCast _).symm
    _ = k + len := by rw [this]; simp

/-- C65: at the multiples of the sampling distance (and closer than a millionth of it) the table gives the value of the function. -/
theorem C65_at_points (hδ : δ ≠ 0) (k : Int) (h1 : -(len : Int) ≤ k) (h2 : k ≤ len) (e : T) (he : |e| < 1 / 1000000) :
    (LookupTable.fromConvFunction f δ len).eval ((k + e) * δ) = some (f.eval (k * δ)) := by
  refine eval_at _ ((C65_table f δ len).2.1 k h1 h2) ?_
  rw [fromConvFunction_position f len hδ, cast_toNat len k h1]
  rw [show (k : T) + e + len - (k + len) = e by ring]
  exact he

/-- C65: between two multiples of the sampling distance the table gives the linear interpolation of the values of the function. -/
theorem C65_between (hδ : δ ≠ 0) (k : Int) (h1 : -(len : Int) ≤ k) (h2 : k < len) (s : T) (hs0 : 1 / 1000000 ≤ s)
    (hs1 : s ≤ 1 - 1 / 1000000) :
    (LookupTable.fromConvFunction f δ len).eval ((k + s) * δ) =
      some ((1 - s) • f.eval (k * δ) + s • f.eval ((k + 1 : Int) * δ)) := by
  refine eval_between _ (k := (k + len).toNat) ((C65_table f δ len).2.1 k h1 (by omega)) ?_ ?_ hs0 hs1
  · rw [show (k + len).toNat + 1 = (k + 1 + len).toNat by omega]
    exact (C65_table f δ len).2.1 (k + 1) (by omega) (by omega)
  · rw [fromConvFunction_position f len hδ, cast_toNat len k h1]
    ring

/-- C65: half a sampling distance behind the last value and further the table gives zero. -/
theorem C65_beyond (hδ : δ ≠ 0) (s : T) (hs : len + 1 / 2 ≤ s) : (LookupTable.fromConvFunction f δ len).eval (s * δ) = some 0 := by
  refine eval_beyond _ ?_
  rw [fromConvFunction_position f len hδ, (C65_table f δ len).1]
  push_cast
  linarith

/-- C65: closer than half a sampling distance behind the last value the table gives the last value. -/
theorem C65_edge (hδ : δ ≠ 0) (s : T) (h1 : len < s) (h2 : s < len + 1 / 2) :
    (LookupTable.fromConvFunction f δ len).eval (s * δ) = some (f.eval (len * δ)) := by
  have h := (C65_table f δ len).2.1 len (by omega) (by omega)
  rw [show ((len : Int) + len).toNat = 2 * len by omega] at h
  rw [show ((len : Int) : T) = len by simp] at h
  refine eval_edge _ (k := 2 * len) (by rw [(C65_table f δ len).1]) h ?_ ?_ <;>
    (rw [fromConvFunction_position f len hδ]; push_cast; linarith)

/-- C65, exact description before the first value: there the table gives the first value, how far away it ever is. -/
theorem C65_before (hδ : δ ≠ 0) (s : T) (h : s < -len) :
    (LookupTable.fromConvFunction f δ len).eval (s * δ) = some (f.eval (-(len * δ))) := by
  have h' := (C65_table f δ len).2.1 (-len) (by omega) (by omega)
  rw [show (-(len : Int) + len).toNat = 0 by omega] at h'
  rw [show ((-(len : Int) : Int) : T) * δ = -(len * δ) by simp] at h'
  refine eval_before _ h' ?_
  rw [fromConvFunction_position f len hδ]
  linarith

/-- C65 is violated before the first value: the table should be zero outside of its range as it is on the other side, but it
    continues with its first value for ever. -/
theorem C65_range_violated (hδ : δ ≠ 0) (hf : f.eval (-(len * δ)) ≠ 0) (s : T) (hs : len + 1 / 2 ≤ s) :
    (LookupTable.fromConvFunction f δ len).eval (s * δ) = some 0 ∧
    (LookupTable.fromConvFunction f δ len).eval (-s * δ) ≠ some 0 := by
  refine ⟨C65_beyond f len hδ s hs, ?_⟩
  rw [C65_before f len hδ (-s) (by linarith)]
  simpa using hf

/-- C65 is violated: the table of a symmetric function, which says that it is symmetric, is not symmetric. -/
theorem C65_symmetry_violated (hδ : δ ≠ 0) (hsym : f.isSymmetric = true) (heven : ∀ x, f.eval (-x) = f.eval x)
    (hf : f.eval (len * δ) ≠ 0) (s : T) (hs : len + 1 / 2 ≤ s) :
    (LookupTable.fromConvFunction f δ len).isSymmetric = true ∧
    (LookupTable.fromConvFunction f δ len).eval (-(s * δ)) ≠ (LookupTable.fromConvFunction f δ len).eval (s * δ) := by
  refine ⟨hsym, ?_⟩
  have := C65_range_violated f len hδ (by rw [heven]; exact hf) s hs
  rw [this.1, ← neg_mul]
  exact this.2

/-- C65, within its range the table of a symmetric function is symmetric. -/
theorem C65_symmetric_partial (hδ : δ ≠ 0) (heven : ∀ x, f.eval (-x) = f.eval x) (x : T)
    (hx : |x / δ| < len + 1 / 2) :
    (LookupTable.fromConvFunction f δ len).eval (-x) = (LookupTable.fromConvFunction f δ len).eval x := by
  have main : ∀ s : T, 0 ≤ s → s < len + 1 / 2 →
      (LookupTable.fromConvFunction f δ len).eval (-(s * δ)) = (LookupTable.fromConvFunction f δ len).eval (s * δ) := by
    intro s h0 h1
    by_cases hedge : (len : T) < s
    · rw [C65_edge f len hδ s hedge h1, ← neg_mul, C65_before f len hδ (-s) (by linarith), heven]
    · have hk0 : 0 ≤ ⌊s⌋ := Int.floor_nonneg.mpr h0
      have hk1 : ⌊s⌋ ≤ len := by
        have : (⌊s⌋ : T) ≤ (len : Int) := by push_cast; exact (Int.floor_le s).trans (not_lt.mp hedge)
        exact_mod_cast this
      obtain ⟨k, hk⟩ : ∃ k, ⌊s⌋ = k := ⟨_, rfl⟩
      have hlo := Int.floor_le s
      have hhi := Int.lt_floor_add_one s
      rw [hk] at hk0 hk1 hlo hhi
      have hlen : s ≤ len := not_lt.mp hedge
      by_cases hn : s - k < 1 / 1000000
      · have e1 := C65_at_points f len hδ k (by omega) hk1 (s - k) (by rw [abs_of_nonneg (by linarith)]; exact hn)
        have e2 := C65_at_points f len hδ (-k) (by omega) (by omega) (-(s - k)) (by rw [abs_neg, abs_of_nonneg (by linarith)]; exact hn)
        rw [show (k : T) + (s - k) = s by ring] at e1
        rw [show (((-k : Int) : T) + -(s - k)) * δ = -(s * δ) by push_cast; ring] at e2
        rw [e1, e2, show ((-k : Int) : T) * δ = -(k * δ) by push_cast; ring, heven]
      · have hlt : k < len := by
          rcases lt_or_eq_of_le hk1 with h | h
          · exact h
          · exfalso
            have : (k : T) = len := by rw [h]; simp
            have := not_lt.mp hn
            linarith
        by_cases hn2 : 1 - 1 / 1000000 < s - k
        · have e1 := C65_at_points f len hδ (k + 1) (by omega) (by omega) (s - (k + 1))
            (by rw [abs_lt]; constructor <;> linarith)
          have e2 := C65_at_points f len hδ (-(k + 1)) (by omega) (by omega) (-(s - (k + 1)))
            (by rw [abs_neg, abs_lt]; constructor <;> linarith)
          rw [show ((k + 1 : Int) : T) + (s - (k + 1)) = s by push_cast; ring] at e1
          rw [show (((-(k + 1) : Int) : T) + -(s - (k + 1))) * δ = -(s * δ) by push_cast; ring] at e2
          rw [e1, e2, show ((-(k + 1) : Int) : T) * δ = -((k + 1 : Int) * δ) by push_cast; ring, heven]
        · have e1 := C65_between f len hδ k (by omega) hlt (s - k) (not_lt.mp hn) (not_lt.mp hn2)
          have e2 := C65_between f len hδ (-(k + 1)) (by omega) (by omega) (1 - (s - k)) (by linarith) (by linarith)
          rw [show (k : T) + (s - k) = s by ring] at e1
          rw [show (((-(k + 1) : Int) : T) + (1 - (s - k))) * δ = -(s * δ) by push_cast; ring] at e2
          rw [e1, e2, show ((-(k + 1) : Int) : T) * δ = -((k + 1 : Int) * δ) by push_cast; ring, heven,
            show ((-(k + 1) + 1 : Int) : T) * δ = -(k * δ) by push_cast; ring, heven]
          congr 1
          module
  have hx' := abs_lt.mp hx
  rcases le_total 0 (x / δ) with h | h
  · have := main (x / δ) h hx'.2
    rwa [div_mul_cancel₀ _ hδ] at this
  · have := main (-(x / δ)) (by linarith) (by linarith)
    rw [neg_mul, div_mul_cancel₀ _ hδ, neg_neg] at this
    exact this.symm

end

omit [IsStrictOrderedRing T] in
/-- C65: a table never panics, whatever its contents and its sampling distance are. -/
theorem C65_total [AddCommGroup α] [Module T α] (L : LookupTable T α) (x : T) : ∃ y, L.eval x = some y := by
  have hget : ∀ i < L.table.length, ∃ y, get L.table i = some y := fun i hi => ⟨_, List.getElem?_eq_getElem hi⟩
  unfold LookupTable.eval
  simp only
  split
  · exact ⟨_, rfl⟩
  · rename_i h
    have h := not_le.mp h
    split
    · exact hget _ h
    · unfold linearBetweenBins
      split
      · split
        · exact hget _ h
        · rename_i h2
          obtain ⟨a, ha⟩ := hget _ h
          obtain ⟨b, hb⟩ := hget _ (not_le.mp h2)
          simp [ha, hb]
      · split
        · exact hget _ h
        · obtain ⟨a, ha⟩ := hget _ h
          obtain ⟨b, hb⟩ := hget (asUsize (roundAway (x / L.delta + (L.table.length / 2 : Nat))) - 1) (by omega)
          simp [ha, hb]

/-- C65: within its range a table of a function with the Lipschitz constant `c` is wrong by at most `c * |delta| / 2`. -/
theorem C65_accuracy (f : ConvFunction T T) {δ : T} (hδ : δ ≠ 0) (len : Nat) (c : T)
    (hc : ∀ x y, |f.eval x - f.eval y| ≤ c * |x - y|) (x : T) (hx : |x / δ| ≤ len) :
    ∃ y, (LookupTable.fromConvFunction f δ len).eval x = some y ∧ |y - f.eval x| ≤ c * |δ| / 2 := by
  obtain ⟨s, hs⟩ : ∃ s, x / δ = s := ⟨_, rfl⟩
  have hxs : x = s * δ := by rw [← hs, div_mul_cancel₀ _ hδ]
  rw [hs] at hx
  subst hxs
  have hx' := abs_le.mp hx
  have hδ0 : 0 < |δ| := abs_pos.mpr hδ
  have hc0 : 0 ≤ c := by
    have := hc 1 0
    rw [sub_zero, abs_one, mul_one] at this
    exact (abs_nonneg _).trans this
  have hk1 : -(len : Int) ≤ ⌊s⌋ := by rw [Int.le_floor]; push_cast; exact hx'.1
  have hk2 : ⌊s⌋ ≤ len := by
    have : (⌊s⌋ : T) ≤ (len : Int) := by push_cast; exact (Int.floor_le s).trans hx'.2
    exact_mod_cast this
  have hlo := Int.floor_le s
  have hhi := Int.lt_floor_add_one s
  generalize hk : ⌊s⌋ = k at *
  have near : ∀ (m : Int) , |s - m| < 1 / 1000000 → |f.eval (m * δ) - f.eval (s * δ)| ≤ c * |δ| / 2 := by
    intro m hm
    refine (hc _ _).trans ?_
    rw [← sub_mul, abs_mul, abs_sub_comm]
    have : |s - m| * |δ| ≤ 1 / 2 * |δ| := mul_le_mul_of_nonneg_right (by linarith) hδ0.le
    calc c * (|s - m| * |δ|) ≤ c * (1 / 2 * |δ|) := mul_le_mul_of_nonneg_left this hc0
      _ = c * |δ| / 2 := by ring
  by_cases hn : s - k < 1 / 1000000
  · have hh : |s - k| < 1 / 1000000 := by rw [abs_of_nonneg (by linarith)]; exact hn
    have e1 := C65_at_points f len hδ k hk1 hk2 (s - k) hh
    rw [show (k : T) + (s - k) = s by ring] at e1
    exact ⟨_, e1, near k hh⟩
  · have hlt : k < len := by
      rcases lt_or_eq_of_le hk2 with h | h
      · exact h
      · exfalso
        have : (k : T) = len := by rw [h]; simp
        have := not_lt.mp hn
        linarith
    by_cases hn2 : 1 - 1 / 1000000 < s - k
    · have hh : |s - ((k + 1 : Int) : T)| < 1 / 1000000 := by rw [abs_lt]; push_cast; constructor <;> linarith
      have e1 := C65_at_points f len hδ (k + 1) (by omega) (by omega) (s - (k + 1 : Int)) hh
      rw [show ((k + 1 : Int) : T) + (s - (k + 1 : Int)) = s by ring] at e1
      exact ⟨_, e1, near (k + 1) hh⟩
    · have e1 := C65_between f len hδ k hk1 hlt (s - k) (not_lt.mp hn) (not_lt.mp hn2)
      rw [show (k : T) + (s - k) = s by ring] at e1
      refine ⟨_, e1, ?_⟩
      generalize ht : s - k = t at *
      have ht0 := not_lt.mp hn
      have ht1 := not_lt.mp hn2
      have b0 : |f.eval (k * δ) - f.eval (s * δ)| ≤ c * (t * |δ|) := by
        refine (hc _ _).trans (le_of_eq ?_)
        rw [← sub_mul, abs_mul, abs_sub_comm, ht, abs_of_nonneg (by linarith)]
      have b1 : |f.eval ((k + 1 : Int) * δ) - f.eval (s * δ)| ≤ c * ((1 - t) * |δ|) := by
        refine (hc _ _).trans (le_of_eq ?_)
        rw [← sub_mul, abs_mul, show ((k + 1 : Int) : T) - s = 1 - t by push_cast; rw [← ht]; ring, abs_of_nonneg (by linarith)]
      have key : (1 - t) • f.eval (k * δ) + t • f.eval ((k + 1 : Int) * δ) - f.eval (s * δ) =
          (1 - t) * (f.eval (k * δ) - f.eval (s * δ)) + t * (f.eval ((k + 1 : Int) * δ) - f.eval (s * δ)) := by
        simp only [smul_eq_mul]; ring
      rw [key]
      refine (abs_add_le _ _).trans ?_
      rw [abs_mul, abs_mul, abs_of_nonneg (show 0 ≤ 1 - t by linarith), abs_of_nonneg (show 0 ≤ t by linarith)]
      have m0 := mul_le_mul_of_nonneg_left b0 (show 0 ≤ 1 - t by linarith)
      have m1 := mul_le_mul_of_nonneg_left b1 (show 0 ≤ t by linarith)
      have hq : t * (1 - t) ≤ 1 / 4 := by nlinarith [sq_nonneg (t - 1 / 2)]
      have hcd : 0 ≤ c * |δ| := mul_nonneg hc0 hδ0.le
      nlinarith [mul_le_mul_of_nonneg_right hq hcd]

end

/-! ### Examples -/

/-- A function with a peak at zero. -/
def peak : ConvFunction ℚ ℚ := ⟨true, fun x => 2 - |x|⟩

example : ((1 : ℚ) / 2 ≠ 0) ∧ (∀ x, peak.eval (-x) = peak.eval x) ∧ peak.isSymmetric = true ∧ peak.eval ((3 : Nat) * (1 / 2)) ≠ 0 ∧
    (∀ x y, |peak.eval x - peak.eval y| ≤ 1 * |x - y|) ∧ |(5 / 4 : ℚ) / (1 / 2)| ≤ (3 : Nat) := by
  refine ⟨by norm_num, fun x => by simp [peak], rfl, by norm_num [peak], fun x y => ?_, by norm_num⟩
  simp only [peak, one_mul]
  rw [show 2 - |x| - (2 - |y|) = |y| - |x| by ring, abs_sub_comm x y]
  exact abs_abs_sub_abs_le _ _

/-- The table of this function, and values at 1.25 (between two values), -5 and 5 (outside). -/
example : (LookupTable.fromConvFunction peak (1 / 2) 3).table = [1 / 2, 1, 3 / 2, 2, 3 / 2, 1, 1 / 2] ∧
    (LookupTable.fromConvFunction peak (1 / 2) 3).eval (5 / 4) = some (3 / 4) ∧
    (LookupTable.fromConvFunction peak (1 / 2) 3).eval (-5) = some (1 / 2) ∧
    (LookupTable.fromConvFunction peak (1 / 2) 3).eval 5 = some 0 := by
  refine ⟨by decide +kernel, by decide +kernel, by decide +kernel, by decide +kernel⟩

/-- A complex function. -/
example : (LookupTable.fromConvFunction (⟨false, fun x => ⟨x, 1⟩⟩ : ConvFunction ℚ (Cx ℚ)) (1 / 2) 1).eval (1 / 4) = some ⟨1 / 4, 1⟩ := by
  decide +kernel

end Dsp
