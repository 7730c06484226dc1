import Verif.Spec.Wrap
import Verif.Props.RealOps
import Mathlib.Tactic.LinearCombination
/-
C33: `wrap` and `unwrap` for all sequences and all divisors.
-/
namespace Dsp
open DspVec
variable {T : Type} [Field T] [LinearOrder T] [IsStrictOrderedRing T] [FloorRing T]

theorem remTrunc_wrapped (x d : T) : remTrunc x d = wrapped d x := by
  unfold remTrunc wrapped
  rcases lt_trichotomy d 0 with hd | rfl | hd
  · rcases lt_trichotomy x 0 with hx | rfl | hx
    · rw [if_pos hx, if_pos (div_nonneg_of_nonpos hx.le hd.le), abs_of_neg hx, abs_of_neg hd, neg_div_neg_eq]; ring
    · simp
    · rw [if_neg (not_lt.2 hx.le), if_neg (not_le.2 (div_neg_of_pos_of_neg hx hd)), abs_of_pos hx, abs_of_neg hd, div_neg, Int.floor_neg]
      push_cast; ring
  · simp only [div_zero, le_refl, if_true, Int.floor_zero, Int.cast_zero, mul_zero, sub_zero, abs_zero]
    split
    · rename_i h; rw [abs_of_neg h]; ring
    · rename_i h; rw [abs_of_nonneg (not_lt.1 h)]
  · rcases lt_trichotomy x 0 with hx | rfl | hx
    · rw [if_pos hx, if_neg (not_le.2 (div_neg_of_neg_of_pos hx hd)), abs_of_neg hx, abs_of_pos hd, neg_div, Int.floor_neg]
      push_cast; ring
    · simp
    · rw [if_neg (not_lt.2 hx.le), if_pos (div_nonneg hx.le hd.le), abs_of_pos hx, abs_of_pos hd]

theorem unwrapStep_eq (d p c : T) : unwrapStep d p c = unwrapNext d p c := by
  unfold unwrapStep unwrapNext
  simp only [remTrunc_wrapped, gt_iff_lt]
  split
  · ring
  · split
    · ring
    · rfl

/-- C33: `wrap(d)` replaces every number of a real vector by the remainder of the division by `d`, for all settings and schedules. -/
theorem C33_wrap (d : T) (st : MultiCoreSettings) (v : DspVec T) (hv : v.WF) (hr : v.isComplex = false) (x : List T)
    (h : v.content = some x) : ∃ w, Always (v.wrap d st) w ∧ Replaced v w (x.map (wrapped d)) := by
  obtain ⟨a, w, h1, h2, h3⟩ := pureReal_always .small (fun y => remTrunc y d) st v hv (.inr (small_empty st))
  rw [h] at h1; cases h1
  refine ⟨w, h2.congr fun s => by unfold wrap; rw [hr]; rfl, ?_⟩
  simpa only [remTrunc_wrapped] using h3

omit [FloorRing T] in
private theorem quotient_bounds [FloorRing T] {a b : T} (hb : 0 < b) :
    0 ≤ a - b * (⌊a / b⌋ : Int) ∧ a - b * (⌊a / b⌋ : Int) < b := by
  have h1 := Int.floor_le (a / b)
  have h2 := Int.lt_floor_add_one (a / b)
  rw [le_div_iff₀ hb] at h1
  rw [div_lt_iff₀ hb] at h2
  constructor <;> nlinarith

/-- C33, what the remainder is: below the divisor in magnitude, of the same sign as the number (or zero), and different from the number by a
    multiple of the divisor. -/
theorem C33_wrap_remainder (d x : T) (hd : d ≠ 0) :
    |wrapped d x| < |d| ∧ 0 ≤ x * wrapped d x ∧ ∃ k : Int, x = wrapped d x + d * k := by
  obtain ⟨b1, b2⟩ := quotient_bounds (a := |x|) (abs_pos.2 hd)
  refine ⟨?_, ?_, ?_⟩
  · unfold wrapped
    split
    · rw [abs_neg, abs_of_nonneg b1]; exact b2
    · rw [abs_of_nonneg b1]; exact b2
  · unfold wrapped
    split
    · rename_i h; nlinarith
    · rename_i h; exact mul_nonneg (not_lt.1 h) b1
  · refine ⟨wraps x d, ?_⟩
    rw [← remTrunc_wrapped, remTrunc_eq]; ring

omit [IsStrictOrderedRing T] in
@[simp] theorem unwrapFrom_length (d : T) (l : List T) (p : T) : (unwrapFrom d p l).length = l.length := by
  induction l generalizing p with
  | nil => rfl
  | cons c l ih => simp [unwrapFrom, ih]

omit [IsStrictOrderedRing T] in
@[simp] theorem unwrapped_length (d : T) (l : List T) : (unwrapped d l).length = l.length := by
  cases l <;> simp [unwrapped]

omit [IsStrictOrderedRing T] in
theorem unwrapFrom_next (d : T) (l : List T) (p : T) (j : Nat) (c : T) (h : l[j]? = some c) :
    ∃ q, (p :: unwrapFrom d p l)[j]? = some q ∧ (p :: unwrapFrom d p l)[j + 1]? = some (unwrapNext d q c) := by
  induction l generalizing p j with
  | nil => simp at h
  | cons x l ih =>
    cases j with
    | zero => simp at h; subst h; exact ⟨p, rfl, rfl⟩
    | succ j =>
      obtain ⟨q, h1, h2⟩ := ih (unwrapNext d p x) j (by simpa using h)
      exact ⟨q, by simpa [unwrapFrom] using h1, by simpa [unwrapFrom] using h2⟩

omit [IsStrictOrderedRing T] in
/-- Every number is unwrapped behind the one before it. -/
theorem unwrapped_next (d : T) (l : List T) (j : Nat) (c : T) (h : l[j + 1]? = some c) :
    ∃ q, (unwrapped d l)[j]? = some q ∧ (unwrapped d l)[j + 1]? = some (unwrapNext d q c) := by
  cases l with
  | nil => simp at h
  | cons x l => exact unwrapFrom_next d l x j c (by simpa using h)

/-- C33: `unwrap(d)` of a real vector: the first number stays, every other one is unwrapped behind the result for the one before
    it; nothing else changes. -/
theorem C33_unwrap (d : T) (v : DspVec T) (hr : v.isComplex = false) (x : List T) (h : v.content = some x) :
    ∃ w, v.unwrap d = some w ∧ Replaced v w (unwrapped d x) := by
  obtain ⟨⟨rest, hcells⟩, hlen⟩ := cells_of_content h
  have hinv := forRange_inv (P := fun j data => data = ((unwrapped d x).take j ++ x.drop j) ++ rest)
    (fun j data => do
      let cur ← get data j
      let prev ← get data (j - 1)
      put data j (unwrapStep d prev cur)) 1 (v.len - 1) v.data.cells ?_ ?_
  · obtain ⟨data, e1, e2⟩ := hinv
    refine ⟨v.withCells data, ?_, ?_⟩
    · unfold DspVec.unwrap
      rw [hr]
      simp only [Bool.false_eq_true, if_false]
      rw [e1]; rfl
    · have e3 : data = unwrapped d x ++ rest := by
        rw [e2]
        by_cases h0 : x.length = 0
        · rw [List.length_eq_zero_iff] at h0
          subst h0; simp
        · have : 1 + (v.len - 1) = x.length := by rw [len, hlen]; omega
          rw [this, List.take_of_length_le (by simp), List.drop_of_length_le (by simp)]
          simp
      refine ⟨?_, rfl, ⟨rfl, rfl, rfl, rfl⟩, ?_, ?_⟩
      · unfold content withCells slice
        simp only
        rw [if_pos ⟨by omega, by rw [e3, hlen]; simp⟩]
        rw [e3, hlen]; simp
      · show data.length = v.data.cells.length
        rw [e3, hcells]; simp
      · show data.drop v.validLen = v.data.cells.drop v.validLen
        rw [e3, hcells, hlen, List.drop_append, List.drop_append]
        simp
  · show v.data.cells = _
    rw [hcells]
    cases x <;> simp [unwrapped]
  · rintro j data hj1 hj2 rfl
    have hj : j < x.length := by rw [len, hlen] at hj2; omega
    obtain ⟨i, rfl⟩ : ∃ i, j = i + 1 := ⟨j - 1, by omega⟩
    have hb : x[i + 1]? = some x[i + 1] := List.getElem?_eq_getElem hj
    obtain ⟨q, q1, q2⟩ := unwrapped_next d x i _ hb
    have hlt : ((unwrapped d x).take (i + 1)).length = i + 1 := by simp; omega
    have g1 : get (((unwrapped d x).take (i + 1) ++ x.drop (i + 1)) ++ rest) (i + 1) = some x[i + 1] := by
      unfold get
      rw [List.append_assoc, List.getElem?_append_right (by omega), hlt, Nat.sub_self, List.getElem?_append_left (by simp; omega)]
      simp [hb]
    have g2 : get (((unwrapped d x).take (i + 1) ++ x.drop (i + 1)) ++ rest) i = some q := by
      unfold get
      rw [List.append_assoc, List.getElem?_append_left (by omega), List.getElem?_take_of_lt (by omega)]
      exact q1
    refine ⟨_, ?_, rfl⟩
    simp only [Nat.add_sub_cancel, g1, g2, Option.bind_eq_bind, Option.bind_some, unwrapStep_eq]
    unfold put
    rw [if_pos (by simp; omega)]
    congr 1
    rw [List.append_assoc, List.set_append_right _ _ (by omega), hlt, Nat.sub_self, List.take_add_one (l := unwrapped d x) (i := i + 1), q2,
      List.drop_eq_getElem_cons hj]
    simp only [List.cons_append, List.set_cons_zero, Option.toList_some, List.append_assoc, List.nil_append]

/-- C33, for all sequences: every number of the result differs from the number in the sequence by a multiple of the divisor, and two
    neighbours in the result differ by not more than the divisor. -/
theorem C33_unwrap_steps (d : T) (hd : 0 < d) (x : List T) :
    (∀ (i : Nat) (a b : T), x[i]? = some a → (unwrapped d x)[i]? = some b → ∃ k : Int, b = a + d * k) ∧
    ∀ (i : Nat) (a b : T), (unwrapped d x)[i]? = some a → (unwrapped d x)[i + 1]? = some b → |b - a| ≤ d := by
  constructor
  · intro i a b ha hb
    cases i with
    | zero =>
      cases x with
      | nil => simp at ha
      | cons y l =>
        simp only [unwrapped, List.getElem?_cons_zero, Option.some.injEq] at ha hb
        exact ⟨0, by rw [← ha, ← hb]; simp⟩
    | succ i =>
      obtain ⟨q, q1, q2⟩ := unwrapped_next d x i a ha
      rw [hb, Option.some.injEq] at q2
      obtain ⟨-, -, k, hk⟩ := C33_wrap_remainder d (a - q) hd.ne'
      rw [q2]
      unfold unwrapNext
      split
      · exact ⟨-k - 1, by push_cast; linear_combination -hk⟩
      · split
        · exact ⟨-k + 1, by push_cast; linear_combination -hk⟩
        · exact ⟨0, by simp⟩
  · intro i a b ha hb
    have hi : i + 1 < x.length := by
      by_contra hc
      rw [List.getElem?_eq_none (by simp; omega)] at hb; cases hb
    obtain ⟨q, q1, q2⟩ := unwrapped_next d x i x[i + 1] (List.getElem?_eq_getElem hi)
    rw [ha] at q1; cases q1
    rw [hb, Option.some.injEq] at q2
    obtain ⟨w1, w2, -⟩ := C33_wrap_remainder d (x[i + 1] - a) hd.ne'
    rw [abs_of_pos hd] at w1
    obtain ⟨w3, w4⟩ := abs_lt.1 w1
    rw [q2]
    unfold unwrapNext
    split
    · rename_i hs
      have : 0 ≤ wrapped d (x[i + 1] - a) := by
        by_contra hc
        have : 0 < x[i + 1] - a := by linarith
        nlinarith
      rw [abs_le]; constructor <;> linarith
    · split
      · rename_i hs
        have : wrapped d (x[i + 1] - a) ≤ 0 := by
          by_contra hc
          have : x[i + 1] - a < 0 := by linarith
          nlinarith
        rw [abs_le]; constructor <;> linarith
      · rw [abs_le]; constructor <;> linarith

/-- A step down, a step of more than one divisor and negative numbers. -/
example : unwrapped (1 : ℚ) [0, 3 / 4, -1 / 2, 9 / 4] = [0, -1 / 4, -1 / 2, -3 / 4] ∧ wrapped (-1 : ℚ) (-9 / 4) = -1 / 4 := by
  decide +kernel

end Dsp
