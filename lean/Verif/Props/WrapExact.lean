import Verif.Props.Wrap

/-! C33: exactly which sequences are restored by `unwrap` after `wrap`. -/

namespace Dsp
open DspVec
variable {T : Type} [Field T] [LinearOrder T] [IsStrictOrderedRing T] [FloorRing T]

/-- Specification: the step `δ` to an element which lies `m` periods above the first one is unwrapped correctly. -/
def StepRestored (d : T) (m : Int) (δ : T) : Prop :=
  (m = 0 ∧ -(d / 2) ≤ δ ∧ δ ≤ d / 2) ∨
  (m = 1 ∧ 0 < δ ∧ δ < d / 2) ∨ (2 ≤ m ∧ 0 < δ ∧ δ ≤ d) ∨
  (m = -1 ∧ -(d / 2) < δ ∧ δ < 0) ∨ (m ≤ -2 ∧ -d ≤ δ ∧ δ < 0)

theorem remTrunc_range_pos {x d : T} (hd : 0 < d) (hx : 0 ≤ x) : 0 ≤ remTrunc x d ∧ remTrunc x d < d := by
  obtain ⟨h1, h2, -⟩ := C33_wrap_remainder d x hd.ne'
  rw [abs_of_pos hd] at h1
  rw [remTrunc_wrapped]
  refine ⟨?_, lt_of_le_of_lt (le_abs_self _) h1⟩
  unfold wrapped
  rw [if_neg (not_lt.2 hx), abs_of_nonneg hx, abs_of_pos hd]
  have := Int.floor_le (x / d)
  have : d * (⌊x / d⌋ : T) ≤ d * (x / d) := mul_le_mul_of_nonneg_left this hd.le
  rw [mul_div_cancel₀ x hd.ne'] at this
  linarith

theorem remTrunc_neg_arg {x d : T} : remTrunc (-x) d = - remTrunc x d := by
  rcases eq_or_ne x 0 with rfl | hx
  · unfold remTrunc; simp
  · rw [remTrunc_wrapped, remTrunc_wrapped]
    unfold wrapped
    rcases lt_or_gt_of_ne hx with h | h
    · rw [if_neg (by linarith), if_pos h, abs_neg]; ring
    · rw [if_pos (by linarith), if_neg (by linarith), abs_neg]

/-- One step of `unwrap`: exactly when it is right. -/
theorem unwrapStep_right_iff {d prev δ : T} (hd : 0 < d) (m : Int) :
    unwrapStep d prev (prev + δ - d * m) = prev + δ ↔ StepRestored d m δ := by
  unfold unwrapStep
  have e : prev + δ - d * (m : T) - prev = δ - d * m := by ring
  simp only [e]
  -- products with whole numbers
  have up : ∀ k : Int, k ≤ m → d * (k : T) ≤ d * m := fun k hk =>
    mul_le_mul_of_nonneg_left (by exact_mod_cast hk) hd.le
  have dn : ∀ k : Int, m ≤ k → d * (m : T) ≤ d * k := fun k hk =>
    mul_le_mul_of_nonneg_left (by exact_mod_cast hk) hd.le
  by_cases hA : δ - d * m > d / 2
  · rw [if_pos hA]
    obtain ⟨r1, r2⟩ := remTrunc_range_pos (x := δ - d * m) hd (by linarith)
    constructor
    · intro h
      have hr : remTrunc (δ - d * m) d = δ + d := by linarith
      have hm : m ≤ -1 := by
        by_contra hc
        have := up 0 (by omega)
        simp at this
        linarith
      rcases eq_or_lt_of_le hm with rfl | hm
      · refine .inr (.inr (.inr (.inl ⟨rfl, ?_, by linarith⟩)))
        push_cast at hA; linarith
      · exact .inr (.inr (.inr (.inr ⟨by omega, by linarith, by linarith⟩)))
    · rintro (⟨rfl, h1, h2⟩ | ⟨rfl, h1, h2⟩ | ⟨hm, h1, h2⟩ | ⟨rfl, h1, h2⟩ | ⟨hm, h1, h2⟩)
      · simp at hA; linarith
      · simp at hA; linarith
      · have := up 2 hm; push_cast at this; linarith
      · rw [remTrunc_pos hd 0 (by omega) (e := δ + d) (by linarith) (by linarith) (by push_cast; ring)]; ring
      · rw [remTrunc_pos hd (-1 - m) (by omega) (e := δ + d) (by linarith) (by linarith) (by push_cast; ring)]; ring
  · rw [if_neg hA]
    by_cases hB : δ - d * m < -(d / 2)
    · rw [if_pos hB]
      obtain ⟨r1, r2⟩ := remTrunc_range_pos (x := -(δ - d * m)) hd (by linarith)
      rw [remTrunc_neg_arg] at r1 r2
      constructor
      · intro h
        have hr : remTrunc (δ - d * m) d = δ - d := by linarith
        have hm : 1 ≤ m := by
          by_contra hc
          have := dn 0 (by omega)
          simp at this
          linarith
        rcases eq_or_lt_of_le hm with rfl | hm
        · refine .inr (.inl ⟨rfl, by linarith, ?_⟩)
          push_cast at hB; linarith
        · exact .inr (.inr (.inl ⟨by omega, by linarith, by linarith⟩))
      · rintro (⟨rfl, h1, h2⟩ | ⟨rfl, h1, h2⟩ | ⟨hm, h1, h2⟩ | ⟨rfl, h1, h2⟩ | ⟨hm, h1, h2⟩)
        · simp at hB; linarith
        · rw [remTrunc_neg hd 0 (by omega) (e := δ - d) (by linarith) (by linarith) (by push_cast; ring)]; ring
        · rw [remTrunc_neg hd (1 - m) (by omega) (e := δ - d) (by linarith) (by linarith) (by push_cast; ring)]; ring
        · simp at hB; linarith
        · have := dn (-2) hm; push_cast at this; linarith
    · rw [if_neg hB]
      constructor
      · intro h
        have h0 : d * (m : T) = 0 := by linarith
        have : (m : T) = 0 := (mul_eq_zero.mp h0).resolve_left hd.ne'
        have hm : m = 0 := by exact_mod_cast this
        subst hm
        simp at hA hB
        exact .inl ⟨rfl, by linarith, by linarith⟩
      · rintro (⟨rfl, h1, h2⟩ | ⟨rfl, h1, h2⟩ | ⟨hm, h1, h2⟩ | ⟨rfl, h1, h2⟩ | ⟨hm, h1, h2⟩)
        · simp
        · simp at hB; linarith
        · have := up 2 hm; push_cast at this; linarith
        · simp at hA; linarith
        · have := dn (-2) hm; push_cast at this; linarith

/-- C33: `unwrap(d)` after `wrap(d)` restores a sequence up to the multiple of `d` in its first element **if and only
    if** every step is as in `StepRestored`: at most half of the divisor to elements in the period of the first
    element; away from it (and below half of the divisor) to elements in the two neighbouring periods; away from it
    and at most the divisor to all others. -/
theorem C33_restores_iff (d : T) (hd : 0 < d) (st : MultiCoreSettings) (v : DspVec T) (hv : v.WF)
    (hr : v.isComplex = false) (x : List T) (h : v.content = some x) :
    ∃ w u, Always (v.wrap d st) w ∧ w.unwrap d = some u ∧
      (Replaced v u (x.map (· - d * (wraps (x.headD 0) d : T))) ↔
        ∀ (j : Nat) (a b : T), x[j]? = some a → x[j + 1]? = some b →
          StepRestored d (wraps b d - wraps (x.headD 0) d) (b - a)) := by
  obtain ⟨w, h1, h2⟩ := C33_wrap d st v hv hr x h
  obtain ⟨r1, r2, r3, r4, r5⟩ := h2
  have hcw : w.isComplex = false := by unfold isComplex; rw [r3.2.2.1]; exact hr
  obtain ⟨u, u1, u2⟩ := C33_unwrap d w hcw _ r1
  refine ⟨w, u, h1, u1, ?_⟩
  have hiff : Replaced v u (x.map (· - d * (wraps (x.headD 0) d : T))) ↔
      unwrapped d (x.map (wrapped d)) = x.map (· - d * (wraps (x.headD 0) d : T)) := by
    obtain ⟨q1, q2, q3, q4, q5⟩ := u2
    constructor
    · rintro ⟨p1, -⟩
      rw [q1] at p1; exact Option.some.inj p1
    · intro he
      refine ⟨by rw [q1, he], q2.trans r2, ?_, q4.trans r4, ?_⟩
      · exact ⟨q3.1.trans r3.1, q3.2.1.trans r3.2.1, q3.2.2.1.trans r3.2.2.1, q3.2.2.2.trans r3.2.2.2⟩
      · rw [r2] at q5; rw [q5, r5]
  rw [hiff]
  set c := d * (wraps (x.headD 0) d : T) with hc
  -- one step
  have hone : ∀ (a b : T), unwrapNext d (a - c) (wrapped d b) = b - c ↔
      StepRestored d (wraps b d - wraps (x.headD 0) d) (b - a) := by
    intro a b
    rw [← unwrapStep_right_iff hd (prev := a - c), ← unwrapStep_eq, ← remTrunc_wrapped, remTrunc_eq]
    have e1 : a - c + (b - a) - d * ((wraps b d - wraps (x.headD 0) d : Int) : T) = b - d * (wraps b d : T) := by
      rw [hc]; push_cast; ring
    have e2 : a - c + (b - a) = b - c := by ring
    rw [e1, e2]
  constructor
  · intro he j a b ha hb
    obtain ⟨q, y1, y2⟩ := unwrapped_next d (x.map (wrapped d)) j (wrapped d b) (by simp [hb])
    rw [he] at y1 y2
    simp only [List.getElem?_map, ha, hb, Option.map_some, Option.some.injEq] at y1 y2
    rw [← hone, y1, ← y2]
  · intro hs
    apply List.ext_getElem?
    intro i
    induction i with
    | zero =>
      cases x with
      | nil => simp [unwrapped]
      | cons x0 xs =>
        simp only [List.map_cons, unwrapped, List.getElem?_cons_zero, Option.some.injEq]
        rw [← remTrunc_wrapped, remTrunc_eq, hc]; rfl
    | succ j ih =>
      by_cases hj : j + 1 < x.length
      · have ha : x[j]? = some x[j] := List.getElem?_eq_getElem (by omega)
        have hb : x[j + 1]? = some x[j + 1] := List.getElem?_eq_getElem hj
        obtain ⟨q, y1, y2⟩ := unwrapped_next d (x.map (wrapped d)) j (wrapped d x[j + 1]) (by simp [hb])
        rw [ih] at y1
        simp only [List.getElem?_map, ha, Option.map_some, Option.some.injEq] at y1
        rw [y2, List.getElem?_map, hb, Option.map_some, ← y1, (hone _ _).mpr (hs j _ _ ha hb)]
      · rw [List.getElem?_eq_none (by simp; omega), List.getElem?_eq_none (by simp; omega)]

/-- Both cases occur: steps of four fifths of the divisor are restored beyond the second period only. -/
example : StepRestored (5 : ℚ) 2 4 ∧ ¬ StepRestored (5 : ℚ) 1 4 ∧ ¬ StepRestored (5 : ℚ) 1 0 := by
  norm_num [StepRestored]

end Dsp
