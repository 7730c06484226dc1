import Verif.Model.Interp
import Verif.Spec.View
import Verif.Lemmas.Pts
import Verif.Lemmas.Pad
/-
C41: decimation.
-/
namespace Dsp
open DspVec
variable {α T : Type}

/-- The loop of `decimatei`. -/
theorem decimateLoop_spec (k d : Nat) (hk : 1 ≤ k) (orig : List α) (fuel : Nat) :
    ∀ (j : Nat) (data : List α), data.length = orig.length → (j ≠ 0 → d + (j - 1) * k < orig.length) →
      orig.length < j + fuel → (∀ t < j, data[t]? = orig[d + t * k]?) →
      (∀ t, j ≤ t → data[t]? = orig[t]?) →
      ∃ data' j', decimateLoop k fuel (d + j * k) j data = some (data', j') ∧
        data'.length = orig.length ∧ orig.length ≤ d + j' * k ∧ (j' ≠ 0 → d + (j' - 1) * k < orig.length) ∧
        (∀ t < j', data'[t]? = orig[d + t * k]?) ∧ (∀ t, j' ≤ t → data'[t]? = orig[t]?) := by
  induction fuel with
  | zero =>
    intro j data h1 h0 h2
    have := h0 (by omega)
    have : j - 1 ≤ (j - 1) * k := Nat.le_mul_of_pos_right _ hk
    omega
  | succ f ih =>
    intro j data h1 h0 h2 h3 h4
    unfold decimateLoop
    by_cases hc : d + j * k < data.length
    · rw [if_pos hc]
      have hjk : j ≤ j * k := Nat.le_mul_of_pos_right _ hk
      have e1 : get data (d + j * k) = some data[d + j * k] := List.getElem?_eq_getElem hc
      have e2 : put data j data[d + j * k] = some (data.set j data[d + j * k]) := by
        unfold put; rw [if_pos (by omega)]
      have e3 : d + j * k + k = d + (j + 1) * k := by rw [Nat.add_mul]; omega
      obtain ⟨data', j', r1, r2⟩ := ih (j + 1) (data.set j data[d + j * k]) (by simpa using h1)
        (by intro _; simpa using h1 ▸ hc) (by omega) (by
          intro t ht
          by_cases htj : t = j
          · subst htj
            rw [List.getElem?_set_self (by omega), ← List.getElem?_eq_getElem hc, h4 _ (by omega)]
          · rw [List.getElem?_set_ne (by omega), h3 t (by omega)])
        (by
          intro t ht
          rw [List.getElem?_set_ne (by omega), h4 t (by omega)])
      refine ⟨data', j', ?_, r2⟩
      simp only [e1, e2, e3, Option.bind_eq_bind, Option.bind_some]
      exact r1
    · rw [if_neg hc]
      exact ⟨data, j, rfl, h1, by omega, h0, h3, h4⟩

/-- The points which are kept are the points `d, d + k, d + 2 k, …`. -/
theorem decimateLoop_take (k d : Nat) (hk : 1 ≤ k) (orig : List α) :
    ∃ data' j', decimateLoop k (orig.length + 1) d 0 orig = some (data', j') ∧
      data'.length = orig.length ∧ j' ≤ orig.length ∧ (data'.take j').length = j' ∧
      (∀ t, (data'.take j')[t]? = orig[d + t * k]?) ∧ data'.drop j' = orig.drop j' := by
  obtain ⟨data', j', h1, h2, h3, h4, h5, h6⟩ := decimateLoop_spec k d hk orig (orig.length + 1) 0 orig rfl
    (by simp) (by omega) (by simp) (by simp)
  rw [Nat.zero_mul, Nat.add_zero] at h1
  have hj : j' ≤ orig.length := by
    by_cases h0 : j' = 0
    · omega
    · have := h4 h0
      have : j' - 1 ≤ (j' - 1) * k := Nat.le_mul_of_pos_right _ hk
      omega
  refine ⟨data', j', h1, h2, hj, by simp; omega, fun t => ?_, ?_⟩
  · rw [List.getElem?_take]
    by_cases ht : t < j'
    · rw [if_pos ht, h5 t ht]
    · rw [if_neg ht, List.getElem?_eq_none]
      have : j' * k ≤ t * k := Nat.mul_le_mul_right _ (by omega)
      omega
  · apply List.ext_getElem?
    intro t
    rw [List.getElem?_drop, List.getElem?_drop, h6 _ (by omega)]

/-- C41: `decimatei(k, d)` with `k ≥ 1` never panics and keeps exactly the points `d, d + k, d + 2k, …`
    in this order, for real and complex vectors (a point past the end does not exist: the
    equation also says how many points are left). Meta data and the size of the storage do not
    change. -/
theorem C41_decimatei (v : DspVec T) (L : List (List T)) (hL : v.pts = some L) (k d : Nat) (hk : 1 ≤ k) :
    ∃ v' L', v.decimatei k d = some v' ∧ v'.pts = some L' ∧ (∀ t, L'[t]? = L[d + t * k]?) ∧
      v'.SameMeta v ∧ v'.data.cells.length = v.data.cells.length := by
  have hwf := wf_of_pts hL
  cases hcx : v.isComplex with
  | false =>
    obtain ⟨c, s, h1, h2⟩ := hwf.real
    have hLc := pts_real hcx h1 h2
    rw [hL] at hLc
    obtain rfl := Option.some.inj hLc
    have hc : v.content = some c := by
      unfold content
      rw [slice_ok _ _ _ (by omega) (by rw [h1, ← h2]; simp), h1, ← h2]; simp
    obtain ⟨r, j, r1, r2, r3, r4, r5, r6⟩ := decimateLoop_take k d hk c
    have e : splice v.data.cells 0 r = r ++ s := by
      rw [h1, splice_append_left _ _ _ r2]
    refine ⟨_, (r.take j).map (fun x => [x]), ?_, pts_real (v := { v.withCells (r ++ s) with validLen := j })
      (c := r.take j) (s := r.drop j ++ s) hcx ?_ ?_, ?_, ⟨rfl, rfl, rfl, rfl⟩, ?_⟩
    · unfold decimatei
      simp only [hc, hcx, r1, e, Option.bind_eq_bind, Option.bind_some, Bool.false_eq_true, if_false]
    · simp [withCells, ← List.append_assoc]
    · exact r4
    · intro t
      rw [List.getElem?_map, List.getElem?_map, r5]
    · simp [withCells, h1, r2]
  | true =>
    obtain ⟨c, s, h1, h2⟩ := hwf.complex hcx
    have hLc := pts_complex hcx h1 h2
    rw [hL] at hLc
    obtain rfl := Option.some.inj hLc
    have hc : v.content = some (fromComplex c) := by
      unfold content
      rw [slice_ok _ _ _ (by omega) (by rw [h1, ← h2]; simp), h1, ← h2]; simp
    obtain ⟨r, j, r1, r2, r3, r4, r5, r6⟩ := decimateLoop_take k d hk c
    have e : splice v.data.cells 0 (fromComplex r) = fromComplex r ++ s := by
      rw [h1, splice_append_left _ _ _ (by simp [r2])]
    refine ⟨_, (r.take j).map (fun x => [x.re, x.im]), ?_,
      pts_complex (v := { v.withCells (fromComplex r ++ s) with validLen := j * 2 })
      (p := r.take j) (s := fromComplex (r.drop j) ++ s) hcx ?_ ?_, ?_, ⟨rfl, rfl, rfl, rfl⟩, ?_⟩
    · unfold decimatei
      simp only [hc, hcx, r1, e, toComplex?_fromComplex, Option.bind_eq_bind, Option.bind_some, if_true]
    · simp only [withCells]
      rw [← List.append_assoc, ← fromComplex_append, List.take_append_drop]
    · simp only [r4, Nat.mul_comm]
    · intro t
      rw [List.getElem?_map, List.getElem?_map, r5]
    · simp [withCells, h1, r2]

theorem decimateLoop_zero (d : Nat) (fuel : Nat) : ∀ (j : Nat) (data : List α), d < data.length →
    decimateLoop 0 fuel d j data = none ∨ j + fuel ≤ data.length := by
  induction fuel with
  | zero => intro j data _; exact .inl rfl
  | succ f ih =>
    intro j data hd
    unfold decimateLoop
    rw [if_pos hd]
    have e1 : get data d = some data[d] := List.getElem?_eq_getElem hd
    simp only [e1, Option.bind_eq_bind, Option.bind_some]
    by_cases hj : j < data.length
    · have e2 : put data j data[d] = some (data.set j data[d]) := by unfold put; rw [if_pos hj]
      rw [e2]
      rcases ih (j + 1) (data.set j data[d]) (by simpa using hd) with h | h
      · exact .inl h
      · refine .inr ?_
        simp at h; omega
    · left
      have e2 : put data j data[d] = none := by unfold put; rw [if_neg hj]
      rw [e2]; rfl

/-- C41: the factor zero makes `decimatei` panic (write past the end) unless the delay is past the
    end. -/
theorem C41_factor_zero_panics (v : DspVec T) (hv : v.WF) (d : Nat) (hd : d < v.points) :
    v.decimatei 0 d = none := by
  cases hcx : v.isComplex with
  | false =>
    obtain ⟨c, s, h1, h2⟩ := hv.real
    have hc : v.content = some c := by
      unfold content
      rw [slice_ok _ _ _ (by omega) (by rw [h1, ← h2]; simp), h1, ← h2]; simp
    have hdl : d < c.length := by
      simp only [points, hcx, Bool.false_eq_true, if_false, Nat.div_one] at hd; omega
    unfold decimatei
    simp only [hc, hcx, Option.bind_eq_bind, Option.bind_some, Bool.false_eq_true, if_false]
    rcases decimateLoop_zero d (c.length + 1) 0 c hdl with h | h
    · rw [h]; rfl
    · omega
  | true =>
    obtain ⟨c, s, h1, h2⟩ := hv.complex hcx
    have hc : v.content = some (fromComplex c) := by
      unfold content
      rw [slice_ok _ _ _ (by omega) (by rw [h1, ← h2]; simp), h1, ← h2]; simp
    have hdl : d < c.length := by
      simp only [points, hcx, if_true] at hd; omega
    unfold decimatei
    simp only [hc, hcx, toComplex?_fromComplex, Option.bind_eq_bind, Option.bind_some, if_true]
    rcases decimateLoop_zero d (c.length + 1) 0 c hdl with h | h
    · rw [h]; rfl
    · omega

/-- Three complex points, factor 2, delay 1 and delay 0. -/
example : ((exampleVec.decimatei 2 1).bind DspVec.pts = some [[3, 4]]) ∧
    ((exampleVec.decimatei 2 0).bind DspVec.pts = some [[1, 2], [5, 6]]) ∧
    exampleVec.pts = some [[1, 2], [3, 4], [5, 6]] := by decide

end Dsp
