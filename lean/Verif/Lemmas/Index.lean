import Verif.Props.Pad
/- Points by index, and the loops of `split_into` and `merge`. -/
namespace Dsp
open DspVec
variable {T : Type}

theorem getElem?_flatten_of {L : List (List T)} {k : Nat} (hk : 0 < k) (h : ∀ p ∈ L, p.length = k) (i : Nat) :
    L.flatten[i]? = (L[i / k]?).bind (fun p => p[i % k]?) := by
  induction L generalizing i with
  | nil => simp
  | cons x L ih =>
    have hx := h x (by simp)
    rw [List.flatten_cons, List.getElem?_append]
    by_cases hi : i < k
    · rw [if_pos (by omega), Nat.div_eq_of_lt hi, Nat.mod_eq_of_lt hi]; simp
    · rw [if_neg (by omega), ih (fun p hp => h p (by simp [hp])), hx]
      have h1 : i % k = (i - k) % k := by rw [Nat.mod_eq_sub_mod (by omega)]
      have h2 : i / k = (i - k) / k + 1 := by rw [Nat.div_eq_sub_div (by omega) (by omega)]
      rw [h1, h2]; simp

/-- The cells of a vector in terms of its points. -/
theorem cell_of_pts {v : DspVec T} {L : List (List T)} (h : v.pts = some L) (i : Nat) (hi : i < v.validLen) :
    v.data.cells[i]? = (L[i / v.stride]?).bind (fun p => p[i % v.stride]?) := by
  obtain ⟨h1, h2, h3⟩ := (pts_iff v L).mp h
  rw [← getElem?_flatten_of v.stride_pos h3, ← h2, List.getElem?_take_of_lt hi]

/-- Points from cells. -/
theorem pts_of_index {v : DspVec T} {L : List (List T)} (hmem : ∀ p ∈ L, p.length = v.stride)
    (hlen : v.validLen = v.stride * L.length) (hle : v.validLen ≤ v.data.cells.length)
    (hcell : ∀ i, i < v.validLen → v.data.cells[i]? = (L[i / v.stride]?).bind (fun p => p[i % v.stride]?)) :
    v.pts = some L := by
  rw [pts_iff]
  refine ⟨hle, ?_, hmem⟩
  apply List.ext_getElem?
  intro i
  by_cases hi : i < v.validLen
  · rw [List.getElem?_take_of_lt hi, hcell i hi, getElem?_flatten_of v.stride_pos hmem]
  · rw [List.getElem?_eq_none (by simp; omega), List.getElem?_eq_none (by
      rw [length_flatten_of hmem]; omega)]

/-- Cell `p` of target `j`. -/
def cellAt (ts : List (DspVec T)) (j p : Nat) : Option T := ts[j]?.bind (fun t => t.data.cells[p]?)

/-- Everything but the contents of the cells is the same. -/
def SameShape (ts ts' : List (DspVec T)) : Prop :=
  ts'.length = ts.length ∧ ∀ (j : Nat) (t t' : DspVec T), ts[j]? = some t → ts'[j]? = some t' →
    t'.SameMeta t ∧ t'.validLen = t.validLen ∧ t'.data.cells.length = t.data.cells.length

theorem SameShape.refl (ts : List (DspVec T)) : SameShape ts ts :=
  ⟨rfl, fun j t t' h h' => by
    rw [h] at h'; obtain rfl := Option.some.inj h'; exact ⟨⟨rfl, rfl, rfl, rfl⟩, rfl, rfl⟩⟩

theorem SameShape.trans {a b c : List (DspVec T)} (h1 : SameShape a b) (h2 : SameShape b c) : SameShape a c := by
  refine ⟨h2.1.trans h1.1, fun j t t' h h' => ?_⟩
  have hj : j < b.length := by
    rw [h1.1]; exact (List.getElem?_eq_some_iff.mp h).1
  obtain ⟨⟨a1, a2, a3, a4⟩, a5, a6⟩ := h1.2 j t b[j] h (by simp [hj])
  obtain ⟨⟨b1, b2, b3, b4⟩, b5, b6⟩ := h2.2 j b[j] t' (by simp [hj]) h'
  exact ⟨⟨b1.trans a1, b2.trans a2, b3.trans a3, b4.trans a4⟩, b5.trans a5, b6.trans a6⟩

theorem putTarget_ok (ts : List (DspVec T)) (j p : Nat) (x : T) (t : DspVec T) (hj : ts[j]? = some t)
    (hp : p < t.data.cells.length) :
    ∃ ts', putTarget ts j p x = some ts' ∧ SameShape ts ts' ∧
      ∀ j' p', cellAt ts' j' p' = if j' = j ∧ p' = p then some x else cellAt ts j' p' := by
  have hlt : j < ts.length := (List.getElem?_eq_some_iff.mp hj).1
  refine ⟨ts.set j (t.withCells (t.data.cells.set p x)), ?_, ⟨by simp, ?_⟩, ?_⟩
  · simp [putTarget, get, hj, put_eq hp, put_eq hlt]
  · intro i a a' h h'
    rw [List.getElem?_set] at h'
    by_cases hij : j = i
    · subst hij
      rw [if_pos rfl, if_pos hlt] at h'
      rw [hj] at h
      obtain rfl := Option.some.inj h
      obtain rfl := Option.some.inj h'
      exact ⟨⟨rfl, rfl, rfl, rfl⟩, rfl, by simp [withCells]⟩
    · rw [if_neg hij, h] at h'
      obtain rfl := Option.some.inj h'
      exact ⟨⟨rfl, rfl, rfl, rfl⟩, rfl, rfl⟩
  · intro j' p'
    simp only [cellAt, List.getElem?_set]
    by_cases hij : j = j'
    · subst hij
      rw [if_pos rfl, if_pos hlt]
      simp only [Option.bind_some, withCells, hj, true_and, List.getElem?_set]
      by_cases hpp : p = p'
      · subst hpp; simp [hp]
      · rw [if_neg hpp, if_neg (fun h => hpp h.symm)]
    · rw [if_neg hij, if_neg (fun h => hij h.1.symm)]

end Dsp
