import Verif.Model.Index
import Verif.Props.Elementary
/-
C75: access to the numbers of a vector by index and by range.
-/
namespace Dsp
open DspVec
variable {T : Type}

/-- Specification: the bounds of a range in a sequence of `n` elements, if it is one. -/
def Idx.valid (n : Nat) (r : Idx) : Prop :=
  match r with
  | .full => True
  | .starting a => a ≤ n
  | .upTo b => b ≤ n
  | .range a b => a ≤ b ∧ b ≤ n

/-- Specification: position `i` of a sequence of `n` elements is in the range. -/
def Idx.has (n : Nat) (r : Idx) (i : Nat) : Prop :=
  match r with
  | .full => i < n
  | .starting a => a ≤ i ∧ i < n
  | .upTo b => i < b
  | .range a b => a ≤ i ∧ i < b

instance (n : Nat) (r : Idx) (i : Nat) : Decidable (r.has n i) := by cases r <;> (unfold Idx.has; infer_instance)

/-- Specification: the first position of a range. -/
def Idx.start : Idx → Nat
  | .full => 0
  | .starting a => a
  | .upTo _ => 0
  | .range a _ => a

/-- Specification: the number of positions of a valid range. -/
def Idx.count (n : Nat) : Idx → Nat
  | .full => n
  | .starting a => n - a
  | .upTo b => b
  | .range a b => b - a

theorem readRange_iff {α : Type} (a : List α) (r : Idx) (xs : List α) :
    readRange a r = some xs ↔
      r.valid a.length ∧ xs.length = r.count a.length ∧ ∀ j < xs.length, xs[j]? = a[r.start + j]? := by
  have key : ∀ lo hi, slice a lo hi = some xs ↔
      (lo ≤ hi ∧ hi ≤ a.length) ∧ xs.length = hi - lo ∧ ∀ j < xs.length, xs[j]? = a[lo + j]? := by
    intro lo hi
    unfold slice
    by_cases h : lo ≤ hi ∧ hi ≤ a.length
    · rw [if_pos h, Option.some.injEq]
      constructor
      · intro e; subst e
        refine ⟨h, by simp; omega, fun j hj => ?_⟩
        simp only [List.length_take, List.length_drop] at hj
        rw [List.getElem?_take_of_lt (by omega), List.getElem?_drop]
      · rintro ⟨-, hl, he⟩
        apply List.ext_getElem?
        intro j
        by_cases hj : j < xs.length
        · rw [he j hj, List.getElem?_take_of_lt (by omega), List.getElem?_drop]
        · rw [List.getElem?_eq_none (by simp; omega), List.getElem?_eq_none (by omega)]
    · rw [if_neg h]; simp [h]
  unfold readRange
  rw [key]
  cases r <;> simp [Idx.bounds, Idx.valid, Idx.count, Idx.start]

theorem readRange_of_valid {α : Type} (a : List α) (r : Idx) (h : r.valid a.length) : ∃ xs, readRange a r = some xs := by
  unfold readRange slice
  rw [if_pos (by cases r <;> simp_all [Idx.bounds, Idx.valid])]
  exact ⟨_, rfl⟩

theorem start_count {r : Idx} {n : Nat} (h : r.valid n) : r.start + r.count n ≤ n := by
  cases r <;> simp_all [Idx.valid, Idx.start, Idx.count]

theorem has_iff {r : Idx} {n i : Nat} (h : r.valid n) : r.has n i ↔ r.start ≤ i ∧ i < r.start + r.count n := by
  cases r <;> simp_all [Idx.valid, Idx.start, Idx.count, Idx.has]

theorem bounds_start (r : Idx) (n : Nat) : (r.bounds n).1 = r.start := by cases r <;> rfl

/-- C75, reading: an index gives the number at this position of the vector and is refused (panic) outside of the vector; a range gives
    exactly the numbers at its positions and is refused if it is not a range in the vector. Cells behind the end of the vector can't be
    read. -/
theorem C75_read (v : DspVec T) (a : List T) (ha : v.content = some a) :
    (∀ i, v.data1 i = a[i]?) ∧
    ∀ r xs, v.dataRange r = some xs ↔
      r.valid v.len ∧ xs.length = r.count v.len ∧ ∀ j < xs.length, v.data1 (r.start + j) = xs[j]? := by
  have hl : a.length = v.len := by
    unfold content slice at ha
    split at ha
    · rename_i h; injection ha with ha; subst ha; rw [List.drop_zero, List.length_take]; exact Nat.min_eq_left (by simpa using h.2)
    · simp at ha
  have h1 : ∀ i, v.data1 i = a[i]? := by
    intro i
    unfold data1
    unfold content at ha
    rw [ha]; rfl
  refine ⟨h1, fun r xs => ?_⟩
  have : v.dataRange r = readRange a r := by
    unfold dataRange
    unfold content at ha
    rw [ha]; rfl
  rw [this, readRange_iff, hl]
  simp only [h1]
  refine and_congr_right fun _ => and_congr_right fun _ => forall_congr' fun j => ?_
  exact imp_congr_right fun _ => eq_comm

/-- C75: `data(..)` is the whole vector, and an index is refused exactly outside of the vector. -/
theorem C75_bounds (v : DspVec T) (hv : v.WF) :
    v.dataRange .full = v.content ∧ v.content ≠ none ∧ (∀ i, v.data1 i = none ↔ v.len ≤ i) ∧
    ∀ r, v.dataRange r = none ↔ ¬ r.valid v.len := by
  have hc := hv.content_eq
  have hl := hv.content_length hc
  obtain ⟨h1, h2⟩ := C75_read v _ hc
  refine ⟨?_, by rw [hc]; simp, fun i => ?_, fun r => ?_⟩
  · rw [hc, (h2 .full _).2 ⟨trivial, hl, fun j hj => ?_⟩]
    rw [h1]; simp [Idx.start]
  · rw [h1, List.getElem?_eq_none_iff, hl]; rfl
  · constructor
    · intro h hr
      have hr' : r.valid (v.data.cells.take v.validLen).length := by rw [hl]; exact hr
      obtain ⟨xs, hx⟩ := readRange_of_valid _ r hr'
      have : v.dataRange r = readRange (v.data.cells.take v.validLen) r := by
        unfold dataRange
        unfold content at hc
        rw [hc]; rfl
      rw [this, hx] at h
      simp at h
    · intro hr
      cases hx : v.dataRange r with
      | none => rfl
      | some xs => exact absurd ((h2 r xs).1 hx).1 hr

/-- Replacing a range of a list. -/
theorem splice_spec {α : Type} (a xs ys : List α) (k : Nat) (hlen : ys.length = xs.length) (hk : k + xs.length ≤ a.length) :
    (splice a k ys).length = a.length ∧ ∀ i : Nat, (splice a k ys)[i]? =
      if k ≤ i ∧ i < k + xs.length then ys[i - k]? else a[i]? := by
  have h0 : (splice a k ys).length = a.length := by simp [splice]; omega
  refine ⟨h0, fun i => ?_⟩
  unfold splice
  by_cases h1 : i < k
  · rw [if_neg (by omega), List.append_assoc, List.getElem?_append_left (by simp; omega), List.getElem?_take_of_lt h1]
  · by_cases h2 : i < k + xs.length
    · rw [if_pos (by omega), List.append_assoc, List.getElem?_append_right (by simp; omega),
        List.getElem?_append_left (by simp; omega)]
      congr 1; simp; omega
    · rw [if_neg (by omega), List.getElem?_append_right (by simp; omega), List.getElem?_drop]
      congr 1; simp; omega

/-- C75, writing: the numbers of a range are replaced by what the caller writes; all other numbers, the cells behind the vector, the
    length and the meta data stay. A write is refused exactly where a read is. -/
theorem C75_write (v : DspVec T) (hv : v.WF) (r : Idx) (f : List T → List T) (hf : ∀ l, (f l).length = l.length) :
    (v.setDataRange r f = none ↔ v.dataRange r = none) ∧
    ∀ w, v.setDataRange r f = some w → ∃ a b xs, v.content = some a ∧ v.dataRange r = some xs ∧ w.dataRange r = some (f xs) ∧
      Replaced v w b ∧ ∀ i, w.data1 i = if r.has v.len i then (f xs)[i - r.start]? else a[i]? := by
  have hc := hv.content_eq
  have hl := hv.content_length hc
  have e0 : ∀ r, v.dataRange r = readRange (v.data.cells.take v.validLen) r := by
    intro r
    unfold dataRange
    unfold content at hc
    rw [hc]; rfl
  generalize hA : v.data.cells.take v.validLen = a at *
  have e1 : v.setDataRange r f = (readRange a r).bind fun old =>
      some (v.withCells (splice v.data.cells 0 (splice a r.start (f old)))) := by
    unfold setDataRange writeRange
    unfold content at hc
    rw [hc]
    simp only [bounds_start, Option.bind_eq_bind, Option.bind_some, Option.bind_assoc]
  cases hx : readRange a r with
  | none => rw [e1, e0, hx]; simp
  | some xs =>
    rw [e1, e0, hx]
    refine ⟨by simp, fun w hw => ?_⟩
    simp only [Option.bind_some, Option.some.injEq] at hw
    obtain ⟨k1, k2, k3⟩ := (readRange_iff a r xs).1 hx
    have hb := start_count k1
    obtain ⟨s1, s2⟩ := splice_spec a xs (f xs) r.start (hf xs) (by omega)
    have hrep : Replaced v w (splice a r.start (f xs)) := by
      subst hw; exact replaced_splice hv _ (by rw [s1, hl])
    obtain ⟨w1, w2⟩ := C75_read w _ hrep.1
    refine ⟨a, _, xs, hc, rfl, ?_, hrep, fun i => ?_⟩
    · rw [w2]
      have hwl : w.len = a.length := by rw [hl]; exact hrep.2.1
      refine ⟨by rw [hwl]; exact k1, by rw [hf, k2, hwl], fun j hj => ?_⟩
      rw [hf] at hj
      rw [w1, s2, if_pos (by omega)]
      congr 1; omega
    · rw [w1, s2]
      have hvl : v.len = a.length := hl.symm
      have hiff : (r.start ≤ i ∧ i < r.start + xs.length) ↔ r.has v.len i := by
        rw [hvl, has_iff k1, k2]
      by_cases h : r.has v.len i
      · rw [if_pos h, if_pos (hiff.2 h)]
      · rw [if_neg h, if_neg (mt hiff.1 h)]

/-- C75: writing a single number. -/
theorem C75_write_one (v : DspVec T) (hv : v.WF) (i : Nat) (x : T) :
    (v.setData1 i x = none ↔ v.len ≤ i) ∧
    ∀ w, v.setData1 i x = some w → ∃ b, Replaced v w b ∧ ∀ j, w.data1 j = if j = i then some x else v.data1 j := by
  have hc := hv.content_eq
  have hl := hv.content_length hc
  obtain ⟨h1, -⟩ := C75_read v _ hc
  generalize hA : v.data.cells.take v.validLen = a at *
  have e1 : v.setData1 i x = (put a i x).bind fun s => some (v.withCells (splice v.data.cells 0 s)) := by
    unfold setData1
    unfold content at hc
    rw [hc]; rfl
  rw [e1]
  unfold put
  by_cases hi : i < a.length
  · rw [if_pos hi]
    refine ⟨by simp only [Option.bind_some, reduceCtorEq, false_iff]; have e : v.len = a.length := hl.symm; omega, fun w hw => ?_⟩
    simp only [Option.bind_some, Option.some.injEq] at hw
    have hrep : Replaced v w (a.set i x) := by
      subst hw; exact replaced_splice hv _ (by rw [List.length_set]; exact hl)
    refine ⟨_, hrep, fun j => ?_⟩
    obtain ⟨w1, -⟩ := C75_read w _ hrep.1
    rw [w1, h1, List.getElem?_set]
    by_cases hj : j = i
    · subst hj; rw [if_pos rfl, if_pos hi, if_pos rfl]
    · rw [if_neg (Ne.symm hj), if_neg hj]
  · rw [if_neg hi]
    refine ⟨by simp only [Option.bind_none, true_iff]; have e : v.len = a.length := hl.symm; omega, fun w hw => by simp at hw⟩

/-- The range of the numbers of a range of points. -/
def Idx.twice : Idx → Idx
  | .full => .full
  | .starting a => .starting (2 * a)
  | .upTo b => .upTo (2 * b)
  | .range a b => .range (2 * a) (2 * b)

theorem readRange_twice (cs : List (Cx T)) (r : Idx) :
    readRange (fromComplex cs) r.twice = (readRange cs r).map fromComplex := by
  have key : ∀ lo hi, slice (fromComplex cs) (2 * lo) (2 * hi) = (slice cs lo hi).map fromComplex := by
    intro lo hi
    unfold slice
    by_cases h : lo ≤ hi ∧ hi ≤ cs.length
    · rw [if_pos h, if_pos (by simp; omega), Option.map_some, fromComplex_take, fromComplex_drop]
      congr 2; omega
    · rw [if_neg h, if_neg (by simp; omega)]; rfl
  unfold readRange
  cases r <;> simp only [Idx.twice, Idx.bounds, length_fromComplex]
  · exact key 0 _
  · exact key _ _
  · exact key 0 _
  · exact key _ _

/-- C75, complex vectors: point `i` consists of the numbers `2 i` and `2 i + 1`; a range of points is the range of their numbers. -/
theorem C75_complex (v : DspVec T) (hv : v.WF) (hc : v.isComplex = true) :
    (∀ i c, v.datac1 i = some c ↔ v.data1 (2 * i) = some c.re ∧ v.data1 (2 * i + 1) = some c.im) ∧
    (∀ i, v.datac1 i = none ↔ v.points ≤ i) ∧
    ∀ r, v.dataRange r.twice = (v.datacRange r).map fromComplex := by
  obtain ⟨cs, h1, h2⟩ := hv.content_even hc
  obtain ⟨r1, r2⟩ := C75_read v _ h1
  have e1 : ∀ i, v.datac1 i = cs[i]? := by
    intro i
    unfold datac1
    unfold content at h1
    rw [h1]
    simp [get]
  have e2 : ∀ r, v.datacRange r = readRange cs r := by
    intro r
    unfold datacRange
    unfold content at h1
    rw [h1]
    simp
  have e3 : ∀ r, v.dataRange r = readRange (fromComplex cs) r := by
    intro r
    unfold dataRange
    unfold content at h1
    rw [h1]; rfl
  refine ⟨fun i c => ?_, fun i => ?_, fun r => ?_⟩
  · rw [e1, r1, r1, getElem?_fromComplex_even, getElem?_fromComplex_odd]
    cases cs[i]? with
    | none => simp
    | some d =>
      obtain ⟨x, y⟩ := d
      obtain ⟨x', y'⟩ := c
      simp
  · rw [e1, List.getElem?_eq_none_iff]
    unfold points
    rw [hc, if_pos rfl]
    have : v.validLen = v.len := rfl
    omega
  · rw [e3, e2, readRange_twice]

/-- C75, complex vectors, writing: writing a point writes its two numbers; writing a range of points writes the range of their numbers. -/
theorem C75_complex_write (v : DspVec T) (hv : v.WF) (hc : v.isComplex = true) :
    (∀ i c, v.setDatac1 i c = (v.setData1 (2 * i) c.re).bind fun w => w.setData1 (2 * i + 1) c.im) ∧
    ∀ r (f : List (Cx T) → List (Cx T)) (g : List T → List T), (∀ l, (f l).length = l.length) →
      (∀ l, g (fromComplex l) = fromComplex (f l)) → v.setDatacRange r f = v.setDataRange r.twice g := by
  obtain ⟨cs, h1, h2⟩ := hv.content_even hc
  have h1' := h1
  unfold content at h1'
  refine ⟨fun i c => ?_, fun r f g hf hg => ?_⟩
  · unfold setDatac1
    rw [h1']
    simp only [Option.bind_eq_bind, Option.bind_some, toComplex?_fromComplex]
    unfold setData1
    rw [h1']
    simp only [Option.bind_eq_bind, Option.bind_some]
    unfold put
    by_cases hi : i < cs.length
    · rw [if_pos hi, if_pos (by simp; omega)]
      simp only [Option.bind_some]
      have hl1 : ((fromComplex cs).set (2 * i) c.re).length = v.validLen := by simp; exact h2
      have hrep := replaced_splice hv _ hl1
      have hcon := hrep.1
      unfold content at hcon
      rw [hcon]
      simp only [Option.bind_some]
      rw [if_pos (by rw [hl1]; have : v.validLen = v.len := rfl; omega)]
      simp only [Option.bind_some, Option.some.injEq]
      have hset : ((fromComplex cs).set (2 * i) c.re).set (2 * i + 1) c.im = fromComplex (cs.set i c) := by
        apply List.ext_getElem?
        intro j
        rw [List.getElem?_set, List.getElem?_set]
        rcases Nat.even_or_odd' j with ⟨m, rfl | rfl⟩
        · rw [getElem?_fromComplex_even, getElem?_fromComplex_even, List.getElem?_set]
          rw [if_neg (by omega)]
          by_cases hm : i = m
          · subst hm; simp [hi]
          · rw [if_neg (by omega), if_neg hm]
        · rw [getElem?_fromComplex_odd, getElem?_fromComplex_odd, List.getElem?_set]
          by_cases hm : i = m
          · subst hm; simp [hi]; omega
          · rw [if_neg (by omega), if_neg (by omega), if_neg hm]
      rw [hset]
      have hsp : ∀ xs ys : List T, ys.length = xs.length → splice (splice v.data.cells 0 xs) 0 ys = splice v.data.cells 0 ys := by
        intro xs ys h
        simp [splice, h]
      simp only [withCells]
      rw [hsp _ _ (by simp)]
    · rw [if_neg hi, if_neg (by simp; omega)]
      rfl
  · unfold setDatacRange setDataRange writeRange
    rw [h1']
    simp only [Option.bind_eq_bind, Option.bind_some, toComplex?_fromComplex, readRange_twice]
    cases hx : readRange cs r with
    | none => simp
    | some xs =>
      simp only [Option.map_some, Option.bind_some, Option.some.injEq, bounds_start]
      have hst : r.twice.start = 2 * r.start := by cases r <;> rfl
      have hcat : fromComplex (splice cs r.start (f xs)) = splice (fromComplex cs) (2 * r.start) (fromComplex (f xs)) := by
        unfold splice
        simp only [fromComplex_append, fromComplex_take, fromComplex_drop, length_fromComplex]
        congr 2; omega
      rw [hst, hg, hcat]

/-- C75 is violated by `datac` of a generic vector which holds real numbers: the documentation promises an empty array ("indexers will
    return an empty array in case the vector isn't complex"), the numbers are handed out as points, and an odd length panics. -/
theorem C75_not_complex_violated :
    let v : DspVec Int := ⟨⟨.vec, [1, 2, 3, 4]⟩, some 1, .timeOrFreq .time, .realOrComplex false, 4⟩
    let u : DspVec Int := ⟨⟨.vec, [1, 2, 3]⟩, some 1, .timeOrFreq .time, .realOrComplex false, 3⟩
    v.WF ∧ v.isComplex = false ∧ v.datacRange .full = some [⟨1, 2⟩, ⟨3, 4⟩] ∧
    u.WF ∧ u.isComplex = false ∧ u.datacRange .full = none := by
  decide

/-- A complex vector with two points and stale cells behind them. -/
example : let v : DspVec Int := ⟨⟨.vec, [1, 2, 3, 4, 9, 9]⟩, some 1, .time, .complex, 4⟩
    v.WF ∧ v.isComplex = true ∧ v.data1 3 = some 4 ∧ v.data1 4 = none ∧ v.dataRange (.starting 1) = some [2, 3, 4] ∧
    v.dataRange (.range 2 5) = none ∧ v.datac1 1 = some ⟨3, 4⟩ ∧ v.datac1 2 = none ∧
    (v.setDataRange (.upTo 2) List.reverse).map (·.data.cells) = some [2, 1, 3, 4, 9, 9] ∧
    (v.setDatac1 1 ⟨7, 8⟩).map (·.data.cells) = some [1, 2, 7, 8, 9, 9] := by decide

end Dsp
