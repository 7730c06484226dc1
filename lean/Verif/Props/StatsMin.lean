import Verif.Props.Stats

/-! C25: exactly which elements `Statistics::merge` looks at for the minimum. -/

namespace Dsp
open Statistics
variable {T : Type}

/-- Specification: the position `i` of the concatenation of `before` and the pieces is looked at for the minimum if
    it belongs to a piece which does not raise the maximum: no element of the piece is larger than all elements in
    front of the piece. (The first piece is always looked at.) -/
def LookedAt [LE T] : (before : List T) → (pieces : List (List T)) → (i : Nat) → Prop
  | _, [], _ => False
  | before, l :: ls, i =>
    (before.length ≤ i ∧ i < before.length + l.length ∧ (before = [] ∨ ∀ x ∈ l, ∃ y ∈ before, x ≤ y)) ∨
      LookedAt (before ++ l) ls i

/-- `m` at position `i` is the first smallest one of the elements of `l` at the positions in `P`. -/
def IsFirstMinOf [LinearOrder T] (l : List T) (P : Nat → Prop) (i : Nat) (m : T) : Prop :=
  l[i]? = some m ∧ P i ∧ ∀ j x, P j → l[j]? = some x → m ≤ x ∧ (j < i → m < x)

theorem LookedAt.ge [LE T] : ∀ (pieces : List (List T)) (before : List T) (i : Nat),
    LookedAt before pieces i → before.length ≤ i
  | l :: ls, before, i, h => by
    rcases h with h | h
    · exact h.1
    · have := LookedAt.ge ls _ i h
      rw [List.length_append] at this; omega

theorem mergeLoop_min [Field T] [LinearOrder T] (sqrt : T → T) :
    ∀ (ls : List (List T)) (L : List T) (P : Nat → Prop) (s : Statistics T), L ≠ [] →
    (∀ l ∈ ls, l ≠ []) → (∀ i, P i → i < L.length) →
    (∃ m, s.max = .fin m ∧ IsFirstMax (fun x => x) L s.maxIndex m) →
    (∃ m, s.min = .fin m ∧ IsFirstMinOf L P s.minIndex m) →
    let r := mergeLoop (realStatOps sqrt) s (piecesStats (realStatOps sqrt) L.length ls)
    ∃ m, r.min = .fin m ∧ IsFirstMinOf (L ++ ls.flatten) (fun i => P i ∨ LookedAt L ls i) r.minIndex m
  | [], L, P, s, _, _, _, _, h => by simpa [mergeLoop, piecesStats, LookedAt] using h
  | l :: ls, L, P, s, hLne, hne, hP, hmax, hmin => by
    have hl : l ≠ [] := hne l (by simp)
    have hacc : Acc (realStatOps sqrt) L.length l (pieceStats (realStatOps sqrt) L.length l) :=
      addAll_acc (realStatOps sqrt) ⟨rfl, .inl rfl⟩ L.length (fun _ => rfl) l
    obtain ⟨mM, jM, p1, p2, p3⟩ := hacc.max hl
    obtain ⟨mm, jm, q1, q2, q3⟩ := hacc.min hl
    obtain ⟨m, m1, m2⟩ := hmax
    obtain ⟨n, n1, n2, n3, n4⟩ := hmin
    have hmaxA := isFirstMax_append m2 p3
    have e1 : mergeLoop (realStatOps sqrt) s (piecesStats (realStatOps sqrt) L.length (l :: ls)) =
        mergeLoop (realStatOps sqrt) (mergeLoop (realStatOps sqrt) s [pieceStats (realStatOps sqrt) L.length l])
          (piecesStats (realStatOps sqrt) (L ++ l).length ls) := by
      rw [List.length_append]
      rfl
    have hnl : s.minIndex < L.length := hP _ n3
    have hraise : (L = [] ∨ ∀ x ∈ l, ∃ y ∈ L, x ≤ y) ↔ ¬ m < mM := by
      constructor
      · rintro (h | h) hlt
        · exact hLne h
        · obtain ⟨y, y1, y2⟩ := h mM (List.mem_of_getElem? p3.1)
          exact absurd (le_trans y2 (m2.2.1 y y1)) (not_le.mpr hlt)
      · intro h
        exact .inr fun x hx => ⟨m, List.mem_of_getElem? m2.1, le_trans (p3.2.1 x hx) (not_lt.mp h)⟩
    have hstep : ∃ (m : T), (mergeLoop (realStatOps sqrt) s [pieceStats (realStatOps sqrt) L.length l]).max = .fin m ∧
        IsFirstMax (fun x => x) (L ++ l) (mergeLoop (realStatOps sqrt) s [pieceStats (realStatOps sqrt) L.length l]).maxIndex m := by
      generalize pieceStats (realStatOps sqrt) L.length l = t at *
      have hff : ∀ a b : T, Ext.lt (realStatOps sqrt).norm (.fin a) (.fin b) = decide (a < b) :=
        fun _ _ => rfl
      simp only [mergeLoop, List.foldl_cons, List.foldl_nil, m1, p1, q1, n1, hff]
      by_cases hlt : m < mM
      · simp only [hlt, decide_true, if_true]
        exact ⟨mM, rfl, by rw [p2]; exact hmaxA.1 hlt⟩
      · simp only [hlt, decide_false, Bool.false_eq_true, if_false]
        split <;> exact ⟨m, rfl, hmaxA.2 hlt⟩
    have hminS : ∃ (m : T), (mergeLoop (realStatOps sqrt) s [pieceStats (realStatOps sqrt) L.length l]).min = .fin m ∧
        IsFirstMinOf (L ++ l) (fun i => P i ∨ (L.length ≤ i ∧ i < L.length + l.length ∧
          (L = [] ∨ ∀ x ∈ l, ∃ y ∈ L, x ≤ y)))
          (mergeLoop (realStatOps sqrt) s [pieceStats (realStatOps sqrt) L.length l]).minIndex m := by
      rw [hraise]
      generalize pieceStats (realStatOps sqrt) L.length l = t at *
      have hff : ∀ a b : T, Ext.lt (realStatOps sqrt).norm (.fin a) (.fin b) = decide (a < b) :=
        fun _ _ => rfl
      simp only [mergeLoop, List.foldl_cons, List.foldl_nil, m1, p1, q1, n1, hff]
      by_cases hlt : m < mM
      · simp only [hlt, decide_true, if_true]
        refine ⟨n, rfl, ?_, .inl n3, ?_⟩
        · rw [List.getElem?_append_left hnl]; exact n2
        · rintro j x (hj | ⟨-, -, hj⟩) hx
          · rw [List.getElem?_append_left (hP j hj)] at hx
            exact n4 j x hj hx
          · exact absurd trivial hj
      · simp only [hlt, decide_false, Bool.false_eq_true, if_false]
        by_cases hmlt : mm < n
        · simp only [hmlt, decide_true, if_true]
          refine ⟨mm, rfl, ?_, .inr ⟨by omega, ?_, by simp⟩, ?_⟩
          · rw [q2, List.getElem?_append_right (by omega)]; simpa using q3.1
          · rw [q2]
            have := (List.getElem?_eq_some_iff.mp q3.1).1; omega
          · rintro j x (hj | ⟨hj, hj2, -⟩) hx
            · rw [List.getElem?_append_left (hP j hj)] at hx
              have := lt_of_lt_of_le hmlt (n4 j x hj hx).1
              exact ⟨this.le, fun _ => this⟩
            · rw [List.getElem?_append_right hj] at hx
              refine ⟨q3.2.1 x (List.mem_of_getElem? hx), fun hji => q3.2.2 _ x ?_ hx⟩
              simp only [q2] at hji; omega
        · simp only [hmlt, decide_false, Bool.false_eq_true, if_false]
          refine ⟨n, rfl, ?_, .inl n3, ?_⟩
          · rw [List.getElem?_append_left hnl]; exact n2
          · rintro j x (hj | ⟨hj, hj2, -⟩) hx
            · rw [List.getElem?_append_left (hP j hj)] at hx
              exact n4 j x hj hx
            · rw [List.getElem?_append_right hj] at hx
              refine ⟨le_trans (not_lt.mp hmlt) (q3.2.1 x (List.mem_of_getElem? hx)), fun hji => ?_⟩
              omega
    have ih := mergeLoop_min sqrt ls (L ++ l) _ _ (by simp [hl]) (fun x hx => hne x (by simp [hx]))
      (fun i hi => by
        rcases hi with hi | ⟨-, hi, -⟩
        · have := hP i hi; rw [List.length_append]; omega
        · rw [List.length_append]; exact hi) hstep hminS
    rw [e1, List.flatten_cons, ← List.append_assoc]
    simp only [LookedAt, ← or_assoc]
    exact ih

/-- C25, the minimum, for all pieces of real data: `Statistics::merge` gives the first smallest one of the elements
    in pieces which do not raise the maximum. -/
theorem C25_merge_min_exact [Field T] [LinearOrder T] (sqrt : T → T) (pieces : List (List T)) (h0 : pieces ≠ [])
    (hne : ∀ l ∈ pieces, l ≠ []) :
    let s := Statistics.merge (realStatOps sqrt) (piecesStats (realStatOps sqrt) 0 pieces)
    ∃ m, s.min = .fin m ∧ IsFirstMinOf pieces.flatten (LookedAt [] pieces) s.minIndex m := by
  intro s
  obtain ⟨l0, ls, rfl⟩ : ∃ l0 ls, pieces = l0 :: ls := List.exists_cons_of_ne_nil h0
  have hl0 : l0 ≠ [] := hne l0 (by simp)
  have hacc : Acc (realStatOps sqrt) 0 l0 (pieceStats (realStatOps sqrt) 0 l0) :=
    addAll_acc _ (realStatOps_ok sqrt) 0 (fun h => absurd rfl h) l0
  obtain ⟨mM, jM, p1, p2, p3⟩ := hacc.max hl0
  obtain ⟨mm, jm, q1, q2, q3⟩ := hacc.min hl0
  rw [Nat.zero_add] at p2 q2
  have hs : s.min = (mergeLoop (realStatOps sqrt) (mergeLoop (realStatOps sqrt) ⟨0, 0, none, some 0,
        (pieceStats (realStatOps sqrt) 0 l0).min, (pieceStats (realStatOps sqrt) 0 l0).minIndex,
        (pieceStats (realStatOps sqrt) 0 l0).max, (pieceStats (realStatOps sqrt) 0 l0).maxIndex⟩
          [pieceStats (realStatOps sqrt) 0 l0]) (piecesStats (realStatOps sqrt) l0.length ls)).min ∧
      s.minIndex = (mergeLoop (realStatOps sqrt) (mergeLoop (realStatOps sqrt) ⟨0, 0, none, some 0,
        (pieceStats (realStatOps sqrt) 0 l0).min, (pieceStats (realStatOps sqrt) 0 l0).minIndex,
        (pieceStats (realStatOps sqrt) 0 l0).max, (pieceStats (realStatOps sqrt) 0 l0).maxIndex⟩
          [pieceStats (realStatOps sqrt) 0 l0]) (piecesStats (realStatOps sqrt) l0.length ls)).minIndex := by
    rw [← Nat.zero_add l0.length]
    exact ⟨rfl, rfl⟩
  rw [hs.1, hs.2]
  have hfirst : ∀ t : Statistics T, t.max = .fin mM → t.min = .fin mm →
      (mergeLoop (realStatOps sqrt) ⟨0, 0, none, some 0, t.min, t.minIndex, t.max, t.maxIndex⟩ [t]).max = .fin mM ∧
      (mergeLoop (realStatOps sqrt) ⟨0, 0, none, some 0, t.min, t.minIndex, t.max, t.maxIndex⟩ [t]).maxIndex = t.maxIndex ∧
      (mergeLoop (realStatOps sqrt) ⟨0, 0, none, some 0, t.min, t.minIndex, t.max, t.maxIndex⟩ [t]).min = .fin mm ∧
      (mergeLoop (realStatOps sqrt) ⟨0, 0, none, some 0, t.min, t.minIndex, t.max, t.maxIndex⟩ [t]).minIndex = t.minIndex := by
    intro t h1 h2
    simp only [mergeLoop, List.foldl_cons, List.foldl_nil, Ext.lt_irrefl, Bool.false_eq_true, if_false]
    exact ⟨h1, trivial, h2, trivial⟩
  obtain ⟨f1, f2, f3, f4⟩ := hfirst _ p1 q1
  have := mergeLoop_min sqrt ls l0 (fun i => i < l0.length) _ hl0 (fun l hl => hne l (by simp [hl])) (fun i hi => hi)
    ⟨mM, f1, by rw [f2, p2]; exact p3⟩
    ⟨mm, f3, by
      rw [f4, q2]
      refine ⟨q3.1, (List.getElem?_eq_some_iff.mp q3.1).1, fun j x _ hx => ⟨q3.2.1 x (List.mem_of_getElem? hx),
        fun hj => q3.2.2 j x hj hx⟩⟩⟩
  obtain ⟨m, r1, r2⟩ := this
  refine ⟨m, r1, ?_⟩
  have hL : LookedAt [] (l0 :: ls) = fun i => i < l0.length ∨ LookedAt l0 ls i := by
    funext i
    simp [LookedAt]
  rw [hL]
  exact r2

/-- C25: `merge` of the statistics of pieces describes the whole data **if and only if** the first smallest element
    of the whole is in a piece which does not raise the maximum. -/
theorem C25_merge_iff [Field T] [LinearOrder T] (sqrt : T → T) (pieces : List (List T)) (h0 : pieces ≠ [])
    (hne : ∀ l ∈ pieces, l ≠ []) :
    Describes (realStatOps sqrt) pieces.flatten
        (Statistics.merge (realStatOps sqrt) (piecesStats (realStatOps sqrt) 0 pieces)) ↔
      ∃ i m, IsFirstMin (fun x => x) pieces.flatten i m ∧ LookedAt [] pieces i := by
  obtain ⟨m, e1, e2, e3, e4⟩ := C25_merge_min_exact sqrt pieces h0 hne
  constructor
  · intro h
    obtain ⟨m', a, b⟩ := h.min
    exact ⟨_, m', b, e3⟩
  · rintro ⟨i, m', ⟨h1, h2, h3⟩, h4⟩
    obtain ⟨l0, ls, rfl⟩ : ∃ l0 ls, pieces = l0 :: ls := List.exists_cons_of_ne_nil h0
    obtain ⟨a, b, c, d, e, -⟩ := C25_merge_partial sqrt l0 ls (hne l0 (by simp)) (fun l hl => hne l (by simp [hl]))
    refine ⟨a, b, c, d, ⟨m, e1, e2, ?_, ?_⟩, e⟩
    · intro x hx
      exact le_trans (e4 i m' h4 h1).1 (h2 x hx)
    · intro j x hj hx
      have hm : m = m' := le_antisymm (e4 i m' h4 h1).1 (h2 m (List.mem_of_getElem? e2))
      have hij : ¬ i < (merge (realStatOps sqrt) (piecesStats (realStatOps sqrt) 0 (l0 :: ls))).minIndex :=
        fun hc => absurd ((e4 i m' h4 h1).2 hc) (by rw [hm]; exact lt_irrefl _)
      rw [hm]
      exact h3 j x (by omega) hx

/-- Both cases occur. -/
example : LookedAt [] ([[2, 5], [1], [3, 0]] : List (List ℚ)) 4 ∧ ¬ LookedAt [] ([[2], [1, 3]] : List (List ℚ)) 1 := by
  constructor
  · norm_num [LookedAt]
  · norm_num [LookedAt]

end Dsp
