import Verif.Props.MatrixRes
import Verif.Props.Sums
import Verif.Props.StatsSplit
import Verif.Props.Mapping
/-
C62: methods of matrices which compute one result per row, and the getters.
-/
namespace Dsp
variable {T : Type}
open DspVec

/-! ### Reductions -/

theorem collectRows_ok {α R : Type} (f : α → Option (Except ErrorReason R)) (P : α → R → Prop) (rows : List α)
    (h : ∀ v ∈ rows, ∃ x, f v = some (.ok x) ∧ P v x) :
    ∃ xs, collectRows f rows = some (.ok xs) ∧ List.Forall₂ P rows xs := by
  induction rows with
  | nil => exact ⟨[], rfl, .nil⟩
  | cons v rest ih =>
    obtain ⟨x, e, hp⟩ := h v (by simp)
    obtain ⟨xs, e', hps⟩ := ih (fun u hu => h u (List.mem_cons_of_mem _ hu))
    exact ⟨x :: xs, by simp [collectRows, e, e'], .cons hp hps⟩

theorem collectRows_error {α R : Type} (f : α → Option (Except ErrorReason R)) (pre : List α) (v : α) (post : List α)
    (e : ErrorReason) (h : ∀ u ∈ pre, ∃ x, f u = some (.ok x)) (he : f v = some (.error e)) :
    collectRows f (pre ++ v :: post) = some (.error e) := by
  induction pre with
  | nil => simp [collectRows, he]
  | cons u rest ih =>
    obtain ⟨x, hx⟩ := h u (by simp)
    simp [collectRows, hx, ih (fun q hq => h q (List.mem_cons_of_mem _ hq))]

theorem forall2_zipIdx {R : Type} {P : DspVec T × Nat → R → Prop} {l : List (DspVec T)} {xs : List R}
    (h : List.Forall₂ P l.zipIdx xs) :
    xs.length = l.length ∧ ∀ (i : Nat) v, l[i]? = some v → ∃ x, xs[i]? = some x ∧ P (v, i) x := by
  obtain ⟨hl, hi⟩ := forall2_index h
  refine ⟨by simpa using hl.symm, fun i v hv => hi i (v, i) ?_⟩
  rw [List.getElem?_zipIdx, hv]
  simp

theorem mem_zipIdx_rows {m : Mat T} {r : DspVec T × Nat} (h : r ∈ m.rows.zipIdx) : m.rows[r.2]? = some r.1 :=
  List.mem_zipIdx_iff_getElem?.1 h

/-- C62: `sum` and `sum_sq` of a real matrix: one sum per row, in the order of the rows, for all register types, settings and orders of
    the workers. The restriction to accepted alignments is C19. -/
theorem C62_sums [CommRing T] (sq : Bool) (k : RegKind) (env : Nat → SumEnv) (m : Mat T)
    (h : ∀ (i : Nat) v, m.rows[i]? = some v → v.WF ∧ AlignmentAccepted (env i).addr k.len v.len) :
    ∃ xs, m.sums sq k env = some xs ∧ OnePerRow m xs (fun _ v x => ∃ a, v.content = some a ∧
      x = if sq then (a.map fun y => y * y).sum else a.sum) := by
  obtain ⟨xs, e, hf⟩ := collectRows_ok (fun (r : DspVec T × Nat) => okResult
    (if sq then r.1.sumSq k (env r.2).addr (env r.2).st (env r.2).order
     else r.1.sum k (env r.2).addr (env r.2).st (env r.2).order))
    (fun r x => ∃ a, r.1.content = some a ∧ x = if sq then (a.map fun y => y * y).sum else a.sum) m.rows.zipIdx
    (fun r hr => by
      obtain ⟨hw, hal⟩ := h r.2 r.1 (mem_zipIdx_rows hr)
      obtain ⟨h1, h2⟩ := C21_sum k (env r.2).addr (env r.2).st r.1 hw _ hw.content_eq hal (env r.2).order
      cases sq with
      | true => exact ⟨_, by simp only [okResult, if_true, h2]; rfl, _, hw.content_eq, by simp⟩
      | false => exact ⟨_, by simp only [okResult, Bool.false_eq_true, if_false, h1]; rfl, _, hw.content_eq, by simp⟩)
  exact ⟨xs, by simp only [Mat.sums, Mat.sumLoop, e], forall2_zipIdx hf⟩

theorem intoFixedLength_eq {R : Type} (l : List R) : ∀ (n : Nat) (out : List R),
    intoFixedLength n l out = if n ≤ l.length then some (l.drop (l.length - n) ++ out) else none := by
  induction l using List.reverseRecOn with
  | nil =>
    intro n out
    cases n with
    | zero => simp [intoFixedLength]
    | succ n => simp [intoFixedLength]
  | append_singleton l x ih =>
    intro n out
    cases n with
    | zero => simp [intoFixedLength]
    | succ n =>
      simp only [intoFixedLength, List.getLast?_append, List.getLast?_singleton, Option.some_or, List.dropLast_concat, ih,
        List.length_append, List.length_singleton]
      by_cases hn : n ≤ l.length
      · rw [if_pos hn, if_pos (by omega)]
        congr 1
        rw [List.drop_append_of_le_length (by omega), show l.length + 1 - (n + 1) = l.length - n by omega]
        simp
      · rw [if_neg hn, if_neg (by omega)]

/-- C62: `sum` and `sum_sq` of `Matrix2xN` with a result of two numbers are the sums of the two rows. -/
theorem C62_sums_array [CommRing T] (sq : Bool) (k : RegKind) (env : Nat → SumEnv) (m : Mat T) (hm : m.rows.length = 2)
    (h : ∀ (i : Nat) v, m.rows[i]? = some v → v.WF ∧ AlignmentAccepted (env i).addr k.len v.len) :
    ∃ xs, m.sumsArray 2 sq k env = some xs ∧ OnePerRow m xs (fun _ v x => ∃ a, v.content = some a ∧
      x = if sq then (a.map fun y => y * y).sum else a.sum) := by
  obtain ⟨xs, e, hx⟩ := C62_sums sq k env m h
  refine ⟨xs, ?_, hx⟩
  have hl : xs.length = 2 := hx.1.trans hm
  simp [Mat.sumsArray, e, intoFixedLength_eq, hl]

/-- C62 is violated by `sum` and `sum_sq` with three or four numbers, which are implemented for `Matrix2xN` (and not for `Matrix3xN`
    and `Matrix4xN`): they always panic. -/
theorem C62_sums_array_violated [CommRing T] (n : Nat) (hn : n = 3 ∨ n = 4) (sq : Bool) (k : RegKind) (env : Nat → SumEnv)
    (m : Mat T) (hm : m.rows.length = 2)
    (h : ∀ (i : Nat) v, m.rows[i]? = some v → v.WF ∧ AlignmentAccepted (env i).addr k.len v.len) :
    m.sumsArray n sq k env = none := by
  obtain ⟨xs, e, hx⟩ := C62_sums sq k env m h
  have hl : xs.length = 2 := hx.1.trans hm
  simp only [Mat.sumsArray, e, Option.bind_eq_bind, Option.bind_some, intoFixedLength_eq, hl]
  rw [if_neg (by omega)]

/-- C62: `dot_product` and `dot_product_prec` with a matrix with the same number of rows. -/
theorem C62_dot [CommRing T] (prec : Bool) (k : RegKind) (env : Nat → SumEnv) (m o : Mat T)
    (hrows : o.rows.length = m.rows.length)
    (h : ∀ (i : Nat) v x, m.rows[i]? = some v → o.rows[i]? = some x →
      v.WF ∧ x.WF ∧ v.isComplex = false ∧ x.len = v.len ∧ AlignmentAccepted (env i).addr k.len v.len) :
    ∃ xs, m.dotProduct prec k env o = some (.ok xs) ∧ OnePerRow m xs (fun i v y => ∃ x a b, o.rows[i]? = some x ∧
      v.content = some a ∧ x.content = some b ∧ y = (List.zipWith (· * ·) a b).sum) := by
  have hz : ∀ (i : Nat) (r : DspVec T × DspVec T × Nat), (m.rows.zip o.rows.zipIdx)[i]? = some r →
      m.rows[i]? = some r.1 ∧ o.rows[i]? = some r.2.1 ∧ r.2.2 = i := by
    intro i r hr
    obtain ⟨h1, h2⟩ := List.getElem?_zip_eq_some.1 hr
    refine ⟨h1, ?_⟩
    rw [List.getElem?_zipIdx] at h2
    cases hy : o.rows[i]? with
    | none => rw [hy] at h2; cases h2
    | some z => rw [hy] at h2; simp at h2; rw [← h2]; simp
  obtain ⟨xs, e, hf⟩ := collectRows_ok (fun (r : DspVec T × DspVec T × Nat) =>
    r.1.dotProduct prec k (env r.2.2).addr (env r.2.2).st r.2.1 (env r.2.2).order)
    (fun r y => ∃ x a b, o.rows[r.2.2]? = some x ∧ r.1.content = some a ∧ x.content = some b ∧
      y = (List.zipWith (· * ·) a b).sum) (m.rows.zip o.rows.zipIdx) (fun r hr => by
      obtain ⟨i, hi⟩ := List.getElem?_of_mem hr
      obtain ⟨h1, h2, h3⟩ := hz i r hi
      obtain ⟨g1, g2, g3, g4, g5⟩ := h i r.1 r.2.1 h1 h2
      refine ⟨_, ?_, r.2.1, _, _, by rw [h3]; exact h2, g1.content_eq, g2.content_eq, rfl⟩
      rw [h3]
      exact C21_dot prec k _ _ r.1 r.2.1 g1 g3 _ _ g1.content_eq g2.content_eq
        ((g2.content_length g2.content_eq).trans (g4.trans (g1.content_length g1.content_eq).symm)) g5 _)
  refine ⟨xs, e, ?_⟩
  obtain ⟨hl, hi⟩ := forall2_index hf
  refine ⟨by rw [← hl]; simp [hrows], fun i v hv => ?_⟩
  have hlt : i < o.rows.length := by
    rw [hrows]
    by_contra hn
    rw [List.getElem?_eq_none (by omega)] at hv
    cases hv
  exact hi i (v, o.rows[i], i) (List.getElem?_zip_eq_some.2 ⟨hv, by rw [List.getElem?_zipIdx, List.getElem?_eq_getElem hlt]; simp⟩)

/-- C62: `dot_product` and `dot_product_prec` of a matrix with one vector. -/
theorem C62_dot_vector [CommRing T] (prec : Bool) (k : RegKind) (env : Nat → SumEnv) (m : Mat T) (x : DspVec T) (hx : x.WF)
    (h : ∀ (i : Nat) v, m.rows[i]? = some v →
      v.WF ∧ v.isComplex = false ∧ x.len = v.len ∧ AlignmentAccepted (env i).addr k.len v.len) :
    ∃ xs, m.dotProductVec prec k env x = some (.ok xs) ∧ OnePerRow m xs (fun _ v y => ∃ a b,
      v.content = some a ∧ x.content = some b ∧ y = (List.zipWith (· * ·) a b).sum) := by
  obtain ⟨xs, e, hf⟩ := collectRows_ok (fun (r : DspVec T × Nat) =>
    r.1.dotProduct prec k (env r.2).addr (env r.2).st x (env r.2).order)
    (fun r y => ∃ a b, r.1.content = some a ∧ x.content = some b ∧ y = (List.zipWith (· * ·) a b).sum) m.rows.zipIdx
    (fun r hr => by
      obtain ⟨g1, g3, g4, g5⟩ := h r.2 r.1 (mem_zipIdx_rows hr)
      exact ⟨_, C21_dot prec k _ _ r.1 x g1 g3 _ _ g1.content_eq hx.content_eq
        ((hx.content_length hx.content_eq).trans (g4.trans (g1.content_length g1.content_eq).symm)) g5 _,
        _, _, g1.content_eq, hx.content_eq, rfl⟩)
  exact ⟨xs, e, forall2_zipIdx hf⟩

/-- C62: the dot product of a matrix with a row which is complex (rows of the generic type) is an error. -/
theorem C62_dot_error [Field T] (prec : Bool) (k : RegKind) (env : Nat → SumEnv) (m : Mat T) (x v : DspVec T) (hx : x.WF) (j : Nat)
    (h : ∀ (i : Nat) v, i < j → m.rows[i]? = some v →
      v.WF ∧ v.isComplex = false ∧ x.len = v.len ∧ AlignmentAccepted (env i).addr k.len v.len)
    (hv : m.rows[j]? = some v) (hc : v.isComplex = true) :
    m.dotProductVec prec k env x = some (.error .inputMustBeReal) := by
  have hj : j < m.rows.length := by
    by_contra hn; rw [List.getElem?_eq_none (by omega)] at hv; cases hv
  have hsplit : m.rows.zipIdx = m.rows.zipIdx.take j ++ (v, j) :: m.rows.zipIdx.drop (j + 1) := by
    conv_lhs => rw [← List.take_append_drop j m.rows.zipIdx]
    congr 1
    rw [List.drop_eq_getElem_cons (by simpa using hj)]
    congr 1
    rw [List.getElem_zipIdx]
    rw [List.getElem?_eq_getElem hj] at hv
    simp at hv
    simp [hv]
  unfold Mat.dotProductVec
  rw [hsplit]
  apply collectRows_error
  · intro u hu
    obtain ⟨i, hi⟩ := List.getElem?_of_mem hu
    have hij : i < j := by
      by_contra hn
      rw [List.getElem?_eq_none (by simp; omega)] at hi
      cases hi
    rw [List.getElem?_take_of_lt hij, List.getElem?_zipIdx] at hi
    cases hy : m.rows[i]? with
    | none => rw [hy] at hi; cases hi
    | some z =>
      rw [hy] at hi
      simp at hi
      subst hi
      obtain ⟨g1, g3, g4, g5⟩ := h i z hij hy
      exact ⟨_, C21_dot prec k _ _ z x g1 g3 _ _ g1.content_eq hx.content_eq
        ((hx.content_length hx.content_eq).trans (g4.trans (g1.content_length g1.content_eq).symm)) g5 _⟩
  · exact (C21_dot_checks prec k _ _ v x _).1 hc

/-- C62: `statistics` and `statistics_prec` of a matrix whose rows are not empty: one statistics per row, describing this row. For
    `Matrix2xN`, `Matrix3xN` and `Matrix4xN` as well. -/
theorem C62_statistics [Field T] [LinearOrder T] (prec : Bool) (sqrt : T → T) (env : Nat → SumEnv) (m : Mat T)
    (hm : ∀ n, m.kind = .fixed n → m.rows.length = n)
    (h : ∀ v ∈ m.rows, v.WF ∧ v.len ≠ 0) :
    ∃ xs, m.statistics prec (realStatOps sqrt) env = some xs ∧ OnePerRow m xs (fun _ v s => ∃ a, v.content = some a ∧
      Describes (realStatOps sqrt) a s) := by
  obtain ⟨xs, e, hf⟩ := collectRows_ok (fun (r : DspVec T × Nat) => okResult
      (if prec then r.1.statisticsPrec (realStatOps sqrt) (env r.2).st (env r.2).order
       else r.1.statistics (realStatOps sqrt) (env r.2).st (env r.2).order))
    (fun r s => ∃ a, r.1.content = some a ∧ Describes (realStatOps sqrt) a s) m.rows.zipIdx (fun r hr => by
      obtain ⟨hw, hne⟩ := h r.1 (List.mem_of_getElem? (mem_zipIdx_rows hr))
      have hl := hw.content_length hw.content_eq
      obtain ⟨s, e, hs⟩ := C24_real sqrt (env r.2).st r.1 _ hw.content_eq
        (by intro hz; rw [hz] at hl; exact hne hl.symm) (env r.2).order
      refine ⟨s, ?_, _, hw.content_eq, hs⟩
      cases prec with
      | true => simp only [okResult, if_true, C28_statistics, e]; rfl
      | false => simp only [okResult, Bool.false_eq_true, if_false, e]; rfl)
  have hx : OnePerRow m xs (fun _ v s => ∃ a, v.content = some a ∧ Describes (realStatOps sqrt) a s) := forall2_zipIdx hf
  refine ⟨xs, ?_, hx⟩
  unfold Mat.statistics
  simp only [e, Option.bind_eq_bind, Option.bind_some]
  cases hk : m.kind with
  | mxn => rfl
  | fixed n =>
    have hl : xs.length = n := hx.1.trans (hm n hk)
    simp [intoFixedLength_eq, hl]

/-- C62: `statistics_split(k)` and `statistics_split_prec(k)` for `1 ≤ k ≤ 16`. -/
theorem C62_statistics_split [Field T] [LinearOrder T] (prec : Bool) (sqrt : T → T) (len : Nat) (h1 : 0 < len) (h16 : len ≤ 16)
    (env : Nat → SumEnv) (m : Mat T) (hm : ∀ n, m.kind = .fixed n → m.rows.length = n)
    (h : ∀ v ∈ m.rows, v.WF ∧ v.len ≠ 0) :
    ∃ xs, m.statisticsSplit prec (realStatOps sqrt) len env = some (.ok xs) ∧ OnePerRow m xs (fun _ v s =>
      ∃ a, v.content = some a ∧ SplitDescribes (realStatOps sqrt) len a s) := by
  obtain ⟨xs, e, hf⟩ := collectRows_ok (fun (r : DspVec T × Nat) =>
      if prec then r.1.statisticsSplitPrec (realStatOps sqrt) (env r.2).st len (env r.2).order
      else r.1.statisticsSplit (realStatOps sqrt) (env r.2).st len (env r.2).order)
    (fun r s => ∃ a, r.1.content = some a ∧ SplitDescribes (realStatOps sqrt) len a s) m.rows.zipIdx (fun r hr => by
      obtain ⟨hw, hne⟩ := h r.1 (List.mem_of_getElem? (mem_zipIdx_rows hr))
      have hl := hw.content_length hw.content_eq
      obtain ⟨s, e, hs⟩ := C26_real sqrt (env r.2).st r.1 _ hw.content_eq
        (by intro hz; rw [hz] at hl; exact hne hl.symm) len h1 h16 (env r.2).order
      refine ⟨s, ?_, _, hw.content_eq, hs⟩
      cases prec with
      | true => simp only [if_true, C28_statistics_split, e]
      | false => simp only [Bool.false_eq_true, if_false, e])
  have hx : OnePerRow m xs (fun _ v s => ∃ a, v.content = some a ∧ SplitDescribes (realStatOps sqrt) len a s) := forall2_zipIdx hf
  refine ⟨xs, ?_, hx⟩
  unfold Mat.statisticsSplit
  simp only [e]
  cases hk : m.kind with
  | mxn => rfl
  | fixed n =>
    have hl : xs.length = n := hx.1.trans (hm n hk)
    simp [intoFixedLength_eq, hl, okResult]

/-- C62: `map_aggregate` of a matrix whose rows are real, not empty and fill their storage (see C27): one result per row, the aggregated
    values of this row. -/
theorem C62_map_aggregate_partial {R : Type} (map : T → Nat → R) (agg : R → R → R) (env : Nat → SumEnv) (m : Mat T)
    (hm : ∀ n, m.kind = .fixed n → m.rows.length = n)
    (h : ∀ v ∈ m.rows, v.isComplex = false ∧ v.allocLen = v.len ∧ v.len ≠ 0) :
    ∃ xs, m.mapAggregate map agg env = some (.ok xs) ∧ OnePerRow m xs (fun _ v y => ∃ a, v.content = some a ∧
      leftFold agg (a.mapIdx fun i x => map x i) = .ok y) := by
  obtain ⟨xs, e, hf⟩ := collectRows_ok (fun (r : DspVec T × Nat) => r.1.mapAggregate (env r.2).st map agg (env r.2).order)
    (fun r y => ∃ a, r.1.content = some a ∧ leftFold agg (a.mapIdx fun i x => map x i) = .ok y) m.rows.zipIdx (fun r hr => by
      obtain ⟨h1, h2, h3⟩ := h r.1 (List.mem_of_getElem? (mem_zipIdx_rows hr))
      have hc : r.1.content = some r.1.data.cells := by
        have h4 : r.1.validLen = r.1.data.cells.length := h2.symm
        unfold content slice
        rw [h4, if_pos ⟨Nat.zero_le _, Nat.le_refl _⟩]
        simp
      have hne : r.1.data.cells ≠ [] := by
        intro hz
        have : r.1.allocLen = 0 := by show r.1.data.cells.length = 0; rw [hz]; rfl
        omega
      rw [C27_map_aggregate_partial (env r.2).st map agg r.1 h1 _ hc h2 (env r.2).order]
      obtain ⟨x, l, hx⟩ := List.exists_cons_of_ne_nil hne
      rw [hc, hx, List.mapIdx_cons]
      exact ⟨_, rfl, _, rfl, by rw [List.mapIdx_cons]; rfl⟩)
  have hx := forall2_zipIdx hf
  refine ⟨xs, ?_, hx⟩
  unfold Mat.mapAggregate
  simp only [e]
  cases hk : m.kind with
  | mxn => rfl
  | fixed n =>
    have hl : xs.length = n := hx.1.trans (hm n hk)
    simp [intoFixedLength_eq, hl, okResult]

/-- C62: `map_aggregate` with a first row which is complex or has no storage is an error, and the function `map` is never called. -/
theorem C62_map_aggregate_error {R : Type} (map : T → Nat → R) (agg : R → R → R) (env : Nat → SumEnv) (m : Mat T) (v : DspVec T)
    (rest : List (DspVec T)) (hm : m.rows = v :: rest) :
    (v.isComplex = true → m.mapAggregate map agg env = some (.error .inputMustBeReal)) ∧
    (v.isComplex = false → v.allocLen = 0 → m.mapAggregate map agg env = some (.error .inputMustNotBeEmpty)) := by
  unfold Mat.mapAggregate
  rw [hm]
  constructor
  · intro hc
    simp only [List.zipIdx_cons, collectRows, DspVec.mapAggregate, hc, if_true]
  · intro hc h0
    simp only [List.zipIdx_cons, collectRows, DspVec.mapAggregate, hc, Bool.false_eq_true, if_false, h0, if_true]

/-- A matrix with two rows which meets the hypotheses. -/
example : ∃ m : Mat ℚ, m.rows.length = 2 ∧ (∀ n, m.kind = .fixed n → m.rows.length = n) ∧
    ∀ v ∈ m.rows, v.isComplex = false ∧ v.allocLen = v.len ∧ v.len ≠ 0 :=
  ⟨⟨.fixed 2, [⟨⟨.vec, [1, 2, 3]⟩, some 1, .time, .real, 3⟩, ⟨⟨.vec, [5, 6, 7]⟩, some 1, .time, .real, 3⟩]⟩, rfl,
    by intro n hn; cases hn; rfl, by decide⟩

/-! ### Getters -/

theorem forRows_unit {α β : Type} (f : Unit → α → Outcome (β × Unit)) (P : α → β → Prop) (rows : List α)
    (h : ∀ v ∈ rows, f () v = .running ∨ ∃ w, f () v = .finished (w, ()) ∧ P v w) :
    forRows f () rows = .running ∨ ∃ ws, forRows f () rows = .finished (ws, ()) ∧ List.Forall₂ P rows ws := by
  induction rows with
  | nil => exact .inr ⟨[], rfl, .nil⟩
  | cons v rest ih =>
    rcases h v (by simp) with e | ⟨w, e, hp⟩
    · exact .inl (by simp [forRows, e, Outcome.andThen])
    · rcases ih (fun u hu => h u (List.mem_cons_of_mem _ hu)) with e' | ⟨ws, e', hps⟩
      · exact .inl (by simp [forRows, e, e', Outcome.andThen])
      · exact .inr ⟨w :: ws, by simp [forRows, e, e', Outcome.andThen], .cons hp hps⟩

/-- The rows behind those which are changed. -/
theorem rowsChanged_append (m : Mat T) (ws : List (DspVec T)) (n : Nat) (R : Nat → DspVec T → DspVec T → Prop)
    (hl : ws.length = min m.rows.length n)
    (h : ∀ (i : Nat) v, i < n → m.rows[i]? = some v → ∃ w, ws[i]? = some w ∧ R i v w) :
    RowsChanged m ⟨m.kind, ws ++ m.rows.drop n⟩ n R := by
  refine ⟨rfl, by simp [hl]; omega, fun i v hi hv => ?_, fun i hi => ?_⟩
  · obtain ⟨w, h1, h2⟩ := h i v hi hv
    refine ⟨w, ?_, h2⟩
    show (ws ++ _)[i]? = _
    rw [List.getElem?_append_left]
    · exact h1
    · by_contra hn
      rw [List.getElem?_eq_none (by omega)] at h1
      cases h1
  · show (ws ++ _)[i]? = _
    by_cases hm : m.rows.length ≤ n
    · rw [List.getElem?_eq_none (by simp [hl]; omega), List.getElem?_eq_none (by omega)]
    · rw [List.getElem?_append_right (by omega), List.getElem?_drop]
      congr 1
      omega

/-- C62 (partial): `get_real` and `get_imag` write the real and imaginary parts of row `i` into row `i` of the destination. (The
    condition on the size of the destination is that of `C30_destination_partial`.) -/
theorem C62_get_real_imag_partial [Zero T] (norm normSq arg : Cx T → T) (g : GetterMethod) (hg : g = .real ∨ g = .imag)
    (env : Nat → RowEnv) (m dest : Mat T)
    (h : ∀ (i : Nat) v d, m.rows[i]? = some v → dest.rows[i]? = some d →
      v.WF ∧ v.isComplex = true ∧ d.WF ∧ NotInline d.data.kind ∧ d.isComplex = false ∧ CanHold d.data v.len) :
    m.get norm normSq arg g env dest = .running ∨
      ∃ dest', m.get norm normSq arg g env dest = .finished dest' ∧
        RowsChanged dest dest' m.rows.length (fun i d w => ∃ v cs, m.rows[i]? = some v ∧ v.content = some (fromComplex cs) ∧
          RealVersion { d with delta := v.delta } w (cs.map (if g = .real then Cx.re else Cx.im))) := by
  have hfun : g.matrixMethod.function norm normSq arg = if g = .real then Cx.re else Cx.im := by
    rcases hg with rfl | rfl <;> simp [GetterMethod.matrixMethod, GetterMethod.function]
  have hz : ∀ (i : Nat) (r : DspVec T × DspVec T × Nat), (dest.rows.zip m.rows.zipIdx)[i]? = some r →
      dest.rows[i]? = some r.1 ∧ m.rows[i]? = some r.2.1 ∧ r.2.2 = i := by
    intro i r hr
    obtain ⟨h1, h2⟩ := List.getElem?_zip_eq_some.1 hr
    refine ⟨h1, ?_⟩
    rw [List.getElem?_zipIdx] at h2
    cases hy : m.rows[i]? with
    | none => rw [hy] at h2; cases h2
    | some z => rw [hy] at h2; simp at h2; rw [← h2]; simp
  have key := forRows_unit (fun (_ : Unit) (r : DspVec T × DspVec T × Nat) =>
      (r.2.1.getRealWith (g.matrixMethod.function norm normSq arg) (env r.2.2).st r.1 (env r.2.2).sched).andThen fun d =>
        .finished (d, ()))
    (fun r w => ∃ cs, r.2.1.content = some (fromComplex cs) ∧
      RealVersion { r.1 with delta := r.2.1.delta } w (cs.map (if g = .real then Cx.re else Cx.im)))
    (dest.rows.zip m.rows.zipIdx) (fun r hr => by
      obtain ⟨i, hi⟩ := List.getElem?_of_mem hr
      obtain ⟨h1, h2, h3⟩ := hz i r hi
      obtain ⟨g1, g2, g3, g4, g5, g6⟩ := h i r.2.1 r.1 h2 h1
      obtain ⟨cs, hcs, _⟩ := g1.content_even g2
      obtain ⟨w, ⟨hw, _⟩, hv⟩ := C30_destination_partial (g.matrixMethod.function norm normSq arg) (env r.2.2).st r.2.1 r.1 g2 cs hcs
        g3 g4 g5 g6
      rcases hw (env r.2.2).sched with e | e
      · exact .inl (by simp [e, Outcome.andThen])
      · exact .inr ⟨w, by simp [e, Outcome.andThen], cs, hcs, by rw [hfun] at hv; exact hv⟩)
  unfold Mat.get
  rcases key with e | ⟨ws, e, hf⟩
  · exact .inl (by rw [e]; rfl)
  · refine .inr ⟨⟨dest.kind, ws ++ dest.rows.drop m.rows.length⟩, by rw [e]; rfl, ?_⟩
    obtain ⟨hl, hi⟩ := forall2_index hf
    refine rowsChanged_append dest ws m.rows.length _ (by rw [← hl]; simp) (fun i d hlt hd => ?_)
    obtain ⟨w, h1, cs, h2, h3⟩ := hi i (d, m.rows[i], i)
      (List.getElem?_zip_eq_some.2 ⟨hd, by rw [List.getElem?_zipIdx, List.getElem?_eq_getElem hlt]; simp⟩)
    exact ⟨w, h1, m.rows[i], cs, List.getElem?_eq_getElem hlt, h2, h3⟩

/-- C62 is violated by `get_magnitude`, `get_magnitude_squared` and `get_phase`: all three do what `get_imag` does, whatever the
    functions `norm`, `normSq` and `arg` are. -/
theorem C62_getters_violated [Zero T] (norm normSq arg : Cx T → T) (env : Nat → RowEnv) (m dest : Mat T) :
    m.get norm normSq arg .magnitude env dest = m.get norm normSq arg .imag env dest ∧
    m.get norm normSq arg .magnitudeSquared env dest = m.get norm normSq arg .imag env dest ∧
    m.get norm normSq arg .phase env dest = m.get norm normSq arg .imag env dest := ⟨rfl, rfl, rfl⟩

/-- The squared magnitude of `3 + 4j` is given as 4. -/
theorem C62_get_magnitude_squared_violated : ∃ (m dest dest' : Mat ℚ) (env : Nat → RowEnv),
    m.rows.map DspVec.content = [some (fromComplex [⟨3, 4⟩])] ∧
    (∀ norm arg, m.get norm (fun c => c.re * c.re + c.im * c.im) arg .magnitudeSquared env dest = .finished dest') ∧
    dest'.rows.map DspVec.content = [some [4]] := by
  refine ⟨⟨.mxn, [⟨⟨.vec, [3, 4]⟩, some 1, .time, .complex, 2⟩]⟩, ⟨.mxn, [⟨⟨.vec, []⟩, some 1, .time, .real, 0⟩]⟩,
    ⟨.mxn, [⟨⟨.vec, [4, 0]⟩, some 1, .time, .real, 1⟩]⟩, exampleEnv, rfl, fun norm arg => rfl, ?_⟩
  decide +kernel

/-- The loop over three zipped lists of rows. -/
theorem getPair_rows (f : DspVec T → DspVec T → DspVec T → Option (DspVec T × DspVec T)) (f1 f2 : Cx T → T) (m d1 d2 : Mat T)
    (h : ∀ (i : Nat) v p q, m.rows[i]? = some v → d1.rows[i]? = some p → d2.rows[i]? = some q →
      ∃ cs a b, v.content = some (fromComplex cs) ∧ f v p q = some (a, b) ∧ RealVersion p a (cs.map f1) ∧
        RealVersion q b (cs.map f2))
    (hrows : d1.rows.length = m.rows.length ∧ d2.rows.length = m.rows.length) :
    ∃ e1 e2, m.getPair f d1 d2 = .finished (e1, e2) ∧
      (∀ (i : Nat) v p q, m.rows[i]? = some v → d1.rows[i]? = some p → d2.rows[i]? = some q →
        ∃ cs w1 w2, v.content = some (fromComplex cs) ∧ e1.rows[i]? = some w1 ∧ e2.rows[i]? = some w2 ∧
          RealVersion p w1 (cs.map f1) ∧ RealVersion q w2 (cs.map f2)) ∧
      e1.rows.length = m.rows.length ∧ e2.rows.length = m.rows.length := by
  have key := forRows_unit (fun (_ : Unit) (r : (DspVec T × DspVec T) × DspVec T) =>
      match f r.2 r.1.1 r.1.2 with
      | none => .panic
      | some q => .finished (q, ()))
    (fun r w => ∃ cs, r.2.content = some (fromComplex cs) ∧ RealVersion r.1.1 w.1 (cs.map f1) ∧
      RealVersion r.1.2 w.2 (cs.map f2))
    ((d1.rows.zip d2.rows).zip m.rows) (fun r hr => by
      obtain ⟨i, hi⟩ := List.getElem?_of_mem hr
      obtain ⟨h12, h3⟩ := List.getElem?_zip_eq_some.1 hi
      obtain ⟨h1, h2⟩ := List.getElem?_zip_eq_some.1 h12
      obtain ⟨cs, a, b, hcs, e, ha, hb⟩ := h i r.2 r.1.1 r.1.2 h3 h1 h2
      exact .inr ⟨(a, b), by simp [e], cs, hcs, ha, hb⟩)
  rcases key with e | ⟨ws, e, hf⟩
  · exfalso
    clear hrows
    have : ∀ rows : List ((DspVec T × DspVec T) × DspVec T), forRows (fun (_ : Unit) (r : (DspVec T × DspVec T) × DspVec T) =>
      match f r.2 r.1.1 r.1.2 with
      | none => (.panic : Outcome ((DspVec T × DspVec T) × Unit))
      | some q => .finished (q, ())) () rows ≠ .running := by
      intro rows
      induction rows with
      | nil => intro h; cases h
      | cons r rest ih =>
        simp only [forRows]
        cases f r.2 r.1.1 r.1.2 with
        | none => intro h; cases h
        | some q =>
          simp only [Outcome.andThen]
          intro h
          split at h
          · cases h
          · rename_i h'; exact ih h'
          · cases h
    exact this _ e
  · obtain ⟨hl, hi⟩ := forall2_index hf
    have hl' : ws.length = m.rows.length := by rw [← hl]; simp [hrows.1, hrows.2]
    refine ⟨⟨d1.kind, ws.map Prod.fst ++ d1.rows.drop ws.length⟩, ⟨d2.kind, ws.map Prod.snd ++ d2.rows.drop ws.length⟩,
      ?_, fun i v p q hv hp hq => ?_, by simp [hl', hrows.1], by simp [hl', hrows.2]⟩
    · unfold Mat.getPair
      exact congrArg (fun x => Outcome.andThen x _) e
    obtain ⟨w, h1, cs, h2, h3, h4⟩ := hi i ((p, q), v)
      (List.getElem?_zip_eq_some.2 ⟨List.getElem?_zip_eq_some.2 ⟨hp, hq⟩, hv⟩)
    have hlt : i < ws.length := by
      by_contra hn; rw [List.getElem?_eq_none (by omega)] at h1; cases h1
    refine ⟨cs, w.1, w.2, h2, ?_, ?_, h3, h4⟩
    · show (_ ++ _)[i]? = _
      rw [List.getElem?_append_left (by simpa using hlt), List.getElem?_map, h1]; rfl
    · show (_ ++ _)[i]? = _
      rw [List.getElem?_append_left (by simpa using hlt), List.getElem?_map, h1]; rfl

/-- C62: `get_real_imag` and `get_mag_phase` write both parts of row `i` into row `i` of the destinations. -/
theorem C62_get_pair [Zero T] (polar : Cx T → T × T) (m d1 d2 : Mat T)
    (h : ∀ (i : Nat) v p q, m.rows[i]? = some v → d1.rows[i]? = some p → d2.rows[i]? = some q →
      v.WF ∧ v.isComplex = true ∧ p.WF ∧ NotInline p.data.kind ∧ p.isComplex = false ∧ CanHold p.data v.points ∧
      q.WF ∧ NotInline q.data.kind ∧ q.isComplex = false ∧ CanHold q.data v.points)
    (hrows : d1.rows.length = m.rows.length ∧ d2.rows.length = m.rows.length)
    (f : DspVec T → DspVec T → DspVec T → Option (DspVec T × DspVec T)) (f1 f2 : Cx T → T)
    (hf : f = DspVec.getRealImag ∧ f1 = Cx.re ∧ f2 = Cx.im ∨
      f = DspVec.getMagPhase polar ∧ (f1 = fun c => (polar c).1) ∧ f2 = fun c => (polar c).2) :
    ∃ e1 e2, m.getPair f d1 d2 = .finished (e1, e2) ∧
      (∀ (i : Nat) v p q, m.rows[i]? = some v → d1.rows[i]? = some p → d2.rows[i]? = some q →
        ∃ cs w1 w2, v.content = some (fromComplex cs) ∧ e1.rows[i]? = some w1 ∧ e2.rows[i]? = some w2 ∧
          RealVersion p w1 (cs.map f1) ∧ RealVersion q w2 (cs.map f2)) ∧
      e1.rows.length = m.rows.length ∧ e2.rows.length = m.rows.length := by
  refine getPair_rows f f1 f2 m d1 d2 (fun i v p q hv hp hq => ?_) hrows
  obtain ⟨g1, g2, g3, g4, g5, g6, g7, g8, g9, g10⟩ := h i v p q hv hp hq
  obtain ⟨cs, hcs, hl⟩ := g1.content_even g2
  have hpts : cs.length = v.points := by
    unfold DspVec.points
    rw [g2]
    simp
    omega
  rcases hf with ⟨rfl, rfl, rfl⟩ | ⟨rfl, rfl, rfl⟩
  · obtain ⟨a, b, e, ha, hb⟩ := getRealImag_ok v p q g2 cs hcs g3 g4 g5 (by rw [hpts]; exact g6) g7 g8 g9 (by rw [hpts]; exact g10)
    exact ⟨cs, a, b, hcs, e, ha, hb⟩
  · obtain ⟨a, b, e, ha, hb⟩ := C46_get_mag_phase polar v p q g2 cs hcs g3 g4 g5 (by rw [hpts]; exact g6) g7 g8 g9
      (by rw [hpts]; exact g10)
    exact ⟨cs, a, b, hcs, e, ha, hb⟩

/-! ### Examples -/

/-- One worker. -/
def exampleSumEnv : Nat → SumEnv := fun i => ⟨2 * i, ⟨1, 0, 0, 0, 0⟩, []⟩

example : ∀ (i : Nat) v, exampleMat.rows[i]? = some v →
    v.WF ∧ AlignmentAccepted (exampleSumEnv i).addr RegKind.sseF32x4.len v.len := by
  intro i v hv
  have := exampleMat_accepts i v hv
  exact ⟨this.wf, this.aligned⟩

example : exampleMat.sums false .sseF32x4 exampleSumEnv = some [6, 12] := by decide +kernel

example : (∀ n, exampleMat.kind = .fixed n → exampleMat.rows.length = n) ∧ ∀ v ∈ exampleMat.rows, v.WF ∧ v.len ≠ 0 := by
  refine ⟨fun n h => by (cases h), fun v hv => ?_⟩
  simp only [exampleMat, List.mem_cons, List.not_mem_nil, or_false] at hv
  rcases hv with rfl | rfl
  · exact ⟨⟨by decide, by decide⟩, by decide⟩
  · exact ⟨⟨by decide, by decide⟩, by decide⟩

/-- A complex matrix and a destination. -/
example : ∀ (i : Nat) v d, (Mat.mk .mxn [(⟨⟨.vec, [3, 4, 5, 6]⟩, some 1, .time, .complex, 4⟩ : DspVec ℚ)]).rows[i]? = some v →
    (Mat.mk .mxn [(⟨⟨.vec, []⟩, some 1, .time, .real, 0⟩ : DspVec ℚ)]).rows[i]? = some d →
    v.WF ∧ v.isComplex = true ∧ d.WF ∧ NotInline d.data.kind ∧ d.isComplex = false ∧ CanHold d.data v.len := by
  intro i v d hv hd
  match i, hv, hd with
  | 0, hv, hd =>
    cases hv; cases hd
    exact ⟨⟨by decide, by decide⟩, rfl, ⟨by decide, by decide⟩, (fun c h => by cases h), rfl, .inr trivial⟩
  | i + 1, hv, hd => cases hv

/-- Destinations for both parts. -/
example : (∀ (i : Nat) v p q, (Mat.mk .mxn [(⟨⟨.vec, [3, 4, 5, 6]⟩, some 1, .time, .complex, 4⟩ : DspVec ℚ)]).rows[i]? = some v →
      (Mat.mk .mxn [(⟨⟨.vec, []⟩, some 1, .time, .real, 0⟩ : DspVec ℚ)]).rows[i]? = some p →
      (Mat.mk .mxn [(⟨⟨.vec, [8]⟩, some 1, .time, .real, 1⟩ : DspVec ℚ)]).rows[i]? = some q →
      v.WF ∧ v.isComplex = true ∧ p.WF ∧ NotInline p.data.kind ∧ p.isComplex = false ∧ CanHold p.data v.points ∧
      q.WF ∧ NotInline q.data.kind ∧ q.isComplex = false ∧ CanHold q.data v.points) := by
  intro i v p q hv hp hq
  match i, hv, hp, hq with
  | 0, hv, hp, hq =>
    cases hv; cases hp; cases hq
    exact ⟨⟨by decide, by decide⟩, rfl, ⟨by decide, by decide⟩, (fun c h => by cases h), rfl, .inr trivial,
      ⟨by decide, by decide⟩, (fun c h => by cases h), rfl, .inr trivial⟩
  | i + 1, hv, _, _ => cases hv

end Dsp
