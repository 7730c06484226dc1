import Verif.Props.Matrix
import Verif.Props.Elementary
import Verif.Props.SymFft
import Verif.Props.ComplexOps
/-
C61: methods of matrices which return a result.
-/
namespace Dsp
variable {T : Type}
open DspVec

/-! ### The loops -/

theorem forall2_index {α β : Type} {R : α → β → Prop} {l : List α} {m : List β} (h : List.Forall₂ R l m) :
    l.length = m.length ∧ ∀ (i : Nat) (a : α), l[i]? = some a → ∃ b, m[i]? = some b ∧ R a b := by
  induction h with
  | nil => exact ⟨rfl, fun i a h => by simp at h⟩
  | cons h _ ih =>
    refine ⟨by simp [ih.1], fun i a hi => ?_⟩
    cases i with
    | zero => simp at hi; subst hi; exact ⟨_, rfl, h⟩
    | succ i => simp at hi; simpa using ih.2 i a hi

theorem tryRows_ok {ρ ι : Type} (f : Unit → ρ → ι → Outcome (ρ × Unit × VoidResult)) (P : ρ → ι → ρ → Prop)
    (rows : List (ρ × ι))
    (h : ∀ r ∈ rows, ∃ w, f () r.1 r.2 = .finished (w, (), .ok ()) ∧ P r.1 r.2 w) :
    ∃ ws, tryRows f () rows = .finished (ws, (), .ok ()) ∧ List.Forall₂ (fun r w => P r.1 r.2 w) rows ws := by
  induction rows with
  | nil => exact ⟨[], rfl, .nil⟩
  | cons r rest ih =>
    obtain ⟨w, e, hp⟩ := h r (by simp)
    obtain ⟨ws, e', hps⟩ := ih (fun q hq => h q (List.mem_cons_of_mem _ hq))
    exact ⟨w :: ws, by simp [tryRows, e, e', Outcome.andThen], .cons hp hps⟩

theorem tryRows_error {ρ ι : Type} (f : Unit → ρ → ι → Outcome (ρ × Unit × VoidResult)) (P : ρ → ι → ρ → Prop)
    (pre : List (ρ × ι)) (r : ρ × ι) (post : List (ρ × ι)) (w : ρ) (e : ErrorReason)
    (h : ∀ r ∈ pre, ∃ w, f () r.1 r.2 = .finished (w, (), .ok ()) ∧ P r.1 r.2 w)
    (he : f () r.1 r.2 = .finished (w, (), .error e)) :
    ∃ ws, tryRows f () (pre ++ r :: post) = .finished (ws ++ w :: post.map Prod.fst, (), .error e) ∧
      List.Forall₂ (fun r w => P r.1 r.2 w) pre ws := by
  induction pre with
  | nil => exact ⟨[], by simp [tryRows, he, Outcome.andThen], .nil⟩
  | cons q rest ih =>
    obtain ⟨x, e1, hp⟩ := h q (by simp)
    obtain ⟨ws, e', hps⟩ := ih (fun q hq => h q (List.mem_cons_of_mem _ hq))
    exact ⟨x :: ws, by simp [tryRows, e1, e', Outcome.andThen], .cons hp hps⟩

/-- The loop over rows whose operands are given by `op`: all succeed. -/
theorem tryRows_changed {ι : Type} (f : Unit → DspVec T → ι → Outcome (DspVec T × Unit × VoidResult))
    (m : Mat T) (ops : List ι) (R : Nat → DspVec T → DspVec T → Prop)
    (h : ∀ (i : Nat) v x, m.rows[i]? = some v → ops[i]? = some x →
      ∃ w, f () v x = .finished (w, (), .ok ()) ∧ R i v w) :
    ∃ ws, tryRows f () (m.rows.zip ops) = .finished (ws, (), .ok ()) ∧
      RowsChanged m ⟨m.kind, ws ++ m.rows.drop ops.length⟩ ops.length R := by
  -- carry the row numbers along
  have key : ∀ (rows : List (DspVec T)) (ops : List ι) (k : Nat),
      (∀ (i : Nat) v x, rows[i]? = some v → ops[i]? = some x →
        ∃ w, f () v x = .finished (w, (), .ok ()) ∧ R (k + i) v w) →
      ∃ ws, tryRows f () (rows.zip ops) = .finished (ws, (), .ok ()) ∧ ws.length = min rows.length ops.length ∧
        ∀ (i : Nat) v, i < ops.length → rows[i]? = some v → ∃ w, ws[i]? = some w ∧ R (k + i) v w := by
    intro rows
    induction rows with
    | nil => intro ops k _; exact ⟨[], by cases ops <;> rfl, by simp, fun i v _ h => by simp at h⟩
    | cons v rest ih =>
      intro ops k h
      cases ops with
      | nil => exact ⟨[], rfl, by simp, fun i v hi _ => by simp at hi⟩
      | cons x xs =>
        obtain ⟨w, e, hr⟩ := h 0 v x rfl rfl
        obtain ⟨ws, e', hl, hws⟩ := ih xs (k + 1) (fun i v x h1 h2 => by
          have := h (i + 1) v x (by simpa using h1) (by simpa using h2)
          rwa [show k + (i + 1) = k + 1 + i by omega] at this)
        refine ⟨w :: ws, by simp [tryRows, e, e', Outcome.andThen], by simp [hl], fun i u hi hu => ?_⟩
        cases i with
        | zero => simp at hu; subst hu; exact ⟨w, rfl, hr⟩
        | succ i =>
          obtain ⟨w', h1, h2⟩ := hws i u (by simpa using hi) (by simpa using hu)
          exact ⟨w', by simpa using h1, by rwa [show k + (i + 1) = k + 1 + i by omega]⟩
  obtain ⟨ws, e, hl, hws⟩ := key m.rows ops 0 (by simpa using h)
  refine ⟨ws, e, rfl, ?_, ?_, ?_⟩
  · simp [hl]; omega
  · intro i v hi hv
    obtain ⟨w, h1, h2⟩ := hws i v hi hv
    refine ⟨w, ?_, by simpa using h2⟩
    show (ws ++ _)[i]? = _
    rw [List.getElem?_append_left]
    · exact h1
    · by_contra hn
      rw [List.getElem?_eq_none (by omega)] at h1
      cases h1
  · intro i hi
    show (ws ++ _)[i]? = _
    by_cases hm : m.rows.length ≤ ops.length
    · rw [List.getElem?_eq_none (by simp [hl]; omega), List.getElem?_eq_none (by omega)]
    · rw [List.getElem?_append_right (by omega), List.getElem?_drop]
      congr 1
      omega

/-- The loop over rows: row `j` is the first whose operation fails. -/
theorem tryRows_stopped {ι : Type} (f : Unit → DspVec T → ι → Outcome (DspVec T × Unit × VoidResult))
    (m : Mat T) (ops : List ι) (R : Nat → DspVec T → DspVec T → Prop) (j : Nat) (v : DspVec T) (x : ι) (w : DspVec T)
    (e : ErrorReason)
    (h : ∀ (i : Nat) v x, i < j → m.rows[i]? = some v → ops[i]? = some x →
      ∃ w, f () v x = .finished (w, (), .ok ()) ∧ R i v w)
    (hv : m.rows[j]? = some v) (hx : ops[j]? = some x) (he : f () v x = .finished (w, (), .error e)) :
    ∃ ws, tryRows f () (m.rows.zip ops) = .finished (ws, (), .error e) ∧
      RowsChanged m ⟨m.kind, ws ++ m.rows.drop ops.length⟩ (j + 1)
        (fun i u w' => if i = j then w' = w else R i u w') := by
  have key : ∀ (j : Nat) (rows : List (DspVec T)) (ops : List ι) (k : Nat),
      (∀ (i : Nat) v x, i < j → rows[i]? = some v → ops[i]? = some x →
        ∃ w, f () v x = .finished (w, (), .ok ()) ∧ R (k + i) v w) →
      rows[j]? = some v → ops[j]? = some x →
      ∃ ws, tryRows f () (rows.zip ops) = .finished (ws, (), .error e) ∧ ws.length = min rows.length ops.length ∧
        (∀ (i : Nat) u, i < j → rows[i]? = some u → ∃ w, ws[i]? = some w ∧ R (k + i) u w) ∧
        ws[j]? = some w ∧ ∀ i, j < i → i < ops.length → ws[i]? = rows[i]? := by
    intro j
    induction j with
    | zero =>
      intro rows ops k _ h1 h2
      cases rows with
      | nil => cases h1
      | cons v' rest =>
        cases ops with
        | nil => cases h2
        | cons x' xs =>
          simp at h1 h2
          subst h1 h2
          refine ⟨w :: (rest.zip xs).map Prod.fst, by simp [tryRows, he, Outcome.andThen], by simp,
            fun i u hi => by omega, rfl, fun i hi hlt => ?_⟩
          cases i with
          | zero => omega
          | succ i =>
            simp only [List.length_cons, List.getElem?_cons_succ] at hlt ⊢
            by_cases hr : i < rest.length
            · have hx : i < xs.length := by omega
              simp [hr, hx]
            · rw [List.getElem?_eq_none (by simp; omega), List.getElem?_eq_none (by omega)]
    | succ j ih =>
      intro rows ops k h h1 h2
      cases rows with
      | nil => cases h1
      | cons v' rest =>
        cases ops with
        | nil => cases h2
        | cons x' xs =>
          obtain ⟨w', e', hr⟩ := h 0 v' x' (by omega) rfl rfl
          obtain ⟨ws, e2, hl, h3, h4, h5⟩ := ih rest xs (k + 1) (fun i u y hi g1 g2 => by
            have := h (i + 1) u y (by omega) (by simpa using g1) (by simpa using g2)
            rwa [show k + (i + 1) = k + 1 + i by omega] at this) (by simpa using h1) (by simpa using h2)
          refine ⟨w' :: ws, by simp [tryRows, e', e2, Outcome.andThen], by simp [hl], fun i u hi hu => ?_, by simpa using h4,
            fun i hi hlt => ?_⟩
          · cases i with
            | zero => simp at hu; subst hu; exact ⟨w', rfl, hr⟩
            | succ i =>
              obtain ⟨w2, g1, g2⟩ := h3 i u (by omega) (by simpa using hu)
              exact ⟨w2, by simpa using g1, by rwa [show k + (i + 1) = k + 1 + i by omega]⟩
          · cases i with
            | zero => omega
            | succ i => simpa using h5 i (by omega) (by simpa using hlt)
  obtain ⟨ws, e1, hl, h3, h4, h5⟩ := key j m.rows ops 0 (by simpa using h) hv hx
  have hj : j < m.rows.length := by
    by_contra hn; rw [List.getElem?_eq_none (by omega)] at hv; cases hv
  have hj' : j < ops.length := by
    by_contra hn; rw [List.getElem?_eq_none (by omega)] at hx; cases hx
  refine ⟨ws, e1, rfl, ?_, ?_, ?_⟩
  · simp [hl]; omega
  · intro i u hi hu
    by_cases hij : i = j
    · subst hij
      refine ⟨w, ?_, by simp⟩
      show (ws ++ _)[i]? = _
      rw [List.getElem?_append_left (by omega), h4]
    · obtain ⟨w', g1, g2⟩ := h3 i u (by omega) hu
      refine ⟨w', ?_, by simpa [hij] using g2⟩
      show (ws ++ _)[i]? = _
      rw [List.getElem?_append_left (by omega), g1]
  · intro i hi
    show (ws ++ _)[i]? = _
    by_cases hi' : i < ops.length
    · by_cases hm : i < m.rows.length
      · rw [List.getElem?_append_left (by omega), h5 i (by omega) hi']
      · rw [List.getElem?_eq_none (by simp [hl]; omega), List.getElem?_eq_none (by omega)]
    · by_cases hm : m.rows.length ≤ ops.length
      · rw [List.getElem?_eq_none (by simp [hl]; omega), List.getElem?_eq_none (by omega)]
      · rw [List.getElem?_append_right (by omega), List.getElem?_drop]
        congr 1
        omega

theorem noBuffer_some {α : Type} {o : Option (α × VoidResult)} {w : α} {r : VoidResult} (h : o = some (w, r)) :
    noBuffer o = .finished (w, (), r) := by subst h; rfl

theorem zipIdx_rows (l : List (DspVec T)) : l.zipIdx = l.zip (List.range l.length) := by
  rw [List.zipIdx_eq_zip_range', List.range_eq_range']

/-- A loop over all rows with an operand for each row. -/
theorem tryRows_all (f : Unit → DspVec T → Nat → Outcome (DspVec T × Unit × VoidResult))
    (m : Mat T) (R : Nat → DspVec T → DspVec T → Prop)
    (h : ∀ (i : Nat) v, m.rows[i]? = some v → ∃ w, f () v i = .finished (w, (), .ok ()) ∧ R i v w) :
    ∃ ws, tryRows f () m.rows.zipIdx = .finished (ws, (), .ok ()) ∧ RowsChanged m ⟨m.kind, ws⟩ m.rows.length R := by
  rw [zipIdx_rows]
  obtain ⟨ws, e, hr⟩ := tryRows_changed f m (List.range m.rows.length) R (fun i v x hv hx => by
    have : x = i := by
      rw [List.getElem?_range] at hx
      · simpa using hx.symm
      · by_contra hn
        rw [List.getElem?_eq_none (by omega)] at hv
        cases hv
    subst this
    exact h x v hv)
  rw [List.length_range, List.drop_length, List.append_nil] at hr
  exact ⟨ws, e, hr⟩

theorem tryRows_all_stopped (f : Unit → DspVec T → Nat → Outcome (DspVec T × Unit × VoidResult))
    (m : Mat T) (R : Nat → DspVec T → DspVec T → Prop) (j : Nat) (v w : DspVec T) (e : ErrorReason)
    (h : ∀ (i : Nat) v, i < j → m.rows[i]? = some v → ∃ w, f () v i = .finished (w, (), .ok ()) ∧ R i v w)
    (hv : m.rows[j]? = some v) (he : f () v j = .finished (w, (), .error e)) :
    ∃ ws, tryRows f () m.rows.zipIdx = .finished (ws, (), .error e) ∧
      RowsChanged m ⟨m.kind, ws⟩ (j + 1) (fun i u w' => if i = j then w' = w else R i u w') := by
  rw [zipIdx_rows]
  have hj : j < m.rows.length := by
    by_contra hn; rw [List.getElem?_eq_none (by omega)] at hv; cases hv
  obtain ⟨ws, e1, hr⟩ := tryRows_stopped f m (List.range m.rows.length) R j v j w e (fun i v x hi hv hx => by
    have : x = i := by
      rw [List.getElem?_range (by omega)] at hx
      simpa using hx.symm
    subst this
    exact h x v hi hv) hv (by rw [List.getElem?_range hj]) he
  rw [List.length_range, List.drop_length, List.append_nil] at hr
  exact ⟨ws, e1, hr⟩

/-- If row `j` is unchanged the rows from `j` on are. -/
theorem RowsChanged.stopped {m m' : Mat T} {j : Nat} {R : Nat → DspVec T → DspVec T → Prop} {v : DspVec T}
    (h : RowsChanged m m' (j + 1) (fun i u w' => if i = j then w' = v else R i u w')) (hv : m.rows[j]? = some v) :
    RowsChanged m m' j R := by
  refine ⟨h.kind, h.count, fun i u hi hu => ?_, fun i hi => ?_⟩
  · obtain ⟨w, h1, h2⟩ := h.changed i u (by omega) hu
    exact ⟨w, h1, by simpa [show i ≠ j by omega] using h2⟩
  · by_cases hij : i = j
    · subst hij
      obtain ⟨w, h1, h2⟩ := h.changed i v (by omega) hv
      simp at h2
      rw [h1, hv, h2]
    · exact h.same i (by omega)

/-! ### `resize` -/

/-- C61, `resize`: if every row can be resized the result is `Ok` and every row has the new length, its numbers (as far as the
    shorter length goes), and its meta data. -/
theorem C61_resize [Zero T] (m : Mat T) (n : Nat)
    (h : ∀ v ∈ m.rows, v.WF ∧ NotInline v.data.kind ∧ ¬ (v.isComplex = true ∧ n % 2 = 1) ∧ CanHold v.data n) :
    ∃ m', m.resize n = .finished (m', .ok ()) ∧ RowsChanged m m' m.rows.length (fun _ v w =>
      w.len = n ∧ w.WF ∧ w.SameMeta v ∧ w.data.cells.take (min v.len n) = v.data.cells.take (min v.len n)) := by
  obtain ⟨ws, e, hr⟩ := tryRows_all (fun (_ : Unit) (v : DspVec T) (_ : Nat) => noBuffer (some (v.resize n))) m
    (fun _ v w => w.len = n ∧ w.WF ∧ w.SameMeta v ∧ w.data.cells.take (min v.len n) = v.data.cells.take (min v.len n))
    (fun i v hv => by
      obtain ⟨h1, h2, h3, h4⟩ := h v (List.mem_of_getElem? hv)
      obtain ⟨w, e, g1, g2, g3, g4, _⟩ := (C02_resize v h1 h2 n).2.2 h3 h4
      exact ⟨w, noBuffer_some (by rw [e]), g1, g2, g3, g4⟩)
  exact ⟨_, by simp [Mat.resize, e, Outcome.andThen], hr⟩

/-- C61, `resize`: the first row which can not be resized determines the error; the rows before it have the new length, this
    row and all others are as they were. -/
theorem C61_resize_error [Zero T] (m : Mat T) (n j : Nat) (v : DspVec T)
    (h : ∀ (i : Nat) u, i < j → m.rows[i]? = some u →
      u.WF ∧ NotInline u.data.kind ∧ ¬ (u.isComplex = true ∧ n % 2 = 1) ∧ CanHold u.data n)
    (hv : m.rows[j]? = some v) (hw : v.WF) (hk : NotInline v.data.kind)
    (hbad : (v.isComplex = true ∧ n % 2 = 1) ∨ ¬ CanHold v.data n) :
    ∃ m', m.resize n = .finished (m', .error
        (if v.isComplex = true ∧ n % 2 = 1 then .inputMustHaveAnEvenLength else .typeCanNotResize)) ∧
      RowsChanged m m' j (fun _ v w =>
        w.len = n ∧ w.WF ∧ w.SameMeta v ∧ w.data.cells.take (min v.len n) = v.data.cells.take (min v.len n)) := by
  have he : v.resize n = (v, .error
      (if v.isComplex = true ∧ n % 2 = 1 then .inputMustHaveAnEvenLength else .typeCanNotResize)) := by
    obtain ⟨h1, h2, _⟩ := C02_resize v hw hk n
    by_cases hc : v.isComplex = true ∧ n % 2 = 1
    · rw [h1 hc, if_pos hc]
    · rw [h2 hc (hbad.resolve_left hc), if_neg hc]
  obtain ⟨ws, e, hr⟩ := tryRows_all_stopped (fun (_ : Unit) (v : DspVec T) (_ : Nat) => noBuffer (some (v.resize n))) m
    (fun _ v w => w.len = n ∧ w.WF ∧ w.SameMeta v ∧ w.data.cells.take (min v.len n) = v.data.cells.take (min v.len n))
    j v v _
    (fun i v hi hv => by
      obtain ⟨h1, h2, h3, h4⟩ := h i v hi hv
      obtain ⟨w, e, g1, g2, g3, g4, _⟩ := (C02_resize v h1 h2 n).2.2 h3 h4
      exact ⟨w, noBuffer_some (by rw [e]), g1, g2, g3, g4⟩) hv (noBuffer_some (by rw [he]))
  exact ⟨_, by simp [Mat.resize, e, Outcome.andThen], hr.stopped hv⟩

/-! ### Elementary operations -/

section
variable [Field T] [LinearOrder T] [IsStrictOrderedRing T]

omit [IsStrictOrderedRing T] in
theorem row_method (op : ElemOp) (k : RegKind) (addr : Nat) (v o : DspVec T) :
    op.method.matrixMethod.row k addr v o = op.run k addr v o := by cases op <;> rfl

omit [IsStrictOrderedRing T] in
theorem row_methodSmaller (op : ElemOp) (k : RegKind) (addr : Nat) (v o : DspVec T) :
    op.methodSmaller.matrixMethod.row k addr v o = op.runSmaller v o := by cases op <;> rfl

theorem run_combined {op : ElemOp} {k : RegKind} {addr : Nat} {v o : DspVec T} (h : Accepts op k addr v o) :
    ∃ w, op.run k addr v o = some (w, .ok ()) ∧ Combined op v o w := by
  cases hc : v.isComplex with
  | false =>
    obtain ⟨a, b, w, h1, h2, h3, h4⟩ := C22_real op k addr v o h.wf h.operandWf h.posDelta h.len h.metaData hc h.aligned
    exact ⟨w, h3, .inl ⟨hc, a, b, h1, h2, h4⟩⟩
  | true =>
    obtain ⟨a, b, w, h1, h2, h3, h4⟩ :=
      C22_complex op k addr v o h.wf h.operandWf h.posDelta h.len h.metaData hc h.aligned (h.even hc)
    exact ⟨w, h3, .inr ⟨hc, a, b, h1, h2, h4⟩⟩

theorem runSmaller_combined {op : ElemOp} {v o : DspVec T} (h : AcceptsSmaller v o) :
    ∃ w, op.runSmaller v o = some (w, .ok ()) ∧ CombinedCycled op v o w := by
  cases hc : v.isComplex with
  | false =>
    obtain ⟨a, b, r, w, h1, h2, h3, h4, h5⟩ := C23_real op v o h.wf h.operandWf h.posDelta h.nonEmpty h.divides h.metaData hc
    exact ⟨w, h3, .inl ⟨hc, a, b, r, h1, h2, h4, h5⟩⟩
  | true =>
    obtain ⟨a, b, r, w, h1, h2, h3, h4, h5⟩ :=
      C23_complex op v o h.wf h.operandWf h.posDelta h.nonEmpty h.divides h.metaData hc
    exact ⟨w, h3, .inr ⟨hc, a, b, r, h1, h2, h4, h5⟩⟩

/-- C61: `add`, `sub`, `mul` and `div` with a matrix combine every row with the row of the operand with the same number. (If the
    operand has less rows the other rows are left alone, see `C61_fewer_rows_violated`.) -/
theorem C61_binary (op : ElemOp) (k : RegKind) (addr : Nat → Nat) (m o : Mat T)
    (h : ∀ (i : Nat) v x, m.rows[i]? = some v → o.rows[i]? = some x → Accepts op k (addr i) v x) :
    ∃ m', m.binary op.method k addr o = .finished (m', .ok ()) ∧
      RowsChanged m m' o.rows.length (fun i v w => ∃ x, o.rows[i]? = some x ∧ Combined op v x w) := by
  obtain ⟨ws, e, hr⟩ := tryRows_changed
    (fun (_ : Unit) (v : DspVec T) (x : DspVec T × Nat) => noBuffer (op.method.matrixMethod.row k (addr x.2) v x.1)) m
    o.rows.zipIdx (fun i v w => ∃ x, o.rows[i]? = some x ∧ Combined op v x w) (fun i v x hv hx => by
      obtain ⟨y, j⟩ := x
      have : o.rows[i]? = some y ∧ j = i := by
        rw [List.getElem?_zipIdx] at hx
        cases hy : o.rows[i]? with
        | none => rw [hy] at hx; cases hx
        | some z => rw [hy] at hx; simp at hx; exact ⟨by rw [hx.1], hx.2.symm⟩
      obtain ⟨hy, rfl⟩ := this
      obtain ⟨w, e, hw⟩ := run_combined (h j v y hv hy)
      exact ⟨w, noBuffer_some (by rw [row_method]; exact e), y, hy, hw⟩)
  rw [List.length_zipIdx] at hr
  exact ⟨_, by simp [Mat.binary, e, Outcome.andThen], hr⟩

/-- C61: the first row whose operand is rejected determines the error; the rows before it are combined, this row and all
    behind it are as they were. -/
theorem C61_binary_error (op : ElemOp) (k : RegKind) (addr : Nat → Nat) (m o : Mat T) (j : Nat) (v x : DspVec T)
    (h : ∀ (i : Nat) v x, i < j → m.rows[i]? = some v → o.rows[i]? = some x → Accepts op k (addr i) v x)
    (hv : m.rows[j]? = some v) (hx : o.rows[j]? = some x) (hp : PosDelta x) (hbad : v.len ≠ x.len ∨ ¬ MetaAgree v x) :
    ∃ m', m.binary op.method k addr o = .finished (m', .error
        (if v.len ≠ x.len then .inputMustHaveTheSameSize else .inputMetaDataMustAgree)) ∧
      RowsChanged m m' j (fun i v w => ∃ x, o.rows[i]? = some x ∧ Combined op v x w) := by
  have he : op.run k (addr j) v x = some (v, .error
      (if v.len ≠ x.len then .inputMustHaveTheSameSize else .inputMetaDataMustAgree)) := by
    obtain ⟨h1, h2⟩ := C22_operand_checks op k (addr j) v x hp
    by_cases hl : v.len = x.len
    · rw [h2 hl (hbad.resolve_left (by simpa using hl)), if_neg (by simpa using hl)]
    · rw [h1 hl, if_pos hl]
  obtain ⟨ws, e, hr⟩ := tryRows_stopped
    (fun (_ : Unit) (v : DspVec T) (x : DspVec T × Nat) => noBuffer (op.method.matrixMethod.row k (addr x.2) v x.1)) m
    o.rows.zipIdx (fun i v w => ∃ x, o.rows[i]? = some x ∧ Combined op v x w) j v (x, j) v _ (fun i v x hi hv hx => by
      obtain ⟨y, l⟩ := x
      have : o.rows[i]? = some y ∧ l = i := by
        rw [List.getElem?_zipIdx] at hx
        cases hy : o.rows[i]? with
        | none => rw [hy] at hx; cases hx
        | some z => rw [hy] at hx; simp at hx; exact ⟨by rw [hx.1], hx.2.symm⟩
      obtain ⟨hy, rfl⟩ := this
      obtain ⟨w, e, hw⟩ := run_combined (h l v y hi hv hy)
      exact ⟨w, noBuffer_some (by rw [row_method]; exact e), y, hy, hw⟩) hv (by rw [List.getElem?_zipIdx, hx]; simp)
    (noBuffer_some (by rw [row_method, he]))
  rw [List.length_zipIdx] at hr
  exact ⟨_, by simp [Mat.binary, e, Outcome.andThen], hr.stopped hv⟩

/-- C61: the operations for smaller operands, with a matrix. -/
theorem C61_binary_smaller (op : ElemOp) (k : RegKind) (addr : Nat → Nat) (m o : Mat T)
    (h : ∀ (i : Nat) v x, m.rows[i]? = some v → o.rows[i]? = some x → AcceptsSmaller v x) :
    ∃ m', m.binary op.methodSmaller k addr o = .finished (m', .ok ()) ∧
      RowsChanged m m' o.rows.length (fun i v w => ∃ x, o.rows[i]? = some x ∧ CombinedCycled op v x w) := by
  obtain ⟨ws, e, hr⟩ := tryRows_changed
    (fun (_ : Unit) (v : DspVec T) (x : DspVec T × Nat) => noBuffer (op.methodSmaller.matrixMethod.row k (addr x.2) v x.1)) m
    o.rows.zipIdx (fun i v w => ∃ x, o.rows[i]? = some x ∧ CombinedCycled op v x w) (fun i v x hv hx => by
      obtain ⟨y, j⟩ := x
      have : o.rows[i]? = some y ∧ j = i := by
        rw [List.getElem?_zipIdx] at hx
        cases hy : o.rows[i]? with
        | none => rw [hy] at hx; cases hx
        | some z => rw [hy] at hx; simp at hx; exact ⟨by rw [hx.1], hx.2.symm⟩
      obtain ⟨hy, rfl⟩ := this
      obtain ⟨w, e, hw⟩ := runSmaller_combined (h j v y hv hy)
      exact ⟨w, noBuffer_some (by rw [row_methodSmaller]; exact e), y, hy, hw⟩)
  rw [List.length_zipIdx] at hr
  exact ⟨_, by simp [Mat.binary, e, Outcome.andThen], hr⟩

/-- C61: with a vector as operand all rows are combined with this vector. -/
theorem C61_binary_vector (op : ElemOp) (k : RegKind) (addr : Nat → Nat) (m : Mat T) (x : DspVec T) :
    ((∀ (i : Nat) v, m.rows[i]? = some v → Accepts op k (addr i) v x) →
      ∃ m', m.binaryVec op.method k addr x = .finished (m', .ok ()) ∧
        RowsChanged m m' m.rows.length (fun _ v w => Combined op v x w)) ∧
    ((∀ v ∈ m.rows, AcceptsSmaller v x) →
      ∃ m', m.binaryVec op.methodSmaller k addr x = .finished (m', .ok ()) ∧
        RowsChanged m m' m.rows.length (fun _ v w => CombinedCycled op v x w)) := by
  constructor
  · intro h
    obtain ⟨ws, e, hr⟩ := tryRows_all
      (fun (_ : Unit) (v : DspVec T) (i : Nat) => noBuffer (op.method.matrixMethod.row k (addr i) v x)) m
      (fun _ v w => Combined op v x w) (fun i v hv => by
        obtain ⟨w, e, hw⟩ := run_combined (h i v hv)
        exact ⟨w, noBuffer_some (by rw [row_method]; exact e), hw⟩)
    exact ⟨_, by simp [Mat.binaryVec, e, Outcome.andThen], hr⟩
  · intro h
    obtain ⟨ws, e, hr⟩ := tryRows_all
      (fun (_ : Unit) (v : DspVec T) (i : Nat) => noBuffer (op.methodSmaller.matrixMethod.row k (addr i) v x)) m
      (fun _ v w => CombinedCycled op v x w) (fun i v hv => by
        obtain ⟨w, e, hw⟩ := runSmaller_combined (op := op) (h v (List.mem_of_getElem? hv))
        exact ⟨w, noBuffer_some (by rw [row_methodSmaller]; exact e), hw⟩)
    exact ⟨_, by simp [Mat.binaryVec, e, Outcome.andThen], hr⟩

/-- C61 is violated by an operand with less rows than the matrix: the operation reports success although the last rows have no
    operand and stay as they were. -/
theorem C61_fewer_rows_violated (op : ElemOp) (k : RegKind) (addr : Nat → Nat) (m o : Mat T)
    (h : ∀ (i : Nat) v x, m.rows[i]? = some v → o.rows[i]? = some x → Accepts op k (addr i) v x)
    (hrows : o.rows.length < m.rows.length) :
    ∃ m', m.binary op.method k addr o = .finished (m', .ok ()) ∧ (∀ i, o.rows.length ≤ i → m'.rows[i]? = m.rows[i]?) ∧
      ∃ v, m'.rows[o.rows.length]? = some v ∧ m.rows[o.rows.length]? = some v := by
  obtain ⟨m', e, hr⟩ := C61_binary op k addr m o h
  have hl := List.getElem?_eq_getElem hrows
  exact ⟨m', e, hr.same, _, (hr.same _ le_rfl).trans hl, hl⟩

end

/-! ### Conversions which can fail -/

theorem popRowsRes_eq {σ α β : Type} (f : σ → α → Outcome (β × σ × VoidResult)) (rows : List α) :
    ∀ (s : σ) (err : Option ErrorReason) (out : List β),
    popRowsRes f rows.length s err rows out =
      (forRowsRes f s err rows.reverse).andThen fun r => .finished (out ++ r.1, r.2) := by
  induction rows using List.reverseRecOn with
  | nil => intro s err out; simp [popRowsRes, forRowsRes, Outcome.andThen]
  | append_singleton l v ih =>
    intro s err out
    rw [List.length_append, List.length_singleton]
    simp only [popRowsRes, List.getLast?_append, List.getLast?_singleton, Option.some_or, List.dropLast_concat,
      List.reverse_append, List.reverse_singleton, List.singleton_append, forRowsRes, ih]
    cases f s v with
    | panic => rfl
    | running => rfl
    | finished r =>
      simp only [Outcome.andThen]
      cases forRowsRes f r.2.1 (rememberError err r.2.2) l.reverse <;> simp

theorem forRowsRes_ok {σ α β : Type} (Inv : σ → Prop) (P : α → β → Prop) (f : σ → α → Outcome (β × σ × VoidResult))
    (rows : List α) : ∀ (s : σ), Inv s →
      (∀ s v, Inv s → v ∈ rows → ∃ w s', f s v = .finished (w, s', .ok ()) ∧ P v w ∧ Inv s') →
      ∃ ws s', forRowsRes f s none rows = .finished (ws, s', none) ∧ List.Forall₂ P rows ws ∧ Inv s' := by
  induction rows with
  | nil => intro s hs _; exact ⟨[], s, rfl, .nil, hs⟩
  | cons v rest ih =>
    intro s hs h
    obtain ⟨w, s1, e, hp, hs1⟩ := h s v hs (by simp)
    obtain ⟨ws, s2, e2, hps, hs2⟩ := ih s1 hs1 (fun s u hi hu => h s u hi (List.mem_cons_of_mem _ hu))
    exact ⟨w :: ws, s2, by simp [forRowsRes, e, e2, Outcome.andThen, rememberError], .cons hp hps, hs2⟩

/-- All conversions succeed. -/
theorem transformRowsRes_ok {σ : Type} (Inv : σ → Prop) (P : DspVec T → DspVec T → Prop)
    (f : σ → DspVec T → Outcome (DspVec T × σ × VoidResult)) (m : Mat T) (s : σ) (hs : Inv s)
    (h : ∀ s v, Inv s → v ∈ m.rows → ∃ w s', f s v = .finished (w, s', .ok ()) ∧ P v w ∧ Inv s') :
    ∃ ws s', transformRowsRes m.kind f s m.rows = .finished (ws, s', .ok ()) ∧
      RowsChanged m ⟨m.kind, ws⟩ m.rows.length (fun _ v w => P v w) ∧ Inv s' := by
  have fin : ∀ ws : List (DspVec T), List.Forall₂ P m.rows ws →
      RowsChanged m ⟨m.kind, ws⟩ m.rows.length (fun _ v w => P v w) := by
    intro ws hf
    obtain ⟨hl, hi⟩ := forall2_index hf
    refine ⟨rfl, hl.symm, fun i v _ hv => hi i v hv, fun i hi => ?_⟩
    rw [List.getElem?_eq_none (by simpa [hl] using hi), List.getElem?_eq_none hi]
  cases hk : m.kind with
  | fixed n =>
    obtain ⟨ws, s', e, hf, hs'⟩ := forRowsRes_ok Inv P f m.rows s hs h
    exact ⟨ws, s', by simp [transformRowsRes, e, Outcome.andThen, errorResult], hk ▸ fin ws hf, hs'⟩
  | mxn =>
    obtain ⟨ws, s', e, hf, hs'⟩ := forRowsRes_ok Inv P f m.rows.reverse s hs
      (fun s v hi hv => h s v hi (List.mem_reverse.1 hv))
    refine ⟨ws.reverse, s', by simp [transformRowsRes, popRowsRes_eq, e, Outcome.andThen, errorResult], ?_, hs'⟩
    have := fin ws.reverse (by simpa using forall2_reverse hf)
    rwa [hk] at this

/-- The error which is reported: that of the first row which fails for a `Vec` of rows, that of the last row which fails for
    an array. -/
def reportedError (k : MatKind) (results : List VoidResult) : VoidResult :=
  errorResult (match k with
    | .mxn => results.reverse.foldl rememberError none
    | .fixed _ => results.foldl rememberError none)

theorem forRowsRes_pure {α β : Type} (g : α → β × VoidResult) (f : Unit → α → Outcome (β × Unit × VoidResult))
    (rows : List α) : ∀ (err : Option ErrorReason), (∀ v ∈ rows, f () v = .finished ((g v).1, (), (g v).2)) →
    forRowsRes f () err rows =
      .finished (rows.map fun v => (g v).1, (), (rows.map fun v => (g v).2).foldl rememberError err) := by
  induction rows with
  | nil => intro err _; rfl
  | cons v rest ih =>
    intro err h
    simp [forRowsRes, h v (by simp), Outcome.andThen, ih _ (fun u hu => h u (List.mem_cons_of_mem _ hu))]

theorem transformRowsRes_pure {α β : Type} (k : MatKind) (g : α → β × VoidResult)
    (f : Unit → α → Outcome (β × Unit × VoidResult)) (rows : List α)
    (h : ∀ v ∈ rows, f () v = .finished ((g v).1, (), (g v).2)) :
    transformRowsRes k f () rows =
      .finished (rows.map fun v => (g v).1, (), reportedError k (rows.map fun v => (g v).2)) := by
  cases k with
  | fixed n => simp [transformRowsRes, forRowsRes_pure g f rows none h, Outcome.andThen, reportedError]
  | mxn =>
    rw [transformRowsRes]
    simp only [popRowsRes_eq, forRowsRes_pure g f rows.reverse none (fun v hv => h v (List.mem_reverse.1 hv)),
      Outcome.andThen, reportedError, List.map_reverse, List.nil_append, List.reverse_reverse]

theorem foldl_remember_error (e : ErrorReason) (l : List VoidResult) (hl : ∀ r ∈ l, r = .ok () ∨ r = .error e) :
    ∀ err : Option ErrorReason, (err = some e ∨ (err = none ∧ .error e ∈ l)) → l.foldl rememberError err = some e := by
  induction l with
  | nil => intro err h; rcases h with h | h
           · exact h
           · simp at h
  | cons r rest ih =>
    intro err h
    rw [List.foldl_cons]
    apply ih (fun r hr => hl r (List.mem_cons_of_mem _ hr))
    rcases hl r (by simp) with rfl | rfl
    · rcases h with h | ⟨h1, h2⟩
      · exact .inl h
      · right
        refine ⟨h1, ?_⟩
        simpa using h2
    · exact .inl rfl

/-- C61, `to_complex`: if all rows can hold the complex numbers, all are converted. -/
theorem C61_to_complex [Zero T] (m : Mat T)
    (h : ∀ v ∈ m.rows, v.WF ∧ NotInline v.data.kind ∧ v.isComplex = false ∧ CanHold v.data (2 * v.len)) :
    ∃ m', m.toComplex = .finished (m', .ok ()) ∧ RowsChanged m m' m.rows.length (fun _ v w =>
      ∃ c, v.content = some c ∧ ComplexVersion v w (c.map fun x => ⟨x, 0⟩)) := by
  obtain ⟨ws, s', e, hr, _⟩ := transformRowsRes_ok (fun _ : Unit => True)
    (fun v w => ∃ c, v.content = some c ∧ ComplexVersion v w (c.map fun x => ⟨x, 0⟩))
    (fun (_ : Unit) (v : DspVec T) => noBuffer v.toComplexVec) m () trivial (fun _ v _ hv => by
      obtain ⟨h1, h2, h3, h4⟩ := h v hv
      obtain ⟨c, hc⟩ := (⟨_, h1.content_eq⟩ : ∃ c, v.content = some c)
      obtain ⟨w, e, hw⟩ := (C29_to_complex v h1 h2 h3 c hc).1 h4
      exact ⟨w, (), noBuffer_some e, ⟨c, hc, hw⟩, trivial⟩)
  exact ⟨_, by simp [Mat.toComplex, e, Outcome.andThen], hr⟩

/-- C61, `to_complex`: if a row can not hold the complex numbers the error of this row is reported, for all types of matrices; the
    other rows are converted nevertheless. -/
theorem C61_to_complex_error [Zero T] (m : Mat T)
    (h : ∀ v ∈ m.rows, v.WF ∧ NotInline v.data.kind ∧ v.isComplex = false)
    (hbad : ∃ v ∈ m.rows, ¬ CanHold v.data (2 * v.len)) :
    ∃ m', m.toComplex = .finished (m', .error .typeCanNotResize) ∧ RowsChanged m m' m.rows.length (fun _ v w =>
      CanHold v.data (2 * v.len) → ∃ c, v.content = some c ∧ ComplexVersion v w (c.map fun x => ⟨x, 0⟩)) := by
  have hrow : ∀ v ∈ m.rows, ∃ c, v.content = some c ∧
      (CanHold v.data (2 * v.len) → ∃ w, v.toComplexVec = some (w, .ok ()) ∧
        ComplexVersion v w (c.map fun x => ⟨x, 0⟩)) ∧
      (¬ CanHold v.data (2 * v.len) → v.toComplexVec = some (v.asComplex, .error .typeCanNotResize)) := by
    intro v hv
    obtain ⟨h1, h2, h3⟩ := h v hv
    obtain ⟨c, hc⟩ := (⟨_, h1.content_eq⟩ : ∃ c, v.content = some c)
    exact ⟨c, hc, C29_to_complex v h1 h2 h3 c hc⟩
  have hsome : ∀ v ∈ m.rows, v.toComplexVec = some ((v.toComplexVec.getD (v, .ok ()))) := by
    intro v hv
    obtain ⟨c, _, g1, g2⟩ := hrow v hv
    by_cases hh : CanHold v.data (2 * v.len)
    · obtain ⟨w, e, _⟩ := g1 hh
      rw [e]; rfl
    · rw [g2 hh]; rfl
  have hp := transformRowsRes_pure m.kind (fun v : DspVec T => v.toComplexVec.getD (v, .ok ()))
    (fun (_ : Unit) (v : DspVec T) => noBuffer v.toComplexVec) m.rows (fun v hv => noBuffer_some (hsome v hv))
  have hres : reportedError m.kind (m.rows.map fun v => (v.toComplexVec.getD (v, .ok ())).2) = .error .typeCanNotResize := by
    have hall : ∀ r ∈ (m.rows.map fun v => (v.toComplexVec.getD (v, .ok ())).2), r = .ok () ∨ r = .error .typeCanNotResize := by
      intro r hr
      obtain ⟨v, hv, rfl⟩ := List.mem_map.1 hr
      obtain ⟨c, _, g1, g2⟩ := hrow v hv
      by_cases hh : CanHold v.data (2 * v.len)
      · obtain ⟨w, e, _⟩ := g1 hh
        rw [e]; exact .inl rfl
      · rw [g2 hh]; exact .inr rfl
    have hex : (.error .typeCanNotResize : VoidResult) ∈ (m.rows.map fun v => (v.toComplexVec.getD (v, .ok ())).2) := by
      obtain ⟨v, hv, hb⟩ := hbad
      obtain ⟨c, _, g1, g2⟩ := hrow v hv
      refine List.mem_map.2 ⟨v, hv, ?_⟩
      rw [g2 hb]; rfl
    unfold reportedError
    cases m.kind with
    | mxn =>
      simp only
      rw [foldl_remember_error .typeCanNotResize _ (fun r hr => hall r (List.mem_reverse.1 hr)) none
        (.inr ⟨rfl, List.mem_reverse.2 hex⟩)]
      rfl
    | fixed n =>
      simp only
      rw [foldl_remember_error .typeCanNotResize _ hall none (.inr ⟨rfl, hex⟩)]
      rfl
  rw [hres] at hp
  refine ⟨⟨m.kind, m.rows.map fun v => (v.toComplexVec.getD (v, .ok ())).1⟩,
    by simp only [Mat.toComplex, hp, Outcome.andThen], rfl, by simp, ?_, ?_⟩
  · intro i v _ hv
    refine ⟨(v.toComplexVec.getD (v, .ok ())).1, by simp [hv], fun hh => ?_⟩
    obtain ⟨c, hc, g1, g2⟩ := hrow v (List.mem_of_getElem? hv)
    obtain ⟨w, e, hw⟩ := g1 hh
    exact ⟨c, hc, by rw [e]; exact hw⟩
  · intro i hi
    rw [List.getElem?_eq_none (by simpa using hi), List.getElem?_eq_none hi]

/-- C61 is violated: two rows whose conversions fail with different errors. With the rows in a `Vec` the error of the first row
    is reported, with the rows in an array that of the second. -/
theorem C61_error_order_violated {σ : Type} (f : σ → DspVec T → Outcome (DspVec T × σ × VoidResult)) (s : σ) (v1 v2 w1 w2 : DspVec T)
    (e1 e2 : ErrorReason) (h1 : ∀ s, ∃ s', f s v1 = .finished (w1, s', .error e1))
    (h2 : ∀ s, ∃ s', f s v2 = .finished (w2, s', .error e2)) :
    (∃ s', transformRowsRes .mxn f s [v1, v2] = .finished ([w1, w2], s', .error e1)) ∧
    ∃ s', transformRowsRes (.fixed 2) f s [v1, v2] = .finished ([w1, w2], s', .error e2) := by
  constructor
  · obtain ⟨s1, a1⟩ := h2 s
    obtain ⟨s2, a2⟩ := h1 s1
    exact ⟨s2, by simp [transformRowsRes, popRowsRes, a1, a2, Outcome.andThen, rememberError, errorResult]⟩
  · obtain ⟨s1, a1⟩ := h1 s
    obtain ⟨s2, a2⟩ := h2 s1
    exact ⟨s2, by simp [transformRowsRes, forRowsRes, a1, a2, Outcome.andThen, rememberError, errorResult]⟩

/-- The previous theorem for `to_complex`: a complex row (of the generic type) and a real row which can not grow. -/
theorem C61_to_complex_error_order_violated : ∃ (rows rows' : List (DspVec ℚ)),
    Mat.toComplex ⟨.mxn, rows⟩ = .finished (⟨.mxn, rows'⟩, .error .inputMustBeReal) ∧
    Mat.toComplex ⟨.fixed 2, rows⟩ = .finished (⟨.fixed 2, rows'⟩, .error .typeCanNotResize) := by
  refine ⟨[⟨⟨.fixed, [1, 2]⟩, some 1, .timeOrFreq .time, .realOrComplex true, 2⟩,
    ⟨⟨.fixed, [1, 2]⟩, some 1, .timeOrFreq .time, .realOrComplex false, 2⟩], _, rfl, rfl⟩

/-! ### Setters -/

/-- C61: `set_real_imag` and `set_mag_phase` overwrite every row with the parts in the rows of the operands with the same number. -/
theorem C61_setters [Zero T] (cart : T → T → Cx T) (m a b : Mat T)
    (h : ∀ (i : Nat) v p q, m.rows[i]? = some v → a.rows[i]? = some p → b.rows[i]? = some q →
      v.isComplex = true ∧ p.WF ∧ q.WF ∧ p.len = q.len) :
    (∃ m', m.setPair DspVec.setRealImag a b = .finished (m', .ok ()) ∧
      RowsChanged m m' (min a.rows.length b.rows.length) (fun i v w => ∃ p q x y, a.rows[i]? = some p ∧ b.rows[i]? = some q ∧
        p.content = some x ∧ q.content = some y ∧ ComplexVersion v w (List.zipWith Cx.mk x y) ∧ w.SameMeta v)) ∧
    (∃ m', m.setPair (DspVec.setMagPhase cart) a b = .finished (m', .ok ()) ∧
      RowsChanged m m' (min a.rows.length b.rows.length) (fun i v w => ∃ p q x y, a.rows[i]? = some p ∧ b.rows[i]? = some q ∧
        p.content = some x ∧ q.content = some y ∧ ComplexVersion v w (List.zipWith cart x y) ∧ w.SameMeta v)) := by
  have hl : (a.rows.zip b.rows).length = min a.rows.length b.rows.length := by simp
  have split : ∀ (i : Nat) (x : DspVec T × DspVec T), (a.rows.zip b.rows)[i]? = some x →
      a.rows[i]? = some x.1 ∧ b.rows[i]? = some x.2 := by
    intro i x hx
    exact List.getElem?_zip_eq_some.1 hx
  constructor
  · obtain ⟨ws, e, hr⟩ := tryRows_changed
      (fun (_ : Unit) (v : DspVec T) (x : DspVec T × DspVec T) => noBuffer (DspVec.setRealImag v x.1 x.2)) m (a.rows.zip b.rows)
      (fun i v w => ∃ p q x y, a.rows[i]? = some p ∧ b.rows[i]? = some q ∧
        p.content = some x ∧ q.content = some y ∧ ComplexVersion v w (List.zipWith Cx.mk x y) ∧ w.SameMeta v)
      (fun i v x hv hx => by
        obtain ⟨h1, h2⟩ := split i x hx
        obtain ⟨g1, g2, g3, g4⟩ := h i v x.1 x.2 hv h1 h2
        obtain ⟨w, e, hw, hs, _⟩ := (C04_set_get v x.1 x.2 g1 _ _ g2.content_eq g3.content_eq).2
          ((g2.content_length g2.content_eq).trans (g4.trans (g3.content_length g3.content_eq).symm))
        exact ⟨w, noBuffer_some e, _, _, _, _, h1, h2, g2.content_eq, g3.content_eq, hw, hs⟩)
    rw [hl] at hr
    exact ⟨_, by simp only [Mat.setPair, e, Outcome.andThen, hl], hr⟩
  · obtain ⟨ws, e, hr⟩ := tryRows_changed
      (fun (_ : Unit) (v : DspVec T) (x : DspVec T × DspVec T) => noBuffer (DspVec.setMagPhase cart v x.1 x.2)) m
      (a.rows.zip b.rows) (fun i v w => ∃ p q x y, a.rows[i]? = some p ∧ b.rows[i]? = some q ∧
        p.content = some x ∧ q.content = some y ∧ ComplexVersion v w (List.zipWith cart x y) ∧ w.SameMeta v)
      (fun i v x hv hx => by
        obtain ⟨h1, h2⟩ := split i x hx
        obtain ⟨g1, g2, g3, g4⟩ := h i v x.1 x.2 hv h1 h2
        obtain ⟨w, e, hw, hs, _⟩ := (C46_set_get cart (fun c => (c.re, c.im)) v x.1 x.2 g1 _ _ g2.content_eq g3.content_eq).2
          ((g2.content_length g2.content_eq).trans (g4.trans (g3.content_length g3.content_eq).symm))
        exact ⟨w, noBuffer_some e, _, _, _, _, h1, h2, g2.content_eq, g3.content_eq, hw, hs⟩)
    rw [hl] at hr
    exact ⟨_, by simp only [Mat.setPair, e, Outcome.andThen, hl], hr⟩

/-! ### Symmetric transforms -/

theorem plainSfft_good [Zero T] [Mul T] [NatCast T] {K : FftKernel T} {b b' : Buffer T} {v v' : DspVec T} {r : VoidResult}
    (e : v.plainSfft K b = some (v', b', r)) : AsGood b b' := by
  unfold plainSfft at e
  split at e
  · cases e; exact .refl _
  · simp only [Option.bind_eq_bind, Option.bind_eq_some_iff, Option.some.injEq, Prod.mk.injEq, Prod.exists] at e
    obtain ⟨_, _, h, _, _, h', _, _, _, rfl, _⟩ := e
    exact (zeroInterleaveB_good h).trans (plainFft_good h')

theorem sfft_good [Zero T] [Mul T] [NatCast T] {K : FftKernel T} {b b' : Buffer T} {v v' : DspVec T} {r : VoidResult}
    (e : v.sfft K b = some (v', b', r)) : AsGood b b' := by
  unfold sfft at e
  split at e
  · cases e; exact .refl _
  · simp only [Option.bind_eq_bind, Option.bind_eq_some_iff, Option.some.injEq, Prod.mk.injEq, Prod.exists] at e
    obtain ⟨_, _, h, _, _, h', _, _, _, rfl, _⟩ := e
    exact (zeroInterleaveB_good h).trans (fft_good h')

/-- C61 (partial, see C49): `plain_sfft` and `sfft` of a matrix of real time vectors with odd lengths, with one buffer which is large
    enough for every row: all rows are transformed. Missing: rows of the generic type, see `C49_generic_violated`. -/
theorem C61_sfft_partial [Zero T] [Mul T] [NatCast T] (K : FftKernel T) (hK : K.KeepsLength) (hper : K.Periodic) (m : Mat T)
    (b : Buffer T)
    (h : ∀ v ∈ m.rows, v.WF ∧ v.numberSpace = .real ∧ v.domain = .time ∧ v.len % 2 = 1 ∧
      BufferOk b v.data (4 * v.len) ∧ ScratchOk K b (2 * v.len)) :
    (∃ m' b', m.plainSfft K b = .finished (m', b', .ok ()) ∧ RowsChanged m m' m.rows.length (fun _ v w =>
      ∃ c, v.content = some c ∧ w.cpoints = some ((K.forward (c.map Cx.ofReal)).take (v.len / 2 + 1)) ∧
        w.numberSpace = .complex ∧ w.domain = .freq ∧ w.WF)) ∧
    (∃ m' b', m.sfft K b = .finished (m', b', .ok ()) ∧ RowsChanged m m' m.rows.length (fun _ v w =>
      ∃ c, v.content = some c ∧ w.cpoints = some ((K.forward (c.map Cx.ofReal)).take (v.len / 2 + 1)) ∧
        w.numberSpace = .complex ∧ w.domain = .freq ∧ w.WF)) := by
  constructor
  · obtain ⟨ws, s', e, hr, _⟩ := transformRowsRes_ok (AsGood b)
      (fun v w => ∃ c, v.content = some c ∧ w.cpoints = some ((K.forward (c.map Cx.ofReal)).take (v.len / 2 + 1)) ∧
        w.numberSpace = .complex ∧ w.domain = .freq ∧ w.WF)
      (fun (b : Buffer T) (v : DspVec T) => symResult (v.plainSfft K b)) m b (.refl b) (fun s v hs hv => by
        obtain ⟨h1, h2, h3, h4, h5, h6⟩ := h v hv
        obtain ⟨w, b', w', b'', c, e, _, hc, g1, _, g2, g3, g4, _⟩ :=
          C49_sfft_static_partial K hK hper v h1 h2 h3 h4 s (hs.1 _ _ h5) (hs.2.1 _ _ h6)
        exact ⟨w, b', by simp [symResult, e, Outcome.ofOption], ⟨c, hc, g1, g2, g3, g4⟩, hs.trans (plainSfft_good e)⟩)
    exact ⟨_, s', by simp [Mat.plainSfft, e, Outcome.andThen], hr⟩
  · obtain ⟨ws, s', e, hr, _⟩ := transformRowsRes_ok (AsGood b)
      (fun v w => ∃ c, v.content = some c ∧ w.cpoints = some ((K.forward (c.map Cx.ofReal)).take (v.len / 2 + 1)) ∧
        w.numberSpace = .complex ∧ w.domain = .freq ∧ w.WF)
      (fun (b : Buffer T) (v : DspVec T) => symResult (v.sfft K b)) m b (.refl b) (fun s v hs hv => by
        obtain ⟨h1, h2, h3, h4, h5, h6⟩ := h v hv
        obtain ⟨w, b', w', b'', c, _, e, hc, _, g1, _, _, _, _, g2, g3, g4⟩ :=
          C49_sfft_static_partial K hK hper v h1 h2 h3 h4 s (hs.1 _ _ h5) (hs.2.1 _ _ h6)
        exact ⟨w', b'', by simp [symResult, e, Outcome.ofOption], ⟨c, hc, g1, g2, g3, g4⟩, hs.trans (sfft_good e)⟩)
    exact ⟨_, s', by simp [Mat.sfft, e, Outcome.andThen], hr⟩

/-! ### Examples -/

theorem exampleMat_accepts (i : Nat) (v : DspVec ℚ) (hv : exampleMat.rows[i]? = some v) :
    Accepts .add .sseF32x4 (2 * i) v v := by
  match i, hv with
  | 0, hv =>
    cases hv
    exact ⟨⟨by decide, by decide⟩, ⟨by decide, by decide⟩, fun e he => by cases he; decide +kernel, rfl,
      ⟨rfl, rfl, fun d e hd he => by cases hd; cases he; decide +kernel⟩, .inl (by decide), fun h => by cases h⟩
  | 1, hv =>
    cases hv
    exact ⟨⟨by decide, by decide⟩, ⟨by decide, by decide⟩, fun e he => by cases he; decide +kernel, rfl,
      ⟨rfl, rfl, fun d e hd he => by cases hd; cases he; decide +kernel⟩, .inl (by decide), fun h => by cases h⟩
  | i + 2, hv => cases hv

/-- The hypotheses of `C61_binary` are met by a matrix with rows of different lengths. -/
example : ∀ (i : Nat) v x, exampleMat.rows[i]? = some v → exampleMat.rows[i]? = some x → Accepts .add .sseF32x4 (2 * i) v x := by
  intro i v x hv hx
  rw [hv] at hx
  cases hx
  exact exampleMat_accepts i v hv

/-- Those of `C61_fewer_rows_violated` by the same matrix and an operand with one row. -/
example : (∀ (i : Nat) v x, exampleMat.rows[i]? = some v → (Mat.mk .mxn [histVec]).rows[i]? = some x →
      Accepts .add .sseF32x4 (2 * i) v x) ∧ (Mat.mk .mxn [histVec]).rows.length < exampleMat.rows.length := by
  refine ⟨fun i v x hv hx => ?_, by decide⟩
  match i, hv, hx with
  | 0, hv, hx => cases hx; cases hv; exact exampleMat_accepts 0 _ rfl
  | i + 1, hv, hx => cases hx

/-- Those of `C61_resize` and `C61_to_complex`. -/
example : (∀ v ∈ exampleMat.rows, v.WF ∧ NotInline v.data.kind ∧ ¬ (v.isComplex = true ∧ 5 % 2 = 1) ∧ CanHold v.data 5) ∧
    ∀ v ∈ exampleMat.rows, v.WF ∧ NotInline v.data.kind ∧ v.isComplex = false ∧ CanHold v.data (2 * v.len) := by
  constructor
  all_goals
    intro v hv
    simp only [exampleMat, List.mem_cons, List.not_mem_nil, or_false] at hv
    rcases hv with rfl | rfl
  · exact ⟨⟨by decide, by decide⟩, (fun c h => by cases h), by decide, .inr trivial⟩
  · exact ⟨⟨by decide, by decide⟩, (fun c h => by cases h), by decide, .inr trivial⟩
  · exact ⟨⟨by decide, by decide⟩, (fun c h => by cases h), rfl, .inr trivial⟩
  · exact ⟨⟨by decide, by decide⟩, (fun c h => by cases h), rfl, .inr trivial⟩

end Dsp
