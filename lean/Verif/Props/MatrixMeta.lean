import Verif.Props.Matrix
/-
C63: construction of matrices and what a matrix says about its rows.
-/
namespace Dsp
open DspVec
variable {T : Type}

/-! ### Construction -/

theorem forRows_pure {α β : Type} (f : α → β) (rows : List α) :
    forRows (fun (_ : Unit) (a : α) => .finished (f a, ())) () rows = .finished (rows.map f, ()) := by
  induction rows with
  | nil => rfl
  | cons a rest ih => simp [forRows, Outcome.andThen, ih]

/-- C63: a matrix made from storages (or from the rows of another matrix) has one row for each of them, in the same order,
    and row `i` is the vector which the conversion makes of storage `i`; this does not depend on the kind of the matrix. -/
theorem C63_create {α : Type} (k : MatKind) (conversion : α → DspVec T) (source : List α) :
    ∃ m, Mat.create k conversion source = some m ∧ m.kind = k ∧ m.colLen = source.length ∧
      ∀ i : Nat, m.rows[i]? = source[i]?.map conversion := by
  have e : transformRows k (fun (_ : Unit) (a : α) => .finished (conversion a, ())) () source =
      .finished (source.map conversion, ()) := by
    rw [transformRows_eq]
    cases k with
    | fixed n => exact forRows_pure conversion source
    | mxn => simp only [forRows_pure]; simp [Outcome.andThen]
  refine ⟨⟨k, source.map conversion⟩, by unfold Mat.create; rw [e], rfl, by simp [Mat.colLen], fun i => ?_⟩
  exact List.getElem?_map

/-- C63: the vectors which are made into a matrix are its rows, and `get` gives them back. -/
theorem C63_round_trip (k : MatKind) (rows : List (DspVec T)) :
    (Mat.ofVectors k rows).getRows.1 = rows ∧ (Mat.ofVectors k rows).colLen = rows.length := ⟨rfl, rfl⟩

/-- C63: `set_delta` sets the sampling distance of all rows and changes nothing else. -/
theorem C63_set_delta [Zero T] (m : Mat T) (d : Option T) :
    (m.setDelta d).kind = m.kind ∧ (m.setDelta d).colLen = m.colLen ∧ (m.rows ≠ [] → (m.setDelta d).delta = d) ∧
      ∀ (i : Nat) v, m.rows[i]? = some v → ∃ w, (m.setDelta d).rows[i]? = some w ∧ w.delta = d ∧ w.content = v.content ∧
        w.domain = v.domain ∧ w.numberSpace = v.numberSpace := by
  refine ⟨rfl, by simp [Mat.setDelta, Mat.colLen], fun h => ?_, fun i v hv => ?_⟩
  · obtain ⟨k, rows⟩ := m
    cases rows with
    | nil => exact absurd rfl h
    | cons v rest => rfl
  · exact ⟨{ v with delta := d }, by simp [Mat.setDelta, hv], rfl, rfl, rfl, rfl⟩

/-! ### Rows which agree -/

theorem Signal.Agree.refl (s : Signal T) : s.Agree s := ⟨rfl, rfl, rfl, rfl, rfl⟩

theorem length_everyNth {α β : Type} (k d : Nat) (l : List α) (l' : List β) (h : l.length = l'.length) :
    (everyNth k d l).length = (everyNth k d l').length := by
  unfold everyNth
  rw [h, List.length_filterMap_eq_countP, List.length_filterMap_eq_countP]
  refine List.countP_congr fun t _ => ?_
  simp [h]

theorem length_differences {α β : Type} (f : α → α → α) (g : β → β → β) (l : List α) (l' : List β) (h : l.length = l'.length) :
    (differences f l).length = (differences g l').length := by
  simp [differences, h]

/-- The kernel of a transform keeps the length. -/
def Call.KeepsLength : Call T → Prop
  | .plainFft K => K.KeepsLength
  | .fft K => K.KeepsLength
  | .plainIfft K => K.KeepsLength
  | .ifft K => K.KeepsLength
  | _ => True

theorem Numbers.agree_cases (a b : Numbers T) (hc : a.count = b.count) (hs : a.isComplex = b.isComplex) :
    (∃ x y, a = .real x ∧ b = .real y ∧ x.length = y.length) ∨ ∃ x y, a = .complex x ∧ b = .complex y ∧ x.length = y.length := by
  cases a <;> cases b <;> simp_all [Numbers.count, Numbers.isComplex]

theorem Signal.Agree.transform [Field T] {s t : Signal T} (h : s.Agree t) (K : FftKernel T) (dom : DataDomain)
    (f : List (Cx T) → List (Cx T)) (hf : ∀ cs, (f cs).length = cs.length) :
    (s.transform K dom f).Agree (t.transform K dom f) := by
  refine ⟨?_, rfl, rfl, h.generic, ?_⟩
  · simp only [Signal.transform, Numbers.count, hf]
    rcases Numbers.agree_cases _ _ h.count h.space with ⟨x, y, e1, e2, hl⟩ | ⟨x, y, e1, e2, hl⟩ <;>
      simp [e1, e2, Numbers.asCx, hl]
  · simp only [Signal.transform]
    rw [h.count, h.delta]

/-- A matrix call makes signals which agree of signals which agree. -/
theorem Signal.Agree.meaning [Field T] {s t : Signal T} (h : s.Agree t) (op : VecOp T) (hm : MatrixCall op = true)
    (hk : op.call.KeepsLength) : (op.call.meaning s).Agree (op.call.meaning t) := by
  cases op <;> first | (simp [MatrixCall, VecOp.matrixMethod] at hm; done) | skip
  case plainFft K b => exact h.transform K _ _ hk.1
  case plainIfft K b => exact h.transform K _ _ hk.2
  case fft K b =>
    refine h.transform K .frequency (fun cs => rotateRight (K.forward cs) (cs.length / 2)) fun cs => ?_
    have := hk.1 cs
    simp [rotateRight]; omega
  case ifft K k a st b sched =>
    refine h.transform K .time (fun cs =>
      K.inverse (rotateLeft (cs.map (Cx.scaleBy (1 / (cs.length : T)))) (cs.length / 2))) fun cs => ?_
    rw [hk.2]
    simp [rotateLeft]; omega
  all_goals
    obtain ⟨sn, sd, sg, sdel⟩ := s
    obtain ⟨tn, td, tg, tdel⟩ := t
    obtain ⟨h1, h2, h3, h4, h5⟩ := h
    simp only at h1 h2 h3 h4 h5
    subst h3 h4 h5
    rcases Numbers.agree_cases _ _ h1 h2 with ⟨x, y, rfl, rfl, hl⟩ | ⟨x, y, rfl, rfl, hl⟩
  all_goals
    constructor <;>
    simp [VecOp.call, Call.meaning, Numbers.rearrange, Numbers.mapLists, Numbers.count, Numbers.isComplex, Numbers.weight,
      Numbers.asCx, rotateLeft, rotateRight, hl]
  all_goals first | exact length_everyNth _ _ _ _ hl | exact length_differences _ _ _ _ hl

theorem keepsLength_of_safe [Field T] (v : DspVec T) (op : VecOp T) (h : v.Safe op) : op.call.KeepsLength := by
  cases op <;> simp only [VecOp.call, Call.KeepsLength] <;> simp only [DspVec.Safe, FftSafe] at h <;> tauto

theorem keepsLength_inEnv (op : VecOp T) (e : RowEnv) : (op.inEnv e).call = op.call := by cases op <;> rfl

/-- All rows show signals which agree with `t`. -/
theorem C63_agree_step [Field T] (m : Mat T) (ss : List (Signal T)) (op : VecOp T) (env : Nat → RowEnv) (h : m.Shows ss)
    (hc : MatrixCall op = true) (hs : m.Safe op env) (ha : ∀ s ∈ ss, ∀ t ∈ ss, s.Agree t) :
    ∀ s ∈ ss.map op.call.meaning, ∀ t ∈ ss.map op.call.meaning, s.Agree t := by
  intro s hs' t ht'
  obtain ⟨s, hs1, rfl⟩ := List.mem_map.1 hs'
  obtain ⟨t, ht1, rfl⟩ := List.mem_map.1 ht'
  refine (ha s hs1 t ht1).meaning op hc ?_
  have hlen := h.length_eq
  cases hm : m.rows with
  | nil => rw [hm] at hlen; cases ss with
    | nil => cases hs1
    | cons => simp at hlen
  | cons v rest =>
    have := keepsLength_of_safe v (op.inEnv (env 0)) (hs 0 v (by rw [hm]; rfl))
    rwa [keepsLength_inEnv] at this

theorem shows_meta [Zero T] (v w : DspVec T) (s t : Signal T) (hv : v.Shows s) (hw : w.Shows t) (h : s.Agree t) :
    v.len = w.len ∧ v.points = w.points ∧ v.isComplex = w.isComplex ∧ v.dom = w.dom ∧ v.delta = w.delta ∧
      v.numberSpace = w.numberSpace ∧ v.domain = w.domain := by
  obtain ⟨h1, h2, h3, h4, h5⟩ := h
  have e1 : v.numberSpace = w.numberSpace := by rw [hv.space, hw.space, h2, h4]
  have e2 : v.domain = w.domain := by rw [hv.domain, hw.domain, h3, h4]
  have l1 := (cells_of_content hv.content).2
  have l2 := (cells_of_content hw.content).2
  have e3 : v.isComplex = w.isComplex := by unfold DspVec.isComplex; rw [e1]
  have e4 : v.validLen = w.validLen := by
    rw [l1, l2]
    obtain ⟨sn, _⟩ := s
    obtain ⟨tn, _⟩ := t
    rcases Numbers.agree_cases _ _ h1 h2 with ⟨x, y, rfl, rfl, hl⟩ | ⟨x, y, rfl, rfl, hl⟩ <;> simp [Numbers.flat, hl]
  exact ⟨e4, by unfold DspVec.points; rw [e4, e3], e3, by unfold DspVec.dom; rw [e2], by rw [hv.delta, hw.delta, h5], e1, e2⟩

/-- C63: if all rows show signals with the same number of points, number space, domain and sampling distance then what the
    matrix says (`row_len`, `row_points`, `is_complex`, `domain`, `delta`) is right for every row, and `get_meta_data` gives the
    meta data of every row. -/
theorem C63_meta [Zero T] (m : Mat T) (ss : List (Signal T)) (h : m.Shows ss) (ha : ∀ s ∈ ss, ∀ t ∈ ss, s.Agree t) :
    m.MetaRight ∧ ∀ v ∈ m.rows, m.getMetaData = some (v.delta, v.numberSpace, v.domain) := by
  obtain ⟨k, rows⟩ := m
  cases rows with
  | nil => exact ⟨⟨nofun, nofun, nofun, nofun, nofun⟩, nofun⟩
  | cons w rest =>
    have key : ∀ v ∈ w :: rest, w.len = v.len ∧ w.points = v.points ∧ w.isComplex = v.isComplex ∧ w.dom = v.dom ∧
        w.delta = v.delta ∧ w.numberSpace = v.numberSpace ∧ w.domain = v.domain := by
      intro v hv
      obtain ⟨i, hi⟩ := List.getElem?_of_mem hv
      unfold Mat.Shows at h
      simp only at h
      cases h with
      | @cons a b l1 l2 h0 hrest =>
        obtain ⟨t, ht, hvt⟩ : ∃ t ∈ b :: l2, v.Shows t := by
          have := List.Forall₂.cons h0 hrest
          rw [List.forall₂_iff_get] at this
          obtain ⟨hl, hg⟩ := this
          obtain ⟨n, hn, rfl⟩ := List.mem_iff_getElem.1 hv
          exact ⟨(b :: l2)[n]'(by rw [← hl]; exact hn), List.getElem_mem _, hg n hn (by rw [← hl]; exact hn)⟩
        exact shows_meta w v b t h0 hvt (ha b (by simp) t ht)
    refine ⟨⟨fun v hv => (key v hv).1, fun v hv => (key v hv).2.1, fun v hv => (key v hv).2.2.1,
      fun v hv => (key v hv).2.2.2.1, fun v hv => (key v hv).2.2.2.2.1⟩, fun v hv => ?_⟩
    obtain ⟨-, -, -, -, h5, h6, h7⟩ := key v hv
    show some (w.delta, w.numberSpace, w.domain) = _
    rw [h5, h6, h7]

/-- C63: rows which agree keep to agree: after any history of calls of methods of the matrix what it says about its rows is
    right for every row. -/
theorem C63_history [Field T] (m : Mat T) (ss : List (Signal T)) (calls : List (VecOp T × (Nat → RowEnv))) (h : m.Shows ss)
    (ha : ∀ s ∈ ss, ∀ t ∈ ss, s.Agree t) (hs : m.SafeAll calls) :
    m.execAll calls = .running ∨ ∃ m', m.execAll calls = .finished m' ∧ m'.MetaRight := by
  have key : ∀ (calls : List (VecOp T × (Nat → RowEnv))) (m : Mat T) (ss : List (Signal T)), m.Shows ss →
      (∀ s ∈ ss, ∀ t ∈ ss, s.Agree t) → m.SafeAll calls →
      m.execAll calls = .running ∨ ∃ m', m.execAll calls = .finished m' ∧ m'.MetaRight := by
    intro calls
    induction calls with
    | nil => intro m ss h ha _; exact .inr ⟨m, rfl, (C63_meta m ss h ha).1⟩
    | cons c cs ih =>
      intro m ss h ha hs
      obtain ⟨h1, h2, h3⟩ := hs
      rcases C60_step m ss c.1 c.2 h h1 h2 with e | ⟨m1, e, -, hm1⟩
      · exact .inl (by simp [Mat.execAll, e, Outcome.andThen])
      · have := ih m1 _ hm1 (C63_agree_step m ss c.1 c.2 h h1 h2 ha) (h3 m1 e)
        simpa [Mat.execAll, e, Outcome.andThen] using this
  exact key calls m ss h ha hs

/-- C63 does not hold without that assumption: nothing checks that the rows of a matrix have the same length. The matrix made of
    the vectors `1, 2, 3` and `5, 7` says that the length of its rows is 3. -/
theorem C63_row_len_violated : ∃ (rows : List (DspVec ℚ)) (v : DspVec ℚ), (∀ r ∈ rows, r.WF) ∧ v ∈ rows ∧
    (Mat.ofVectors .mxn rows).rowLen = 3 ∧ v.len = 2 :=
  ⟨[⟨⟨.vec, [1, 2, 3]⟩, some 1, .time, .real, 3⟩, ⟨⟨.vec, [5, 7]⟩, some 1, .time, .real, 2⟩],
    ⟨⟨.vec, [5, 7]⟩, some 1, .time, .real, 2⟩, by
      intro r hr
      simp only [List.mem_cons, List.not_mem_nil, or_false] at hr
      rcases hr with rfl | rfl <;> exact ⟨by decide, by decide⟩, by simp, rfl, rfl⟩

/-- `get_meta_data` panics on a matrix without rows, while the other getters give a value. -/
theorem C63_no_rows_violated [Zero T] : (Mat.ofVectors .mxn ([] : List (DspVec T))).getMetaData = none ∧
    (Mat.ofVectors .mxn ([] : List (DspVec T))).domain = .time ∧
    (Mat.ofVectors .mxn ([] : List (DspVec T))).isComplex = false ∧
    (Mat.ofVectors .mxn ([] : List (DspVec T))).delta = some 0 := ⟨rfl, rfl, rfl, rfl⟩

/-! ### Examples -/

/-- Two rows which agree. -/
def squareMat : Mat ℚ := ⟨.fixed 2, [⟨⟨.vec, [1, 2, 3]⟩, some 1, .time, .real, 3⟩, ⟨⟨.vec, [5, 7, 9, 0]⟩, some 1, .time, .real, 3⟩]⟩

def squareSignals : List (Signal ℚ) := [⟨.real [1, 2, 3], .time, false, some 1⟩, ⟨.real [5, 7, 9], .time, false, some 1⟩]

example : squareMat.Shows squareSignals ∧ (∀ s ∈ squareSignals, ∀ t ∈ squareSignals, s.Agree t) ∧
    squareMat.SafeAll [(.reverse, exampleEnv), (.diff, exampleEnv)] := by
  refine ⟨.cons ⟨rfl, rfl, rfl, rfl⟩ (.cons ⟨rfl, rfl, rfl, rfl⟩ .nil), ?_, rfl, fun _ _ _ => trivial, fun m' h => ?_⟩
  · intro s hs t ht
    simp only [squareSignals, List.mem_cons, List.not_mem_nil, or_false] at hs ht
    rcases hs with rfl | rfl <;> rcases ht with rfl | rfl <;> exact ⟨rfl, rfl, rfl, rfl, rfl⟩
  · have e : squareMat.exec .reverse exampleEnv = .finished ⟨.fixed 2, [⟨⟨.vec, [3, 2, 1]⟩, some 1, .time, .real, 3⟩,
        ⟨⟨.vec, [9, 7, 5, 0]⟩, some 1, .time, .real, 3⟩]⟩ := rfl
    rw [e] at h
    cases h
    refine ⟨rfl, fun i v hv => ?_, fun _ _ => trivial⟩
    match i, hv with
    | 0, hv => cases hv; exact ⟨by decide, fun h => by cases h⟩
    | 1, hv => cases hv; exact ⟨by decide, fun h => by cases h⟩
    | i + 2, hv => cases hv

end Dsp
