import Verif.Model.MatrixConv
import Verif.Spec.MatrixConv
import Verif.Props.ConvVec
import Verif.Props.InlineVec
import Verif.Props.MatrixGet
import Verif.Lemmas.Interpolatef
/-
C64: convolution of a matrix with a matrix of impulse responses.
-/
namespace Dsp
open DspVec
variable {T α : Type}

theorem collectInline_ok (al : Alloc) (l : List α) (h : l.length ≤ 64) : collectInline al l = some l := by
  obtain ⟨v, h1, h2⟩ := (C44_from_iter al l).1 h
  simp [collectInline, h1, h2]

theorem collectInline_full (al : Alloc) (l : List α) (h : 64 < l.length) : collectInline al l = none := by
  simp [collectInline, (C44_from_iter al l).2 h]

theorem foldl_mul_start [AddMonoid α] [Mul α] (l : List (α × α)) (s : α) :
    l.foldl (fun sum q => sum + q.1 * q.2) s = s + l.foldl (fun sum q => sum + q.1 * q.2) 0 := by
  induction l generalizing s with
  | nil => simp
  | cons q l ih =>
    simp only [List.foldl_cons]
    rw [ih, ih (0 + _)]
    simp [add_assoc]

theorem convolveMatIteration_eq [AddMonoid α] [Mul α] (M : Nat) (i : Nat) : ∀ (xs hs : List (List α)),
    (∀ x ∈ xs, x ≠ []) → (∀ h ∈ hs, h.length = M) →
    convolveMatIteration xs hs i ((M - M / 2 : Nat) : Int) M = some (((xs.zip hs).map fun p => convAt p.1 p.2 i).sum) := by
  have key : ∀ (xs hs : List (List α)) (s : α), (∀ x ∈ xs, x ≠ []) → (∀ h ∈ hs, h.length = M) →
      (xs.zip hs).foldlM (init := s) (fun sum p => do
        let it ← revWrappingIter p.1 ((i : Int) + ((M - M / 2 : Nat) : Int)) M
        some ((it.zip p.2).foldl (fun sum q => sum + q.1 * q.2) sum)) =
      some (s + ((xs.zip hs).map fun p => convAt p.1 p.2 i).sum) := by
    intro xs
    induction xs with
    | nil => intro hs s _ _; simp
    | cons x xs ih =>
      intro hs s hx hh
      cases hs with
      | nil => simp
      | cons h hs =>
        have e := convolveIteration_eq x h (hx x (by simp)) i
        rw [hh h (by simp)] at e
        unfold convolveIteration at e
        simp only [Option.bind_eq_bind, Option.bind_eq_some_iff, Option.some.injEq] at e
        obtain ⟨it, e1, e2⟩ := e
        have := ih hs (s + convAt x h i) (fun y hy => hx y (by simp [hy])) (fun y hy => hh y (by simp [hy]))
        simp only [List.zip_cons_cons, List.foldlM_cons, e1, Option.bind_eq_bind, Option.bind_some, List.map_cons,
          List.sum_cons]
        rw [foldl_mul_start, e2]
        simp only [Option.bind_eq_bind] at this
        rw [this, add_assoc]
  intro xs hs hx hh
  have := key xs hs 0 hx hh
  rw [zero_add] at this
  exact this

theorem convolveMatValues_eq [AddMonoid α] [Mul α] (M n : Nat) (xs hs : List (List α)) (hx : n ≠ 0 → ∀ x ∈ xs, x ≠ [])
    (hh : ∀ h ∈ hs, h.length = M) :
    convolveMatValues xs hs ((M - M / 2 : Nat) : Int) M n = some (mixedConv xs hs n) := by
  unfold convolveMatValues mixedConv
  exact mapM_some_range _ _ _ (fun i hi => convolveMatIteration_eq M i xs hs (hx (by omega)) hh)

@[simp] theorem length_mixedConv [AddMonoid α] [Mul α] (xs hs : List (List α)) (n : Nat) : (mixedConv xs hs n).length = n := by
  simp [mixedConv]

/-- Slices of storages. -/
theorem mapM_content (f : List T → Option (List α)) (g : List T → List α) :
    ∀ (vs : List (DspVec T)) (xs : List (List T)), HaveNumbers vs xs →
      (∀ v ∈ vs, ∀ x, v.content = some x → f v.data.cells = some (g x)) →
      (vs.map fun v => v.data.cells).mapM f = some (xs.map g) := by
  intro vs xs h
  induction h with
  | nil => intro _; rfl
  | @cons v x vs xs h0 _ ih =>
    intro hf
    simp only [List.map_cons, List.mapM_cons, hf v (by simp) x h0, ih (fun w hw => hf w (by simp [hw])), Option.pure_def,
      Option.bind_eq_bind, Option.bind_some]

theorem mapM_points (f : List T → Option (List (Cx T))) :
    ∀ (vs : List (DspVec T)) (xs : List (List (Cx T))), HavePoints vs xs →
      (∀ v ∈ vs, ∀ x, v.content = some (fromComplex x) → f v.data.cells = some x) →
      (vs.map fun v => v.data.cells).mapM f = some xs := by
  intro vs xs h
  induction h with
  | nil => intro _; rfl
  | @cons v x vs xs h0 _ ih =>
    intro hf
    simp only [List.map_cons, List.mapM_cons, hf v (by simp) x h0, ih (fun w hw => hf w (by simp [hw])), Option.pure_def,
      Option.bind_eq_bind, Option.bind_some]

theorem lengths_of {vs : List (DspVec T)} {xs : List (List T)} {L : Nat} (h : HaveNumbers vs xs) :
    (∀ v ∈ vs, v.len = L) → ∀ x ∈ xs, x.length = L := by
  induction h with
  | nil => intro _ x hx; cases hx
  | @cons v x vs xs h0 _ ih =>
    intro hv y hy
    rcases List.mem_cons.1 hy with rfl | hy
    · rw [← (cells_of_content h0).2]; exact hv v (by simp)
    · exact ih (fun w hw => hv w (by simp [hw])) y hy

/-- One output of a real matrix. -/
theorem convolveMat_real [Ring T] (al : Alloc) (rows hs : List (DspVec T)) (xs ys : List (List T)) (L M : Nat)
    (target : List T) (hne : rows ≠ []) (hcount : hs.length = rows.length) (h64 : rows.length ≤ 64)
    (hrows : ∀ v ∈ rows, v.len = L ∧ v.isComplex = false) (hhs : ∀ v ∈ hs, v.len = M ∧ v.isComplex = false) (hle : M ≤ L)
    (hx : HaveNumbers rows xs) (hy : HaveNumbers hs ys) (ht : target.length = L) :
    convolveMat al rows hs target = some (mixedConv xs ys L, .ok ()) := by
  cases hr : rows with
  | nil => exact absurd hr hne
  | cons m0 rest =>
    cases hh : hs with
    | nil => rw [hh, hr] at hcount; simp at hcount
    | cons h0 hrest =>
      have c0 : m0.len = L ∧ m0.isComplex = false := hrows m0 (by rw [hr]; simp)
      have c1 : h0.len = M ∧ h0.isComplex = false := hhs h0 (by rw [hh]; simp)
      have p0 : m0.points = L := by unfold DspVec.points; rw [c0.2]; have := c0.1; unfold DspVec.len at this; simpa using this
      have p1 : h0.points = M := by unfold DspVec.points; rw [c1.2]; have := c1.1; unfold DspVec.len at this; simpa using this
      have a1 : rows.any (fun v => v.len ≠ m0.len) = false := by
        rw [List.any_eq_false]; intro v hv; simp [(hrows v hv).1, c0.1]
      have a2 : hs.any (fun v => v.len ≠ h0.len) = false := by
        rw [List.any_eq_false]; intro v hv; simp [(hhs v hv).1, c1.1]
      have er : convRange L M = (0, M, M, M - M / 2) := by unfold convRange; rw [if_neg (by omega)]
      unfold convolveMat
      simp only
      rw [← hr, ← hh, if_neg (by simpa using hcount), a1, a2, p0, p1, er]
      simp only [c0.2, Bool.false_eq_true, if_false, c0.1, Option.bind_eq_bind]
      rw [collectInline_ok al _ (by simpa [hcount] using h64), collectInline_ok al _ (by simpa using h64)]
      have lx : xs.length = rows.length := hx.length_eq.symm
      have ly : ys.length = rows.length := by rw [← hcount]; exact hy.length_eq.symm
      have sy : (hs.map fun v => v.data.cells).mapM (fun o => slice o 0 M) = some ys := by
        have := mapM_content (fun o => slice o 0 M) id hs ys hy (fun v hv x hc => by
          unfold DspVec.content at hc
          have := (hhs v hv).1
          unfold DspVec.len at this
          rw [this] at hc; exact hc)
        simpa using this
      have sx : (rows.map fun v => v.data.cells).mapM (fun o => slice o 0 L) = some xs := by
        have := mapM_content (fun o => slice o 0 L) id rows xs hx (fun v hv x hc => by
          unfold DspVec.content at hc
          have := (hrows v hv).1
          unfold DspVec.len at this
          rw [this] at hc; exact hc)
        simpa using this
      have hxs := lengths_of hx (fun v hv => (hrows v hv).1)
      have hys := lengths_of hy (fun v hv => (hhs v hv).1)
      simp only [Option.bind_some, sy, sx]
      rw [collectInline_ok al _ (by rw [ly]; exact h64), collectInline_ok al _ (by rw [lx]; exact h64)]
      have st : slice target 0 L = some target := by simp [slice, ← ht]
      simp only [Option.bind_some, st, ht]
      rw [convolveMatValues_eq M L xs ys (fun h0 x hx' => by
        intro e; have := hxs x hx'; rw [e] at this; simp at this; omega) hys]
      simp [splice, ht]

/-- One output of a complex matrix, if the impulse responses are as long as the rows. -/
theorem convolveMat_complex [CommRing T] (al : Alloc) (rows hs : List (DspVec T)) (xs ys : List (List (Cx T))) (n : Nat)
    (target : List T) (hne : rows ≠ []) (hcount : hs.length = rows.length) (h64 : rows.length ≤ 64)
    (hrows : ∀ v ∈ rows, v.len = 2 * n ∧ v.isComplex = true) (hhs : ∀ v ∈ hs, v.len = 2 * n ∧ v.isComplex = true)
    (hx : HavePoints rows xs) (hy : HavePoints hs ys) (ht : target.length = 2 * n) :
    convolveMat al rows hs target = some (fromComplex (mixedConv xs ys n), .ok ()) := by
  cases hr : rows with
  | nil => exact absurd hr hne
  | cons m0 rest =>
    cases hh : hs with
    | nil => rw [hh, hr] at hcount; simp at hcount
    | cons h0 hrest =>
      have c0 : m0.len = 2 * n ∧ m0.isComplex = true := hrows m0 (by rw [hr]; simp)
      have c1 : h0.len = 2 * n ∧ h0.isComplex = true := hhs h0 (by rw [hh]; simp)
      have p0 : m0.points = n := by unfold DspVec.points; rw [c0.2]; have := c0.1; unfold DspVec.len at this; simp [this]
      have p1 : h0.points = n := by unfold DspVec.points; rw [c1.2]; have := c1.1; unfold DspVec.len at this; simp [this]
      have a1 : rows.any (fun v => v.len ≠ m0.len) = false := by
        rw [List.any_eq_false]; intro v hv; simp [(hrows v hv).1, c0.1]
      have a2 : hs.any (fun v => v.len ≠ h0.len) = false := by
        rw [List.any_eq_false]; intro v hv; simp [(hhs v hv).1, c1.1]
      have er : convRange n n = (0, n, n, n - n / 2) := by unfold convRange; rw [if_neg (by omega)]
      have hx' : HaveNumbers rows (xs.map fromComplex) := List.forall₂_map_right_iff.2 hx
      have hy' : HaveNumbers hs (ys.map fromComplex) := List.forall₂_map_right_iff.2 hy
      have hxs : ∀ x ∈ xs, x.length = n := by
        intro x hx1
        have := lengths_of hx' (fun v hv => (hrows v hv).1) (fromComplex x) (List.mem_map_of_mem hx1)
        simp at this; omega
      have hys : ∀ x ∈ ys, x.length = n := by
        intro x hx1
        have := lengths_of hy' (fun v hv => (hhs v hv).1) (fromComplex x) (List.mem_map_of_mem hx1)
        simp at this; omega
      have lx : xs.length = rows.length := hx.length_eq.symm
      have ly : ys.length = rows.length := by rw [← hcount]; exact hy.length_eq.symm
      unfold convolveMat
      simp only
      rw [← hr, ← hh, if_neg (by simpa using hcount), a1, a2, p0, p1, er]
      simp only [c0.2, c0.1, c1.1, if_true, Bool.false_eq_true, if_false, Option.bind_eq_bind]
      rw [collectInline_ok al _ (by simpa [hcount] using h64), collectInline_ok al _ (by simpa using h64)]
      have sy : (hs.map fun v => v.data.cells).mapM (fun o => ((slice o 0 (2 * n)).bind toComplex?).bind fun c => slice c 0 n) =
          some ys := by
        have := mapM_points (fun o => ((slice o 0 (2 * n)).bind toComplex?).bind fun c => slice c 0 n) hs ys hy
          (fun v hv x hc => by
            have h1 := (hhs v hv).1
            have h2 := (cells_of_content hc).2
            unfold DspVec.content at hc
            unfold DspVec.len at h1
            rw [h1] at hc
            have h3 : x.length = n := by rw [h1] at h2; simp at h2; omega
            simp only [hc, Option.bind_some, toComplex?_fromComplex]
            simp [slice, ← h3])
        exact this
      have sx : (rows.map fun v => v.data.cells).mapM (fun o => (slice o 0 (2 * n)).bind toComplex?) = some xs := by
        have := mapM_points (fun o => (slice o 0 (2 * n)).bind toComplex?) rows xs hx
          (fun v hv x hc => by
            have h1 := (hrows v hv).1
            unfold DspVec.content at hc
            unfold DspVec.len at h1
            rw [h1] at hc
            simp [hc])
        exact this
      simp only [Option.bind_some, sy, sx]
      rw [collectInline_ok al _ (by rw [ly]; exact h64), collectInline_ok al _ (by rw [lx]; exact h64)]
      have st : slice target 0 (2 * n) = some target := by simp [slice, ← ht]
      obtain ⟨ct, hct⟩ := exists_fromComplex (l := target) (by omega)
      have lct : ct.length = n := by rw [hct] at ht; simp at ht; omega
      simp only [Option.bind_some, st]
      rw [hct]
      simp only [toComplex?_fromComplex, Option.bind_some, lct]
      rw [convolveMatValues_eq n n xs ys (fun h0 x hx1 => by
        intro e; have := hxs x hx1; rw [e] at this; simp at this; omega) hys]
      simp [splice, lct]

/-! ### The loops of the matrix -/

theorem convolveLoop_eq [Zero T] [Add T] [Sub T] [Mul T] (al : Alloc) (rows : List (DspVec T)) (L : Nat) :
    ∀ (hs : List (List (DspVec T))) (ys : List (List T)) (n : Nat) (before after : List T), ys.length ≤ hs.length →
      before.length = n * L → after.length = ys.length * L →
      (∀ (j : Nat) h y, hs[j]? = some h → ys[j]? = some y → y.length = L ∧
        ∀ part : List T, part.length = L → convolveMat al rows h part = some (y, .ok ())) →
      Mat.convolveLoop al rows L (hs.zip (List.range' n ys.length)) (before ++ after) =
        some (before ++ ys.flatten, .ok ()) := by
  intro hs
  induction hs with
  | nil =>
    intro ys n before after hl _ ha _
    have : ys = [] := List.length_eq_zero_iff.1 (by simpa using hl)
    subst this
    simp only [List.length_nil, Nat.zero_mul, List.length_eq_zero_iff] at ha
    simp [Mat.convolveLoop, ha]
  | cons h hs ih =>
    intro ys n before after hl hb ha hall
    cases ys with
    | nil =>
      simp only [List.length_nil, Nat.zero_mul, List.length_eq_zero_iff] at ha
      simp [Mat.convolveLoop, ha]
    | cons y ys =>
      obtain ⟨hy, hc⟩ := hall 0 h y rfl rfl
      simp only [List.length_cons, Nat.add_mul, Nat.one_mul] at ha
      have e1 : slice (before ++ after) (n * L) ((n + 1) * L) = some (after.take L) := by
        unfold slice
        rw [if_pos (by simp [Nat.add_mul]; omega), ← hb, List.drop_left]
        congr 2
        simp [Nat.add_mul, ← hb]
      have e2 := hc (after.take L) (by simp; omega)
      have e3 : splice (before ++ after) (n * L) y = (before ++ y) ++ after.drop L := by
        unfold splice
        rw [← hb, List.take_left, List.drop_append, hy]
        simp
      have := ih ys (n + 1) (before ++ y) (after.drop L) (by simpa using hl) (by simp [hb, hy, Nat.add_mul])
        (by simp; omega) (fun j h y a b => hall (j + 1) h y (by simpa using a) (by simpa using b))
      simp only [List.length_cons, List.range'_succ, List.zip_cons_cons, Mat.convolveLoop, e1, e2, e3, Option.bind_eq_bind,
        Option.bind_some, List.flatten_cons, this]
      simp

theorem slice_flatten (ys : List (List T)) (L : Nat) (h : ∀ y ∈ ys, y.length = L) (i : Nat) (y : List T) (hi : ys[i]? = some y) :
    slice ys.flatten (i * L) ((i + 1) * L) = some y := by
  have hlen : ∀ zs : List (List T), (∀ y ∈ zs, y.length = L) → zs.flatten.length = zs.length * L := by
    intro zs
    induction zs with
    | nil => intro _; simp
    | cons z zs ih => intro hz; simp [ih (fun w hw => hz w (by simp [hw])), hz z (by simp), Nat.add_mul]; omega
  have hlt : i < ys.length := by by_contra hn; rw [List.getElem?_eq_none (by omega)] at hi; cases hi
  have hy : y.length = L := h y (List.mem_of_getElem? hi)
  have e : ys = ys.take i ++ y :: ys.drop (i + 1) := by
    rw [List.getElem?_eq_getElem hlt, Option.some.injEq] at hi
    rw [← hi]
    simp
  have l1 : (ys.take i).flatten.length = i * L := by
    rw [hlen _ (fun z hz => h z (List.mem_of_mem_take hz))]
    simp; left; omega
  rw [e, List.flatten_append, List.flatten_cons]
  unfold slice
  rw [if_pos (by simp [l1, Nat.add_mul, hy, -List.length_flatten]), ← l1, List.drop_left]
  congr 1
  rw [show (i + 1) * L - (ys.take i).flatten.length = y.length by rw [l1, hy, Nat.add_mul]; omega]
  exact List.take_left

/-- Both loops. -/
theorem convolveSignal_eq [Ring T] (al : Alloc) (m : Mat T) (b : Buffer T) (hs : List (List (DspVec T))) (ys : List (List T))
    (L : Nat) (hrows : ∀ v ∈ m.rows, v.WF ∧ v.len = L) (hl : ys.length = m.rows.length) (hh : m.rows.length ≤ hs.length)
    (hy : ∀ (j : Nat) h y, hs[j]? = some h → ys[j]? = some y → y.length = L ∧
      ∀ part : List T, part.length = L → convolveMat al m.rows h part = some (y, .ok ()))
    (hb : ∀ mem, b = .fixedLen mem → L * m.rows.length ≤ mem.length) :
    ∃ m', m.convolveSignal al b hs = some (m', .ok ()) ∧
      RowsChanged m m' m.rows.length (fun i v w => ∃ y, ys[i]? = some y ∧ Replaced v w y) := by
  have hys : ∀ y ∈ ys, y.length = L := by
    intro y hy'
    obtain ⟨n, hn, rfl⟩ := List.mem_iff_getElem.1 hy'
    exact (hy n _ _ (List.getElem?_eq_getElem (by omega)) (List.getElem?_eq_getElem hn)).1
  have hL : m.rows ≠ [] → m.rowLen = L := by
    intro hne
    unfold Mat.rowLen
    cases hr : m.rows with
    | nil => exact absurd hr hne
    | cons v rest => exact (hrows v (by rw [hr]; simp)).2
  by_cases hne : m.rows = []
  · have hys0 : ys = [] := List.length_eq_zero_iff.1 (by rw [hl, hne]; rfl)
    have hbr : ∃ t, b.borrow (m.rowLen * m.colLen) = some t := by
      have : m.rowLen * m.colLen = 0 := by simp [Mat.colLen, hne]
      rw [this]
      cases b with
      | single t => exact ⟨_, rfl⟩
      | noBuffer => exact ⟨_, rfl⟩
      | fixedLen mem => exact ⟨_, by simp [Buffer.borrow]; rfl⟩
    obtain ⟨t, ht⟩ := hbr
    refine ⟨⟨m.kind, []⟩, ?_, rfl, by simp [hne], (fun i v _ h => by rw [hne] at h; cases h), fun i _ => by simp [hne]⟩
    unfold Mat.convolveSignal
    rw [ht]
    simp [Mat.colLen, hne, Mat.convolveLoop]
  · have hbr : ∃ t, b.borrow (L * m.rows.length) = some t ∧ t.length = L * m.rows.length := by
      cases b with
      | single t => exact ⟨_, rfl, by simp⟩
      | noBuffer => exact ⟨_, rfl, by simp⟩
      | fixedLen mem =>
        have := hb mem rfl
        exact ⟨_, by simp only [Buffer.borrow]; rw [if_neg (by omega)], by simp; omega⟩
    obtain ⟨t, ht, htl⟩ := hbr
    have loop := convolveLoop_eq al m.rows L hs ys 0 [] t (by omega) (by simp) (by rw [htl, hl, Nat.mul_comm])
      (fun j h y a b => hy j h y a b)
    simp only [List.nil_append] at loop
    rw [hl, ← List.range_eq_range'] at loop
    have copy : ∀ r ∈ m.rows.zipIdx, ∃ w, Mat.copyBack L ys.flatten r = some w := by
      intro r hr
      obtain ⟨v, i⟩ := r
      rw [List.mem_zipIdx_iff_getElem?] at hr
      have hv := List.mem_of_getElem? hr
      have hc := (hrows v hv).1.content_eq
      have hi : i < ys.length := by
        by_contra hn; rw [List.getElem?_eq_none (by omega)] at hr; cases hr
      have := slice_flatten ys L hys i _ (List.getElem?_eq_getElem hi)
      refine ⟨v.withCells (splice v.data.cells 0 ys[i]), ?_⟩
      have hcl := (cells_of_content hc).2
      have h2 := (hrows v hv).2
      unfold DspVec.len at h2
      simp only [Mat.copyBack, this, hc, Option.bind_eq_bind, Option.bind_some]
      rw [if_neg (by rw [hys _ (List.getElem_mem hi), ← hcl, h2]; simp)]
    obtain ⟨ws, h1, h2, h3⟩ := mapM_get _ _ copy
    refine ⟨⟨m.kind, ws⟩, ?_, rfl, by simpa using h2, fun i v hi hv => ?_, fun i hi => ?_⟩
    · unfold Mat.convolveSignal
      simp only [hL hne, Mat.colLen, ht, loop, Option.bind_eq_bind, Option.bind_some, h1]
    · have hi' : i < ys.length := by omega
      have hc := (hrows v (List.mem_of_getElem? hv)).1.content_eq
      have hcl := (cells_of_content hc).2
      have hv2 := (hrows v (List.mem_of_getElem? hv)).2
      unfold DspVec.len at hv2
      have hw : ws[i]? = some (v.withCells (splice v.data.cells 0 ys[i])) := by
        rw [h3 i, List.getElem?_zipIdx, hv]
        simp only [Option.map_some, Option.bind_some, Nat.zero_add]
        have := slice_flatten ys L hys i _ (List.getElem?_eq_getElem hi')
        simp only [Mat.copyBack, this, hc, Option.bind_eq_bind, Option.bind_some]
        rw [if_neg (by rw [hys _ (List.getElem_mem hi'), ← hcl, hv2]; simp)]
      exact ⟨_, hw, ys[i], List.getElem?_eq_getElem hi',
        replaced_splice (hrows v (List.mem_of_getElem? hv)).1 _ (by rw [hys _ (List.getElem_mem hi'), hv2])⟩
    · rw [List.getElem?_eq_none (by rw [h2]; simpa using hi), List.getElem?_eq_none hi]

/-! ### The property -/

theorem exists_list {α : Type} {P : Nat → α → Prop} (n : Nat) (h : ∀ i < n, ∃ y, P i y) :
    ∃ ys : List α, ys.length = n ∧ ∀ i < n, ∃ y, ys[i]? = some y ∧ P i y := by
  induction n with
  | zero => exact ⟨[], rfl, by simp⟩
  | succ n ih =>
    obtain ⟨ys, hl, hy⟩ := ih (fun i hi => h i (by omega))
    obtain ⟨y, hp⟩ := h n (by omega)
    refine ⟨ys ++ [y], by simp [hl], fun i hi => ?_⟩
    by_cases hin : i < n
    · obtain ⟨z, h1, h2⟩ := hy i hin
      exact ⟨z, by rw [List.getElem?_append_left (by omega)]; exact h1, h2⟩
    · have : i = n := by omega
      subst this
      exact ⟨y, by rw [List.getElem?_append_right (by omega)]; simp [hl], hp⟩

theorem haveNumbers_exists (vs : List (DspVec T)) (h : ∀ v ∈ vs, v.WF) : ∃ xs, HaveNumbers vs xs := by
  induction vs with
  | nil => exact ⟨[], .nil⟩
  | cons v vs ih =>
    obtain ⟨xs, hx⟩ := ih (fun w hw => h w (by simp [hw]))
    exact ⟨_ :: xs, .cons (h v (by simp)).content_eq hx⟩

theorem havePoints_exists (vs : List (DspVec T)) (h : ∀ v ∈ vs, v.WF ∧ v.isComplex = true) : ∃ xs, HavePoints vs xs := by
  induction vs with
  | nil => exact ⟨[], .nil⟩
  | cons v vs ih =>
    obtain ⟨xs, hx⟩ := ih (fun w hw => h w (by simp [hw]))
    obtain ⟨cs, hcs, -⟩ := (h v (by simp)).1.content_even (h v (by simp)).2
    exact ⟨cs :: xs, .cons hcs hx⟩

/-- A list of responses which fits gives a row of the result. -/
theorem convolveMat_fits [CommRing T] (al : Alloc) (m : Mat T) (h : List (DspVec T)) (hm : Rectangular m) (hne : m.rows ≠ [])
    (hf : ResponsesFit m h) :
    ∃ y : List T, y.length = m.rowLen ∧
      (∀ part : List T, part.length = m.rowLen → convolveMat al m.rows h part = some (y, .ok ())) ∧
      (m.isComplex = false → ∃ xs ys, HaveNumbers m.rows xs ∧ HaveNumbers h ys ∧ y = mixedConv xs ys m.rowLen) ∧
      (m.isComplex = true → ∃ xs ys, HavePoints m.rows xs ∧ HavePoints h ys ∧ y = fromComplex (mixedConv xs ys m.rowPoints)) := by
  obtain ⟨h64, hrows⟩ := hm
  obtain ⟨hcount, ⟨hc, M, hM, hv⟩ | ⟨hc, hv⟩⟩ := hf
  · obtain ⟨xs, hxs⟩ := haveNumbers_exists m.rows (fun v hv => (hrows v hv).1)
    obtain ⟨ys, hys⟩ := haveNumbers_exists h (fun v hv' => (hv v hv').1)
    refine ⟨mixedConv xs ys m.rowLen, by simp, fun part hp => ?_, fun _ => ⟨xs, ys, hxs, hys, rfl⟩, fun h => by rw [hc] at h; cases h⟩
    exact convolveMat_real al m.rows h xs ys m.rowLen M part hne hcount h64
      (fun v hv => ⟨(hrows v hv).2.2, by rw [(hrows v hv).2.1, hc]⟩) (fun v hv' => ⟨(hv v hv').2.2, (hv v hv').2.1⟩) hM hxs hys hp
  · have hrows' : ∀ v ∈ m.rows, v.WF ∧ v.isComplex = true := fun v hv => ⟨(hrows v hv).1, by rw [(hrows v hv).2.1, hc]⟩
    obtain ⟨xs, hxs⟩ := havePoints_exists m.rows hrows'
    obtain ⟨ys, hys⟩ := havePoints_exists h (fun v hv' => ⟨(hv v hv').1, (hv v hv').2.1⟩)
    have hlen : m.rowLen = 2 * m.rowPoints := by
      cases hr : m.rows with
      | nil => exact absurd hr hne
      | cons v rest =>
        have h1 := hrows' v (by rw [hr]; simp)
        have e1 : m.rowLen = v.len := by unfold Mat.rowLen; rw [hr]
        have e2 : m.rowPoints = v.points := by unfold Mat.rowPoints; rw [hr]
        obtain ⟨cs, hcs, hl⟩ := h1.1.content_even h1.2
        rw [e1, e2]
        unfold DspVec.points DspVec.len
        rw [h1.2]
        simp; omega
    refine ⟨fromComplex (mixedConv xs ys m.rowPoints), by simp [hlen], fun part hp => ?_,
      (fun h => by rw [hc] at h; cases h), fun _ => ⟨xs, ys, hxs, hys, rfl⟩⟩
    exact convolveMat_complex al m.rows h xs ys m.rowPoints part hne hcount h64
      (fun v hv => ⟨by rw [(hrows v hv).2.2, hlen], (hrows' v hv).2⟩)
      (fun v hv' => ⟨by rw [(hv v hv').2.2, hlen], (hv v hv').2.1⟩) hxs hys (by rw [hp, hlen])

/-- C64: row `n` of the result is the sum over all `k` of the circular convolution of row `k` with response `k` of the responses for
    row `n`. Missing: more than 64 rows and complex matrices with responses which are shorter than the rows, see the theorems
    below. -/
theorem C64_convolve_partial [CommRing T] (al : Alloc) (m : Mat T) (b : Buffer T) (hs : List (List (DspVec T)))
    (hm : Rectangular m) (hcount : m.rows.length ≤ hs.length) (hf : ∀ h ∈ hs, ResponsesFit m h)
    (hb : ∀ mem, b = .fixedLen mem → m.rowLen * m.rows.length ≤ mem.length) :
    ∃ m', m.convolveSignal al b hs = some (m', .ok ()) ∧
      RowsChanged m m' m.rows.length (fun n v w => ∃ h y, hs[n]? = some h ∧ Replaced v w y ∧
        (m.isComplex = false → ∃ xs ys, HaveNumbers m.rows xs ∧ HaveNumbers h ys ∧ y = mixedConv xs ys m.rowLen) ∧
        (m.isComplex = true → ∃ xs ys, HavePoints m.rows xs ∧ HavePoints h ys ∧ y = fromComplex (mixedConv xs ys m.rowPoints))) := by
  have hex : ∀ n < m.rows.length, ∃ y : List T, ∃ h, hs[n]? = some h ∧ y.length = m.rowLen ∧
      (∀ part : List T, part.length = m.rowLen → convolveMat al m.rows h part = some (y, .ok ())) ∧
      (m.isComplex = false → ∃ xs ys, HaveNumbers m.rows xs ∧ HaveNumbers h ys ∧ y = mixedConv xs ys m.rowLen) ∧
      (m.isComplex = true → ∃ xs ys, HavePoints m.rows xs ∧ HavePoints h ys ∧ y = fromComplex (mixedConv xs ys m.rowPoints)) := by
    intro n hn
    have hh := List.getElem?_eq_getElem (l := hs) (i := n) (by omega)
    obtain ⟨y, hy⟩ := convolveMat_fits al m hs[n] hm (by intro e; rw [e] at hn; simp at hn) (hf _ (List.mem_of_getElem? hh))
    exact ⟨y, hs[n], hh, hy⟩
  obtain ⟨ys, hl, hall⟩ := exists_list m.rows.length hex
  obtain ⟨m', e, hc⟩ := convolveSignal_eq al m b hs ys m.rowLen (fun v hv => ⟨(hm.2 v hv).1, (hm.2 v hv).2.2⟩) hl hcount
    (fun j h y hh hy => by
      have hj : j < m.rows.length := by
        by_contra hn; rw [List.getElem?_eq_none (by omega)] at hy; cases hy
      obtain ⟨y', hy', h', hh', h1, h2, -⟩ := hall j hj
      rw [hh] at hh'; cases hh'
      rw [hy] at hy'; cases hy'
      exact ⟨h1, h2⟩) hb
  refine ⟨m', e, hc.kind, hc.count, fun i v hi hv => ?_, hc.same⟩
  obtain ⟨w, hw, y, hy, hr⟩ := hc.changed i v hi hv
  obtain ⟨y', hy', h, hh, -, -, h3, h4⟩ := hall i hi
  rw [hy] at hy'; cases hy'
  exact ⟨w, hw, h, y, hh, hr, h3, h4⟩

/-! ### Errors -/

theorem convolveMat_error [Zero T] [Add T] [Sub T] [Mul T] (al : Alloc) (rows h : List (DspVec T)) (target : List T)
    (hbad : h.length ≠ rows.length ∨ (∃ u ∈ rows, ∃ v ∈ rows, u.len ≠ v.len) ∨ (∃ u ∈ h, ∃ v ∈ h, u.len ≠ v.len)) :
    convolveMat al rows h target = some (target, .error .invalidArgumentLength) := by
  have anyTrue : ∀ (l : List (DspVec T)) (x : DspVec T), (∃ u ∈ l, ∃ v ∈ l, u.len ≠ v.len) →
      l.any (fun v => v.len ≠ x.len) = true := by
    rintro l x ⟨u, hu, v, hv, huv⟩
    rw [List.any_eq_true]
    by_cases e : u.len = x.len
    · exact ⟨v, hv, by simp; omega⟩
    · exact ⟨u, hu, by simpa using e⟩
  unfold convolveMat
  cases rows with
  | nil => rfl
  | cons m0 rest =>
    cases h with
    | nil => rfl
    | cons h0 hrest =>
      simp only
      rcases hbad with h1 | h2 | h3
      · rw [if_pos h1]
      · rw [anyTrue _ m0 h2]
        split <;> simp
      · rw [anyTrue _ h0 h3]
        split
        · rfl
        · split <;> simp

theorem convolveLoop_error [Zero T] [Add T] [Sub T] [Mul T] (al : Alloc) (rows : List (DspVec T)) (L k : Nat) (e : ErrorReason) :
    ∀ (j : Nat) (hs : List (List (DspVec T))) (n : Nat) (target : List T), j < k → target.length = (n + k) * L →
      (∀ (i : Nat) h, i < j → hs[i]? = some h → ∃ y : List T, y.length = L ∧
        ∀ part : List T, part.length = L → convolveMat al rows h part = some (y, .ok ())) →
      (∃ h, hs[j]? = some h ∧ ∀ part : List T, convolveMat al rows h part = some (part, .error e)) →
      ∃ t, Mat.convolveLoop al rows L (hs.zip (List.range' n k)) target = some (t, .error e) := by
  intro j
  induction j generalizing k with
  | zero =>
    intro hs n target hk ht _ ⟨h, hh, hbad⟩
    cases hs with
    | nil => cases hh
    | cons h' hs =>
      simp only [List.getElem?_cons_zero, Option.some.injEq] at hh
      subst hh
      obtain ⟨k, rfl⟩ : ∃ k', k = k' + 1 := ⟨k - 1, by omega⟩
      have : ∃ part, slice target (n * L) ((n + 1) * L) = some part := by
        unfold slice
        rw [if_pos ⟨Nat.mul_le_mul_right _ (by omega), by rw [ht]; exact Nat.mul_le_mul_right _ (by omega)⟩]
        exact ⟨_, rfl⟩
      obtain ⟨part, hp⟩ := this
      simp only [List.range'_succ, List.zip_cons_cons, Mat.convolveLoop, hp, hbad, Option.bind_eq_bind, Option.bind_some]
      exact ⟨_, rfl⟩
  | succ j ih =>
    intro hs n target hk ht hgood ⟨h, hh, hbad⟩
    cases hs with
    | nil => cases hh
    | cons h' hs =>
      obtain ⟨k, rfl⟩ : ∃ k', k = k' + 1 := ⟨k - 1, by omega⟩
      obtain ⟨y, hy, hc⟩ := hgood 0 h' (by omega) rfl
      have hle : (n + 1) * L ≤ target.length := by rw [ht]; exact Nat.mul_le_mul_right _ (by omega)
      have hp : slice target (n * L) ((n + 1) * L) = some ((target.drop (n * L)).take L) := by
        unfold slice
        rw [if_pos ⟨Nat.mul_le_mul_right _ (by omega), hle⟩]
        simp [Nat.add_mul]
      rw [Nat.add_mul, Nat.one_mul] at hle
      obtain ⟨t, e⟩ := ih k hs (n + 1) (splice target (n * L) y) (by omega)
        (by rw [length_splice _ _ _ (by rw [hy]; exact hle), ht]; congr 1; omega)
        (fun i h hi hh => hgood (i + 1) h (by omega) (by simpa using hh)) ⟨h, by simpa using hh, hbad⟩
      refine ⟨t, ?_⟩
      simp only [List.range'_succ, List.zip_cons_cons, Mat.convolveLoop, hp, Option.bind_eq_bind, Option.bind_some,
        hc _ (show ((target.drop (n * L)).take L).length = L by simp; omega), e]

/-- C64: the first list of responses which has not one response per row, or responses of different lengths, or rows of different
    lengths: `InvalidArgumentLength` is reported and no row is changed. -/
theorem C64_errors [CommRing T] (al : Alloc) (m : Mat T) (b : Buffer T) (hs : List (List (DspVec T)))
    (hb : ∀ mem, b = .fixedLen mem → m.rowLen * m.rows.length ≤ mem.length) (j : Nat) (h : List (DspVec T))
    (hj : j < m.rows.length) (hh : hs[j]? = some h)
    (hprev : ∀ (i : Nat) g, i < j → hs[i]? = some g → Rectangular m ∧ ResponsesFit m g)
    (hbad : h.length ≠ m.rows.length ∨ (∃ u ∈ m.rows, ∃ v ∈ m.rows, u.len ≠ v.len) ∨ (∃ u ∈ h, ∃ v ∈ h, u.len ≠ v.len)) :
    m.convolveSignal al b hs = some (m, .error .invalidArgumentLength) := by
  have hbr : ∃ t, b.borrow (m.rowLen * m.rows.length) = some t ∧ t.length = m.rowLen * m.rows.length := by
    cases b with
    | single t => exact ⟨_, rfl, by simp⟩
    | noBuffer => exact ⟨_, rfl, by simp⟩
    | fixedLen mem =>
      have := hb mem rfl
      exact ⟨_, by simp only [Buffer.borrow]; rw [if_neg (by omega)], by simp; omega⟩
  obtain ⟨t, ht, htl⟩ := hbr
  obtain ⟨t', e⟩ := convolveLoop_error al m.rows m.rowLen m.rows.length .invalidArgumentLength j hs 0 t hj
    (by rw [htl, Nat.zero_add, Nat.mul_comm])
    (fun i g hi hg => by
      obtain ⟨h1, h2⟩ := hprev i g hi hg
      obtain ⟨y, a1, a2, -⟩ := convolveMat_fits al m g h1 (by intro e; rw [e] at hj; simp at hj) h2
      exact ⟨y, a1, a2⟩)
    ⟨h, hh, fun part => convolveMat_error al m.rows h part hbad⟩
  rw [← List.range_eq_range'] at e
  unfold Mat.convolveSignal
  simp only [Mat.colLen, ht, e, Option.bind_eq_bind, Option.bind_some]

/-! ### Violations -/

/-- C64 is violated if the responses for a row are missing: success is reported, and the row is overwritten with what is left in
    the buffer. -/
theorem C64_missing_responses_violated [CommRing T] (al : Alloc) (v : DspVec T) (hv : v.WF) (stale : List T)
    (hs : stale.length = v.len) :
    ∃ m', (Mat.mk .mxn [v]).convolveSignal al (.single stale) [] = some (m', .ok ()) ∧ m'.rows.map content = [some stale] := by
  have hc := hv.content_eq
  have hl := (cells_of_content hc).2
  have hr := replaced_splice hv stale hs
  refine ⟨⟨.mxn, [v.withCells (splice v.data.cells 0 stale)]⟩, ?_, by simp [hr.1]⟩
  have e : resizeCells stale v.len = stale := by rw [← hs]; simp [resizeCells]
  have e2 : slice stale 0 v.len = some stale := by rw [← hs]; simp [slice]
  unfold Mat.convolveSignal
  simp [Mat.rowLen, Mat.colLen, Buffer.borrow, e, Mat.convolveLoop, Mat.copyBack, e2, hc, -List.length_take]
  rw [← hl, hs]
  rw [if_pos (show v.validLen = v.len from rfl)]
  rfl

/-- C64 is violated for complex matrices with responses which are shorter than the rows: the points behind the length of the response
    are ignored. The row `1, 2, 3` convolved with the response `1` should not change, it becomes `1, 1, 1`. -/
theorem C64_complex_violated : ∃ (m m' : Mat ℚ) (h : DspVec ℚ), Rectangular m ∧ h.WF ∧
    HavePoints m.rows [[⟨1, 0⟩, ⟨2, 0⟩, ⟨3, 0⟩]] ∧ HavePoints [h] [[⟨1, 0⟩]] ∧
    mixedConv [[(⟨1, 0⟩ : Cx ℚ), ⟨2, 0⟩, ⟨3, 0⟩]] [[⟨1, 0⟩]] 3 = [⟨1, 0⟩, ⟨2, 0⟩, ⟨3, 0⟩] ∧
    (∀ al, m.convolveSignal al (.single []) [[h]] = some (m', .ok ())) ∧
    HavePoints m'.rows [[⟨1, 0⟩, ⟨1, 0⟩, ⟨1, 0⟩]] := by
  refine ⟨⟨.mxn, [⟨⟨.vec, [1, 0, 2, 0, 3, 0]⟩, some 1, .time, .complex, 6⟩]⟩,
    ⟨.mxn, [⟨⟨.vec, [1, 0, 1, 0, 1, 0]⟩, some 1, .time, .complex, 6⟩]⟩, ⟨⟨.vec, [1, 0]⟩, some 1, .time, .complex, 2⟩,
    ⟨by decide, ?_⟩, ⟨by decide, by decide⟩, .cons rfl .nil, .cons rfl .nil, by decide +kernel, fun al => ?_, .cons rfl .nil⟩
  · intro v hv
    simp only [List.mem_cons, List.not_mem_nil, or_false] at hv
    subst hv
    exact ⟨⟨by decide, by decide⟩, rfl, rfl⟩
  · have e : convolveMatValues [[(⟨1, 0⟩ : Cx ℚ)]] [[⟨1, 0⟩]] (1 : Int) 1 3 = some [⟨1, 0⟩, ⟨1, 0⟩, ⟨1, 0⟩] := by decide +kernel
    have e2 : convolveMat al [(⟨⟨.vec, [1, 0, 2, 0, 3, 0]⟩, some 1, .time, .complex, 6⟩ : DspVec ℚ)]
        [⟨⟨.vec, [1, 0]⟩, some 1, .time, .complex, 2⟩] [0, 0, 0, 0, 0, 0] = some ([1, 0, 1, 0, 1, 0], .ok ()) := by
      simp [convolveMat, DspVec.len, DspVec.points, DspVec.isComplex, NumberSpace.isComplex, convRange, collectInline_ok,
        slice, toComplex?, e, splice, fromComplex]
    simp [Mat.convolveSignal, Mat.rowLen, Mat.colLen, DspVec.len, Buffer.borrow, resizeCells, List.replicate, Mat.convolveLoop, slice,
      Mat.copyBack, DspVec.content, List.range_succ, e2]
    rfl

/-- C64 is violated for a response which is longer than the rows: `InvalidArgumentLength` is documented, but success is reported. The
    row `5` becomes `0`. -/
theorem C64_long_response_violated : ∃ (m m' : Mat ℚ) (h : DspVec ℚ), Rectangular m ∧ h.WF ∧
    HaveNumbers m.rows [[5]] ∧ HaveNumbers [h] [[1, 2, 3]] ∧
    (∀ al, m.convolveSignal al (.single []) [[h]] = some (m', .ok ())) ∧ HaveNumbers m'.rows [[0]] := by
  refine ⟨⟨.mxn, [⟨⟨.vec, [5]⟩, some 1, .time, .real, 1⟩]⟩,
    ⟨.mxn, [⟨⟨.vec, [0]⟩, some 1, .time, .real, 1⟩]⟩, ⟨⟨.vec, [1, 2, 3]⟩, some 1, .time, .real, 3⟩,
    ⟨by decide, ?_⟩, ⟨by decide, by decide⟩, .cons rfl .nil, .cons rfl .nil, fun al => ?_, .cons rfl .nil⟩
  · intro v hv
    simp only [List.mem_cons, List.not_mem_nil, or_false] at hv
    subst hv
    exact ⟨⟨by decide, by decide⟩, rfl, rfl⟩
  · have e : convolveMatValues [[(5 : ℚ)]] [[]] (0 : Int) 1 1 = some [0] := by decide +kernel
    have e2 : convolveMat al [(⟨⟨.vec, [5]⟩, some 1, .time, .real, 1⟩ : DspVec ℚ)]
        [⟨⟨.vec, [1, 2, 3]⟩, some 1, .time, .real, 3⟩] [0] = some ([0], .ok ()) := by
      simp [convolveMat, DspVec.len, DspVec.points, DspVec.isComplex, NumberSpace.isComplex, convRange, collectInline_ok,
        slice, e, splice]
    simp [Mat.convolveSignal, Mat.rowLen, Mat.colLen, DspVec.len, Buffer.borrow, resizeCells, Mat.convolveLoop, slice,
      Mat.copyBack, DspVec.content, List.range_succ, e2]
    rfl

/-- C64 is violated for more than 64 rows: the call panics, although everything fits. -/
theorem C64_many_rows_violated [CommRing T] (al : Alloc) (m : Mat T) (b : Buffer T) (h : List (DspVec T)) (hs : List (List (DspVec T)))
    (hrows : 64 < m.rows.length) (hlen : ∀ v ∈ m.rows, v.len = m.rowLen) (hcount : h.length = m.rows.length)
    (hh : ∃ M, ∀ v ∈ h, v.len = M) : m.convolveSignal al b (h :: hs) = none := by
  obtain ⟨M, hM⟩ := hh
  have hc : ∀ t, convolveMat al m.rows h t = none := by
    intro t
    obtain ⟨m0, mr, hm0⟩ := List.exists_cons_of_length_pos (l := m.rows) (by omega)
    obtain ⟨h0, hr, hh0⟩ := List.exists_cons_of_length_pos (l := h) (by omega)
    have h1 : (m0 :: mr).any (fun v => v.len ≠ m0.len) = false := by
      rw [← hm0, List.any_eq_false]
      intro v hv
      simp [hlen v hv, hlen m0 (by rw [hm0]; simp)]
    have h2 : (h0 :: hr).any (fun v => v.len ≠ h0.len) = false := by
      rw [← hh0, List.any_eq_false]
      intro v hv
      simp [hM v hv, hM h0 (by rw [hh0]; simp)]
    have h3 : collectInline al ((h0 :: hr).map fun v => v.data.cells) = none :=
      collectInline_full al _ (by rw [List.length_map, ← hh0]; omega)
    unfold convolveMat
    rw [hm0, hh0]
    simp only
    rw [if_neg (by rw [← hm0, ← hh0]; simp [hcount]), h1, h2, h3]
    simp
  unfold Mat.convolveSignal
  obtain ⟨k, hk⟩ : ∃ k, m.rows.length = k + 1 := ⟨m.rows.length - 1, by omega⟩
  cases hb : b.borrow (m.rowLen * m.colLen) with
  | none => rfl
  | some t =>
    simp only [Mat.colLen, hk, List.range_succ_eq_map, List.zip_cons_cons, Mat.convolveLoop, Option.bind_eq_bind, Option.bind_some]
    cases slice t (0 * m.rowLen) ((0 + 1) * m.rowLen) with
    | none => rfl
    | some part => simp [hc]

/-- C64 is violated in frequency domain: `VectorMustBeInTimeDomain` is documented, but the matrix is convolved. -/
theorem C64_domain_violated [CommRing T] (al : Alloc) (m : Mat T) (b : Buffer T) (hs : List (List (DspVec T)))
    (_hfreq : ∀ v ∈ m.rows, v.domain = .freq) (hm : Rectangular m) (hcount : m.rows.length ≤ hs.length)
    (hf : ∀ h ∈ hs, ResponsesFit m h) (hb : ∀ mem, b = .fixedLen mem → m.rowLen * m.rows.length ≤ mem.length) :
    ∃ m', m.convolveSignal al b hs = some (m', .ok ()) := by
  obtain ⟨m', h, -⟩ := C64_convolve_partial al m b hs hm hcount hf hb
  exact ⟨m', h⟩

/-! ### Examples -/

/-- A real system with two inputs and outputs: rows `1, 2, 3` and `4, 5, 6`. -/
def exampleSystem (ns : NumberSpace) : Mat Int :=
  ⟨.mxn, [⟨⟨.vec, [1, 2, 3, 4]⟩, some 1, .freq, ns, 4⟩, ⟨⟨.vec, [4, 5, 6, 7, 9]⟩, some 1, .freq, ns, 4⟩]⟩

/-- Two impulse responses of the length `n`. -/
def exampleResponses (ns : NumberSpace) (n : Nat) : List (DspVec Int) :=
  [⟨⟨.vec, [1, 2, 3, 4]⟩, some 1, .freq, ns, n⟩, ⟨⟨.vec, [0, 1, 0, 1]⟩, some 1, .freq, ns, n⟩]

example : Rectangular (exampleSystem .real) ∧ (exampleSystem .real).rows.length ≤ [exampleResponses .real 3, exampleResponses .real 2].length ∧
    (∀ h ∈ [exampleResponses .real 3, exampleResponses .real 2], ResponsesFit (exampleSystem .real) h) ∧
    (∀ v ∈ (exampleSystem .real).rows, v.domain = .freq) := by
  refine ⟨⟨by decide, ?_⟩, by decide, ?_, ?_⟩
  · intro v hv
    simp only [exampleSystem, List.mem_cons, List.not_mem_nil, or_false] at hv
    rcases hv with rfl | rfl <;> exact ⟨⟨by decide, by decide⟩, rfl, rfl⟩
  · intro h hh
    simp only [List.mem_cons, List.not_mem_nil, or_false] at hh
    rcases hh with rfl | rfl
    · refine ⟨rfl, .inl ⟨rfl, 3, by decide, fun v hv => ?_⟩⟩
      simp only [exampleResponses, List.mem_cons, List.not_mem_nil, or_false] at hv
      rcases hv with rfl | rfl <;> exact ⟨⟨by decide, by decide⟩, rfl, rfl⟩
    · refine ⟨rfl, .inl ⟨rfl, 2, by decide, fun v hv => ?_⟩⟩
      simp only [exampleResponses, List.mem_cons, List.not_mem_nil, or_false] at hv
      rcases hv with rfl | rfl <;> exact ⟨⟨by decide, by decide⟩, rfl, rfl⟩
  · intro v hv
    simp only [exampleSystem, List.mem_cons, List.not_mem_nil, or_false] at hv
    rcases hv with rfl | rfl <;> rfl

example : Rectangular (exampleSystem .complex) ∧
    (exampleSystem .complex).rows.length ≤ [exampleResponses .complex 4, exampleResponses .complex 4].length ∧
    (∀ h ∈ [exampleResponses .complex 4, exampleResponses .complex 4], ResponsesFit (exampleSystem .complex) h) := by
  refine ⟨⟨by decide, ?_⟩, by decide, ?_⟩
  · intro v hv
    simp only [exampleSystem, List.mem_cons, List.not_mem_nil, or_false] at hv
    rcases hv with rfl | rfl <;> exact ⟨⟨by decide, by decide⟩, rfl, rfl⟩
  · intro h hh
    simp only [List.mem_cons, List.not_mem_nil, or_false, or_self] at hh
    subst hh
    refine ⟨rfl, .inr ⟨rfl, fun v hv => ?_⟩⟩
    simp only [exampleResponses, List.mem_cons, List.not_mem_nil, or_false] at hv
    rcases hv with rfl | rfl <;> exact ⟨⟨by decide, by decide⟩, rfl, rfl⟩

/-- The second list of responses is bad: one response only. -/
example : (exampleSystem .real).convolveSignal ⟨id, Nat.succ, fun _ => Nat.le_refl _, Nat.lt_succ_self⟩ .noBuffer [exampleResponses .real 3, (exampleResponses .real 3).take 1] =
    some (exampleSystem .real, .error .invalidArgumentLength) := by
  refine C64_errors _ _ _ _ (by intro mem h; cases h) 1 _ (by decide) rfl ?_ (.inl (by decide))
  intro i g hi hg
  have : i = 0 := by omega
  subst this
  simp only [List.getElem?_cons_zero, Option.some.injEq] at hg
  subst hg
  refine ⟨⟨by decide, ?_⟩, rfl, .inl ⟨rfl, 3, by decide, fun v hv => ?_⟩⟩
  · intro v hv
    simp only [exampleSystem, List.mem_cons, List.not_mem_nil, or_false] at hv
    rcases hv with rfl | rfl <;> exact ⟨⟨by decide, by decide⟩, rfl, rfl⟩
  · simp only [exampleResponses, List.mem_cons, List.not_mem_nil, or_false] at hv
    rcases hv with rfl | rfl <;> exact ⟨⟨by decide, by decide⟩, rfl, rfl⟩

end Dsp
