import Verif.Spec.Reorg
import Verif.Lemmas.Pad
import Verif.Props.Construct
/-
C07 (`zero_pad`) and C08 (`zero_pad_b`).
-/
set_option linter.unusedSimpArgs false
namespace Dsp
open DspVec
variable {T : Type}

theorem zeroPadInPlace_spec [Zero T] (k : Nat) (hk : 0 < k) (L : List (List T)) (hL : ∀ p ∈ L, p.length = k)
    (s : List T) (points : Nat) (hp : L.length < points) (hs : k * points ≤ (L.flatten ++ s).length)
    (option : PaddingOption) :
    ∃ s', zeroPadInPlace (L.flatten ++ s) (k * L.length) (points * k) k option =
      some ((padSpec (List.replicate k 0) L points (surroundRight L.length points) option).flatten ++ s') := by
  have hlf := length_flatten_of hL
  have hdiff : points * k - k * L.length = k * (points - L.length) := by
    rw [Nat.mul_comm points, Nat.mul_sub]
  have hmul : points * k = k * points := Nat.mul_comm _ _
  have hd : k * (points - L.length) / k = points - L.length := Nat.mul_div_cancel_left _ hk
  have hle : k * L.length ≤ k * points := Nat.mul_le_mul_left k (by omega)
  cases option with
  | «end» =>
    refine ⟨s.drop (k * points - L.flatten.length), ?_⟩
    simp only [zeroPadInPlace]
    rw [← hlf, hmul, padEnd_cells L.flatten s (k * points) (by omega) hs]
    simp only [padSpec, List.flatten_append, flatten_replicate_zero]
    rw [hlf, ← hmul, hdiff]
  | surround =>
    refine ⟨s.drop (k * points - L.flatten.length), ?_⟩
    simp only [zeroPadInPlace, hdiff, hd]
    have e := padSurround_cells L.flatten s (k * points)
      ((points - L.length - (points - L.length - 1) / 2) * k) ((points - L.length - 1) / 2 * k) (by
        rw [hlf, Nat.mul_comm _ k, Nat.mul_comm _ k, ← Nat.mul_add, ← Nat.mul_add]
        congr 1; omega) hs
    rw [hlf] at e
    rw [hmul, e]
    simp only [padSpec, List.flatten_append, flatten_replicate_zero, surroundRight, hlf]
    simp only [Nat.mul_comm k]
  | center =>
    refine ⟨s.drop (k * points - L.flatten.length), ?_⟩
    have hd2 : k * L.length / k = L.length := Nat.mul_div_cancel_left _ hk
    simp only [zeroPadInPlace, hd2]
    have e := padCenter_cells L.flatten s (k * points)
      ((L.length - L.length / 2) * k) (L.length / 2 * k) (by
        rw [hlf, Nat.mul_comm _ k, Nat.mul_comm _ k, ← Nat.mul_add]
        congr 1; omega) (by rw [hlf]; exact Nat.mul_lt_mul_of_pos_left hp hk) hs
    have hadd : (L.length - L.length / 2) * k + L.length / 2 * k = k * L.length := by
      rw [Nat.mul_comm _ k, Nat.mul_comm _ k, ← Nat.mul_add]; congr 1; omega
    rw [hmul, e]
    simp only [padSpec, List.flatten_append, flatten_replicate_zero, hlf]
    rw [Nat.mul_comm _ k, take_flatten_of hL, drop_flatten_of hL, Nat.mul_sub]

theorem padSpec_length {α : Type} (z : α) (l : List α) (points right : Nat) (o : PaddingOption)
    (h : l.length ≤ points) (hr : right ≤ points - l.length) :
    (padSpec z l points right o).length = points := by
  cases o <;> simp [padSpec] <;> omega

theorem padSpec_mem {k : Nat} [Zero T] {L : List (List T)} (hL : ∀ p ∈ L, p.length = k) (points right : Nat)
    (o : PaddingOption) : ∀ p ∈ padSpec (List.replicate k (0 : T)) L points right o, p.length = k := by
  intro p hp
  have hz : ∀ n, p ∈ List.replicate n (List.replicate k (0 : T)) → p.length = k := by
    intro n h; rw [List.eq_of_mem_replicate h]; simp
  cases o <;> simp only [padSpec, List.mem_append] at hp
  · rcases hp with hp | hp
    · exact hL p hp
    · exact hz _ hp
  · rcases hp with (hp | hp) | hp
    · exact hz _ hp
    · exact hL p hp
    · exact hz _ hp
  · rcases hp with (hp | hp) | hp
    · exact hL p (List.mem_of_mem_take hp)
    · exact hz _ hp
    · exact hL p (List.mem_of_mem_drop hp)

theorem resize_ok [Zero T] (v : DspVec T) (h : v.WF) (hk : NotInline v.data.kind) (points : Nat)
    (hh : CanHold v.data (points * v.stride)) :
    ∃ v', v.resize (points * v.stride) = (v', .ok ()) ∧ v'.len = points * v.stride ∧ v'.SameMeta v ∧
      (∃ s, v'.data.cells = v.data.cells ++ s) ∧ points * v.stride ≤ v'.data.cells.length := by
  have hpar : ¬ (v.isComplex = true ∧ (points * v.stride) % 2 = 1) := by
    rintro ⟨h1, h2⟩; simp [stride, h1] at h2
  obtain ⟨v', a, b, c, d, -, e⟩ := (C02_resize v h hk (points * v.stride)).2.2 hpar hh
  refine ⟨v', a, b, d, ⟨_, e⟩, ?_⟩
  have := c.1
  have hb : v'.validLen = points * v.stride := b
  omega

/-- C07: complete description of `zero_pad` for real and complex vectors, every storage, every
    unused content of the storage and every padding option. -/
theorem C07_zero_pad [Zero T] (v : DspVec T) (h : v.WF) (hk : NotInline v.data.kind)
    (points : Nat) (option : PaddingOption) :
    (points ≤ v.points → v.zeroPad points option = some (v, .error .invalidArgumentLength)) ∧
    (v.points < points → ¬ CanHold v.data (points * v.stride) →
      v.zeroPad points option = some (v, .error .typeCanNotResize)) ∧
    (v.points < points → CanHold v.data (points * v.stride) →
      ∃ v' l, v.zeroPad points option = some (v', .ok ()) ∧ v.pts = some l ∧
        v'.pts = some (padSpec v.zeroPoint l points (surroundRight v.points points) option) ∧
        v'.points = points ∧ v'.SameMeta v) := by
  obtain ⟨L, hL⟩ := h.exists_pts
  obtain ⟨hmem, ⟨s, hs⟩, hv1, hv2, hpt⟩ := cells_of_pts hL
  have hst : (if v.isComplex = true then 2 else 1) = v.stride := rfl
  have hpos := v.stride_pos
  refine ⟨?_, ?_, ?_⟩
  · intro hp
    have : points * v.stride ≤ v.len := by
      have : v.len = v.stride * L.length := hv2
      rw [this, hpt, Nat.mul_comm]; exact Nat.mul_le_mul_left _ hp
    simp only [zeroPad, hst]
    rw [if_pos this]
  · intro hp hh
    have hlt : ¬ points * v.stride ≤ v.len := by
      have : v.len = v.stride * L.length := hv2
      rw [this, hpt, Nat.mul_comm, Nat.not_le]; exact Nat.mul_lt_mul_of_pos_left hp hpos
    have hpar : ¬ (v.isComplex = true ∧ (points * v.stride) % 2 = 1) := by
      rintro ⟨h1, h2⟩; simp [stride, h1] at h2
    have := (C02_resize v h hk (points * v.stride)).2.1 hpar hh
    simp only [zeroPad, hst]
    rw [if_neg hlt, this]
  · intro hp hh
    have hlt : ¬ points * v.stride ≤ v.len := by
      have : v.len = v.stride * L.length := hv2
      rw [this, hpt, Nat.mul_comm, Nat.not_le]; exact Nat.mul_lt_mul_of_pos_left hp hpos
    obtain ⟨v1, r1, r2, ⟨m1, m2, m3, m4⟩, ⟨s1, r4⟩, r5⟩ := resize_ok v h hk points hh
    have hc1 : v1.data.cells = L.flatten ++ (s ++ s1) := by rw [r4, hs]; simp
    obtain ⟨s', hpad⟩ := zeroPadInPlace_spec v.stride hpos L hmem (s ++ s1) points (by omega)
      (by rw [← hc1, Nat.mul_comm]; exact r5) option
    rw [← hc1] at hpad
    have hlen : v.len = v.stride * L.length := hv2
    refine ⟨v1.withCells ((padSpec (List.replicate v.stride 0) L points
          (surroundRight L.length points) option).flatten ++ s'), L, ?_, hL, ?_, ?_, ?_⟩
    · simp only [zeroPad, hst]
      rw [if_neg hlt, r1]
      simp only
      rw [hlen, hpad, Option.map_some]
    · have hst' : (v1.withCells ((padSpec (List.replicate v.stride 0) L points
          (surroundRight L.length points) option).flatten ++ s')).stride = v.stride :=
        stride_congr m3
      rw [← hpt, show v.zeroPoint = List.replicate v.stride (0 : T) from rfl]
      refine pts_of_cells rfl ?_ ?_
      · rw [length_flatten_of (padSpec_mem hmem _ _ _), padSpec_length _ _ _ _ _ (by omega)
          (by unfold surroundRight; omega)]
        show v1.len = _
        rw [r2, Nat.mul_comm]
      · rw [hst']; exact padSpec_mem hmem _ _ _
    · show v1.len / (if v1.isComplex = true then 2 else 1) = points
      have : (if v1.isComplex = true then 2 else 1) = v.stride := stride_congr m3
      rw [this, r2, Nat.mul_div_cancel _ hpos]
    · exact ⟨m1, m2, m3, m4⟩

example : (exampleVec.zeroPad 5 .end).map (fun r => (r.1.pts, r.2)) =
    some (some [[1, 2], [3, 4], [5, 6], [0, 0], [0, 0]], .ok ()) := by decide
example : (exampleVec.zeroPad 6 .surround).map (fun r => (r.1.pts, r.2)) =
    some (some [[0, 0], [0, 0], [1, 2], [3, 4], [5, 6], [0, 0]], .ok ()) := by decide
example : (exampleVec.zeroPad 5 .center).map (fun r => (r.1.pts, r.2)) =
    some (some [[1, 2], [3, 4], [0, 0], [0, 0], [5, 6]], .ok ()) := by decide
example : CanHold exampleVec.data 100 ∧ exampleVec.points < 5 := by
  refine ⟨Or.inr ?_, by decide⟩; simp [exampleVec]

/-- The documentation of `Surround` ("zeros at the beginning and at the end") is violated if the
    vector grows by two points: both zeros are put to the beginning and none to the end. -/
theorem C07_surround_two_points :
    ∃ v v' : DspVec Int, v.WF ∧ v.zeroPad (v.points + 2) .surround = some (v', .ok ()) ∧
      v.pts = some [[7], [8]] ∧ v'.pts = some [[0], [0], [7], [8]] :=
  ⟨⟨⟨.vec, [7, 8]⟩, some 1, .time, .real, 2⟩, ⟨⟨.vec, [0, 0, 7, 8]⟩, some 1, .time, .real, 4⟩,
    by decide, by rfl, by decide, by decide⟩

/-! ### zero_pad_b -/

theorem zeroPadTarget_spec [Zero T] (k : Nat) (hk : 0 < k) (L : List (List T))
    (hL : ∀ p ∈ L, p.length = k) (s t : List T) (points : Nat) (hp : L.length < points)
    (ht : t.length = k * points) (option : PaddingOption) (ho : option ≠ .center) :
    zeroPadTarget t (L.flatten ++ s) (k * L.length) (k * points) k option =
      some ((padSpec (List.replicate k 0) L points (surroundRightB L.length points) option).flatten) := by
  have hlf := length_flatten_of hL
  have hdiff : k * points - k * L.length = k * (points - L.length) := by rw [Nat.mul_sub]
  have hd : k * (points - L.length) / k = points - L.length := Nat.mul_div_cancel_left _ hk
  have hle : k * L.length ≤ k * points := Nat.mul_le_mul_left k (by omega)
  have hsl : slice (L.flatten ++ s) 0 (k * L.length) = some L.flatten := by
    rw [← hlf]; exact slice_append_left _ _
  cases option with
  | «end» =>
    simp only [zeroPadTarget, hsl, Option.bind_eq_bind, Option.bind_some]
    rw [copyFromSlice_ok _ _ _ _ (by omega) (by omega) (by omega), Option.bind_some]
    obtain ⟨a, b, s', e, ea, eb, es⟩ := split3 t (k * L.length) (k * (points - L.length)) (by omega)
    have : s' = [] := List.length_eq_zero_iff.mp (by omega)
    subst this
    rw [splice_eq' (n := 0) (a := []) (b := a) (s := b) (by simp [e]) rfl (by omega)]
    have hq := padEnd_cells L.flatten b (k * points) (by omega) (by simp only [List.length_append, List.length_replicate]; omega)
    rw [hlf] at hq
    rw [List.nil_append, hq]
    have hb : b.drop (k * points - k * L.length) = [] := List.drop_of_length_le (by omega)
    rw [hb]
    simp only [padSpec, List.flatten_append, flatten_replicate_zero, hdiff, List.append_nil]
  | surround =>
    simp only [zeroPadTarget, hsl, Option.bind_eq_bind, Option.bind_some, hdiff, hd]
    generalize hR : (points - L.length) / 2 = right
    generalize hLf : points - L.length - right = left
    have hsum : k * left + k * L.length + k * right = k * points := by
      rw [← Nat.mul_add, ← Nat.mul_add]; congr 1; omega
    rw [Nat.mul_comm left, Nat.mul_comm right]
    rw [copyFromSlice_ok _ _ _ _ (by omega) (by omega) (by omega), Option.bind_some]
    obtain ⟨a, b, c, e, ea, eb, es⟩ := split3 t (k * left) (k * L.length) (by omega)
    rw [splice_eq' e ea.symm (by omega)]
    have hz : (if k * right > 0 then memzero (a ++ L.flatten ++ c) (k * points - k * right) (k * points)
        else some (a ++ L.flatten ++ c)) = some (a ++ L.flatten ++ List.replicate (k * right) 0) := by
      by_cases hr0 : k * right > 0
      · rw [if_pos hr0, memzero_ok _ _ _ (by omega) (by simp only [List.length_append, List.length_replicate]; omega)]
        rw [splice_eq' (a := a ++ L.flatten) (b := c) (s := []) (by simp) (by simp only [List.length_append, List.length_replicate]; omega) (by simp only [List.length_append, List.length_replicate]; omega)]
        have : k * points - (k * points - k * right) = k * right := by omega
        rw [this, List.append_nil]
      · have h0 : k * right = 0 := by omega
        have : c = [] := List.length_eq_zero_iff.mp (by omega)
        rw [if_neg hr0, this, h0]; simp
    rw [hz, Option.bind_some, memzero_ok _ _ _ (by omega) (by simp only [List.length_append, List.length_replicate]; omega)]
    rw [splice_eq' (n := 0) (a := []) (b := a) (s := L.flatten ++ List.replicate (k * right) 0) (by simp) rfl
      (by simp only [List.length_append, List.length_replicate]; omega)]
    simp only [padSpec, List.flatten_append, flatten_replicate_zero, surroundRightB, hR, hLf]
    simp
  | center => exact absurd rfl ho

/-- What `zero_pad_b` does for `End` and `Surround`, for every stale buffer content. -/
theorem zero_pad_b_spec [Zero T] (v : DspVec T) (h : v.WF) (b : Buffer T) (points : Nat)
    (hb : BufferOk b v.data (points * v.stride)) (option : PaddingOption) (ho : option ≠ .center)
    (hp : v.points < points) :
    ∃ v' b' l, v.zeroPadB b points option = some (v', b', .ok ()) ∧ v.pts = some l ∧
        v'.pts = some (padSpec v.zeroPoint l points (surroundRightB v.points points) option) ∧
        v'.SameMeta v := by
  obtain ⟨L, hL⟩ := h.exists_pts
  obtain ⟨hmem, ⟨s, hs⟩, hv1, hv2, hpt⟩ := cells_of_pts hL
  have hst : (if v.isComplex = true then 2 else 1) = v.stride := rfl
  have hpos := v.stride_pos
  have hlen : v.len = v.stride * L.length := hv2
  have hlt : ¬ v.stride * points ≤ v.len := by
    rw [hlen, hpt, Nat.not_le]; exact Nat.mul_lt_mul_of_pos_left hp hpos
  rw [Nat.mul_comm] at hb
  obtain ⟨t, t1, t2⟩ := borrow_ok b v.data _ hb
  have hq := zeroPadTarget_spec v.stride hpos L hmem s t points (by omega) t2 option ho
  have hrl : ((padSpec (List.replicate v.stride (0 : T)) L points (surroundRightB L.length points)
      option).flatten).length = v.stride * points := by
    rw [length_flatten_of (padSpec_mem hmem _ _ _), padSpec_length _ _ _ _ _ (by omega)
        (by unfold surroundRightB; omega)]
  obtain ⟨rest, htr⟩ := trade_ok b v.data _ (by rw [hrl]; exact hb)
  refine ⟨{ v with data := (b.trade (padSpec (List.replicate v.stride (0 : T)) L points
        (surroundRightB L.length points) option).flatten v.data).2, validLen := v.stride * points },
      (b.trade (padSpec (List.replicate v.stride (0 : T)) L points
        (surroundRightB L.length points) option).flatten v.data).1, L, ?_, hL, ?_, ?_⟩
  · simp only [zeroPadB, hst]
    rw [if_neg hlt, t1, hlen, hs]
    simp only [Option.bind_eq_bind, Option.bind_some, hq]
  · rw [← hpt, show v.zeroPoint = List.replicate v.stride (0 : T) from rfl]
    refine pts_of_cells (s := rest) ?_ ?_ ?_
    · show (b.trade _ _).2.cells = _
      rw [htr]
    · rw [hrl]
    · exact padSpec_mem hmem _ _ _
  · refine ⟨rfl, rfl, rfl, ?_⟩
    show (b.trade _ _).2.kind = _
    rw [htr]

/-- C08 (partial): `zero_pad_b` gives the same points as `zero_pad` for every stale buffer content
    and buffer, for `End` and for `Surround` with an odd number of added points. Missing (violated
    by the code): `Surround` with an even number of added points (`C08_surround_violated`), `Center`
    (`C08_center_violated`, `C08_center_panic_violated`), fixed buffers with a storage which is too
    small (`C43_fixed_buffer_violated`). -/
theorem C08_zero_pad_b_partial [Zero T] (v : DspVec T) (h : v.WF) (hk : NotInline v.data.kind)
    (b : Buffer T) (points : Nat)
    (hb : BufferOk b v.data (points * v.stride)) (hh : CanHold v.data (points * v.stride))
    (option : PaddingOption) (hp : v.points < points)
    (ho : option = .end ∨ (option = .surround ∧ (points - v.points) % 2 = 1)) :
    ∃ v1 v2 b', v.zeroPad points option = some (v1, .ok ()) ∧
      v.zeroPadB b points option = some (v2, b', .ok ()) ∧ v2.pts = v1.pts ∧ v1.pts ≠ none ∧
      v2.SameMeta v1 := by
  obtain ⟨v1, l, a1, a2, a3, _, m1, m2, m3, m4⟩ := (C07_zero_pad v h hk points option).2.2 hp hh
  obtain ⟨v2, b', l', c1, c2, c3, n1, n2, n3, n4⟩ := zero_pad_b_spec v h b points hb option
    (by rcases ho with rfl | ⟨rfl, _⟩ <;> simp) hp
  have : l' = l := by rw [a2] at c2; exact (Option.some.inj c2).symm
  subst this
  refine ⟨v1, v2, b', a1, c1, ?_, by simp [a3],
    n1.trans m1.symm, n2.trans m2.symm, n3.trans m3.symm, n4.trans m4.symm⟩
  rw [a3, c3]
  congr 1
  rcases ho with rfl | ⟨rfl, ho⟩
  · rfl
  · have : surroundRightB v.points points = surroundRight v.points points := by
      unfold surroundRightB surroundRight; omega
    rw [this]

/-- C08: the error case agrees without restriction. -/
theorem C08_zero_pad_b_error [Zero T] (v : DspVec T) (h : v.WF) (b : Buffer T) (points : Nat)
    (option : PaddingOption) (hp : points ≤ v.points) :
    v.zeroPadB b points option = some (v, b, .error .invalidArgumentLength) := by
  obtain ⟨L, hL⟩ := h.exists_pts
  obtain ⟨hmem, ⟨s, hs⟩, hv1, hv2, hpt⟩ := cells_of_pts hL
  have hst : (if v.isComplex = true then 2 else 1) = v.stride := rfl
  have hle : v.stride * points ≤ v.len := by
    have : v.len = v.stride * L.length := hv2
    rw [this, hpt]; exact Nat.mul_le_mul_left _ hp
  simp only [zeroPadB, hst]
  rw [if_pos hle]

/-- C08 is violated for `Surround` and an even number of added points. -/
theorem C08_surround_violated :
    let v : DspVec Int := ⟨⟨.vec, [7, 8]⟩, some 1, .time, .real, 2⟩
    v.WF ∧ (v.zeroPad 4 .surround).bind (fun r => r.1.pts) = some [[0], [0], [7], [8]] ∧
    (v.zeroPadB (.single []) 4 .surround).bind (fun r => r.1.pts) = some [[0], [7], [8], [0]] := by
  decide

/-- C08 is violated for `Center`: stale buffer content shows up between the halves. -/
theorem C08_center_violated :
    let v : DspVec Int := ⟨⟨.vec, [7, 8]⟩, some 1, .time, .real, 2⟩
    v.WF ∧ (v.zeroPad 4 .center).bind (fun r => r.1.pts) = some [[7], [0], [0], [8]] ∧
    (v.zeroPadB (.single [99, 99, 99, 99]) 4 .center).bind (fun r => r.1.pts) =
      some [[7], [0], [99], [8]] := by
  decide

/-- C08 is violated for `Center`: `zero_pad_b` panics where `zero_pad` succeeds. -/
theorem C08_center_panic_violated :
    let v : DspVec Int := ⟨⟨.vec, [6, 7, 8, 9]⟩, some 1, .time, .real, 4⟩
    v.WF ∧ (v.zeroPad 5 .center).bind (fun r => r.1.pts) = some [[6], [7], [0], [8], [9]] ∧
    (v.zeroPadB (.single []) 5 .center).isNone = true := by
  decide

/-- C43 and C01 are violated by `FixedLenBuffer` on a storage which can not grow: the result is
    truncated but the length is not, so the vector is not well formed afterwards. -/
theorem C43_fixed_buffer_violated :
    ∃ (v v' : DspVec Int) (b b' : Buffer Int), v.WF ∧ v.zeroPadB b 4 .end = some (v', b', .ok ()) ∧
      v'.len = 4 ∧ v'.allocLen = 2 ∧ ¬ v'.WF :=
  ⟨⟨⟨.fixed, [7, 8]⟩, some 1, .time, .real, 2⟩, ⟨⟨.fixed, [7, 8]⟩, some 1, .time, .real, 4⟩,
    .fixedLen [1, 2, 3, 4, 5], .fixedLen [7, 8, 0, 0, 5], by decide, rfl, by decide, by decide, by decide⟩

example : (exampleVec.zeroPadB (.single [9, 9, 9, 9, 9, 9, 9, 9, 9, 9, 9, 9, 9, 9]) 6 .surround).bind
    (fun r => r.1.pts) = some [[0, 0], [0, 0], [1, 2], [3, 4], [5, 6], [0, 0]] := by decide
example : BufferOk (.fixedLen [9, 9, 9, 9, 9, 9, 9, 9, 9]) exampleVec.data (4 * exampleVec.stride) := by decide

end Dsp
