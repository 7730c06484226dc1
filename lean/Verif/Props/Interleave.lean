import Verif.Props.Pad
/-
C09 (`zero_interleave`, `zero_interleave_b`).
-/
namespace Dsp
open DspVec
variable {T α : Type}

theorem interleaveSpec_length (z : α) (f : Nat) (hf : 1 ≤ f) (l : List α) :
    (interleaveSpec z f l).length = f * l.length := by
  induction l with
  | nil => simp [interleaveSpec]
  | cons x l ih =>
    simp only [interleaveSpec, List.flatMap_cons, List.length_append, List.length_cons,
      List.length_replicate] at ih ⊢
    rw [ih, Nat.mul_add]; omega

theorem interleaveSpec_getElem? (z : α) (f : Nat) (hf : 1 ≤ f) (l : List α) (i : Nat)
    (hi : i < f * l.length) :
    (interleaveSpec z f l)[i]? = if i % f = 0 then l[i / f]? else some z := by
  induction l generalizing i with
  | nil => simp at hi
  | cons x l ih =>
    simp only [interleaveSpec, List.flatMap_cons] at ih ⊢
    rw [List.getElem?_append]
    simp only [List.length_cons, List.length_replicate]
    by_cases h : i < f
    · rw [if_pos (by omega)]
      rw [Nat.mod_eq_of_lt h, Nat.div_eq_of_lt h]
      cases i with
      | zero => simp
      | succ i =>
        rw [List.getElem?_cons_succ, List.getElem?_replicate, if_pos (by omega), if_neg (by omega)]
    · rw [if_neg (by omega)]
      have e : f - 1 + 1 = f := by omega
      rw [e, ih (i - f) (by simp [Nat.mul_add] at hi; omega)]
      have h1 : i % f = (i - f) % f := by rw [Nat.mod_eq_sub_mod (by omega)]
      have h2 : i / f = (i - f) / f + 1 := by rw [Nat.div_eq_sub_div (by omega) (by omega)]
      rw [h1, h2]
      simp

/-- The backward in-place loop of `zero_interleave`. -/
theorem zeroInterleave_loop (z : α) (f : Nat) (hf : 1 ≤ f) (l s : List α)
    (hs : f * l.length ≤ (l ++ s).length) :
    forRange 0 (f * l.length) (zeroInterleaveStep z f (f * l.length)) (l ++ s) =
      some (interleaveSpec z f l ++ (l ++ s).drop (f * l.length)) := by
  obtain ⟨r, h1, h2, h3⟩ := forRange_inv
    (fun j d => d.length = (l ++ s).length ∧ ∀ i, d[i]? =
      if f * l.length - j ≤ i ∧ i < f * l.length then (if i % f = 0 then (l ++ s)[i / f]? else some z)
      else (l ++ s)[i]?)
    (zeroInterleaveStep z f (f * l.length)) 0 (f * l.length) (l ++ s)
    ⟨rfl, fun i => by rw [if_neg (by omega)]⟩
    (by
      rintro j d - hj ⟨hd1, hd2⟩
      have hi : f * l.length - 1 - j < d.length := by omega
      generalize hI : f * l.length - 1 - j = I at hi
      have hdiv : I / f ≤ I := Nat.div_le_self _ _
      by_cases hm : I % f = 0
      · refine ⟨d.set I d[I / f], ?_, by simpa using hd1, ?_⟩
        · simp [zeroInterleaveStep, hI, hm, get_eq (show I / f < d.length by omega), put_eq hi]
        · intro i
          rw [List.getElem?_set]
          by_cases hiI : I = i
          · subst hiI
            rw [if_pos rfl, if_pos hi, if_pos (by omega), if_pos hm]
            have := hd2 (I / f)
            rw [if_neg (by omega)] at this
            rw [← this]; simp
          · rw [if_neg hiI, hd2 i]
            by_cases hc : f * l.length - j ≤ i ∧ i < f * l.length
            · rw [if_pos hc, if_pos (show f * l.length - (j + 1) ≤ i ∧ i < f * l.length by omega)]
            · rw [if_neg hc, if_neg (by omega)]
      · refine ⟨d.set I z, ?_, by simpa using hd1, ?_⟩
        · simp [zeroInterleaveStep, hI, hm, put_eq hi]
        · intro i
          rw [List.getElem?_set]
          by_cases hiI : I = i
          · subst hiI
            rw [if_pos rfl, if_pos hi, if_pos (by omega), if_neg hm]
          · rw [if_neg hiI, hd2 i]
            by_cases hc : f * l.length - j ≤ i ∧ i < f * l.length
            · rw [if_pos hc, if_pos (show f * l.length - (j + 1) ≤ i ∧ i < f * l.length by omega)]
            · rw [if_neg hc, if_neg (by omega)])
  rw [h1]
  congr 1
  apply List.ext_getElem?
  intro i
  have hil := interleaveSpec_length z f hf l
  rw [h3 i]
  by_cases hi : i < f * l.length
  · rw [if_pos (by omega), List.getElem?_append_left (l₁ := interleaveSpec z f l) (by omega), interleaveSpec_getElem? z f hf l i hi]
    have hdl : i / f < l.length := by
      rw [Nat.div_lt_iff_lt_mul (by omega), Nat.mul_comm]; exact hi
    rw [List.getElem?_append_left hdl]
  · rw [if_neg (by omega), List.getElem?_append_right (l₁ := interleaveSpec z f l) (by omega), List.getElem?_drop, hil]
    congr 1; omega

theorem interleaveSpec_map {β : Type} (z : α) (f : Nat) (l : List α) (m : α → β) :
    (interleaveSpec z f l).map m = interleaveSpec (m z) f (l.map m) := by
  simp [interleaveSpec, List.map_flatMap, List.flatMap_map]

/-- C09: `zero_interleave` puts `factor - 1` zeros after each point. Excluded: complex
    vectors in a storage with an odd number of cells, see `C52_zero_interleave_violated`. -/
theorem C09_zero_interleave [Zero T] (v : DspVec T) (h : v.WF) (hk : NotInline v.data.kind)
    (factor : Nat) (hf : 1 ≤ factor) (halloc : v.isComplex = true → v.allocLen % 2 = 0) :
    (¬ CanHold v.data (factor * v.len) →
      v.zeroInterleave factor = some (v, .error .typeCanNotResize)) ∧
    (CanHold v.data (factor * v.len) →
      ∃ v' l, v.zeroInterleave factor = some (v', .ok ()) ∧ v.pts = some l ∧
        v'.pts = some (interleaveSpec v.zeroPoint factor l) ∧ v'.SameMeta v) := by
  have hge : ¬ v.len * factor < v.len := by
    have := Nat.le_mul_of_pos_right v.len hf; omega
  have hmul : v.len * factor = factor * v.len := Nat.mul_comm _ _
  have hpar : ¬ (v.isComplex = true ∧ (factor * v.len) % 2 = 1) := by
    rintro ⟨h1, h2⟩
    have := h.2 h1
    have e : v.len % 2 = 0 := this
    rw [Nat.mul_mod, e] at h2; simp at h2
  constructor
  · intro hh
    have := (C02_resize v h hk (factor * v.len)).2.1 hpar hh
    simp only [zeroInterleave, if_neg hge]
    rw [hmul, this]
  · intro hh
    obtain ⟨v1, a1, a2, a3, ⟨m1, m2, m3, m4⟩, -, a6⟩ :=
      (C02_resize v h hk (factor * v.len)).2.2 hpar hh
    have hle : factor * v.len ≤ v1.data.cells.length := by
      have := a3.1; have e : v1.validLen = factor * v.len := a2; omega
    cases hc : v.isComplex with
    | false =>
      obtain ⟨c, s, c1, c2⟩ := h.real
      have hv : v.len = c.length := c2.symm
      have e1 : v1.data.cells = c ++ (s ++ List.replicate (factor * v.len - v.data.cells.length) 0) := by
        rw [a6, c1]; simp
      have hl := zeroInterleave_loop (0 : T) factor hf c
        (s ++ List.replicate (factor * v.len - v.data.cells.length) 0) (by rw [← e1, ← hv]; exact hle)
      rw [← e1, ← hv] at hl
      refine ⟨v1.withCells (interleaveSpec 0 factor c ++ v1.data.cells.drop (factor * v.len)), _, ?_,
        pts_real hc c1 c2, ?_, ⟨m1, m2, m3, m4⟩⟩
      · simp only [zeroInterleave, if_neg hge, hc]
        rw [hmul, a1]
        simp [hl]
      · have hc' : v1.isComplex = false := by rw [← hc]; unfold isComplex; rw [m3]
        refine (pts_real (c := interleaveSpec 0 factor c) (s := v1.data.cells.drop (factor * v.len)) (by exact hc') rfl
          (by rw [interleaveSpec_length _ _ hf]; show _ = v1.len; rw [a2, hv])).trans ?_
        rw [interleaveSpec_map]
        simp [zeroPoint, stride, hc]
    | true =>
      obtain ⟨p, s, c1, c2⟩ := h.complex hc
      have hv : v.len = 2 * p.length := c2.symm
      have e1 : v1.data.cells = fromComplex p ++ (s ++ List.replicate (factor * v.len - v.data.cells.length) 0) := by
        rw [a6, c1]; simp
      have hodd : (s ++ List.replicate (factor * v.len - v.data.cells.length) (0 : T)).length % 2 = 0 := by
        have h1 := halloc hc
        have h2 : v.data.cells.length = 2 * p.length + s.length := by rw [c1]; simp
        have h3 : v.allocLen = v.data.cells.length := rfl
        have h4 : (factor * v.len) % 2 = 0 := by
          rw [Nat.mul_mod, hv]; simp
        simp only [List.length_append, List.length_replicate]
        omega
      obtain ⟨q, hq⟩ := exists_fromComplex hodd
      rw [hq, ← fromComplex_append] at e1
      have hfl : factor * v.len / 2 = factor * p.length := by
        rw [hv, Nat.mul_left_comm, Nat.mul_div_cancel_left _ (by omega)]
      have hl := zeroInterleave_loop (⟨0, 0⟩ : Cx T) factor hf p q (by
        have := hle
        rw [e1, length_fromComplex, hv, Nat.mul_left_comm] at this; omega)
      refine ⟨v1.withCells (fromComplex (interleaveSpec ⟨0, 0⟩ factor p ++ (p ++ q).drop (factor * p.length))), _, ?_,
        pts_complex hc c1 c2, ?_, ⟨m1, m2, m3, m4⟩⟩
      · simp only [zeroInterleave, if_neg hge, hc]
        rw [hmul, a1]
        simp [e1, ← fromComplex_append, hfl, hl]
      · have hc' : v1.isComplex = true := by rw [← hc]; unfold isComplex; rw [m3]
        refine (pts_complex (p := interleaveSpec ⟨0, 0⟩ factor p)
          (s := fromComplex ((p ++ q).drop (factor * p.length))) (by exact hc')
          (by simp [withCells])
          (by rw [interleaveSpec_length _ _ hf]; show _ = v1.len; rw [a2, hv, Nat.mul_left_comm])).trans ?_
        rw [interleaveSpec_map]
        simp [zeroPoint, stride, hc, List.replicate]

example : (exampleVec.zeroInterleave 2).map (fun r => (r.1.pts, r.2)) =
    some (some [[1, 2], [0, 0], [3, 4], [0, 0], [5, 6], [0, 0]], .ok ()) := by decide
example : exampleVec.allocLen % 2 = 0 ∧ exampleVec.WF := by decide

/-- C09 is violated for a complex vector in a storage with an odd number of cells: panic. -/
theorem C52_zero_interleave_violated :
    let v : DspVec Int := ⟨⟨.vec, [1, 2, 3, 4, 9, 9, 9, 9, 9]⟩, some 1, .time, .complex, 4⟩
    v.WF ∧ (v.zeroInterleave 2).isNone = true := by decide

/-! ### zero_interleave_b -/

theorem interleaveCopy_spec [Zero T] (k f : Nat) (hf : 1 ≤ f) (hk : 0 < k) (L : List (List T))
    (hL : ∀ p ∈ L, p.length = k) (pre done : List T) (fuel : Nat) (hfuel : L.length ≤ fuel) :
    interleaveCopy k (f * k) (pre ++ L.flatten) fuel done.length pre.length
      (done ++ List.replicate (f * k * L.length) 0) =
    some (done ++ (interleaveSpec (List.replicate k 0) f L).flatten) := by
  induction L generalizing pre done fuel with
  | nil =>
    cases fuel with
    | zero => simp [interleaveCopy, interleaveSpec]
    | succ n => simp [interleaveCopy, interleaveSpec]
  | cons x L ih =>
    have hx := hL x (by simp)
    cases fuel with
    | zero => simp at hfuel
    | succ n =>
      have hkf : k ≤ f * k := Nat.le_mul_of_pos_left k hf
      have hpos : 0 < f * k := by omega
      have e1 : done.length < (done ++ List.replicate (f * k * (x :: L).length) (0 : T)).length := by
        simp only [List.length_append, List.length_replicate, List.length_cons, Nat.mul_add]; omega
      have e2 : slice (pre ++ (x :: L).flatten) pre.length (pre.length + k) = some x := by
        rw [slice_ok _ _ _ (by omega) (by simp only [List.flatten_cons, List.length_append]; omega)]
        have : pre.length + k - pre.length = x.length := by omega
        rw [this, List.drop_left, List.flatten_cons, List.take_left]
      have e3 : f * k * (x :: L).length = k + (f * k - k) + f * k * L.length := by
        simp only [List.length_cons, Nat.mul_add]; omega
      have e4 : copyFromSlice (done ++ List.replicate (f * k * (x :: L).length) (0 : T)) done.length
          (done.length + k) x =
          some ((done ++ x ++ List.replicate (f * k - k) 0) ++ List.replicate (f * k * L.length) 0) := by
        rw [copyFromSlice_ok _ _ _ _ (by omega)
          (by rw [e3]; simp only [List.length_append, List.length_replicate]; omega) (by omega)]
        rw [splice_eq' (a := done) (b := List.replicate k 0)
          (s := List.replicate (f * k - k) 0 ++ List.replicate (f * k * L.length) 0)
          (by rw [e3, ← List.replicate_append_replicate, ← List.replicate_append_replicate]; simp [Nat.add_assoc]) rfl
          (by simp [hx])]
        simp
      simp only [interleaveCopy, if_pos e1, e2, e4, Option.bind_eq_bind, Option.bind_some]
      have := ih (fun p hp => hL p (by simp [hp])) (pre ++ x) (done ++ x ++ List.replicate (f * k - k) 0) n
        (by simpa using hfuel)
      have l1 : (done ++ x ++ List.replicate (f * k - k) (0 : T)).length = done.length + f * k := by
        simp only [List.length_append, List.length_replicate]; omega
      have l2 : (pre ++ x).length = pre.length + k := by simp [hx]
      rw [l1, l2] at this
      have l3 : pre ++ x ++ L.flatten = pre ++ (x :: L).flatten := by simp
      rw [l3] at this
      rw [this]
      have l4 : (interleaveSpec (List.replicate k (0 : T)) f (x :: L)).flatten =
          x ++ List.replicate (f * k - k) 0 ++ (interleaveSpec (List.replicate k 0) f L).flatten := by
        simp only [interleaveSpec, List.flatMap_cons, List.flatten_append, List.flatten_cons,
          flatten_replicate_zero]
        have : k * (f - 1) = f * k - k := by rw [Nat.mul_sub, Nat.mul_comm]; simp
        rw [this]
      rw [l4]; simp

/-- C09: the buffered `zero_interleave_b` gives the same points for every stale buffer
    content and for every storage, also those with an odd number of cells. Excluded: the empty vector,
    see `C51_zero_interleave_b_empty_violated`. -/
theorem C09_zero_interleave_b [Zero T] (v : DspVec T) (h : v.WF) (b : Buffer T)
    (factor : Nat) (hf : 1 ≤ factor) (hb : BufferOk b v.data (factor * v.len))
    (hne : v.len ≠ 0) :
    ∃ v' b' l, v.zeroInterleaveB b factor = some (v', b') ∧ v.pts = some l ∧
        v'.pts = some (interleaveSpec v.zeroPoint factor l) ∧ v'.SameMeta v := by
  obtain ⟨L, hL⟩ := h.exists_pts
  obtain ⟨hmem, ⟨s, hs⟩, hv1, hv2, hpt⟩ := cells_of_pts hL
  have hst : (if v.isComplex = true then 2 else 1) = v.stride := rfl
  have hpos := v.stride_pos
  have hzp : v.zeroPoint = List.replicate v.stride (0 : T) := rfl
  by_cases h1 : factor ≤ 1
  · have : factor = 1 := by omega
    subst this
    refine ⟨v, b, L, by simp [zeroInterleaveB], hL, ?_, rfl, rfl, rfl, rfl⟩
    rw [hL]; simp [interleaveSpec]
  · have hlen : v.len = v.stride * L.length := hv2
    obtain ⟨t, t1, t2⟩ := borrow_ok b v.data _ hb
    have hpos2 : 0 < factor * v.len := Nat.mul_pos (by omega) (by omega)
    have hsl : slice v.data.cells 0 v.len = some L.flatten := by
      have : v.len = L.flatten.length := hv1
      rw [this, hs]; exact slice_append_left _ _
    have hz : memzero t 0 (factor * v.len) = some (List.replicate (factor * v.len) 0) := by
      rw [memzero_ok _ _ _ (by omega) (by omega)]
      rw [splice_eq' (n := 0) (a := []) (b := t) (s := []) (by simp) rfl (by simp [t2])]
      simp
    have hcp := interleaveCopy_spec v.stride factor hf hpos L hmem [] [] (factor * v.len) (by
      rw [hlen]
      calc L.length ≤ v.stride * L.length := Nat.le_mul_of_pos_left _ hpos
        _ ≤ factor * (v.stride * L.length) := Nat.le_mul_of_pos_left _ (by omega))
    have hfl : factor * v.stride * L.length = factor * v.len := by rw [hlen, Nat.mul_assoc]
    simp only [List.nil_append, List.length_nil, hfl] at hcp
    have hml : ∀ p ∈ interleaveSpec v.zeroPoint factor L, p.length = v.stride := by
      intro p hp
      simp only [interleaveSpec, List.mem_flatMap, List.mem_cons, List.mem_replicate] at hp
      obtain ⟨q, hq, rfl | ⟨_, rfl⟩⟩ := hp
      · exact hmem _ hq
      · simp [zeroPoint]
    have hrl : (interleaveSpec v.zeroPoint factor L).flatten.length = factor * v.len := by
      rw [length_flatten_of hml, interleaveSpec_length _ _ hf, hlen, Nat.mul_left_comm]
    obtain ⟨rest, htr⟩ := trade_ok b v.data (interleaveSpec v.zeroPoint factor L).flatten (by rw [hrl]; exact hb)
    refine ⟨{ v with data := (b.trade (interleaveSpec v.zeroPoint factor L).flatten v.data).2, validLen := factor * v.len }, (b.trade (interleaveSpec v.zeroPoint factor L).flatten v.data).1,
        L, ?_, hL, ?_, ?_⟩
    · simp only [zeroInterleaveB, hst, if_neg h1, t1, hsl, hz, Option.bind_eq_bind, Option.bind_some,
        get_eq (show 0 < t.length by omega), List.length_replicate, hcp, ← hzp]
    · refine pts_of_cells (s := rest) ?_ (by rw [hrl]) hml
      show (b.trade _ _).2.cells = _
      rw [htr]
    · refine ⟨rfl, rfl, rfl, ?_⟩
      show (b.trade _ _).2.kind = _
      rw [htr]

/-- C09 is violated: `zero_interleave_b` panics on an empty vector, `zero_interleave` does not. -/
theorem C51_zero_interleave_b_empty_violated :
    let v : DspVec Int := ⟨⟨.vec, []⟩, some 1, .time, .real, 0⟩
    v.WF ∧ (v.zeroInterleave 2).isSome = true ∧ (v.zeroInterleaveB (.single []) 2).isNone = true := by
  decide

example : (exampleVec.zeroInterleaveB (.single [9, 9, 9]) 3).bind (fun r => r.1.pts) =
    some [[1, 2], [0, 0], [0, 0], [3, 4], [0, 0], [0, 0], [5, 6], [0, 0], [0, 0]] := by decide
example : BufferOk (.single [9, 9, 9]) exampleVec.data (3 * exampleVec.len) ∧ exampleVec.len ≠ 0 := by decide

end Dsp
