import Verif.Lemmas.Index
/-
C10 (`split_into`, `merge`).
-/
namespace Dsp
open DspVec
variable {T : Type}

theorem divmod_iff {i j q k : Nat} (hj : j < k) : (j = i % k ∧ q = i / k) ↔ q * k + j = i := by
  constructor
  · rintro ⟨rfl, rfl⟩; rw [Nat.mul_comm]; exact Nat.div_add_mod i k
  · rintro rfl
    constructor
    · rw [Nat.mul_comm, Nat.mul_add_mod, Nat.mod_eq_of_lt hj]
    · rw [Nat.mul_comm, Nat.mul_add_div (by omega), Nat.div_eq_of_lt hj]; omega

theorem resizeAll_ok [Zero T] (n : Nat) (ts : List (DspVec T))
    (h : ∀ t ∈ ts, t.WF ∧ NotInline t.data.kind ∧ CanHold t.data n ∧ ¬ (t.isComplex = true ∧ n % 2 = 1)) :
    ∃ ts', resizeAll n ts = (ts', .ok ()) ∧ ts'.length = ts.length ∧
      ∀ (j : Nat) (t t' : DspVec T), ts[j]? = some t → ts'[j]? = some t' →
        t'.SameMeta t ∧ t'.validLen = n ∧ t'.WF := by
  induction ts with
  | nil => exact ⟨[], rfl, rfl, by simp⟩
  | cons t ts ih =>
    obtain ⟨ts', h1, h2, h3⟩ := ih (fun t ht => h t (by simp [ht]))
    obtain ⟨a, b, c, d⟩ := h t (by simp)
    obtain ⟨t', e1, e2, e3, e4, -⟩ := (C02_resize t a b n).2.2 d c
    refine ⟨t' :: ts', by simp [resizeAll, e1, h1], by simp [h2], ?_⟩
    intro j u u' hu hu'
    cases j with
    | zero =>
      simp only [List.getElem?_cons_zero, Option.some.injEq] at hu hu'
      subst hu hu'
      exact ⟨e4, e2, e3⟩
    | succ j =>
      simp only [List.getElem?_cons_succ] at hu hu'
      exact h3 j u u' hu hu'

/-- C10 (partial): `split_into` of a vector with `k * r` points sends point `q * k + j` to position
    `q` of target `j`. Missing: real vectors in a storage which is larger than the vector, see
    `C10_split_violated`. -/
theorem C10_split_partial [Zero T] (v : DspVec T) (h : v.WF) (targets : List (DspVec T))
    (hk : targets ≠ []) (r : Nat) (hr : v.points = r * targets.length)
    (hreal : v.isComplex = false → v.allocLen = v.len)
    (ht : ∀ t ∈ targets, t.WF ∧ NotInline t.data.kind ∧ t.isComplex = v.isComplex ∧
      CanHold t.data (r * v.stride)) :
    ∃ ts' l, v.splitInto targets = some (ts', .ok ()) ∧ v.pts = some l ∧
      ts'.length = targets.length ∧
      ∀ j (t' : DspVec T), ts'[j]? = some t' →
        (∃ l', t'.pts = some l' ∧ l'.length = r ∧
          ∀ q, q < r → l'[q]? = l[q * targets.length + j]?) ∧
        ∀ t, targets[j]? = some t → t'.SameMeta t := by
  obtain ⟨L, hL⟩ := h.exists_pts
  obtain ⟨hmem, -, -, hv2, hpt⟩ := cells_of_pts hL
  generalize hkk : targets.length = k at *
  have hkpos : 0 < k := by rw [← hkk]; exact List.length_pos_iff.mpr hk
  have hlen : v.len = v.stride * (r * k) := by
    show v.validLen = _; rw [hv2, hpt, hr]
  have hdvd : v.len % k = 0 := by rw [hlen, ← Nat.mul_assoc]; exact Nat.mul_mod_left _ _
  have hdiv : v.len / k = r * v.stride := by
    rw [hlen, ← Nat.mul_assoc, Nat.mul_div_cancel _ hkpos, Nat.mul_comm]
  obtain ⟨ts0, r1, r2, r3⟩ := resizeAll_ok (r * v.stride) targets (by
    intro t htm
    obtain ⟨a, b, c, d⟩ := ht t htm
    refine ⟨a, b, d, ?_⟩
    rintro ⟨e, f⟩
    rw [c] at e
    simp [stride, e] at f)
  have hts0 : ∀ j, j < k → ∃ t, ts0[j]? = some t ∧ t.isComplex = v.isComplex ∧ t.validLen = r * v.stride ∧
      t.validLen ≤ t.data.cells.length := by
    intro j hj
    have hj1 : j < targets.length := by omega
    have hj2 : j < ts0.length := by omega
    obtain ⟨⟨-, -, m3, -⟩, a2, a3⟩ := r3 j targets[j] ts0[j] (by simp [hj1]) (by simp [hj2])
    refine ⟨ts0[j], by simp [hj2], ?_, a2, a3.1⟩
    have := (ht targets[j] (List.getElem_mem hj1)).2.2.1
    rw [← this]; unfold isComplex; rw [m3]
  -- the invariant of both loops
  let Inv := fun (i : Nat) (ts : List (DspVec T)) => SameShape ts0 ts ∧
    ∀ j q c, j < k → c < v.stride → q * k + j < i → cellAt ts j (q * v.stride + c) =
      v.data.cells[(q * k + j) * v.stride + c]?
  have hfin : ∀ ts, Inv (r * k) ts → ∀ j (t' : DspVec T), ts[j]? = some t' → (∃ l', t'.pts = some l' ∧
      l'.length = r ∧ ∀ q, q < r → l'[q]? = L[q * k + j]?) ∧
      ∀ t, targets[j]? = some t → t'.SameMeta t := by
    rintro ts ⟨hs, hc⟩ j t' htj
    have hj : j < k := by
      have := (List.getElem?_eq_some_iff.mp htj).1; rw [hs.1] at this; omega
    obtain ⟨t, t1, t2, t3, t4⟩ := hts0 j hj
    obtain ⟨⟨m1, m2, m3, m4⟩, m5, m6⟩ := hs.2 j t t' t1 htj
    have hst : t'.stride = v.stride := by
      unfold stride; rw [← t2]; unfold isComplex; rw [m3]
    have hin : ∀ q, q < r → q * k + j < L.length := by
      intro q hq
      rw [hpt, hr]
      calc q * k + j < q * k + k := by omega
        _ = (q + 1) * k := by rw [Nat.add_mul]; omega
        _ ≤ r * k := Nat.mul_le_mul_right k hq
    have hget : ∀ q, q < r → ((List.range r).map (fun q => (L[q * k + j]?).getD []))[q]? = L[q * k + j]? := by
      intro q hq
      simp [hq, hin q hq]
    refine ⟨⟨(List.range r).map (fun q => (L[q * k + j]?).getD []), ?_, by simp, hget⟩, fun t0 ht0 => by
      obtain ⟨⟨n1, n2, n3, n4⟩, -⟩ := r3 j t0 t ht0 t1
      exact ⟨m1.trans n1, m2.trans n2, m3.trans n3, m4.trans n4⟩⟩
    apply pts_of_index
    · intro p hp
      obtain ⟨q, hq, rfl⟩ := List.mem_map.mp hp
      have hq' := hin q (List.mem_range.mp hq)
      rw [hst]
      simp only [List.getElem?_eq_getElem hq', Option.getD_some]
      exact hmem _ (List.getElem_mem hq')
    · rw [m5, t3, hst]; simp [Nat.mul_comm]
    · omega
    · intro i hi
      rw [m5, t3] at hi
      rw [hst]
      have hq : i / v.stride < r := by
        rw [Nat.div_lt_iff_lt_mul v.stride_pos]; exact hi
      have hc' : i % v.stride < v.stride := Nat.mod_lt _ v.stride_pos
      have hlt : i / v.stride * k + j < r * k := by
        have := hin _ hq; rw [hpt, hr] at this; exact this
      have e := hc j (i / v.stride) (i % v.stride) hj hc' hlt
      have e1 : i / v.stride * v.stride + i % v.stride = i := by
        rw [Nat.mul_comm]; exact Nat.div_add_mod i _
      rw [e1] at e
      simp only [cellAt, htj, Option.bind_some] at e
      rw [e, hget _ hq]
      have hx : (i / v.stride * k + j) * v.stride + i % v.stride < v.validLen := by
        show _ < v.len
        rw [hlen]
        calc (i / v.stride * k + j) * v.stride + i % v.stride
            < (i / v.stride * k + j) * v.stride + v.stride := by omega
          _ = v.stride * (i / v.stride * k + j + 1) := by
              rw [Nat.mul_add, Nat.mul_comm]; omega
          _ ≤ v.stride * (r * k) := Nat.mul_le_mul_left _ (by omega)
      rw [cell_of_pts hL _ hx]
      have d1 : ((i / v.stride * k + j) * v.stride + i % v.stride) / v.stride = i / v.stride * k + j := by
        rw [Nat.mul_comm, Nat.mul_add_div v.stride_pos, Nat.div_eq_of_lt hc']; omega
      have d2 : ((i / v.stride * k + j) * v.stride + i % v.stride) % v.stride = i % v.stride := by
        rw [Nat.mul_comm, Nat.mul_add_mod, Nat.mod_eq_of_lt hc']
      rw [d1, d2]
  have hcond : ¬ ((k == 0 || v.len % k != 0) = true) := by
    simp [hdvd]; omega
  have htarget : ∀ (i : Nat) (ts : List (DspVec T)), i < r * k → SameShape ts0 ts →
      ∃ t, ts[i % k]? = some t ∧ ∀ c, c < v.stride → (i / k) * v.stride + c < t.data.cells.length := by
    intro i ts hi hs
    have hj : i % k < k := Nat.mod_lt _ hkpos
    obtain ⟨t, t1, t2, t3, t4⟩ := hts0 (i % k) hj
    have hj2 : i % k < ts.length := by rw [hs.1]; omega
    obtain ⟨-, m5, m6⟩ := hs.2 (i % k) t ts[i % k] t1 (by simp [hj2])
    refine ⟨ts[i % k], by simp [hj2], fun c hc => ?_⟩
    rw [m6]
    have hq : i / k < r := by rw [Nat.div_lt_iff_lt_mul hkpos]; exact hi
    have : (i / k) * v.stride + v.stride ≤ r * v.stride := by
      calc (i / k) * v.stride + v.stride = (i / k + 1) * v.stride := by rw [Nat.add_mul]; omega
        _ ≤ r * v.stride := Nat.mul_le_mul_right _ hq
    omega
  cases hc : v.isComplex with
  | false =>
    have hst : v.stride = 1 := by simp [stride, hc]
    have hdl : v.data.cells.length = r * k := by
      have e1 : v.data.cells.length = v.len := hreal hc
      rw [e1, hlen, hst, Nat.one_mul]
    obtain ⟨ts, l1, l2⟩ := forRange_inv Inv (fun i ts => do
          let x ← get v.data.cells i
          putTarget ts (i % k) (i / k) x) 0 (r * k) ts0 ⟨SameShape.refl _, by omega⟩ (by
        rintro i ts - hi ⟨hs, hcell⟩
        obtain ⟨t, t1, t2⟩ := htarget i ts (by omega) hs
        have hp := t2 0 (by omega)
        rw [hst] at hp
        obtain ⟨ts', p1, p2, p3⟩ := putTarget_ok ts (i % k) (i / k) v.data.cells[i] t t1 (by simpa using hp)
        refine ⟨ts', ?_, hs.trans p2, ?_⟩
        · simp [get_eq (show i < v.data.cells.length by omega), p1]
        · intro j q c hj hc1 hlt
          have hc0 : c = 0 := by omega
          subst hc0
          simp only [hst, Nat.mul_one, Nat.add_zero] at *
          rw [p3]
          by_cases heq : q * k + j = i
          · rw [if_pos ((divmod_iff hj).mpr heq), heq]; simp [show i < v.data.cells.length by omega]
          · rw [if_neg (fun hh => heq ((divmod_iff hj).mp hh))]
            have hce := hcell j q 0 hj (by omega) (by omega)
            simpa using hce)
    refine ⟨ts, L, ?_, hL, by rw [l2.1.1, r2, hkk], hfin ts (by simpa using l2)⟩
    simp only [splitInto, hkk, if_neg hcond, hdiv, r1, hc, hdl]
    simp only [Option.bind_eq_bind] at l1 ⊢
    simp [l1]
  | true =>
    have hst : v.stride = 2 := by simp [stride, hc]
    have hdl : 2 * (r * k) ≤ v.data.cells.length := by
      have e1 := h.1
      have e2 : v.validLen = v.stride * (r * k) := hlen
      rw [hst] at e2; omega
    obtain ⟨ts, l1, l2⟩ := forRange_inv Inv (fun i ts => do
          let pos := i / k
          let x ← get v.data.cells (2 * i)
          let ts ← putTarget ts (i % k) (2 * pos) x
          let y ← get v.data.cells (2 * i + 1)
          putTarget ts (i % k) (2 * pos + 1) y) 0 (r * k) ts0 ⟨SameShape.refl _, by omega⟩ (by
        rintro i ts - hi ⟨hs, hcell⟩
        obtain ⟨t, t1, t2⟩ := htarget i ts (by omega) hs
        rw [hst] at t2
        have hpa := t2 0 (by omega)
        have hx : 2 * i < v.data.cells.length := by omega
        have hy : 2 * i + 1 < v.data.cells.length := by omega
        obtain ⟨tsa, pa1, pa2, pa3⟩ := putTarget_ok ts (i % k) (2 * (i / k)) v.data.cells[2 * i] t t1 (by omega)
        obtain ⟨ta, ta1, ta2⟩ := htarget i tsa (by omega) (hs.trans pa2)
        rw [hst] at ta2
        have hpb := ta2 1 (by omega)
        obtain ⟨tsb, pb1, pb2, pb3⟩ := putTarget_ok tsa (i % k) (2 * (i / k) + 1) v.data.cells[2 * i + 1] ta ta1 (by omega)
        refine ⟨tsb, ?_, (hs.trans pa2).trans pb2, ?_⟩
        · simp [get_eq hx, get_eq hy, pa1, pb1]
        · intro j q c hj hc1 hlt
          rw [hst] at hc1 ⊢
          rw [pb3, pa3]
          have hcell' := hcell j q c hj (by omega)
          rw [hst] at hcell'
          by_cases heq : q * k + j = i
          · obtain ⟨e1, e2⟩ := (divmod_iff hj).mpr heq
            rw [heq]
            rcases (show c = 0 ∨ c = 1 by omega) with rfl | rfl
            · rw [if_neg (by omega), if_pos ⟨e1, by omega⟩]
              have : i * 2 + 0 = 2 * i := by omega
              rw [this]; simp [hx]
            · rw [if_pos ⟨e1, by omega⟩]
              have : i * 2 + 1 = 2 * i + 1 := by omega
              rw [this]; simp [hy]
          · have hne : ¬ (j = i % k ∧ q = i / k) := fun hh => heq ((divmod_iff hj).mp hh)
            rw [if_neg (by rintro ⟨a, b⟩; exact hne ⟨a, by omega⟩),
              if_neg (by rintro ⟨a, b⟩; exact hne ⟨a, by omega⟩)]
            exact hcell' (by omega))
    refine ⟨ts, L, ?_, hL, by rw [l2.1.1, r2, hkk], hfin ts (by simpa using l2)⟩
    have hn2 : v.len / 2 = r * k := by rw [hlen, hst]; omega
    simp only [splitInto, hkk, if_neg hcond, hdiv, r1, hc, hn2]
    simp only [Option.bind_eq_bind] at l1 ⊢
    simp [l1]

/-- C10: if the number of points is not a multiple of the number of targets then `split_into` returns
    an error and changes nothing. -/
theorem C10_split_error [Zero T] (v : DspVec T) (h : v.WF) (targets : List (DspVec T))
    (ht : ∀ t ∈ targets, t.isComplex = v.isComplex)
    (hr : ∀ r, v.points ≠ r * targets.length) :
    ∃ e, v.splitInto targets = some (targets, .error e) := by
  generalize hkk : targets.length = k at *
  obtain ⟨L, hL⟩ := h.exists_pts
  obtain ⟨hmem, -, -, hv2, hpt⟩ := cells_of_pts hL
  by_cases hcond : (k == 0 || v.len % k != 0) = true
  · exact ⟨.invalidArgumentLength, by simp only [splitInto, hkk, if_pos hcond]⟩
  · simp only [Bool.or_eq_true, beq_iff_eq, bne_iff_ne, not_or, ne_eq, Decidable.not_not] at hcond
    obtain ⟨hk0, hmod⟩ := hcond
    have hcond : ¬ ((k == 0 || v.len % k != 0) = true) := by simp [hk0, hmod]
    cases targets with
    | nil => simp at hkk; omega
    | cons t ts =>
      have hlen : v.len = v.stride * v.points := by
        show v.validLen = _; rw [hv2, hpt]
      obtain ⟨q, hq⟩ := Nat.dvd_of_mod_eq_zero hmod
      cases hc : v.isComplex with
      | false =>
        have hst : v.stride = 1 := by simp [stride, hc]
        rw [hst, Nat.one_mul] at hlen
        exact absurd (hlen ▸ hq) (by rw [Nat.mul_comm]; exact hr q)
      | true =>
        have hst : v.stride = 2 := by simp [stride, hc]
        have hqk : v.len / k = q := by rw [hq, Nat.mul_div_cancel_left _ (by omega)]
        have hodd : q % 2 = 1 := by
          by_contra hh
          have : q = 2 * (q / 2) := by omega
          refine hr (q / 2) ?_
          have h2 : 2 * v.points = 2 * (q / 2 * k) := by
            rw [← hst, ← hlen, hq, hst]
            calc k * q = k * (2 * (q / 2)) := by rw [← this]
              _ = 2 * (q / 2 * k) := by rw [Nat.mul_left_comm, Nat.mul_comm k]
          omega
        have htc : t.isComplex = true := by rw [ht t (by simp), hc]
        refine ⟨.inputMustHaveAnEvenLength, ?_⟩
        have hres : t.resize q = (t, .error .inputMustHaveAnEvenLength) := by
          simp [resize, htc, hodd]
        simp only [splitInto, hkk, if_neg hcond, hqk, resizeAll, hres]

/-- C10 (partial): `merge` of `k` sources with `r` points each puts point `q` of source `j` to
    position `q * k + j`. Missing: real vectors in a storage which is larger than the result, see
    `C10_merge_violated`. -/
theorem C10_merge_partial [Zero T] (v : DspVec T) (h : v.WF) (hki : NotInline v.data.kind)
    (sources : List (DspVec T)) (hk : sources ≠ []) (r : Nat)
    (hs : ∀ s ∈ sources, s.WF ∧ s.isComplex = v.isComplex ∧ s.points = r)
    (hcan : CanHold v.data (r * sources.length * v.stride))
    (hreal : v.isComplex = false → v.allocLen ≤ r * sources.length) :
    ∃ v' l, v.merge sources = some (v', .ok ()) ∧ v'.pts = some l ∧ v'.SameMeta v ∧
      l.length = r * sources.length ∧
      ∀ (j : Nat) (s : DspVec T) (ls : List (List T)), sources[j]? = some s → s.pts = some ls →
        ∀ q, q < r → l[q * sources.length + j]? = ls[q]? := by
  generalize hkk : sources.length = k at *
  have hkpos : 0 < k := by rw [← hkk]; exact List.length_pos_iff.mpr hk
  have hsl : ∀ s ∈ sources, s.validLen = r * v.stride ∧ s.stride = v.stride := by
    intro s hm
    obtain ⟨a, b, c⟩ := hs s hm
    have hst : s.stride = v.stride := by unfold stride; rw [b]
    obtain ⟨L, hL⟩ := a.exists_pts
    obtain ⟨-, -, -, hv2, hpt⟩ := cells_of_pts hL
    exact ⟨by rw [hv2, hpt, c, hst, Nat.mul_comm], hst⟩
  obtain ⟨v1, r1, r2, ⟨m1, m2, m3, m4⟩, ⟨s1, r4⟩, r5⟩ := resize_ok v h hki (r * k) hcan
  have hst1 : v1.stride = v.stride := stride_congr m3
  have hc1 : v1.isComplex = v.isComplex := by unfold isComplex; rw [m3]
  -- the sources by index
  have hsrc : ∀ j, j < k → ∃ s, sources[j]? = some s ∧ s ∈ sources ∧ s.validLen = r * v.stride ∧
      s.validLen ≤ s.data.cells.length := by
    intro j hj
    have hj' : j < sources.length := by omega
    refine ⟨sources[j], by simp [hj'], List.getElem_mem hj', (hsl _ (List.getElem_mem hj')).1,
      (hs _ (List.getElem_mem hj')).1.1⟩
  let Inv := fun (i : Nat) (cells : List T) => cells.length = v1.data.cells.length ∧
    ∀ j q c, j < k → c < v.stride → q * k + j < i → cells[(q * k + j) * v.stride + c]? =
      cellAt sources j (q * v.stride + c)
  -- from the invariant to the result
  have hlt : ∀ q j, q < r → j < k → q * k + j < r * k := by
    intro q j hq hj
    calc q * k + j < q * k + k := by omega
      _ = (q + 1) * k := by rw [Nat.add_mul]; omega
      _ ≤ r * k := Nat.mul_le_mul_right k hq
  have hfin : ∀ cells, Inv (r * k) cells → ∃ l, (v1.withCells cells).pts = some l ∧ l.length = r * k ∧
      ∀ (j : Nat) (s : DspVec T) (ls : List (List T)), sources[j]? = some s → s.pts = some ls →
        ∀ q, q < r → l[q * k + j]? = ls[q]? := by
    rintro cells ⟨hl, hcell⟩
    have hwf : (v1.withCells cells).WF := by
      refine ⟨?_, fun hcc => ?_⟩
      · show v1.len ≤ cells.length
        omega
      · have : v.isComplex = true := by rw [← hc1]; exact hcc
        show v1.len % 2 = 0
        rw [r2]; simp [stride, this]
    obtain ⟨l, hpl⟩ := hwf.exists_pts
    obtain ⟨hmem, -, -, hv2, -⟩ := cells_of_pts hpl
    have hst2 : (v1.withCells cells).stride = v.stride := hst1
    have hll : l.length = r * k := by
      rw [hst2] at hv2
      have e : v1.len = v.stride * l.length := hv2
      rw [r2, Nat.mul_comm] at e
      exact (Nat.eq_of_mul_eq_mul_left v.stride_pos e).symm
    refine ⟨l, hpl, hll, ?_⟩
    intro j s ls hsj hls q hq
    have hj : j < k := by have := (List.getElem?_eq_some_iff.mp hsj).1; omega
    have hsm : s ∈ sources := List.mem_of_getElem? hsj
    obtain ⟨hmem', -, -, hv2', -⟩ := cells_of_pts hls
    have hss := hsl s hsm
    rw [hss.2] at hv2' hmem'
    have hlsl : ls.length = r := by
      have e : r * v.stride = v.stride * ls.length := by rw [← hss.1, hv2']
      rw [Nat.mul_comm] at e
      exact (Nat.eq_of_mul_eq_mul_left v.stride_pos e).symm
    have hi := hlt q j hq hj
    have hi' : q * k + j < l.length := by omega
    have hq' : q < ls.length := by omega
    rw [List.getElem?_eq_getElem hi', List.getElem?_eq_getElem hq']
    congr 1
    have hla := hmem _ (List.getElem_mem hi')
    have hlb := hmem' _ (List.getElem_mem hq')
    rw [hst2] at hla
    apply List.ext_getElem?
    intro c
    by_cases hc : c < v.stride
    · have e := hcell j q c hj hc hi
      have hx : (q * k + j) * v.stride + c < (v1.withCells cells).validLen := by
        show _ < v1.len
        rw [r2]
        calc (q * k + j) * v.stride + c < (q * k + j) * v.stride + v.stride := by omega
          _ = (q * k + j + 1) * v.stride := (Nat.succ_mul _ _).symm
          _ ≤ r * k * v.stride := Nat.mul_le_mul_right _ hi
      have hy : q * v.stride + c < s.validLen := by
        rw [hss.1]
        calc q * v.stride + c < q * v.stride + v.stride := by omega
          _ = (q + 1) * v.stride := by rw [Nat.add_mul]; omega
          _ ≤ r * v.stride := Nat.mul_le_mul_right _ hq
      have ex := cell_of_pts hpl _ hx
      have ey := cell_of_pts hls _ hy
      rw [hst2] at ex
      rw [hss.2] at ey
      have d1 : ∀ a, (a * v.stride + c) / v.stride = a := by
        intro a; rw [Nat.mul_comm, Nat.mul_add_div v.stride_pos, Nat.div_eq_of_lt hc]; omega
      have d2 : ∀ a, (a * v.stride + c) % v.stride = c := by
        intro a; rw [Nat.mul_comm, Nat.mul_add_mod, Nat.mod_eq_of_lt hc]
      rw [d1, d2, List.getElem?_eq_getElem hi', Option.bind_some] at ex
      rw [d1, d2, List.getElem?_eq_getElem hq', Option.bind_some] at ey
      rw [← ex, ← ey]
      show cells[_]? = _
      rw [e]; simp [cellAt, hsj]
    · rw [List.getElem?_eq_none (by rw [hla]; omega), List.getElem?_eq_none (by rw [hlb]; omega)]
  obtain ⟨s0, rest, hsrcs⟩ : ∃ s0 rest, sources = s0 :: rest := List.exists_cons_of_ne_nil hk
  have hs0 : s0.len = r * v.stride := (hsl s0 (by rw [hsrcs]; simp)).1
  have hany : rest.any (fun s => s0.len != s.len) = false := by
    rw [List.any_eq_false]
    intro s hm
    have : s.len = r * v.stride := (hsl s (by rw [hsrcs]; simp [hm])).1
    simp [hs0, this]
  have hres : v.resize (s0.len * k) = (v1, .ok ()) := by
    rw [hs0, ← r1]; congr 1; rw [Nat.mul_right_comm]
  have hdata : ∀ i, i < r * k → ∃ s, sources[i % k]? = some s ∧
      ∀ c, c < v.stride → (i / k) * v.stride + c < s.data.cells.length := by
    intro i hi
    obtain ⟨s, e1, -, e2, e3⟩ := hsrc (i % k) (Nat.mod_lt _ hkpos)
    refine ⟨s, e1, fun c hc => ?_⟩
    have hq : i / k < r := by rw [Nat.div_lt_iff_lt_mul hkpos]; exact hi
    have : (i / k) * v.stride + v.stride ≤ r * v.stride := by
      calc (i / k) * v.stride + v.stride = (i / k + 1) * v.stride := by rw [Nat.add_mul]; omega
        _ ≤ r * v.stride := Nat.mul_le_mul_right _ hq
    omega
  cases hc : v.isComplex with
  | false =>
    have hst : v.stride = 1 := by simp [stride, hc]
    have hdl : v1.data.cells.length = r * k := by
      have e1 : v.data.cells.length ≤ r * k := hreal hc
      have hh := (C02_resize v h hki (r * k * v.stride)).2.2 (by simp [hc]) hcan
      obtain ⟨v2, b1, -, -, -, -, b2⟩ := hh
      rw [r1] at b1
      obtain rfl := (Prod.mk.inj b1).1
      rw [b2, hst, Nat.mul_one]; simp; omega
    obtain ⟨cells, l1, l2⟩ := forRange_inv Inv (fun i cells => do
            let s ← get sources (i % k)
            let x ← get s.data.cells (i / k)
            put cells i x) 0 (r * k) v1.data.cells ⟨rfl, by omega⟩ (by
        rintro i cells - hi ⟨hl, hcell⟩
        obtain ⟨s, e1, e2⟩ := hdata i (by omega)
        have hp := e2 0 (by omega)
        rw [hst] at hp
        simp only [Nat.mul_one, Nat.add_zero] at hp
        refine ⟨cells.set i s.data.cells[i / k], ?_, by simpa using hl, ?_⟩
        · simp [get, e1, put_eq (show i < cells.length by omega), hp]
        · intro j q c hj hc1 hlt'
          have hc0 : c = 0 := by omega
          subst hc0
          have hcell' := hcell j q 0 hj (by omega)
          simp only [hst, Nat.mul_one, Nat.add_zero] at *
          rw [List.getElem?_set]
          by_cases heq : q * k + j = i
          · obtain ⟨rfl, rfl⟩ := (divmod_iff hj).mpr heq
            rw [heq]; simp [cellAt, e1, hp, show i < cells.length by omega]
          · rw [if_neg (fun hh => heq hh.symm)]
            exact hcell' (by omega))
    obtain ⟨l, f1, f2, f3⟩ := hfin cells (by simpa using l2)
    refine ⟨v1.withCells cells, l, ?_, f1, ⟨m1, m2, m3, m4⟩, f2, f3⟩
    subst hsrcs
    simp only [merge, hkk, hany, Bool.false_eq_true, if_false, hres, hc1, hc, hdl]
    simp [Option.bind_eq_bind] at l1 ⊢
    simp [l1]
  | true =>
    have hst : v.stride = 2 := by simp [stride, hc]
    have hdl : 2 * (r * k) ≤ v1.data.cells.length := by rw [hst] at r5; omega
    obtain ⟨cells, l1, l2⟩ := forRange_inv Inv (fun i cells => do
            let s ← get sources (i % k)
            let pos := i / k
            let x ← get s.data.cells (2 * pos)
            let cells ← put cells (2 * i) x
            let y ← get s.data.cells (2 * pos + 1)
            put cells (2 * i + 1) y) 0 (r * k) v1.data.cells ⟨rfl, by omega⟩ (by
        rintro i cells - hi ⟨hl, hcell⟩
        obtain ⟨s, e1, e2⟩ := hdata i (by omega)
        rw [hst] at e2
        have hp := e2 1 (by omega)
        have hp0 : 2 * (i / k) < s.data.cells.length := by omega
        have hp1 : 2 * (i / k) + 1 < s.data.cells.length := by omega
        have hx : 2 * i < cells.length := by omega
        have hy : 2 * i + 1 < (cells.set (2 * i) s.data.cells[2 * (i / k)]).length := by simp; omega
        refine ⟨(cells.set (2 * i) s.data.cells[2 * (i / k)]).set (2 * i + 1) s.data.cells[2 * (i / k) + 1], ?_,
          by simpa using hl, ?_⟩
        · simp [get, e1, put_eq hx, put_eq hy, hp0, hp1]
        · intro j q c hj hc1 hlt'
          rw [hst] at hc1 ⊢
          have hcell' := hcell j q c hj (by omega)
          rw [hst] at hcell'
          rw [List.getElem?_set, List.getElem?_set]
          by_cases heq : q * k + j = i
          · obtain ⟨rfl, rfl⟩ := (divmod_iff hj).mpr heq
            rw [heq]
            rcases (show c = 0 ∨ c = 1 by omega) with rfl | rfl
            · rw [if_neg (by omega), if_pos (by omega), if_pos hx]
              have : i / k * 2 + 0 = 2 * (i / k) := by omega
              simp only [cellAt, e1, Option.bind_some, this]; simp [hp0]
            · rw [if_pos (by omega), if_pos hy]
              have : i / k * 2 + 1 = 2 * (i / k) + 1 := by omega
              simp only [cellAt, e1, Option.bind_some, this]; simp [hp1]
          · rw [if_neg (by omega), if_neg (by omega)]
            exact hcell' (by omega))
    obtain ⟨l, f1, f2, f3⟩ := hfin cells (by simpa using l2)
    refine ⟨v1.withCells cells, l, ?_, f1, ⟨m1, m2, m3, m4⟩, f2, f3⟩
    have hn2 : v1.len / 2 = r * k := by rw [r2, hst]; omega
    subst hsrcs
    simp only [merge, hkk, hany, Bool.false_eq_true, if_false, hres, hc1, hc, hn2, if_true]
    simp [Option.bind_eq_bind] at l1 ⊢
    simp [l1]

/-- C10 (partial): merging the pieces of a split vector into `w` restores the points. Missing: real
    vectors in storages which are larger than the vector. -/
theorem C10_roundtrip_partial [Zero T] (v w : DspVec T) (h : v.WF) (hw : w.WF)
    (hki : NotInline w.data.kind) (targets : List (DspVec T))
    (hk : targets ≠ []) (r : Nat) (hr : v.points = r * targets.length)
    (hcx : w.isComplex = v.isComplex)
    (hreal : v.isComplex = false → v.allocLen = v.len ∧ w.allocLen ≤ v.len)
    (ht : ∀ t ∈ targets, t.WF ∧ NotInline t.data.kind ∧ t.isComplex = v.isComplex ∧
      CanHold t.data (r * v.stride))
    (hcan : CanHold w.data v.len) :
    ∃ ts' w', v.splitInto targets = some (ts', .ok ()) ∧ w.merge ts' = some (w', .ok ()) ∧
      w'.pts = v.pts ∧ v.pts ≠ none := by
  obtain ⟨ts', l, a1, a2, a3, a4⟩ := C10_split_partial v h targets hk r hr (fun hc => (hreal hc).1) ht
  have hkpos : 0 < targets.length := List.length_pos_iff.mpr hk
  obtain ⟨hmem, -, -, hv2, hpt⟩ := cells_of_pts a2
  have hst : w.stride = v.stride := by unfold stride; rw [hcx]
  -- number space of the pieces
  have hns : ∀ s ∈ ts', s.WF ∧ s.isComplex = w.isComplex ∧ s.points = r := by
    intro s hm
    obtain ⟨j, hj, rfl⟩ := List.mem_iff_getElem.mp hm
    obtain ⟨⟨l', b1, b2, -⟩, b3⟩ := a4 j ts'[j] (by simp [hj])
    obtain ⟨-, -, -, -, hpt'⟩ := cells_of_pts b1
    refine ⟨wf_of_pts b1, ?_, by omega⟩
    rw [hcx]
    have hj' : j < targets.length := by omega
    obtain ⟨-, -, m3, -⟩ := b3 targets[j] (by simp [hj'])
    rw [← (ht _ (List.getElem_mem hj')).2.2.1]
    unfold isComplex; rw [m3]
  have hlen : v.len = r * ts'.length * w.stride := by
    show v.validLen = _
    rw [hv2, hpt, hr, a3, hst, Nat.mul_comm]
  obtain ⟨w', lw, c1, c2, -, c3, c4⟩ := C10_merge_partial w hw hki ts' (by
      rintro rfl; simp at a3; omega) r hns (by rw [← hlen]; exact hcan) (by
      intro hc
      rw [hcx] at hc
      have := (hreal hc).2
      rw [hlen, hst] at this
      simpa [stride, hc] using this)
  refine ⟨ts', w', a1, c1, ?_, by simp [a2]⟩
  rw [c2, a2]
  congr 1
  apply List.ext_getElem?
  intro i
  by_cases hi : i < r * targets.length
  · have hj : i % targets.length < ts'.length := by rw [a3]; exact Nat.mod_lt _ hkpos
    have hq : i / targets.length < r := by rw [Nat.div_lt_iff_lt_mul hkpos]; exact hi
    obtain ⟨⟨l', b1, b2, b3⟩, -⟩ := a4 (i % targets.length) ts'[i % targets.length] (by simp [hj])
    have e1 := b3 _ hq
    have e2 := c4 (i % targets.length) _ l' (by simp [hj]) b1 _ hq
    rw [a3] at e2
    have e3 : i / targets.length * targets.length + i % targets.length = i := by
      rw [Nat.mul_comm]; exact Nat.div_add_mod i _
    rw [e3] at e1 e2
    rw [e2, e1]
  · rw [List.getElem?_eq_none (by rw [c3, a3]; omega), List.getElem?_eq_none (by omega)]

/-- C10 is violated for real vectors in a storage larger than the vector: `split_into` panics. -/
theorem C10_split_violated :
    let v : DspVec Int := ⟨⟨.vec, [1, 2, 3, 4, 9, 9]⟩, some 1, .time, .real, 4⟩
    let t : DspVec Int := ⟨⟨.vec, []⟩, some 1, .time, .real, 0⟩
    v.WF ∧ t.WF ∧ v.points = 2 * 2 ∧ (v.splitInto [t, t]).isNone = true := by decide

/-- C10 is violated for real vectors in a storage larger than the result: `merge` panics. -/
theorem C10_merge_violated :
    let v : DspVec Int := ⟨⟨.vec, [9, 9, 9, 9, 9, 9]⟩, some 1, .time, .real, 6⟩
    let s : DspVec Int := ⟨⟨.vec, [1, 2]⟩, some 1, .time, .real, 2⟩
    v.WF ∧ s.WF ∧ (v.merge [s, s]).isNone = true := by decide

/-- Non-vacuity: a complex vector with stale cells is split into three targets. -/
example :
    let t : DspVec Int := ⟨⟨.vec, []⟩, some 1, .time, .realOrComplex true, 0⟩
    (exampleVec.splitInto [t, t, t]).map (fun r => r.1.map DspVec.pts) =
      some [some [[1, 2]], some [[3, 4]], some [[5, 6]]] ∧ exampleVec.points = 1 * 3 ∧
    ((exampleVec.splitInto [t, t, t]).bind (fun r => exampleVec.merge r.1)).bind (fun r => r.1.pts)
      = some [[1, 2], [3, 4], [5, 6]] := by decide
example :
    let v : DspVec Int := ⟨⟨.vec, [1, 2, 3, 4]⟩, some 1, .time, .real, 4⟩
    let t : DspVec Int := ⟨⟨.vec, []⟩, some 1, .time, .real, 0⟩
    (v.splitInto [t, t]).map (fun r => r.1.map DspVec.pts) =
      some [some [[1], [3]], some [[2], [4]]] := by decide

end Dsp
