import Verif.Props.ProgramUn
import Verif.Props.ProgramBin
import Verif.Props.ProgramStat
import Mathlib.Data.Rat.Floor
/-
C72: programs which use several vectors show, after every statement and for all schedules, the signals and return the values
which the specification of programs computes.
-/
namespace Dsp
open DspVec
variable {T : Type}

section
variable [Zero T]

/-- `resize` keeps the types. -/
theorem resize_types (d : DspVec T) (n : Nat) :
    (d.resize n).1.numberSpace = d.numberSpace ∧ (d.resize n).1.domain = d.domain := by
  unfold DspVec.resize
  split
  · exact ⟨rfl, rfl⟩
  · split
    · split <;> exact ⟨rfl, rfl⟩
    · exact ⟨rfl, rfl⟩

theorem prepareTarget_types {v dest d : DspVec T} (h : prepareTarget v dest = some (.inl d) ∨ prepareTarget v dest = some (.inr d)) :
    d.numberSpace = dest.numberSpace ∧ d.domain = dest.domain := by
  unfold prepareTarget at h
  split at h
  · have := resize_types dest 0
    generalize dest.resize 0 = p at h this
    obtain ⟨p1, r⟩ := p
    rcases r with _ | _ <;> simp at h
    rw [← h]; exact this
  · have t1 := resize_types dest v.len
    generalize dest.resize v.len = p at h t1
    obtain ⟨p1, r⟩ := p
    rcases r with _ | _
    · simp at h
    · have t2 := resize_types p1 (v.len / 2)
      simp only at h
      generalize p1.resize (v.len / 2) = q at h t2
      obtain ⟨q1, r⟩ := q
      rcases r with _ | _
      · simp at h
      · simp at h
        rw [← h]
        exact ⟨t2.1.trans t1.1, t2.2.trans t1.2⟩

theorem getRealWith_types {op : Cx T → T} {st : MultiCoreSettings} {v dest w : DspVec T} {sched : List Nat}
    (h : v.getRealWith op st dest sched = .finished w) : w.numberSpace = dest.numberSpace ∧ w.domain = dest.domain := by
  unfold getRealWith at h
  split at h
  · cases h
  · rename_i d e; cases h; exact prepareTarget_types (.inl e)
  · rename_i d e
    have ht := prepareTarget_types (v := v) (dest := dest) (.inr e)
    split at h
    · split at h <;> cases h
      exact ht
    · cases h

theorem getMagnitudeWith_types {k : RegKind} {addr : Nat} {simdOp : List T → List T} {op : Cx T → T} {v dest w : DspVec T}
    (h : v.getMagnitudeWith k addr simdOp op dest = some w) : w.numberSpace = dest.numberSpace ∧ w.domain = dest.domain := by
  unfold getMagnitudeWith at h
  cases e : prepareTarget v dest with
  | none => rw [e] at h; cases h
  | some d =>
    rw [e] at h
    cases d with
    | inl d => cases h; exact prepareTarget_types (.inl e)
    | inr d =>
      have ht := prepareTarget_types (v := v) (dest := dest) (.inr e)
      simp only [Option.bind_eq_bind, Option.bind_some, Option.bind_eq_some_iff, Option.some.injEq] at h
      obtain ⟨_, _, _, _, rfl⟩ := h
      exact ht

theorem getRealImag_types {v a b r i : DspVec T} (h : v.getRealImag a b = some (r, i)) :
    (r.numberSpace = a.numberSpace ∧ r.domain = a.domain) ∧ i.numberSpace = b.numberSpace ∧ i.domain = b.domain := by
  unfold getRealImag at h
  split at h
  all_goals
    split at h
    · rename_i d1 d2 h1 h2
      have t1 := resize_types a; have t2 := resize_types b
      first
      | (cases h
         exact ⟨by have := t1 0; rwa [h1] at this, by have := t2 0; rwa [h2] at this⟩)
      | (simp only [Option.bind_eq_bind, Option.bind_eq_some_iff, Option.some.injEq, Prod.mk.injEq] at h
         obtain ⟨_, _, _, _, _, _, _, _, rfl, rfl⟩ := h
         exact ⟨by have := t1 (v.len / 2); rwa [h1] at this, by have := t2 (v.len / 2); rwa [h2] at this⟩)
    · cases h

theorem getMagPhase_types {polar : Cx T → T × T} {v a b r i : DspVec T} (h : v.getMagPhase polar a b = some (r, i)) :
    (r.numberSpace = a.numberSpace ∧ r.domain = a.domain) ∧ i.numberSpace = b.numberSpace ∧ i.domain = b.domain := by
  unfold getMagPhase at h
  split at h
  all_goals
    split at h
    · rename_i d1 d2 h1 h2
      have t1 := resize_types a; have t2 := resize_types b
      first
      | (cases h
         exact ⟨by have := t1 0; rwa [h1] at this, by have := t2 0; rwa [h2] at this⟩)
      | (simp only [Option.bind_eq_bind, Option.bind_eq_some_iff, Option.some.injEq, Prod.mk.injEq] at h
         obtain ⟨_, _, _, _, _, _, rfl, rfl⟩ := h
         exact ⟨by have := t1 (v.len / 2); rwa [h1] at this, by have := t2 (v.len / 2); rwa [h2] at this⟩)
    · cases h

omit [Zero T] in
/-- A target shows the numbers which were written to it. -/
theorem Shows.target {dest w v : DspVec T} {t : Signal T} (h : dest.Shows t) (hr : dest.isComplex = false) {xs : List T}
    (hv : RealVersion v w xs) (ht : w.numberSpace = dest.numberSpace ∧ w.domain = dest.domain) :
    w.Shows { t with numbers := .real xs, delta := v.delta } := by
  have hx : t.numbers.isComplex = false := by rw [← h.isComplex]; exact hr
  refine ⟨hv.1, ?_, ?_, hv.2.2.2.2⟩
  · rw [ht.1, h.space, hx]; rfl
  · rw [ht.2, h.domain]

end

section
variable [Field T] [LinearOrder T] [FloorRing T]
variable {m : Machine T} {w : World T}

omit [Field T] [LinearOrder T] [FloorRing T] in
theorem Machine.Shows.put (h : m.Shows w) (x : Nat) {v : DspVec T} {s : Signal T} (hv : v.Shows s) (o : List (Out T)) :
    (m.put x v o).Shows (w.put x s o) := by
  refine ⟨fun y => ?_, by simp [Machine.put, World.put, h.2]⟩
  by_cases hy : y = x
  · subst hy; simpa [Machine.put, World.put] using hv
  · simpa [Machine.put, World.put, hy] using h.1 y

omit [Field T] [LinearOrder T] [FloorRing T] in
theorem Machine.Shows.returns (h : m.Shows w) (o : Out T) : Machine.Shows ⟨m.vec, m.out ++ [o]⟩ ⟨w.sig, w.out ++ [o]⟩ :=
  ⟨h.1, by simp [h.2]⟩

omit [Field T] [LinearOrder T] [FloorRing T] in
/-- What `putAll` assigns. -/
theorem Machine.putAll_vec (m : Machine T) {xs : List Nat} (hn : xs.Nodup) {ws : List (DspVec T)} (hl : ws.length = xs.length)
    (o : List (Out T)) (y : Nat) :
    (∀ v, ws[xs.idxOf y]? = some v → y ∈ xs → (m.putAll xs ws o).vec y = v) ∧ (y ∉ xs → (m.putAll xs ws o).vec y = m.vec y) := by
  unfold Machine.putAll
  constructor
  · intro v hv hy
    have hi : xs.idxOf y < xs.length := List.idxOf_lt_length_of_mem hy
    have hf : (xs.zip ws).find? (fun p => p.1 == y) = some (y, v) := by
      rw [List.find?_eq_some_iff_getElem]
      refine ⟨by simp, xs.idxOf y, by simp [hi, hl], ?_, ?_⟩
      · rw [List.getElem_zip]
        simp only [List.getElem_idxOf, Prod.mk.injEq, true_and]
        exact (List.getElem?_eq_some_iff.1 hv).2
      · intro j hj
        rw [List.getElem_zip]
        simp only [Bool.not_eq_true', beq_eq_false_iff_ne, ne_eq]
        intro hxj
        have : xs.idxOf y ≤ j := by
          rw [← hxj]
          exact le_of_eq (hn.idxOf_getElem j _)
        omega
    simp only [hf]; rfl
  · intro hy
    have hf : (xs.zip ws).find? (fun p => p.1 == y) = none := by
      rw [List.find?_eq_none]
      rintro ⟨a, b⟩ hab
      simp only [beq_iff_eq]
      rintro rfl
      exact hy (List.of_mem_zip hab).1
    simp only [hf]; rfl

theorem setComplex_step (h : m.Shows w) (make : T → T → Cx T) (x a b : Nat)
    (run : DspVec T → DspVec T → DspVec T → Option (DspVec T × VoidResult))
    (hx : (m.vec a).len = (m.vec b).len → (m.vec x).isComplex = true)
    (herr : (m.vec a).len ≠ (m.vec b).len → run (m.vec x) (m.vec a) (m.vec b) = some (m.vec x, .error .invalidArgumentLength))
    (hok : (m.vec x).isComplex = true → ∀ p q, (m.vec a).content = some p → (m.vec b).content = some q → p.length = q.length →
      ∃ v', run (m.vec x) (m.vec a) (m.vec b) = some (v', .ok ()) ∧ ComplexVersion (m.vec x) v' (List.zipWith make p q) ∧ v'.SameMeta (m.vec x)) :
    ∃ m', Always2 (fun _ _ => (Outcome.ofOption (run (m.vec x) (m.vec a) (m.vec b))).andThen fun r =>
        .finished (m.put x r.1 [.result r.2])) m' ∧ m'.Shows (StmtCall.meaning w (.setComplex make x a b)) := by
  have la := (h.1 a).len
  have lb := (h.1 b).len
  by_cases hl : (m.vec a).len = (m.vec b).len
  · obtain ⟨v', e1, e2, e3⟩ := hok (hx hl) _ _ (h.1 a).content (h.1 b).content (by omega)
    refine ⟨m.put x v' [.result (.ok ())], always2_some e1 rfl, ?_⟩
    simp only [StmtCall.meaning]
    rw [if_neg (by omega)]
    exact h.put x (step_setComplex (h.1 x) (hx hl) e2 e3) _
  · refine ⟨m.put x (m.vec x) [.result (.error .invalidArgumentLength)], always2_some (herr hl) rfl, ?_⟩
    simp only [StmtCall.meaning]
    rw [if_pos (by omega)]
    exact h.put x (h.1 x) _

omit [LinearOrder T] [FloorRing T] in
theorem setComplex_wrong (v p q : DspVec T) (cart : T → T → Cx T) (hl : p.len ≠ q.len) :
    v.setRealImag p q = some (v, .error .invalidArgumentLength) ∧
    v.setMagPhase cart p q = some (v, .error .invalidArgumentLength) := by
  unfold setRealImag setMagPhase
  rw [if_pos hl, if_pos hl]
  exact ⟨rfl, rfl⟩

/-! Sums -/

omit [LinearOrder T] [FloorRing T] in
theorem sum_step {v : DspVec T} {s : Signal T} (h : v.Shows s) (op : SumOp) (hs : op.Safe v) (order : List Nat) :
    op.run v order = some (sumMeaning op.square op.complex s) := by
  have cx : v.isComplex = true → v.content = some (fromComplex s.numbers.asCx) := by
    intro hc
    obtain ⟨cs, hN⟩ := shows_complex h hc
    have := h.content
    rw [hN] at this ⊢
    exact this
  cases op with
  | sum k addr st =>
    obtain ⟨e1, -⟩ := C21_sum k addr st v h.wf _ h.content hs order
    simp [SumOp.run, e1, sumMeaning, SumOp.square, SumOp.complex]
  | sumSq k addr st =>
    obtain ⟨-, e1⟩ := C21_sum k addr st v h.wf _ h.content hs order
    simp [SumOp.run, e1, sumMeaning, SumOp.square, SumOp.complex]
  | sumPrec st =>
    obtain ⟨e1, -⟩ := C28_sum_prec st v _ h.content order
    simp [SumOp.run, e1, sumMeaning, SumOp.square, SumOp.complex]
  | sumSqPrec st =>
    obtain ⟨-, e1⟩ := C28_sum_prec st v _ h.content order
    simp [SumOp.run, e1, sumMeaning, SumOp.square, SumOp.complex]
  | sumComplex k addr st =>
    obtain ⟨hc, he, hal⟩ := hs
    obtain ⟨e1, -⟩ := C21_sum_complex k addr st v h.wf _ (cx hc) he hal order
    simp [SumOp.run, e1, sumMeaning, SumOp.square, SumOp.complex]
  | sumSqComplex k addr st =>
    obtain ⟨hc, he, hal⟩ := hs
    obtain ⟨-, e1⟩ := C21_sum_complex k addr st v h.wf _ (cx hc) he hal order
    simp [SumOp.run, e1, sumMeaning, SumOp.square, SumOp.complex]
  | sumPrecComplex st =>
    obtain ⟨e1, -⟩ := C28_sum_prec_complex st v _ (cx hs) order
    simp [SumOp.run, e1, sumMeaning, SumOp.square, SumOp.complex]
  | sumSqPrecComplex st =>
    obtain ⟨-, e1⟩ := C28_sum_prec_complex st v _ (cx hs) order
    simp [SumOp.run, e1, sumMeaning, SumOp.square, SumOp.complex]

omit [LinearOrder T] [FloorRing T] in
theorem dot_step {v o : DspVec T} {s t : Signal T} (h : v.Shows s) (ho : o.Shows t) (op : DotOp) (hs : op.Safe v o)
    (order : List Nat) : op.run v o order = some (dotMeaning op.isComplex s t) := by
  cases op with
  | real prec k addr st =>
    simp only [DotOp.run, DotOp.isComplex, dotMeaning, Bool.false_eq_true, if_false]
    cases hc : v.isComplex with
    | true =>
      rw [(C21_dot_checks prec k addr st v o order).1 hc, if_pos (by rw [← h.isComplex, hc])]; rfl
    | false =>
      obtain ⟨hl, hal⟩ := hs hc
      rw [C21_dot prec k addr st v o h.wf hc _ _ h.content ho.content (by rw [← h.len, ← ho.len, hl]) hal order,
        if_neg (by rw [← h.isComplex, hc]; simp)]
      rfl
  | complex prec k addr st =>
    simp only [DotOp.run, DotOp.isComplex, dotMeaning, if_true, ← h.isComplex, ← ho.isComplex, ← h.dom, ← ho.dom]
    cases hc : v.isComplex with
    | false => rw [(C21_dot_checks prec k addr st v o order).2.1 hc, if_pos rfl]; rfl
    | true =>
      rw [if_neg (by simp)]
      by_cases hw : o.isComplex = false ∨ v.dom ≠ o.dom
      · rw [(C21_dot_checks prec k addr st v o order).2.2 hc hw, if_pos hw]; rfl
      · simp only [not_or, Bool.not_eq_false, ne_eq, not_not] at hw
        obtain ⟨hl, he, hal⟩ := hs hc hw.1 hw.2
        obtain ⟨cs, hN⟩ := shows_complex h hc
        obtain ⟨ds, hM⟩ := shows_complex ho hw.1
        have c1 := h.content
        have c2 := ho.content
        have l1 := h.len
        have l2 := ho.len
        rw [hN] at c1 l1
        rw [hM] at c2 l2
        simp only [Numbers.flat, length_fromComplex] at c1 c2 l1 l2
        rw [if_neg (by simp [hw]), C21_dot_complex prec k addr st v o h.wf hc hw.1 hw.2 cs ds c1 c2 (by omega) he hal order, hN, hM]
        rfl

/-! Targets -/

omit [LinearOrder T] [FloorRing T] in
theorem get_step {v dest : DspVec T} {s t : Signal T} (h : v.Shows s) (hd : dest.Shows t) (op : GetOp T) (hs : op.Safe v dest) :
    ∃ u, Always (fun s1 => op.run v dest s1) u ∧
      u.Shows { t with numbers := .real (s.numbers.asCx.map op.part'), delta := s.delta } := by
  have key : ∀ {u : DspVec T} {cs : List (Cx T)} (f : Cx T → T), s.numbers = .complex cs → dest.isComplex = false →
      RealVersion { dest with delta := v.delta } u (cs.map f) → (u.numberSpace = dest.numberSpace ∧ u.domain = dest.domain) →
      u.Shows { t with numbers := .real (s.numbers.asCx.map f), delta := s.delta } := by
    intro u cs f hN hr h1 h2
    have := Shows.target hd hr h1 h2
    rw [hN]
    simpa only [h.delta, Numbers.asCx] using this
  cases op with
  | part op st =>
    obtain ⟨hc, hk, hr, hn⟩ := hs
    obtain ⟨cs, hN⟩ := shows_complex h hc
    have hcont := h.content
    rw [hN] at hcont
    obtain ⟨u, e1, e2⟩ := C30_destination_partial op st v dest hc cs hcont hd.wf hk hr hn
    obtain ⟨sc, hsc⟩ := e1.2
    exact ⟨u, e1, key op hN hr e2 (getRealWith_types hsc)⟩
  | magnitude k addr simdOp op =>
    obtain ⟨hc, ⟨hk, hr, hn⟩, hfull, hal, hev, hop⟩ := hs
    obtain ⟨cs, hN⟩ := shows_complex h hc
    have hcont := h.content
    rw [hN] at hcont
    obtain ⟨u, e1, e2⟩ := C30_get_magnitude_partial k addr simdOp op hop v dest hc cs hcont hfull hd.wf hk hr hn hal hev
    refine ⟨u, (Always.const u).congr fun _ => ?_, key op hN hr e2 (getMagnitudeWith_types e1)⟩
    simp only [GetOp.run, e1]; rfl

omit [LinearOrder T] [FloorRing T] in
theorem getTwo_step {v a b : DspVec T} {s t1 t2 : Signal T} (h : v.Shows s) (h1 : a.Shows t1) (h2 : b.Shows t2) (op : GetTwo T)
    (hc : v.isComplex = true) (s1 : TargetSafe a v.points) (s2 : TargetSafe b v.points) :
    ∃ r i, op.run v a b = some (r, i) ∧ r.Shows { t1 with numbers := .real (s.numbers.asCx.map op.parts.1) } ∧
      i.Shows { t2 with numbers := .real (s.numbers.asCx.map op.parts.2) } := by
  obtain ⟨cs, hN⟩ := shows_complex h hc
  have hcont := h.content
  have hp : v.points = cs.length := by rw [h.points, hN]; rfl
  rw [hN] at hcont ⊢
  rw [hp] at s1 s2
  have key : ∀ {r i : DspVec T} {xs ys : List T}, RealVersion a r xs → RealVersion b i ys →
      ((r.numberSpace = a.numberSpace ∧ r.domain = a.domain) ∧ i.numberSpace = b.numberSpace ∧ i.domain = b.domain) →
      r.Shows { t1 with numbers := .real xs } ∧ i.Shows { t2 with numbers := .real ys } := by
    intro r i xs ys e1 e2 e3
    have k1 := Shows.target h1 s1.2.1 e1 e3.1
    have k2 := Shows.target h2 s2.2.1 e2 e3.2
    rw [h1.delta] at k1
    rw [h2.delta] at k2
    exact ⟨k1, k2⟩
  cases op with
  | realImag =>
    obtain ⟨r, i, e1, e2, e3⟩ := getRealImag_ok v a b hc cs hcont h1.wf s1.1 s1.2.1 s1.2.2 h2.wf s2.1 s2.2.1 s2.2.2
    exact ⟨r, i, e1, key e2 e3 (getRealImag_types e1)⟩
  | magPhase polar =>
    obtain ⟨r, i, e1, e2, e3⟩ := C46_get_mag_phase polar v a b hc cs hcont h1.wf s1.1 s1.2.1 s1.2.2 h2.wf s2.1 s2.2.1 s2.2.2
    exact ⟨r, i, e1, key e2 e3 (getMagPhase_types e1)⟩

/-! Merge and split -/

theorem merge_step (h : m.Shows w) (x : Nat) (ys : List Nat) (hs : (Stmt.merge x ys).Safe m) :
    ∃ m', Always2 (fun s1 s2 => (Stmt.merge x ys).exec s1 s2 m) m' ∧ m'.Shows (StmtCall.meaning w (.merge x ys)) := by
  have hlen : ∀ y, (m.vec y).len = (w.sig y).numbers.flat.length := fun y => (h.1 y).len
  simp only [StmtCall.meaning]
  have hcond : (∃ n, ∀ y ∈ ys, (m.vec y).len = n) ↔ ∃ n, ∀ y ∈ ys, (w.sig y).numbers.flat.length = n := by simp only [hlen]
  by_cases hsz : ys ≠ [] ∧ ∃ n, ∀ y ∈ ys, (m.vec y).len = n
  swap
  · rw [if_neg (by rw [← hcond]; exact hsz)]
    have e1 : (m.vec x).merge (ys.map m.vec) = some (m.vec x, .error .invalidArgumentLength) := by
      cases ys with
      | nil => rfl
      | cons y0 ys =>
        simp only [merge, List.map_cons]
        rw [if_pos]
        by_contra hcon
        refine hsz ⟨by simp, (m.vec y0).len, fun y hy => ?_⟩
        rcases List.mem_cons.1 hy with rfl | hy
        · rfl
        · simp only [List.any_map, List.any_eq_true, Function.comp, bne_iff_ne, not_exists, not_and, not_not] at hcon
          exact (hcon y hy).symm
    exact ⟨m.put x (m.vec x) [.result (.error .invalidArgumentLength)], always2_some e1 rfl, h.put x (h.1 x) _⟩
  rw [if_pos (by rw [← hcond]; exact hsz)]
  have hs := hs hsz.1 hsz.2
  obtain ⟨u, e1, e2⟩ := step_merge (h.1 x) (ys.map m.vec) hs
  obtain ⟨hk, hne, r, hsrc, hcan, hreal⟩ := hs
  obtain ⟨u', l, g1, -⟩ := C10_merge_partial (m.vec x) (h.1 x).wf hk (ys.map m.vec) hne r hsrc hcan hreal
  simp only [apply, g1, Option.map_some, Option.some.injEq] at e1
  subst e1
  refine ⟨m.put x u' [.result (.ok ())], always2_some g1 rfl, ?_⟩
  have hr : ∀ y ∈ ys, (w.sig y).numbers.isComplex = (w.sig x).numbers.isComplex := by
    intro y hy
    have := (hsrc (m.vec y) (List.mem_map_of_mem hy)).2.1
    rwa [(h.1 y).isComplex, (h.1 x).isComplex] at this
  simp only [VecOp.call, Call.meaning] at e2
  cases hN : (w.sig x).numbers with
  | real xs =>
    rw [hN] at e2 hr
    simp only at e2 ⊢
    refine h.put x ?_ _
    convert e2 using 4
    rw [List.map_map, List.map_map]
    refine List.map_congr_left fun y hy => ?_
    simp only [Function.comp, (h.1 y).content, Option.getD_some]
  | complex cs =>
    rw [hN] at e2 hr
    simp only at e2 ⊢
    refine h.put x ?_ _
    convert e2 using 4
    rw [List.map_map, List.map_map]
    refine List.map_congr_left fun y hy => ?_
    have := hr y hy
    have hcy := (h.1 y).content
    cases hM : (w.sig y).numbers with
    | real a => rw [hM] at this; cases this
    | complex ds =>
      rw [hM] at hcy
      simp only [Numbers.flat] at hcy
      simp [Function.comp, hcy, Numbers.asCx]

theorem split_step (h : m.Shows w) (x : Nat) (ys : List Nat) (hs : (Stmt.split x ys).Safe m) :
    ∃ m', Always2 (fun s1 s2 => (Stmt.split x ys).exec s1 s2 m) m' ∧ m'.Shows (StmtCall.meaning w (.split x ys)) := by
  obtain ⟨hnd, hs⟩ := hs
  have hlen : (m.vec x).len = (w.sig x).numbers.flat.length := (h.1 x).len
  simp only [StmtCall.meaning, ← hlen]
  by_cases hsz : ys ≠ [] ∧ ys.length ∣ (m.vec x).len
  swap
  · rw [if_neg hsz]
    have e1 : (m.vec x).splitInto (ys.map m.vec) = some (ys.map m.vec, .error .invalidArgumentLength) := by
      simp only [splitInto, List.length_map]
      rw [if_pos]
      by_contra hcon
      simp only [Bool.or_eq_true, beq_iff_eq, bne_iff_ne, ne_eq, not_or, not_not] at hcon
      exact hsz ⟨by rintro rfl; simp at hcon, Nat.dvd_of_mod_eq_zero hcon.2⟩
    refine ⟨m.putAll ys (ys.map m.vec) [.result (.error .invalidArgumentLength)], always2_some e1 rfl, fun y => ?_, by
      simp [Machine.putAll, h.2]⟩
    obtain ⟨k1, k2⟩ := m.putAll_vec hnd (ws := ys.map m.vec) (by simp) [.result (.error .invalidArgumentLength)] y
    by_cases hy : y ∈ ys
    · rw [k1 (m.vec y) (by rw [List.getElem?_map, List.getElem?_idxOf hy]; rfl) hy]; exact h.1 y
    · rw [k2 hy]; exact h.1 y
  rw [if_pos hsz]
  obtain ⟨hfull, r, hr, ht⟩ := hs hsz.1 hsz.2
  obtain ⟨ts, l, e1, e2, e3, e4⟩ := C10_split_partial (m.vec x) (h.1 x).wf (ys.map m.vec) (by simpa using hsz.1) r (by simpa using hr) hfull
    (by
      intro t ht'
      obtain ⟨y, hy, rfl⟩ := List.mem_map.1 ht'
      exact ⟨(h.1 y).wf, ht y hy⟩)
  simp only [List.length_map] at e3 e4
  refine ⟨m.putAll ys ts [.result (.ok ())], always2_some e1 rfl, fun y => ?_, by simp [Machine.putAll, h.2]⟩
  obtain ⟨k1, k2⟩ := m.putAll_vec hnd e3 [.result (.ok ())] y
  by_cases hy : y ∈ ys
  · simp only [if_pos hy]
    have hi : ys.idxOf y < ts.length := by rw [e3]; exact List.idxOf_lt_length_of_mem hy
    have hik : ys.idxOf y < ys.length := List.idxOf_lt_length_of_mem hy
    have hget := List.getElem?_eq_getElem hi
    rw [k1 _ hget hy]
    obtain ⟨⟨l', g1, g2, g3⟩, g4⟩ := e4 _ _ hget
    have g4 := g4 (m.vec y) (by rw [List.getElem?_map, List.getElem?_idxOf hy]; rfl)
    refine (h.1 y).of_pts g4 ?_ ?_
    · rw [Numbers.isComplex_rearrange, ← (h.1 x).isComplex, ← (h.1 y).isComplex, (ht y hy).2.1]
    · rw [g1, Numbers.pointLists_rearrange _ (natural_everyNth _ _)]
      rw [(h.1 x).pts] at e2
      cases e2
      have hL : (w.sig x).numbers.pointLists.length = r * ys.length := by rw [Numbers.length_pointLists, ← (h.1 x).points, hr]
      congr 1
      unfold everyNth
      refine (eq_filterMap_range l' _ _ ?_ fun q => ?_).symm
      · rw [g2, hL]; exact Nat.le_mul_of_pos_right _ (by omega)
      · by_cases hq : q < r
        · rw [g3 q hq, Nat.add_comm]
        · rw [List.getElem?_eq_none (by omega), List.getElem?_eq_none]
          rw [hL]
          have : r * ys.length ≤ q * ys.length := Nat.mul_le_mul_right _ (by omega)
          omega
  · simp only [if_neg hy]
    rw [k2 hy]
    exact h.1 y

end

section
variable [Field T] [LinearOrder T] [IsStrictOrderedRing T] [FloorRing T]

/-- C72, one statement: in an environment which it accepts a statement never panics, gives the same vectors and values for all
    schedules, can finish, and does with the signals what the specification says. -/
theorem C72_step (m : Machine T) (w : World T) (st : Stmt T) (h : m.Shows w) (hs : st.Safe m) :
    ∃ m', Always2 (fun s1 s2 => st.exec s1 s2 m) m' ∧ m'.Shows (st.call.meaning w) := by
  cases st with
  | single x op =>
    obtain ⟨u, e1, e2⟩ := C53_step (m.vec x) _ op (h.1 x) hs
    exact ⟨m.put x u [], e1.give fun u => m.put x u [], h.put x e2 []⟩
  | unary x op =>
    obtain ⟨u, e1, e2⟩ := unary_step (h.1 x) op hs
    exact ⟨_, e1.give fun r => m.put x r.1 r.2, h.put x e2 _⟩
  | binary x y op =>
    obtain ⟨u, e1, e2⟩ := binary_step (h.1 x) (h.1 y) op hs
    exact ⟨_, e1.give fun r => m.put x r.1 r.2, h.put x e2 _⟩
  | setRealImag x re im =>
    exact setComplex_step h Cx.mk x re im (fun a b c => a.setRealImag b c) hs
      (fun hl => (setComplex_wrong _ _ _ Cx.mk hl).1) fun hc p q hp hq hl => by
        obtain ⟨u, e1, e2, e3, -⟩ := (C04_set_get (m.vec x) _ _ hc p q hp hq).2 hl
        exact ⟨u, e1, e2, e3⟩
  | setMagPhase cart x mag phase =>
    exact setComplex_step h cart x mag phase (fun a b c => a.setMagPhase cart b c) hs
      (fun hl => (setComplex_wrong _ _ _ cart hl).2) fun hc p q hp hq hl => by
        obtain ⟨u, e1, e2, e3, -⟩ := (C46_set_get cart (fun c => (c.re, c.im)) (m.vec x) _ _ hc p q hp hq).2 hl
        exact ⟨u, e1, e2, e3⟩
  | merge x ys => exact merge_step h x ys hs
  | split x ys => exact split_step h x ys hs
  | get x dest op =>
    obtain ⟨u, e1, e2⟩ := get_step (h.1 x) (h.1 dest) op hs
    exact ⟨m.put dest u [], e1.give fun u => m.put dest u [], h.put dest e2 []⟩
  | getTwo x first second op =>
    obtain ⟨hne, hc, s1, s2⟩ := hs
    obtain ⟨r, i, e1, e2, e3⟩ := getTwo_step (h.1 x) (h.1 first) (h.1 second) op hc s1 s2
    refine ⟨m.putAll [first, second] [r, i] [], always2_some e1 rfl, fun y => ?_, by
      simp [Machine.putAll, Stmt.call, StmtCall.meaning, World.put, h.2]⟩
    obtain ⟨k1, k2⟩ := m.putAll_vec (xs := [first, second]) (by simpa using hne) (ws := [r, i]) rfl [] y
    simp only [Stmt.call, StmtCall.meaning, World.put]
    by_cases hy2 : y = second
    · subst hy2
      rw [k1 i (by simp [hne]) (by simp)]
      simpa using e3
    · by_cases hy1 : y = first
      · subst hy1
        rw [k1 r (by simp) (by simp)]
        simpa [hy2] using e2
      · rw [k2 (by simp [hy1, hy2])]
        simpa [hy1, hy2] using h.1 y
  | sum x op =>
    refine ⟨_, (Always2.const _).congr fun s1 s2 => ?_, h.returns (sumMeaning op.square op.complex (w.sig x))⟩
    simp only [Stmt.exec, sum_step (h.1 x) op hs s1]; rfl
  | dot x y op =>
    refine ⟨_, (Always2.const _).congr fun s1 s2 => ?_, h.returns (dotMeaning op.isComplex (w.sig x) (w.sig y))⟩
    simp only [Stmt.exec, dot_step (h.1 x) (h.1 y) op hs s1]; rfl
  | stats x op =>
    refine ⟨_, (Always2.const _).congr fun s1 s2 => ?_, h.returns (op.call.meaning (w.sig x))⟩
    simp only [Stmt.exec, stat_step (h.1 x) op hs s1]; rfl
  | clone x dest => exact ⟨m.put dest (m.vec x) [], Always2.const _, h.put dest (h.1 x) []⟩

omit [IsStrictOrderedRing T] in
/-- A program looks only at the schedules of its statements. -/
theorem runProgram_congr (o1 o2 : Nat → List Nat × List Nat) : ∀ (p : List (Stmt T)) (i : Nat) (m : Machine T),
    (∀ j, i ≤ j → o1 j = o2 j) → runProgram o1 i m p = runProgram o2 i m p
  | [], _, _, _ => rfl
  | s :: p, i, m, h => by
    simp only [runProgram, h i (Nat.le_refl _)]
    congr 1
    funext m'
    exact runProgram_congr o1 o2 p (i + 1) m' fun j hj => h j (by omega)

theorem program_from (p : List (Stmt T)) : ∀ (i : Nat) (m : Machine T) (w : World T), m.Shows w → m.SafeAll p →
    ∃ m', (∀ oracle, runProgram oracle i m p = .running ∨ runProgram oracle i m p = .finished m') ∧
      (∃ oracle, runProgram oracle i m p = .finished m') ∧ m'.Shows (w.after (p.map Stmt.call)) := by
  induction p with
  | nil => exact fun i m w h _ => ⟨m, fun _ => .inr rfl, ⟨fun _ => ([], []), rfl⟩, h⟩
  | cons s p ih =>
    intro i m w h hs
    obtain ⟨m1, ⟨ha, s1, s2, hf⟩, hm1⟩ := C72_step m w s h hs.1
    obtain ⟨m', h1, ⟨oracle, h2⟩, h3⟩ := ih (i + 1) m1 _ hm1 (hs.2 s1 s2 m1 hf)
    refine ⟨m', fun o => ?_, ⟨fun j => if j = i then (s1, s2) else oracle j, ?_⟩, h3⟩
    · rcases ha (o i).1 (o i).2 with hr | hr <;> beta_reduce at hr
      · left; simp only [runProgram]; rw [hr]; rfl
      · simp only [runProgram]; rw [hr]; exact h1 o
    · simp only [runProgram, if_true]
      beta_reduce at hf
      rw [hf]
      refine Eq.trans ?_ h2
      exact runProgram_congr _ _ p (i + 1) m1 fun j hj => by simp; omega

/-- C72: a program in environments which its statements accept. There is one state `m'` such that no schedule leads to a panic or
    to another final state, some schedules finish, and `m'` shows what the specification computes from the signals alone. -/
theorem C72_program (m : Machine T) (w : World T) (p : List (Stmt T)) (h : m.Shows w) (hs : m.SafeAll p) :
    ∃ m', (∀ oracle, runProgram oracle 0 m p = .running ∨ runProgram oracle 0 m p = .finished m') ∧
      (∃ oracle, runProgram oracle 0 m p = .finished m') ∧ m'.Shows (w.after (p.map Stmt.call)) := program_from p 0 m w h hs

/-- C72: two programs which differ only in their environments (storages, buffers, registers, addresses, settings, workers) and start
    with vectors which show the same signals return the same values and end with vectors which have the same content, number space,
    domain and sampling distance. -/
theorem C72_environment (m1 m2 : Machine T) (w : World T) (p1 p2 : List (Stmt T)) (h1 : m1.Shows w) (h2 : m2.Shows w)
    (hs1 : m1.SafeAll p1) (hs2 : m2.SafeAll p2) (he : p1.map Stmt.call = p2.map Stmt.call)
    (o1 o2 : Nat → List Nat × List Nat) (f1 f2 : Machine T) (r1 : runProgram o1 0 m1 p1 = .finished f1)
    (r2 : runProgram o2 0 m2 p2 = .finished f2) :
    f1.out = f2.out ∧ ∀ x, (f1.vec x).content = (f2.vec x).content ∧ (f1.vec x).isComplex = (f2.vec x).isComplex ∧
      (f1.vec x).dom = (f2.vec x).dom ∧ (f1.vec x).delta = (f2.vec x).delta := by
  obtain ⟨a, a1, -, a3⟩ := C72_program m1 w p1 h1 hs1
  obtain ⟨b, b1, -, b3⟩ := C72_program m2 w p2 h2 hs2
  rcases a1 o1 with e | e <;> rw [r1] at e <;> cases e
  rcases b1 o2 with e | e <;> rw [r2] at e <;> cases e
  rw [he] at a3
  refine ⟨a3.2.trans b3.2.symm, fun x => ?_⟩
  have ha := a3.1 x
  have hb := b3.1 x
  exact ⟨ha.content.trans hb.content.symm, ha.isComplex.trans hb.isComplex.symm, ha.dom.trans hb.dom.symm, ha.delta.trans hb.delta.symm⟩

end

/-! A concrete program: a clone of `x0` is split into `x3` and `x4`, which are merged in the other order to `x5`; the program then
tries to subtract a vector of another length and adds `x5` to `x0`. -/

/-- For the example: statements without workers. -/
theorem safeAll_cons {m m' : Machine ℚ} {s : Stmt ℚ} {p : List (Stmt ℚ)} (h1 : s.Safe m)
    (h2 : ∀ s1 s2, s.exec s1 s2 m = .finished m') (h3 : m'.SafeAll p) : m.SafeAll (s :: p) :=
  ⟨h1, fun s1 s2 m'' h => by rw [h2] at h; cases h; exact h3⟩

/-- The variables of the example. -/
def sampleMachine : Machine ℚ :=
  ⟨fun x => if x = 0 then ⟨⟨.vec, [1, 2, 3, 4]⟩, some 1, .time, .real, 4⟩
    else ⟨⟨.vec, []⟩, some 1, .time, .real, 0⟩, []⟩

/-- The statements of the example. -/
def sampleProgram : List (Stmt ℚ) :=
  [.clone 0 2, .split 2 [3, 4], .merge 5 [4, 3], .binary 0 3 (.elem .sub .sseF64x2 0), .binary 0 5 (.elem .add .sseF64x2 0)]

/-- The environment of the example is accepted. -/
theorem sampleSafe : sampleMachine.SafeAll sampleProgram := by
  refine safeAll_cons trivial (fun _ _ => rfl) <|
    safeAll_cons ⟨by decide, fun _ _ => ⟨fun _ => rfl, 2, rfl, ?_⟩⟩ (fun _ _ => rfl) <|
    safeAll_cons (fun _ _ => ⟨?_, by simp, 2, ?_, .inr trivial, fun _ => ?_⟩) (fun _ _ => rfl) <|
    safeAll_cons ⟨?_, fun h => ?_⟩ (fun _ _ => rfl) <|
    ⟨⟨?_, fun _ _ => ⟨?_, fun h => ?_⟩⟩, fun _ _ _ _ => trivial⟩
  · intro y hy
    simp only [List.mem_cons, List.not_mem_nil, or_false] at hy
    rcases hy with rfl | rfl <;> exact ⟨by decide, rfl, .inr trivial⟩
  · intro c h; cases h
  · intro s hs
    simp only [List.map_cons, List.map_nil, List.mem_cons, List.not_mem_nil, or_false] at hs
    rcases hs with rfl | rfl <;> exact ⟨by decide, rfl, rfl⟩
  · decide
  · intro e he; cases he; norm_num
  · cases h
  · intro e he; cases he; norm_num
  · exact .inl (by decide)
  · cases h

/-- What the variables of a finished program contain. -/
def contents (r : Outcome (Machine ℚ)) (x : Nat) : Option (List ℚ) :=
  match r with
  | .finished m => (m.vec x).content
  | _ => none

example : ∃ w, sampleMachine.Shows w ∧ (∃ m', (∀ oracle, runProgram oracle 0 sampleMachine sampleProgram = .running ∨
      runProgram oracle 0 sampleMachine sampleProgram = .finished m') ∧
      m'.Shows (w.after (sampleProgram.map Stmt.call))) ∧
    contents (runProgram (fun _ => ([], [])) 0 sampleMachine sampleProgram) 0 = some [3, 3, 7, 7] ∧
    contents (runProgram (fun _ => ([], [])) 0 sampleMachine sampleProgram) 5 = some [2, 1, 4, 3] := by
  have h : sampleMachine.Shows ⟨fun x => if x = 0 then ⟨.real [1, 2, 3, 4], .time, false, some 1⟩ else ⟨.real [], .time, false, some 1⟩, []⟩ := by
    refine ⟨fun x => ?_, rfl⟩
    unfold sampleMachine
    by_cases hx : x = 0
    · subst hx; exact ⟨rfl, rfl, rfl, rfl⟩
    · simp only [hx, if_false]; exact ⟨rfl, rfl, rfl, rfl⟩
  obtain ⟨m', h1, -, h3⟩ := C72_program _ _ _ h sampleSafe
  exact ⟨_, h, ⟨m', h1, h3⟩, by decide +kernel, by decide +kernel⟩

end Dsp
