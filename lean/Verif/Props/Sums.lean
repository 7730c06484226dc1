import Verif.Model.Sums
import Verif.Props.Registers
import Verif.Props.Elementary
import Verif.Lemmas.Complex
/-
C21: sums and dot products are complete. C28 (first part): compensated summation.
-/
namespace Dsp
open DspVec
variable {T : Type}

/-! ### Helpers -/

theorem slice_append {α : Type} (a s : List α) (i j : Nat) (h : j ≤ a.length) :
    slice (a ++ s) i j = slice a i j := by
  by_cases hij : i ≤ j
  · rw [slice_ok _ _ _ hij (by simp; omega), slice_ok _ _ _ hij h]
    rw [List.drop_append_of_le_length (by omega), List.take_append_of_le_length (by simp; omega)]
  · unfold slice; rw [if_neg (by omega), if_neg (by omega)]

theorem center_append {α : Type} (p : SimdPartition) (a s : List α) (h : p.len ≤ a.length) :
    p.center (a ++ s) = p.center a := by
  unfold SimdPartition.center
  split
  · rfl
  · exact slice_append _ _ _ _ (by omega)

theorem edgeIter_append {α : Type} (p : SimdPartition) (a s : List α) (h1 : p.left ≤ a.length)
    (h2 : p.len ≤ a.length) : p.edgeIter (a ++ s) = p.edgeIter a := by
  unfold SimdPartition.edgeIter
  rw [slice_append _ _ _ _ h1, slice_append _ _ _ _ h2]

theorem cedgeIter_append {α : Type} (p : SimdPartition) (a s : List α) (h1 : p.left / 2 ≤ a.length)
    (h2 : p.len / 2 ≤ a.length) : p.cedgeIter (a ++ s) = p.cedgeIter a := by
  unfold SimdPartition.cedgeIter
  rw [slice_append _ _ _ _ h1, slice_append _ _ _ _ h2]

theorem foldl_map_add {E U : Type} [AddCommMonoid U] (g : E → U) (u : U) (l : List E) :
    l.foldl (fun s x => s + g x) u = u + (l.map g).sum := by
  induction l generalizing u with
  | nil => simp
  | cons x l ih => simp [ih, add_assoc]

theorem zipWith_add_sum [AddCommMonoid T] : ∀ a b : List T, a.length = b.length →
    (List.zipWith (· + ·) a b).sum = a.sum + b.sum
  | [], [], _ => by simp
  | x :: a, y :: b, h => by
    have ih := zipWith_add_sum a b (by simpa using h)
    simp only [List.zipWith_cons_cons, List.sum_cons, ih]
    exact add_add_add_comm x y a.sum b.sum

theorem plainRegSum_sum [AddCommMonoid T] (k : RegKind) (regs : List (List T))
    (h : ∀ r ∈ regs, r.length = k.len) : (plainRegSum k regs).sum = (regs.map List.sum).sum := by
  have : ∀ (regs : List (List T)) (s : List T), s.length = k.len → (∀ r ∈ regs, r.length = k.len) →
      (regs.foldl (regZip (· + ·)) s).sum = s.sum + (regs.map List.sum).sum := by
    intro regs
    induction regs with
    | nil => intro s _ _; simp
    | cons r regs ih =>
      intro s hs hr
      have h1 : r.length = k.len := hr r (by simp)
      rw [List.foldl_cons, ih _ (by simp [regZip, hs, h1]) (fun r hr' => hr r (by simp [hr']))]
      unfold regZip
      rw [zipWith_add_sum _ _ (by omega)]
      simp [add_assoc]
  unfold plainRegSum
  rw [this _ _ (by simp [regSplat]) h]
  simp [regSplat]

theorem fromComplex_zip_add [AddCommMonoid T] (a b : List (Cx T)) :
    regZip (· + ·) (fromComplex a) (fromComplex b) = fromComplex (List.zipWith (· + ·) a b) := by
  unfold regZip
  rw [zipWith_fromComplex]; rfl

theorem plainRegSum_complex [AddCommMonoid T] (k : RegKind) (regs : List (List (Cx T)))
    (h : ∀ r ∈ regs, 2 * r.length = k.len) :
    regSumComplex (plainRegSum k (regs.map fromComplex)) = (regs.map List.sum).sum := by
  have key : ∀ (regs : List (List (Cx T))) (s : List (Cx T)), 2 * s.length = k.len →
      (∀ r ∈ regs, 2 * r.length = k.len) →
      ∃ q, (regs.map fromComplex).foldl (regZip (· + ·)) (fromComplex s) = fromComplex q ∧
        q.sum = s.sum + (regs.map List.sum).sum := by
    intro regs
    induction regs with
    | nil => intro s _ _; exact ⟨s, rfl, by simp⟩
    | cons r regs ih =>
      intro s hs hr
      have h1 : 2 * r.length = k.len := hr r (by simp)
      obtain ⟨q, q1, q2⟩ := ih (List.zipWith (· + ·) s r) (by simp; omega)
        (fun r hr' => hr r (by simp [hr']))
      refine ⟨q, ?_, ?_⟩
      · rw [List.map_cons, List.foldl_cons, fromComplex_zip_add]; exact q1
      · rw [q2, zipWith_add_sum _ _ (by omega)]; simp [add_assoc]
  have hz : regSplat k (0 : T) = fromComplex (List.replicate (k.len / 2) 0) := by
    cases k <;> rfl
  obtain ⟨q, q1, q2⟩ := key regs (List.replicate (k.len / 2) 0) (by cases k <;> simp [RegKind.len]) h
  unfold plainRegSum
  rw [hz, q1, (C45_sums [] q).2]
  apply Cx.ext
  · simp only; rw [← Cx.sum_re, q2]; simp
  · simp only; rw [← Cx.sum_im, q2]; simp

theorem kahanRegSum_eq [AddCommGroup T] (k : RegKind) (regs : List (List T))
    (h : ∀ r ∈ regs, r.length = k.len) : kahanRegSum k regs = plainRegSum k regs := by
  have hsub0 : ∀ r : List T, List.zipWith (· - ·) r (List.replicate r.length 0) = r := by
    intro r; induction r with
    | nil => rfl
    | cons x r ih => simp [List.replicate_succ, ih]
  have hc : ∀ s r : List T, s.length = r.length → List.zipWith (· - ·)
      (List.zipWith (· - ·) (List.zipWith (· + ·) s r) s) r = List.replicate s.length 0 := by
    intro s
    induction s with
    | nil => intro r h; simp
    | cons x s ih =>
      intro r h
      cases r with
      | nil => simp at h
      | cons y r => simp [ih r (by simpa using h), List.replicate_succ]
  have key : ∀ (regs : List (List T)) (s : List T), s.length = k.len → (∀ r ∈ regs, r.length = k.len) →
      (regs.foldl (kahanStep (regZip (· + ·)) (regZip (· - ·))) (s, List.replicate k.len 0)).1 =
        regs.foldl (regZip (· + ·)) s := by
    intro regs
    induction regs with
    | nil => intro s _ _; rfl
    | cons r regs ih =>
      intro s hs hr
      have h1 : r.length = k.len := hr r (by simp)
      have hstep : kahanStep (regZip (· + ·)) (regZip (· - ·)) (s, List.replicate k.len 0) r =
          (regZip (· + ·) s r, List.replicate k.len 0) := by
        unfold kahanStep regZip
        simp only
        rw [← h1, hsub0, hc s r (by omega), hs, h1]
      rw [List.foldl_cons, List.foldl_cons, hstep]
      exact ih _ (by simp [regZip, hs, h1]) (fun r hr' => hr r (by simp [hr']))
  exact key regs _ (by simp [regSplat]) h

/-- The registers of a complex slice consist of whole complex numbers. -/
theorem regs_complex (w : Nat) (hw2 : w % 2 = 0) : ∀ (regs : List (List T)) (cs : List (Cx T)),
    (∀ r ∈ regs, r.length = w) → regs.flatten = fromComplex cs →
    ∃ rc : List (List (Cx T)), regs = rc.map fromComplex ∧ rc.flatten = cs ∧ ∀ r ∈ rc, 2 * r.length = w
  | [], cs, _, h => by
    refine ⟨[], rfl, ?_, by simp⟩
    have := congrArg List.length h
    simp at this
    rw [this]; rfl
  | r :: regs, cs, hr, h => by
    have h1 : r.length = w := hr r (by simp)
    obtain ⟨q, rfl⟩ := exists_fromComplex (l := r) (by omega)
    have hq : 2 * q.length = w := by simpa using h1
    rw [List.flatten_cons] at h
    have hle : q.length ≤ cs.length := by
      have := congrArg List.length h
      simp only [List.length_append, length_fromComplex] at this; omega
    have hsplit : cs = cs.take q.length ++ cs.drop q.length := (List.take_append_drop _ _).symm
    rw [hsplit, fromComplex_append] at h
    obtain ⟨e1, e2⟩ := List.append_inj h (by simp; omega)
    obtain ⟨rc, c1, c2, c3⟩ := regs_complex w hw2 regs (cs.drop q.length)
      (fun r hr' => hr r (by simp [hr'])) e2
    refine ⟨q :: rc, by simp [c1], ?_, ?_⟩
    · rw [List.flatten_cons, c2]
      conv_rhs => rw [hsplit]
      rw [← fromComplex_injective e1]
    · intro r hr'; rcases List.mem_cons.mp hr' with rfl | hr'
      · exact hq
      · exact c3 r hr'

theorem small_chunks (n : Nat) (st : MultiCoreSettings) : determineNumberOfChunks n .small st = 1 := by
  unfold determineNumberOfChunks; split <;> simp_all

theorem chunkedResults_small {R : Type} (st : MultiCoreSettings) (a : List T) (step : Nat)
    (f : List T → Nat × Nat → R) (order : List Nat) :
    chunkedResults true .small st a step f order =
      some (if a = [] then [] else [f a (0, a.length)]) := by
  unfold chunkedResults
  rw [small_chunks]
  cases a <;> simp

theorem getZipped_small {R : Type} (st : MultiCoreSettings) (a b : List T) (s1 s2 : Nat)
    (f : List T → Nat × Nat → List T → R) (order : List Nat) :
    getZipped .small st a s1 b s2 f order =
      some (if a = [] then [] else [f a (0, a.length) b]) := by
  unfold getZipped
  rw [small_chunks]
  cases a <;> simp

theorem map_flatten_sum {E U : Type} [AddCommMonoid U] (g : E → U) (l : List (List E)) :
    (l.map fun r => (r.map g).sum).sum = (l.flatten.map g).sum := by
  induction l with
  | nil => rfl
  | cons x l ih => simp [ih]

theorem RegKind.len_pos (k : RegKind) : 0 < k.len := by cases k <;> decide
theorem RegKind.len_even (k : RegKind) : k.len % 2 = 0 := by cases k <;> decide

theorem sumRealWith_eq [AddCommMonoid T] (k : RegKind) (addr : Nat) (st : MultiCoreSettings)
    (f : List T → List T) (g : T → T) (hf : ∀ r, r.length = k.len → f r = r.map g) (a s : List T)
    (order : List Nat) (hal : AlignmentAccepted addr k.len a.length) :
    sumRealWith k addr st f g (a ++ s) a.length order = some (a.map g).sum := by
  obtain ⟨l, c, r, ha, hl, hr, hcm, h1, h2, -, -⟩ := split_center addr k.len k.len_pos a
  obtain ⟨g1, g2, g3⟩ := calc_wf addr k.len a.length k.len_pos
  obtain ⟨regs, r1, r2, r3⟩ := (C19_registers_partial addr k.len k.len_pos a c h1).2 hal
  unfold sumRealWith
  rw [slice_append_left]
  simp only [Option.bind_eq_bind, Option.bind_some]
  rw [center_append _ _ _ (by omega), h1, edgeIter_append _ _ _ (by omega) (by omega), h2]
  simp only [Option.bind_some, chunkedResults_small]
  have hsum : (plainRegSum k (regs.map f)).sum = (c.map g).sum := by
    rw [plainRegSum_sum]
    · rw [← r2, ← map_flatten_sum, List.map_map]
      congr 1
      apply List.map_congr_left
      intro r hr; simp [hf r (r3 r hr)]
    · intro r hr
      obtain ⟨q, q1, q2⟩ := List.mem_map.mp hr
      rw [← q2, hf q (r3 q q1)]; simp [r3 q q1]
  have he : ((l ++ r).map g).sum + (c.map g).sum = (a.map g).sum := by
    rw [ha]; simp only [List.map_append, List.sum_append]
    rw [add_right_comm]
  by_cases hc : c = []
  · subst hc
    simp only [if_true, List.mapM_nil, Option.pure_def, Option.bind_some, List.map_nil,
      List.foldl_nil]
    rw [foldl_map_add, ← he]; simp
  · simp only [if_neg hc, List.mapM_cons, List.mapM_nil, Option.bind_eq_bind, id, sumChunk,
      Nat.add_zero, r1, Option.bind_some, Option.pure_def, List.map_cons, List.map_nil,
      List.foldl_cons, List.foldl_nil]
    rw [foldl_map_add, regSumReal_eq, hsum, ← he]
    simp only [zero_add]
    rw [add_comm]

theorem sumComplexWith_eq [AddCommMonoid T] (k : RegKind) (addr : Nat) (st : MultiCoreSettings)
    (f : List T → List T) (g : Cx T → Cx T)
    (hf : ∀ r : List (Cx T), 2 * r.length = k.len → f (fromComplex r) = fromComplex (r.map g))
    (cs ss : List (Cx T)) (order : List Nat)
    (hal : ComplexAlignmentAccepted addr k.len (2 * cs.length)) :
    sumComplexWith k addr st f g (fromComplex cs ++ fromComplex ss) (2 * cs.length) order =
      some (cs.map g).sum := by
  obtain ⟨l, c, r, ha, hl, hr, hcm, h1, h2⟩ := split_complex addr k.len k.len_pos k.len_even hal.2 cs
  obtain ⟨g1, g2, g3⟩ := calc_wf addr k.len (2 * cs.length) k.len_pos
  obtain ⟨regs, r1, r2, r3⟩ := (C19_registers_partial addr k.len k.len_pos (fromComplex cs)
    (fromComplex c) (by rw [length_fromComplex]; exact h1)).2 (by rw [length_fromComplex]; exact hal.1)
  obtain ⟨rc, c1, c2, c3⟩ := regs_complex k.len k.len_even regs c r3 r2
  rw [length_fromComplex] at r1
  unfold sumComplexWith
  rw [show 2 * cs.length = (fromComplex cs).length by simp, slice_append_left]
  simp only [Option.bind_eq_bind, Option.bind_some, length_fromComplex]
  rw [center_append _ _ _ (by simp; omega), h1, ← fromComplex_append, toComplex?_fromComplex]
  simp only [Option.bind_some, chunkedResults_small]
  rw [cedgeIter_append _ _ _ (by omega) (by omega), h2]
  have hsum : regSumComplex (plainRegSum k (regs.map f)) = (c.map g).sum := by
    rw [show regs.map f = (rc.map (fun r => r.map g)).map fromComplex by
      rw [c1, List.map_map, List.map_map]
      apply List.map_congr_left
      intro r hr; exact hf r (c3 r hr)]
    rw [plainRegSum_complex _ _ (by
      intro r hr
      obtain ⟨q, q1, q2⟩ := List.mem_map.mp hr
      rw [← q2]; simpa using c3 q q1), ← c2, ← map_flatten_sum, List.map_map]
    rfl
  have he : ((l ++ r).map g).sum + (c.map g).sum = (cs.map g).sum := by
    rw [ha]; simp only [List.map_append, List.sum_append]
    rw [add_right_comm]
  by_cases hc : c = []
  · subst hc
    simp only [show fromComplex ([] : List (Cx T)) = [] from rfl, if_true, List.mapM_nil,
      Option.pure_def, Option.bind_some, List.map_nil, List.foldl_nil]
    rw [foldl_map_add, ← he]; simp
  · have hc' : fromComplex c ≠ [] := by
      intro h; apply hc; have := congrArg List.length h; simp at this; exact this
    simp only [if_neg hc', List.mapM_cons, List.mapM_nil, Option.bind_eq_bind, id, sumChunk,
      Nat.add_zero, r1, Option.bind_some, Option.pure_def, List.map_cons, List.map_nil,
      List.foldl_cons, List.foldl_nil]
    rw [foldl_map_add, hsum, ← he]
    simp only [zero_add]
    rw [add_comm]

/-! ### C21 sums -/

theorem DspVec.WF.cells_eq {v : DspVec T} (hv : v.WF) {a : List T} (ha : v.content = some a) :
    v.data.cells = a ++ v.data.cells.drop v.validLen ∧ a.length = v.validLen := by
  refine ⟨?_, hv.content_length ha⟩
  rw [hv.content_eq] at ha
  rw [← Option.some.inj ha, List.take_append_drop]

/-- C21: the sum and the sum of squares of a real vector include every valid number exactly once and
    nothing else, for every register type, settings and order of the workers; the restriction to
    accepted alignments is C19. -/
theorem C21_sum [AddCommMonoid T] [Mul T] (k : RegKind) (addr : Nat) (st : MultiCoreSettings)
    (v : DspVec T) (hv : v.WF) (a : List T) (ha : v.content = some a)
    (hal : AlignmentAccepted addr k.len v.len) (order : List Nat) :
    v.sum k addr st order = some a.sum ∧
    v.sumSq k addr st order = some (a.map fun x => x * x).sum := by
  obtain ⟨h1, h2⟩ := hv.cells_eq ha
  have hal' : AlignmentAccepted addr k.len a.length := by rw [h2]; exact hal
  unfold DspVec.sum sumSq
  rw [h1, ← h2]
  refine ⟨?_, ?_⟩
  · rw [sumRealWith_eq k addr st _ _ (fun r _ => by simp) a _ order hal']; simp
  · rw [sumRealWith_eq k addr st _ _ (fun r _ => ?_) a _ order hal']
    unfold regZip
    rw [List.zipWith_self]

/-- C21 for complex vectors whose storage has an even number of elements. -/
theorem C21_sum_complex [AddCommMonoid T] [Sub T] [CommMagma T] [Div T] (k : RegKind) (addr : Nat) (st : MultiCoreSettings)
    (v : DspVec T) (hv : v.WF) (cs : List (Cx T)) (ha : v.content = some (fromComplex cs))
    (heven : v.allocLen % 2 = 0)
    (hal : ComplexAlignmentAccepted addr k.len v.len) (order : List Nat) :
    v.sumComplex k addr st order = some cs.sum ∧
    v.sumSqComplex k addr st order = some (cs.map fun x => x * x).sum := by
  obtain ⟨h1, h2⟩ := hv.cells_eq ha
  have hlen : v.validLen = 2 * cs.length := by rw [← h2]; simp
  have hal' : ComplexAlignmentAccepted addr k.len (2 * cs.length) := by rw [← hlen]; exact hal
  obtain ⟨ss, hs⟩ := exists_fromComplex (l := v.data.cells.drop v.validLen) (by
    have : v.data.cells.length % 2 = 0 := heven
    have := hv.1
    simp only [List.length_drop]; omega)
  unfold DspVec.sumComplex sumSqComplex
  rw [h1, hs, hlen]
  refine ⟨?_, ?_⟩
  · rw [sumComplexWith_eq k addr st _ _ (fun r _ => by simp) cs ss order hal']; simp
  · rw [sumComplexWith_eq k addr st _ _ (fun r hr => ?_) cs ss order hal']
    rw [(C45_complex_pairs k).1 r r hr hr, List.zipWith_self]
    rfl

example : exampleVec.WF ∧ exampleVec.content = some (fromComplex [⟨1, 2⟩, ⟨3, 4⟩, ⟨5, 6⟩]) ∧
    exampleVec.allocLen % 2 = 0 ∧ ComplexAlignmentAccepted 0 RegKind.fallbackF32x4.len exampleVec.len :=
  ⟨⟨by decide, by decide⟩, by decide, by decide, .inl (by decide), by decide⟩

/-- C21 is violated (panic) for a valid complex vector in a storage with an odd number of elements. -/
theorem C52_sum_violated (k : RegKind) (addr : Nat) (st : MultiCoreSettings)
    (order : List Nat) :
    let v : DspVec Int := ⟨⟨.vec, [1, 2, 3]⟩, some 1, .time, .complex, 2⟩
    v.WF ∧ v.sumComplex k addr st order = none := by
  refine ⟨⟨by decide, by decide⟩, ?_⟩
  unfold sumComplex sumComplexWith
  simp only [Option.bind_eq_bind]
  rw [Option.bind_eq_none_iff]; intro _ _
  rw [Option.bind_eq_none_iff]; intro _ _
  rw [Option.bind_eq_none_iff]; intro _ _
  rw [Option.bind_eq_none_iff]; intro _ _
  rfl

/-! ### C21 dot products -/

theorem arrayToRegs_eq {addr w : Nat} (hw : 0 < w) {a : List T} {regs : List (List T)}
    (h : arrayToRegs addr w a = some regs) :
    regs = (List.range (ceilDiv a.length w)).map (blk w a) := by
  unfold arrayToRegs at h
  split at h
  · rename_i he; subst he
    have : ceilDiv 0 w = 0 := by unfold ceilDiv; rw [Nat.div_eq_of_lt (by omega)]
    simp [this] at h ⊢; exact h
  · split at h
    · simp at h
    · split at h
      · simp at h
      · unfold chunks at h
        rw [if_neg (by omega)] at h
        exact (Option.some.inj h).symm

theorem dotRegs_eq (addr w : Nat) (hw : 0 < w) (mul : List T → List T → List T)
    (ctr other : List T) (hcm : ctr.length % w = 0) (hlen : other.length = ctr.length)
    (regs : List (List T)) (hregs : arrayToRegs addr w ctr = some regs)
    (P : List T) (hP : ∀ k, k * w < ctr.length → blk w P k = mul (blk w ctr k) (blk w other k)) :
    dotRegs w addr mul other 0 ctr = some ((List.range (ceilDiv ctr.length w)).map (blk w P)) := by
  unfold dotRegs
  rw [hregs]
  simp only [Option.bind_eq_bind, Option.bind_some]
  have hregs' := arrayToRegs_eq hw hregs
  have hm : (regs.zipIdx).mapM (fun (x : List T × Nat) =>
      (slice other (0 + x.2 * w) (0 + x.2 * w + w)).bind fun o => some (mul x.1 o)) =
      some ((regs.zipIdx).map fun x => blk w P x.2) := by
    apply mapM_some
    intro x hx
    obtain ⟨r, i⟩ := x
    have hx' := List.mem_zipIdx hx
    have hi : i < regs.length := by omega
    have hi2 : i * w < ctr.length := by
      rw [hregs'] at hi
      exact (lt_ceilDiv_iff hw).mp (by simpa using hi)
    have hr : r = blk w ctr i := by
      have e := hx'.2.2
      simp only [Nat.sub_zero] at e
      rw [e]
      simp [hregs']
    have hfull := blk_full hw other (by rw [hlen]; exact hcm) (k := i) (by omega)
    rw [blk_length] at hfull
    show (slice other (0 + i * w) (0 + i * w + w)).bind _ = _
    rw [slice_ok _ _ _ (by omega) (by omega)]
    simp only [Option.bind_some]
    rw [hP i hi2, hr]
    unfold blk
    rw [Nat.zero_add, Nat.add_sub_cancel_left]
  refine hm.trans ?_
  congr 1
  apply List.ext_getElem?
  intro i
  simp only [List.getElem?_map, List.getElem?_zipIdx]
  rw [hregs']
  by_cases hi : i < ceilDiv ctr.length w
  · simp [hi]
  · simp [hi]

theorem zip_foldl_add [AddCommMonoid T] [Mul T] (s : T) (a b : List T) :
    (a.zip b).foldl (fun s x => s + x.1 * x.2) s = s + (List.zipWith (· * ·) a b).sum := by
  rw [foldl_map_add (fun x : T × T => x.1 * x.2)]
  congr 2
  rw [List.zip, List.map_zipWith]

/-- Specification of the accumulation used by `dot_product` and `dot_product_prec`. -/
theorem acc_eq [AddCommGroup T] (prec : Bool) (k : RegKind) (regs : List (List T))
    (h : ∀ r ∈ regs, r.length = k.len) :
    (if prec then kahanRegSum k else plainRegSum k) regs = plainRegSum k regs := by
  cases prec
  · rfl
  · exact kahanRegSum_eq k regs h

theorem zipWith_mul_append [Mul T] {a b c d : List T} (h : a.length = c.length) :
    List.zipWith (· * ·) (a ++ b) (c ++ d) = List.zipWith (· * ·) a c ++ List.zipWith (· * ·) b d :=
  List.zipWith_append h

theorem split_same (addr w : Nat) (hw : 0 < w) (a b : List T) (hab : b.length = a.length) :
    ∃ l c r l' c' r', a = l ++ c ++ r ∧ b = l' ++ c' ++ r' ∧ l'.length = l.length ∧
      c'.length = c.length ∧ r'.length = r.length ∧ c.length % w = 0 ∧
      (calcDataAlignmentReqs addr w a.length).center a = some c ∧
      (calcDataAlignmentReqs addr w a.length).center b = some c' ∧
      (calcDataAlignmentReqs addr w a.length).edgeIter a = some (l ++ r) ∧
      (calcDataAlignmentReqs addr w a.length).edgeIter b = some (l' ++ r') := by
  obtain ⟨l, c, r, ha, hl, hr, hcm, h1, h2, -, -⟩ := split_center addr w hw a
  obtain ⟨l', c', r', ha', hl', hr', hcm', h1', h2', -, -⟩ := split_center addr w hw b
  rw [hab] at hl' hr' h1' h2'
  refine ⟨l, c, r, l', c', r', ha, ha', by omega, ?_, by omega, hcm, h1, h1', h2, h2'⟩
  have e1 := congrArg List.length ha
  have e2 := congrArg List.length ha'
  simp only [List.length_append] at e1 e2
  omega

theorem dotRealWith_acc [AddCommMonoid T] [Mul T] (acc : List (List T) → List T) (k : RegKind) (addr : Nat) (st : MultiCoreSettings)
    (hacc : ∀ regs : List (List T), (∀ r ∈ regs, r.length = k.len) → acc regs = plainRegSum k regs)
    (a s b : List T) (hab : b.length = a.length) (order : List Nat)
    (hal : AlignmentAccepted addr k.len a.length) :
    dotRealWith k addr st acc (a ++ s) a.length b order =
      some (List.zipWith (· * ·) a b).sum := by
  obtain ⟨l, c, r, l', c', r', ha, hb, q1, q2, q3, hcm, h1, h1', h2, h2'⟩ :=
    split_same addr k.len k.len_pos a b hab
  obtain ⟨g1, g2, g3⟩ := calc_wf addr k.len a.length k.len_pos
  obtain ⟨regs, r1, r2, r3⟩ := (C19_registers_partial addr k.len k.len_pos a c h1).2 hal
  have hdot := dotRegs_eq (addr + (calcDataAlignmentReqs addr k.len a.length).left) k.len k.len_pos
    (regZip (· * ·)) c c' hcm (by omega) regs r1 (List.zipWith (· * ·) c c')
    (fun i _ => zipWith_blk _ _ _ _ _)
  have hPl : (List.zipWith (· * ·) c c').length = c.length := by simp [q2]
  have hPm : (List.zipWith (· * ·) c c').length % k.len = 0 := by rw [hPl]; exact hcm
  have hfull : ∀ x ∈ (List.range (ceilDiv c.length k.len)).map (blk k.len (List.zipWith (· * ·) c c')),
      x.length = k.len := by
    intro x hx
    obtain ⟨i, i1, i2⟩ := List.mem_map.mp hx
    rw [← i2]
    exact blk_full k.len_pos _ hPm (by
      rw [hPl]; exact (lt_ceilDiv_iff k.len_pos).mp (by simpa using i1))
  have hfl : ((List.range (ceilDiv c.length k.len)).map (blk k.len (List.zipWith (· * ·) c c'))).flatten =
      List.zipWith (· * ·) c c' := by
    have := flatten_blocks_all k.len_pos (List.zipWith (· * ·) c c')
    rw [hPl] at this; exact this
  have hsum : regSumReal (acc
      ((List.range (ceilDiv c.length k.len)).map (blk k.len (List.zipWith (· * ·) c c')))) =
      (List.zipWith (· * ·) c c').sum := by
    rw [hacc _ hfull, regSumReal_eq, plainRegSum_sum k _ hfull, ← List.sum_flatten, hfl]
  have he : (List.zipWith (· * ·) a b).sum = (List.zipWith (· * ·) c c').sum +
      (List.zipWith (· * ·) (l ++ r) (l' ++ r')).sum := by
    rw [ha, hb, zipWith_mul_append (by simp; omega), zipWith_mul_append (by omega),
      zipWith_mul_append (by omega)]
    simp only [List.sum_append]
    rw [add_assoc, add_left_comm]
  unfold dotRealWith
  rw [slice_append_left]
  simp only [Option.bind_eq_bind, Option.bind_some]
  rw [center_append _ _ _ (by omega), h1, edgeIter_append _ _ _ (by omega) (by omega), h2, h1', h2']
  simp only [Option.bind_some, getZipped_small, zip_foldl_add, zero_add]
  rw [he]
  by_cases hc : c' = []
  · have hc2 : c = [] := List.eq_nil_of_length_eq_zero (by rw [← q2, hc]; rfl)
    simp [hc, hc2]
  · simp only [if_neg hc, List.mapM_cons, List.mapM_nil, Option.bind_eq_bind, id,
      Nat.add_zero, hdot, Option.bind_some, Option.pure_def,
      List.foldl_cons, List.foldl_nil, hsum, zero_add]

theorem dotRealWith_eq [CommRing T] (prec : Bool) (k : RegKind) (addr : Nat) (st : MultiCoreSettings)
    (a s b : List T) (hab : b.length = a.length) (order : List Nat)
    (hal : AlignmentAccepted addr k.len a.length) :
    dotRealWith k addr st (if prec then kahanRegSum k else plainRegSum k) (a ++ s) a.length b order =
      some (List.zipWith (· * ·) a b).sum :=
  dotRealWith_acc _ k addr st (fun regs h => acc_eq prec k regs h) a s b hab order hal

/-- C21: `dot_product` and `dot_product_prec` of real vectors of equal length. -/
theorem C21_dot [CommRing T] (prec : Bool) (k : RegKind) (addr : Nat)
    (st : MultiCoreSettings) (v o : DspVec T) (hv : v.WF) (hr : v.isComplex = false)
    (a b : List T) (ha : v.content = some a) (hb : o.content = some b) (hlen : b.length = a.length)
    (hal : AlignmentAccepted addr k.len v.len) (order : List Nat) :
    v.dotProduct prec k addr st o order = some (.ok (List.zipWith (· * ·) a b).sum) := by
  obtain ⟨h1, h2⟩ := hv.cells_eq ha
  unfold dotProduct
  rw [if_neg (by simp [hr]), hb]
  simp only [Option.bind_eq_bind, Option.bind_some]
  rw [h1, ← h2, dotRealWith_eq prec k addr st a _ b hlen order (by rw [h2]; exact hal)]
  rfl

/-- Two real vectors with three numbers. -/
example :
    let v : DspVec Int := ⟨⟨.vec, [1, 2, 3, 9]⟩, some 1, .time, .real, 3⟩
    let o : DspVec Int := ⟨⟨.vec, [4, 5, 6]⟩, some 1, .time, .real, 3⟩
    v.WF ∧ v.content = some [1, 2, 3] ∧ o.content = some [4, 5, 6] ∧
      AlignmentAccepted 1 RegKind.sseF64x2.len 3 ∧
      v.dotProduct false .sseF64x2 0 (.withThresholds 1 0 0 0 0) o [] = some (.ok 32) := by
  refine ⟨⟨by decide, by decide⟩, by decide, by decide, .inl (by decide), by rfl⟩

theorem dotComplexWith_acc [AddCommMonoid T] [Sub T] [CommMagma T] [Div T] (acc : List (List T) → List T) (k : RegKind) (addr : Nat)
    (st : MultiCoreSettings) (hacc : ∀ regs : List (List T), (∀ r ∈ regs, r.length = k.len) → acc regs = plainRegSum k regs)
    (a s b : List (Cx T)) (hab : b.length = a.length) (order : List Nat)
    (hal : ComplexAlignmentAccepted addr k.len (2 * a.length)) :
    dotComplexWith k addr st acc
      (fromComplex a ++ fromComplex s) (2 * a.length) (fromComplex b) order =
      some (List.zipWith (· * ·) a b).sum := by
  obtain ⟨l, c, r, ha, hl, hr, hcm, h1, h2⟩ := split_complex addr k.len k.len_pos k.len_even hal.2 a
  obtain ⟨l', c', r', ha', hl', hr', hcm', h1', h2'⟩ :=
    split_complex addr k.len k.len_pos k.len_even hal.2 b
  rw [hab] at hl' hr' h1' h2'
  have e1 := congrArg List.length ha
  have e2 := congrArg List.length ha'
  simp only [List.length_append] at e1 e2
  have q1 : l'.length = l.length := by omega
  have q3 : r'.length = r.length := by omega
  have q2 : c'.length = c.length := by omega
  obtain ⟨g1, g2, g3⟩ := calc_wf addr k.len (2 * a.length) k.len_pos
  obtain ⟨regs, r1, r2, r3⟩ := (C19_registers_partial addr k.len k.len_pos (fromComplex a)
    (fromComplex c) (by rw [length_fromComplex]; exact h1)).2 (by rw [length_fromComplex]; exact hal.1)
  rw [length_fromComplex] at r1
  obtain ⟨h, hh⟩ := Nat.dvd_of_mod_eq_zero k.len_even
  have hPl : (List.zipWith Cx.mul c c').length = c.length := by simp [q2]
  have hdot := dotRegs_eq (addr + (calcDataAlignmentReqs addr k.len (2 * a.length)).left) k.len k.len_pos
    (regMulComplex k) (fromComplex c) (fromComplex c') (by simpa using hcm) (by simp; omega) regs r1
    (fromComplex (List.zipWith Cx.mul c c')) (fun i hi => by
      have f1 := blk_full k.len_pos (fromComplex c) (by simpa using hcm) hi
      have f2 := blk_full k.len_pos (fromComplex c') (k := i) (s := k.len)
        (by simp only [length_fromComplex]; rw [q2]; exact hcm)
        (by simp only [length_fromComplex] at hi ⊢; omega)
      rw [hh, fromComplex_blk] at f1 f2
      simp only [length_fromComplex] at f1 f2
      rw [hh, fromComplex_blk, fromComplex_blk, fromComplex_blk,
        (C45_complex_pairs k).1 _ _ (by rw [hh]; exact f1) (by rw [hh]; exact f2), zipWith_blk])
  have hPm : (fromComplex (List.zipWith Cx.mul c c')).length % k.len = 0 := by
    rw [length_fromComplex, hPl]; exact hcm
  have hlenP : (fromComplex (List.zipWith Cx.mul c c')).length = (fromComplex c).length := by
    simp [q2]
  have hfull : ∀ x ∈ (List.range (ceilDiv (fromComplex c).length k.len)).map
      (blk k.len (fromComplex (List.zipWith Cx.mul c c'))), x.length = k.len := by
    intro x hx
    obtain ⟨i, i1, i2⟩ := List.mem_map.mp hx
    rw [← i2]
    exact blk_full k.len_pos _ hPm (by
      rw [hlenP]; exact (lt_ceilDiv_iff k.len_pos).mp (by simpa using i1))
  have hfl : ((List.range (ceilDiv (fromComplex c).length k.len)).map
      (blk k.len (fromComplex (List.zipWith Cx.mul c c')))).flatten =
      fromComplex (List.zipWith Cx.mul c c') := by
    have := flatten_blocks_all k.len_pos (fromComplex (List.zipWith Cx.mul c c'))
    rw [hlenP] at this; exact this
  obtain ⟨rc, c1, c2, c3⟩ := regs_complex k.len k.len_even _ _ hfull hfl
  have hsum : regSumComplex (acc
      ((List.range (ceilDiv (fromComplex c).length k.len)).map
        (blk k.len (fromComplex (List.zipWith Cx.mul c c'))))) =
      (List.zipWith (· * ·) c c').sum := by
    rw [hacc _ hfull, c1, plainRegSum_complex k _ c3, ← List.sum_flatten, c2]
    rfl
  have he : (List.zipWith (· * ·) a b).sum = (List.zipWith (· * ·) c c').sum +
      (List.zipWith (· * ·) (l ++ r) (l' ++ r')).sum := by
    rw [ha, ha', zipWith_mul_append (by simp; omega), zipWith_mul_append (by omega),
      zipWith_mul_append (by omega)]
    simp only [List.sum_append]
    rw [add_assoc, add_left_comm]
  unfold dotComplexWith
  rw [show 2 * a.length = (fromComplex a).length by simp, slice_append_left]
  simp only [Option.bind_eq_bind, Option.bind_some, length_fromComplex]
  rw [center_append _ _ _ (by simp; omega), h1, h1', ← fromComplex_append, toComplex?_fromComplex,
    toComplex?_fromComplex]
  simp only [Option.bind_some, getZipped_small]
  rw [cedgeIter_append _ _ _ (by omega) (by omega), h2, h2']
  simp only [Option.bind_some]
  rw [he]
  have hz := zip_foldl_add (0 : Cx T) (l ++ r) (l' ++ r')
  rw [zero_add] at hz
  by_cases hc : c' = []
  · have hc2 : c = [] := List.eq_nil_of_length_eq_zero (by rw [← q2, hc]; rfl)
    subst hc hc2
    simp only [show fromComplex ([] : List (Cx T)) = [] from rfl, if_true, List.mapM_nil,
      Option.pure_def, Option.bind_some, List.foldl_nil, List.zipWith_nil_left, List.sum_nil, zero_add]
    exact congrArg some hz
  · have hc' : fromComplex c' ≠ [] := by
      intro h; apply hc; have := congrArg List.length h; simp at this; exact this
    simp only [if_neg hc', List.mapM_cons, List.mapM_nil, Option.bind_eq_bind, id,
      Nat.add_zero, hdot, Option.bind_some, Option.pure_def,
      List.foldl_cons, List.foldl_nil, hsum, zero_add]
    exact congrArg some (congrArg _ hz)

theorem dotComplexWith_eq [Field T] (prec : Bool) (k : RegKind) (addr : Nat) (st : MultiCoreSettings)
    (a s b : List (Cx T)) (hab : b.length = a.length) (order : List Nat)
    (hal : ComplexAlignmentAccepted addr k.len (2 * a.length)) :
    dotComplexWith k addr st (if prec then kahanRegSum k else plainRegSum k)
      (fromComplex a ++ fromComplex s) (2 * a.length) (fromComplex b) order =
      some (List.zipWith (· * ·) a b).sum :=
  dotComplexWith_acc _ k addr st (fun regs h => acc_eq prec k regs h) a s b hab order hal

/-- C21: `dot_product` and `dot_product_prec` of complex vectors of equal length (there is no
    conjugation), and their operand checks. -/
theorem C21_dot_complex [Field T] (prec : Bool) (k : RegKind) (addr : Nat)
    (st : MultiCoreSettings) (v o : DspVec T) (hv : v.WF) (hc : v.isComplex = true)
    (hoc : o.isComplex = true) (hd : v.dom = o.dom)
    (a b : List (Cx T)) (ha : v.content = some (fromComplex a))
    (hb : o.content = some (fromComplex b)) (hlen : b.length = a.length)
    (heven : v.allocLen % 2 = 0)
    (hal : ComplexAlignmentAccepted addr k.len v.len) (order : List Nat) :
    v.dotProductComplex prec k addr st o order = some (.ok (List.zipWith (· * ·) a b).sum) := by
  obtain ⟨h1, h2⟩ := hv.cells_eq ha
  have hlen' : v.validLen = 2 * a.length := by rw [← h2]; simp
  obtain ⟨ss, hs⟩ := exists_fromComplex (l := v.data.cells.drop v.validLen) (by
    have : v.data.cells.length % 2 = 0 := heven
    have h3 := hv.1
    have h4 := hv.2 hc
    simp only [List.length_drop]; omega)
  unfold dotProductComplex
  rw [if_neg (by simp [hc]), if_neg (by simp [hoc, hd]), hb]
  simp only [Option.bind_eq_bind, Option.bind_some]
  rw [h1, hs, hlen', dotComplexWith_eq prec k addr st a ss b hlen order (by rw [← hlen']; exact hal)]
  rfl

/-- Operand checks of the dot product. -/
theorem C21_dot_checks [Field T] (prec : Bool) (k : RegKind) (addr : Nat) (st : MultiCoreSettings)
    (v o : DspVec T) (order : List Nat) :
    (v.isComplex = true → v.dotProduct prec k addr st o order = some (.error .inputMustBeReal)) ∧
    (v.isComplex = false →
      v.dotProductComplex prec k addr st o order = some (.error .inputMustBeComplex)) ∧
    (v.isComplex = true → (o.isComplex = false ∨ v.dom ≠ o.dom) →
      v.dotProductComplex prec k addr st o order = some (.error .inputMetaDataMustAgree)) := by
  refine ⟨fun h => ?_, fun h => ?_, fun h h' => ?_⟩
  · unfold dotProduct; rw [if_pos h]
  · unfold dotProductComplex; rw [if_pos h]
  · unfold dotProductComplex; rw [if_neg (by simp [h]), if_pos h']

/-- C21 is violated for operands of different length: there is no length check, a shorter operand
    panics. -/
theorem C51_dot_product_shorter_violated :
    let v : DspVec Int := ⟨⟨.vec, [1, 2, 3]⟩, some 1, .time, .real, 3⟩
    let o : DspVec Int := ⟨⟨.vec, [4, 5]⟩, some 1, .time, .real, 2⟩
    v.WF ∧ o.WF ∧ v.dotProduct false .sseF32x4 0 (.withThresholds 1 0 0 0 0) o [] = none := by
  refine ⟨⟨by decide, by decide⟩, ⟨by decide, by decide⟩, by rfl⟩

/-! ### C28 compensated summation -/

/-- C28: the compensated sum is the mathematical sum in exact arithmetic. -/
theorem C28_kahan_is_sum {E : Type} [AddCommGroup E] (l : List E) :
    kahanSum (· + ·) (· - ·) (0 : E) l = l.sum := by
  have : ∀ (l : List E) (s : E), (l.foldl (kahanStep (· + ·) (· - ·)) (s, 0)) = (s + l.sum, 0) := by
    intro l
    induction l with
    | nil => intro s; simp
    | cons x l ih =>
      intro s
      rw [List.foldl_cons]
      have : kahanStep (· + ·) (· - ·) (s, 0) x = (s + x, 0) := by simp [kahanStep]
      rw [this, ih]; simp [add_assoc]
  unfold kahanSum
  rw [this]; simp

/-- C28: `sum_prec` and `sum_sq_prec` give the same result as the mathematical sum, hence as `sum` and
    `sum_sq` (C21). -/
theorem C28_sum_prec [CommRing T] (st : MultiCoreSettings) (v : DspVec T) (a : List T)
    (ha : v.content = some a) (order : List Nat) :
    v.sumPrec st order = some a.sum ∧ v.sumSqPrec st order = some (a.map fun x => x * x).sum := by
  have ha' : slice v.data.cells 0 v.validLen = some a := ha
  unfold sumPrec sumSqPrec sumPrecWith
  simp only [ha', Option.bind_eq_bind, Option.bind_some, chunkedResults_small, C28_kahan_is_sum]
  cases a <;> simp

/-- C28 for complex vectors. -/
theorem C28_sum_prec_complex [CommRing T] (st : MultiCoreSettings) (v : DspVec T) (cs : List (Cx T))
    (ha : v.content = some (fromComplex cs)) (order : List Nat) :
    v.sumPrecComplex st order = some cs.sum ∧
    v.sumSqPrecComplex st order = some (cs.map fun x => x * x).sum := by
  have ha' : slice v.data.cells 0 v.validLen = some (fromComplex cs) := ha
  have hk : ∀ l : List (Cx T), kahanSum (· + ·) (· - ·) (0 : Cx T) l = l.sum := C28_kahan_is_sum
  unfold sumPrecComplex sumSqPrecComplex sumPrecComplexWith
  simp only [ha', Option.bind_eq_bind, Option.bind_some, chunkedResults_small, toComplex?_fromComplex,
    Option.map_some, hk]
  cases cs with
  | nil => exact ⟨rfl, rfl⟩
  | cons c cs =>
    rw [if_neg (by simp [fromComplex]), if_neg (by simp [fromComplex])]
    simp only [List.mapM_cons, List.mapM_nil, id, Option.pure_def, Option.bind_eq_bind, Option.bind_some,
      List.foldl_cons, List.foldl_nil]
    exact ⟨congrArg some (zero_add _), congrArg some (zero_add _)⟩

/-- C28: `sum_prec` of `f32` vectors is the sum of the converted numbers. -/
theorem C28_sum_prec_f32 {U : Type} [AddCommMonoid U] [Mul U] (conv : T → U) (st : MultiCoreSettings) (v : DspVec T)
    (a : List T) (ha : v.content = some a) (order : List Nat) :
    v.sumPrecF32 conv st order = some (a.map conv).sum ∧
    v.sumSqPrecF32 conv st order = some (a.map fun x => conv x * conv x).sum := by
  have ha' : slice v.data.cells 0 v.validLen = some a := ha
  unfold sumPrecF32 sumSqPrecF32 sumPrecWith plainSum
  simp only [ha', Option.bind_eq_bind, Option.bind_some, chunkedResults_small, foldl_map_add]
  cases a <;> simp

/-- C28: `dot_product_prec` equals `dot_product` whenever the latter is defined by C21. -/
theorem C28_dot_prec [CommRing T] (k : RegKind) (addr : Nat)
    (st : MultiCoreSettings) (v o : DspVec T) (hv : v.WF) (ho : o.WF) (hr : v.isComplex = false)
    (hlen : v.len = o.len) (hal : AlignmentAccepted addr k.len v.len) (order : List Nat) :
    v.dotProduct true k addr st o order = v.dotProduct false k addr st o order := by
  have e1 := hv.content_length hv.content_eq
  have e2 := ho.content_length ho.content_eq
  have hlen' : v.validLen = o.validLen := hlen
  rw [C21_dot true k addr st v o hv hr _ _ hv.content_eq ho.content_eq (by omega) hal,
    C21_dot false k addr st v o hv hr _ _ hv.content_eq ho.content_eq (by omega) hal]

example :
    let v : DspVec Int := ⟨⟨.vec, [1, 2, 3, 9]⟩, some 1, .time, .real, 3⟩
    v.content = some [1, 2, 3] ∧ v.sumPrec (.withThresholds 1 0 0 0 0) [] = some 6 := by
  exact ⟨by decide, by decide⟩

end Dsp
