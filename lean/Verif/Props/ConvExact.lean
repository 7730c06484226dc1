import Verif.Props.ConvVec
import Verif.Props.WindowsExact

/-! C37: exactly what `convolve_signal` computes in frequency domain, and exactly when it is the
convolution. -/

namespace Dsp
open DspVec
variable {T : Type}

/-- The points which `convolve_signal` does not compute when the transform length is `F`: they start
    where the last block ends and end where the tail starts. -/
def InGap (n m F j : Nat) : Prop := F - (m - 1) + m / 2 ≤ j ∧ j + F / 2 < n

/-- The lengths leave a gap if and only if only one block is used and a point lies in the gap. -/
theorem noGap_iff (n m F : Nat) (hm : 2 ≤ m) (he : F % 2 = 0) (hn : F ≤ n) :
    NoGap n m F ↔ ¬ (n + m ≤ 2 * F + 1 ∧ ∃ j, InGap n m F j) := by
  unfold NoGap InGap
  constructor
  · rintro h ⟨h1, j, h2, h3⟩
    omega
  · intro h
    by_contra hc
    exact h ⟨by omega, F - (m - 1) + m / 2, by omega, by omega⟩

section
variable [Zero T] [Add T] [Sub T] [Mul T] [Div T] [NatCast T]

/-- One block only: the result is known everywhere, up to the values `Y` of the block. -/
theorem overlapDiscard_one (K : FftKernel T) (junk : List (Cx T) → List (Cx T))
    (hj : ∀ l, (junk l).length = l.length) (F m : Nat) (hm : 2 ≤ m) (hF : 2 * m ≤ F)
    (x hs tmp : List (Cx T)) (hhs : m ≤ hs.length) (hx : F ≤ x.length) (hx2 : x.length + m ≤ 2 * F + 1)
    (ht : tmp.length = F)
    (hl : (filterBlock K F (K.forward (hs.take m ++ List.replicate (F - m) 0)) (x.take F)).length = F) :
    ∃ r, overlapDiscard K junk F m x hs tmp = some r ∧
      ∀ j, F - (m - 1) + m / 2 ≤ j → j < F → j + F / 2 < x.length → r[j]? = (junk (x.take F))[j]? := by
  have hxne : x ≠ [] := by intro e; subst e; simp at hx; omega
  have hhl : (hs.take m).length = m := by simp; omega
  have hscalar : ∀ from' count, scalarPart x hs m from' count =
      some ((List.range count).map (fun i => convAt x (hs.take m) (from' + i))) := by
    intro a count
    unfold scalarPart
    apply mapM_some_range
    intro i _
    rw [convolveIteration_take _ _ _ _ _ hhs]
    have := convolveIteration_eq x (hs.take m) hxne (a + i)
    rw [hhl] at this
    have e : (m + 1) / 2 = m - m / 2 := by omega
    rw [e]; exact this
  obtain ⟨t1, a1, a2, a3⟩ := copy_spec tmp ((List.range (m / 2)).map (fun i => convAt x (hs.take m) (0 + i)))
    0 (m / 2) (by omega) (by omega) (by simp)
  obtain ⟨ov, b1, b2, b3⟩ := slice_spec x (F - (m - 1)) F (by omega) (by omega)
  have c1 : slice x 0 F = some (x.take F) := by rw [slice_ok _ _ _ (by omega) hx, Nat.sub_zero]; simp
  obtain ⟨s1, d1, d2, d3⟩ := copy_spec x (junk (x.take F)) 0 F (by omega) hx (by rw [hj]; simp; omega)
  obtain ⟨sb, e1, e2, e3⟩ := slice_spec t1 0 (m / 2) (by omega) (by omega)
  obtain ⟨s2, f1, f2, f3⟩ := copy_spec s1 sb 0 (m / 2) (by omega) (by omega) (by omega)
  have hmod : x.length % F = x.length - F := by
    rw [Nat.mod_eq_sub_mod hx, Nat.mod_eq_of_lt (by omega)]
  have hrem : (x.length - x.length % F) / 2 = F / 2 := by rw [hmod]; congr 1; omega
  generalize hB : filterBlock K F (K.forward (hs.take m ++ List.replicate (F - m) 0)) (x.take F) = B at hl
  obtain ⟨res, g1, g2, g3⟩ := slice_spec B (m - 1) F (by omega) (by omega)
  obtain ⟨sig, h1, h2, h3⟩ := copy_spec s2 res (F - (m - 1) - (F - (m - 1)) + m / 2) (F - (m - 1) + m / 2)
    (by omega) (by omega) (by omega)
  obtain ⟨r, r1, r2, r3⟩ := copy_spec sig
    ((List.range (F / 2)).map (fun i => convAt x (hs.take m) (x.length - F / 2 + i)))
    (x.length - F / 2) x.length (by omega) (by omega) (by simp; omega)
  have hsl : slice hs 0 m = some (hs.take m) := by
    rw [slice_ok _ _ _ (by omega) hhs]; simp
  have hde : destroy junk x 0 F = some s1 := by
    unfold destroy
    simp only [c1, Option.bind_eq_bind, Option.bind_some]
    exact d1
  have hfirst : overlapFirst K junk F m (K.forward (hs.take m ++ List.replicate (F - m) 0)) x t1 =
      some ⟨s2, B, ov, F - (m - 1)⟩ := by
    unfold overlapFirst
    simp only [b1, c1, hde, e1, f1, hB, Option.bind_eq_bind, Option.bind_some]
  have hloop : ∀ fuel, overlapLoop K junk F m x.length (K.forward (hs.take m ++ List.replicate (F - m) 0)) fuel
      ⟨s2, B, ov, F - (m - 1)⟩ = some ⟨s2, B, ov, F - (m - 1)⟩ := by
    intro fuel
    cases fuel with
    | zero => rfl
    | succ n =>
      unfold overlapLoop
      rw [if_neg (by simp only; omega)]
  have hstore : storeBlock F m ⟨s2, B, ov, F - (m - 1)⟩ s2 = some sig := by
    unfold storeBlock
    simp only [g1, Option.bind_eq_bind, Option.bind_some]
    exact h1
  refine ⟨r, ?_, fun j j1 j2 j3 => ?_⟩
  · unfold overlapDiscard
    simp only [hsl, hscalar, a1, hfirst, hloop, hstore, hrem, Option.bind_eq_bind, Option.bind_some]
    exact r1
  · rw [r3, if_neg (by omega), h3, if_neg (by omega), f3, if_neg (by omega), d3, if_pos (by omega), Nat.sub_zero]

end

/-- What the method does on the way in frequency domain, up to the computation on the points. -/
theorem convolve_frequency [Field T] [LinearOrder T] (K : FftKernel T)
    (junk : List (Cx T) → List (Cx T)) (k : RegKind) (addr : Nat) (st : MultiCoreSettings) (v h : DspVec T)
    (hv : v.WF) (hh : h.WF) (hm : v.metaMismatch h = false) (hd : v.dom = .time)
    (hle : h.points ≤ v.points) (b : Buffer T) (hp : v.convPath h = .frequency)
    (hev : h.data.cells.length % 2 = 0) (hbf : FreqBufferOk K b v.points h.points) :
    ∃ x y hs tmp : List (Cx T), v.content = some (fromComplex x) ∧ h.content = some (fromComplex y) ∧
      x.length = v.points ∧ y.length = h.points ∧ h.points ≤ hs.length ∧ hs.take h.points = y ∧
      tmp.length = freqLen h.points ∧ freqLen h.points ≤ x.length ∧ 2 ≤ h.points ∧ v.isComplex = true ∧
      ∀ r, overlapDiscard K junk (freqLen h.points) h.points x hs tmp = some r → r.length = x.length →
        ∃ v', Always (v.convolveSignal K junk k addr st h b) (v', b, .ok ()) ∧
          v'.validLen = v.validLen ∧ v'.SameMeta v ∧ v'.content = some (fromComplex r) := by
  have hsp : h.isComplex = v.isComplex := by
    unfold metaMismatch at hm
    simp only [Bool.or_eq_false_iff, bne_eq_false_iff_eq] at hm
    exact hm.1.1.symm
  have hcond : v.len > 10000 ∧ h.len > 15 ∧ v.len > 10 * h.len ∧ v.isComplex = true := by
    unfold convPath at hp
    split at hp
    · cases hp
    · split at hp
      · assumption
      · cases hp
  obtain ⟨c1, c2, c3, c4⟩ := hcond
  have hc' : h.isComplex = true := by rw [hsp, c4]
  obtain ⟨x, hvc, hvl⟩ := hv.content_even c4
  obtain ⟨y, hhc, hhl⟩ := hh.content_even hc'
  obtain ⟨hs, hhs⟩ := exists_fromComplex hev
  have hpv : v.points = x.length := by simp only [points, c4, if_true]; omega
  have hph : h.points = y.length := by simp only [points, hc', if_true]; omega
  unfold len at c1 c2 c3
  obtain ⟨f1, f2, f3, f4⟩ := freqLen_spec h.points (by omega)
  have hfx : freqLen h.points ≤ x.length := by omega
  obtain ⟨tmp, t1, t2⟩ := overlapDiscard_vec K junk v h b x hs c4 hm hvc hhs (by omega) (by omega) hfx hbf
  have hhsl : h.points ≤ hs.length := by
    have := hh.1
    rw [hhs, length_fromComplex] at this; omega
  have hy : hs.take h.points = y := by
    have h1 := hh.content_eq
    rw [hhc] at h1
    have h2 := Option.some.inj h1
    rw [hhs] at h2
    have h3 : (fromComplex hs).take h.validLen = fromComplex (hs.take h.points) := by
      rw [fromComplex_take]; congr 1; omega
    rw [h3] at h2
    have := congrArg toComplex? h2
    simpa using this.symm
  refine ⟨x, y, hs, tmp, hvc, hhc, hpv.symm, hph.symm, hhsl, hy, t1, hfx, by omega, c4, fun r hr hrl => ?_⟩
  obtain ⟨v', e1, e2, e3, e4⟩ := t2 r hr hrl
  refine ⟨v', (Always.const _).congr (fun s => ?_), e2, e3, e4⟩
  unfold convolveSignal
  rw [if_neg (by simp [hm]), if_neg (by simp [hd]), if_neg (by omega), hp]
  simp only [e1]
  rfl

/-- C37, without a condition on the lengths: what `convolve_signal` computes in frequency domain. The
    result has the length of the vector. If more than one block is needed (`2 F + 1 < n + m` for
    `n` points of the vector, `m` of the response and the transform length `F`) each point is the
    point of the convolution. If not, then the points outside of the gap are; the points of the gap
    behind the first block are the points of the *input*; the points of the gap in the first block
    are whatever the transform left in its input. -/
theorem C37_frequency_exact [Field T] [LinearOrder T] (K : FftKernel T) (hK : K.Convolves)
    (junk : List (Cx T) → List (Cx T)) (hj : ∀ l, (junk l).length = l.length)
    (k : RegKind) (addr : Nat) (st : MultiCoreSettings) (v h : DspVec T) (hv : v.WF) (hh : h.WF)
    (hm : v.metaMismatch h = false) (hd : v.dom = .time)
    (hle : h.points ≤ v.points) (b : Buffer T) (hp : v.convPath h = .frequency)
    (hev : h.data.cells.length % 2 = 0) (hbf : FreqBufferOk K b v.points h.points) :
    ∃ v' x y r, Always (v.convolveSignal K junk k addr st h b) (v', b, .ok ()) ∧
      v'.validLen = v.validLen ∧ v'.SameMeta v ∧
      v.content = some (fromComplex x) ∧ h.content = some (fromComplex y) ∧
      v'.content = some (fromComplex r) ∧ r.length = x.length ∧
      (2 * freqLen h.points + 1 < v.points + h.points → r = circularConv x y) ∧
      (v.points + h.points ≤ 2 * freqLen h.points + 1 → ∀ j : Nat, j < v.points →
        (¬ InGap v.points h.points (freqLen h.points) j → r[j]? = (circularConv x y)[j]?) ∧
        (InGap v.points h.points (freqLen h.points) j → freqLen h.points ≤ j → r[j]? = x[j]?) ∧
        (InGap v.points h.points (freqLen h.points) j → j < freqLen h.points →
          r[j]? = (junk (x.take (freqLen h.points)))[j]?)) := by
  obtain ⟨x, y, hs, tmp, q1, q2, q3, q4, q5, q6, q7, q8, q9, q10, q11⟩ :=
    convolve_frequency K junk k addr st v h hv hh hm hd hle b hp hev hbf
  obtain ⟨f1, f2, f3, f4⟩ := freqLen_spec h.points q9
  have hKL : K.KeepsLength := hK.1
  generalize freqLen h.points = F at *
  rw [← q3]
  generalize h.points = m at *
  obtain ⟨r, P, r1, r2, r3, r4, r5, r6, r7, r8⟩ := overlapDiscard_spec K junk hj F m (by omega) (by omega) (by omega)
    x hs tmp q5 q8 q7 (fun j c => c = convAt x (hs.take m) j) (fun _ => rfl)
    (fun p hp => filterBlock_good K hK F m (by omega) (by omega) x _ (by simp; omega) p hp)
  obtain ⟨v', e1, e2, e3, e4⟩ := q11 r r1 r2
  have hconv : ∀ j, j < x.length → (circularConv x y)[j]? = some (convAt x (hs.take m) j) := by
    intro j hjl
    unfold circularConv
    rw [List.getElem?_map, List.getElem?_range hjl, Option.map_some, q6]
  refine ⟨v', x, y, r, e1, e2, e3, q1, q2, e4, r2, fun hlong => ?_, fun hshort j hjn => ⟨fun hg => ?_, fun hg hF => ?_,
    fun hg hF => ?_⟩⟩
  · have hr := C37_overlap_discard_partial K hK junk hj F m (by omega) f1 (by omega) f4 x hs tmp
      q5 q8 q7 (.inr hlong)
    rw [r1] at hr
    rw [Option.some.inj hr, q6]
  · rw [hconv j hjn]
    have hmod : x.length % F = x.length - F := by
      rw [Nat.mod_eq_sub_mod q8, Nat.mod_eq_of_lt (by omega)]
    by_cases hjP : j < P + m / 2
    · obtain ⟨c, c1, c2⟩ := r6 j hjP
      rw [c1, c2]
    · obtain ⟨k, hk1, hk2⟩ := r4
      have : F - (m - 1) ≤ P := by rw [hk2]; exact Nat.le_mul_of_pos_left _ hk1
      unfold InGap at hg
      exact r7 j (by omega) hjn
  · obtain ⟨r', s1, s2⟩ := C37_overlap_discard_gap K hKL junk hj F m q9 f1 (by omega) x hs tmp q5 q8 hshort q7 j hF hg.2
    rw [r1] at s1
    rw [Option.some.inj s1]; exact s2
  · obtain ⟨r', s1, s2⟩ := overlapDiscard_one K junk hj F m q9 f2 x hs tmp q5 q8 hshort q7 (by
      have := (filterBlock_good K hK F m (by omega) (by omega) x (hs.take m) (by simp; omega) 0 (by omega)).1
      simpa using this)
    rw [r1] at s1
    rw [Option.some.inj s1]; exact s2 j hg.1 hF hg.2

/-- `n` complex points `c`. -/
def constVec (n : Nat) (c : Cx T) [One T] : DspVec T :=
  ⟨⟨.vec, fromComplex (List.replicate n c)⟩, some 1, .time, .complex, 2 * n⟩

theorem convAt_zeros_field [Field T] (x : List (Cx T)) (n i : Nat) : convAt x (List.replicate n ⟨0, 0⟩) i = 0 := by
  unfold convAt
  rw [foldl_add_sum, zero_add]
  apply List.sum_eq_zero
  intro y hy
  rw [List.mem_map] at hy
  obtain ⟨k, _, rfl⟩ := hy
  have : (List.replicate n (⟨0, 0⟩ : Cx T)).getD k 0 = 0 := by
    rw [List.getD_eq_getElem?_getD, List.getElem?_replicate]
    split <;> rfl
  rw [this, mul_zero]

/-- C37 in frequency domain, exactly: for given numbers of points `n` and `m` which `convolve_signal` handles in
    frequency domain (`m > 101`, `n > 5000`, `n > 10 m`), the result is the convolution for all
    vectors and responses and whatever a (correct) transform leaves in its input **if and only if** the
    lengths leave no gap. -/
theorem C37_frequency_iff [Field T] [LinearOrder T] [IsStrictOrderedRing T] (K : FftKernel T) (hK : K.Convolves)
    (k : RegKind) (addr : Nat) (st : MultiCoreSettings) (n m : Nat) (h1 : 101 < m) (h2 : 5000 < n)
    (h3 : 10 * m < n) :
    (∀ (junk : List (Cx T) → List (Cx T)), (∀ l, (junk l).length = l.length) →
      ∀ (v h : DspVec T), v.WF → h.WF → MetaAgree v h → PosDelta h → v.dom = .time → v.isComplex = true →
        v.points = n → h.points = m → h.data.cells.length % 2 = 0 →
        ∃ v' b', Always (v.convolveSignal K junk k addr st h (.single [])) (v', b', .ok ()) ∧
          IsConvolution v h v') ↔
    NoGap n m (freqLen m) := by
  constructor
  · intro hall
    by_contra hgap
    obtain ⟨f1, f2, f3, f4⟩ := freqLen_spec m (by omega)
    rw [noGap_iff n m (freqLen m) (by omega) f4 (by omega), not_not] at hgap
    obtain ⟨hshort, j, hj⟩ := hgap
    have hjn : j < n := by unfold InGap at hj; omega
    set v : DspVec T := constVec n ⟨1, 0⟩ with hvd
    set h : DspVec T := constVec m ⟨0, 0⟩ with hhd
    have hvc : v.content = some (fromComplex (List.replicate n ⟨1, 0⟩)) :=
      content_of_cells (s := []) (by simp [hvd, constVec]) (by simp [hvd, constVec])
    have hhc : h.content = some (fromComplex (List.replicate m ⟨0, 0⟩)) :=
      content_of_cells (s := []) (by simp [hhd, constVec]) (by simp [hhd, constVec])
    have hvp : v.points = n := by simp [hvd, points, constVec, isComplex, NumberSpace.isComplex]
    have hhp : h.points = m := by simp [hhd, points, constVec, isComplex, NumberSpace.isComplex]
    have hvw : v.WF := ⟨by simp [hvd, constVec], fun _ => by simp [hvd, constVec]⟩
    have hhw : h.WF := ⟨by simp [hhd, constVec], fun _ => by simp [hhd, constVec]⟩
    have hma : MetaAgree v h := by
      refine ⟨rfl, rfl, fun d e h1 h2 => ?_⟩
      cases h1; cases h2; norm_num
    have hpd : PosDelta h := by
      intro e he; cases he; norm_num
    have hmm : v.metaMismatch h = false := by
      cases hc : v.metaMismatch h with
      | false => rfl
      | true => exact absurd hma ((metaMismatch_iff _ _ hpd).mp hc)
    have hpath : v.convPath h = .frequency := by
      have a1 : v.len = 2 * n := rfl
      have a2 : h.len = 2 * m := rfl
      unfold convPath
      rw [if_neg (by omega), if_pos ⟨by omega, by omega, by omega, rfl⟩]
    have hev : h.data.cells.length % 2 = 0 := by simp [hhd, constVec]
    obtain ⟨v1, x, y, r, e1, _, _, e4, e5, e6, e7, _, e9⟩ := C37_frequency_exact K hK (fun l => l) (fun _ => rfl)
      k addr st v h hvw hhw hmm rfl (by omega) (.single []) hpath hev (by intro mem hc; cases hc)
    rw [hvp, hhp] at e9
    obtain ⟨_, g2, g3⟩ := e9 hshort j hjn
    have hr : r[j]? = x[j]? := by
      by_cases hc : freqLen m ≤ j
      · exact g2 hj hc
      · rw [g3 hj (by omega), List.getElem?_take, if_pos (by omega)]
    obtain ⟨v2, b2, u1, u2, u3, _, u4⟩ := hall (fun l => l) (fun _ => rfl) v h hvw hhw hma hpd rfl rfl hvp hhp hev
    have hvv := e1.same u1
    obtain ⟨x', y', w1, w2, w3⟩ := u4 rfl
    have hv12 : v1 = v2 := congrArg Prod.fst hvv
    subst hv12
    rw [hvc] at e4 w1
    rw [hhc] at e5 w2
    rw [e6] at w3
    have k1 := fromComplex_injective (Option.some.inj e4)
    have k2 := fromComplex_injective (Option.some.inj w1)
    have k3 := fromComplex_injective (Option.some.inj w2)
    have k4 := fromComplex_injective (Option.some.inj w3)
    rw [k4, ← k1, ← k2, ← k3] at hr
    unfold circularConv at hr
    rw [List.getElem?_map, List.getElem?_range (by simpa using hjn), Option.map_some, convAt_zeros_field,
      List.getElem?_replicate, if_pos hjn] at hr
    have := congrArg Cx.re (Option.some.inj hr)
    simp at this
  · intro hgap junk hj v h hv hh hma hpd hd hc hvp hhp hev
    have hmm : v.metaMismatch h = false := by
      cases hc : v.metaMismatch h with
      | false => rfl
      | true => exact absurd hma ((metaMismatch_iff _ _ hpd).mp hc)
    have hc' : h.isComplex = true := by
      unfold metaMismatch at hmm
      simp only [Bool.or_eq_false_iff, bne_eq_false_iff_eq] at hmm
      rw [← hc]; exact hmm.1.1.symm
    obtain ⟨x, hvc, hvl⟩ := hv.content_even hc
    obtain ⟨y, hhc, hhl⟩ := hh.content_even hc'
    have a1 : v.len = 2 * n := by
      rw [← hvp]; simp only [points, hc, if_true, len]; omega
    have a2 : h.len = 2 * m := by
      rw [← hhp]; simp only [points, hc', if_true, len]; omega
    have hpath : v.convPath h = .frequency := by
      unfold convPath
      rw [if_neg (by omega), if_pos ⟨by omega, by omega, by omega, hc⟩]
    exact C37_convolve_signal_partial K hK junk hj k addr st v h hv hh hmm hd (by omega) (by omega) (.single [])
      trivial (by rw [hpath]; intro h; cases h)
      (fun _ => ⟨by rw [hvp, hhp]; exact hgap, hev, by intro mem h; cases h⟩)

/-- Both cases occur: for a response of 514 points (transform length 4096) there are gaps behind the first block
    (7600 points) and gaps which lie wholly within the first block (6000 points), and lengths
    without a gap. -/
example : InGap 7600 514 (freqLen 514) 5000 ∧ ¬ NoGap 7600 514 (freqLen 514) ∧
    InGap 6000 514 (freqLen 514) 3900 ∧ ¬ NoGap 6000 514 (freqLen 514) ∧
    (∀ j, InGap 6000 514 (freqLen 514) j → j < freqLen 514) ∧
    NoGap 10000 514 (freqLen 514) ∧ NoGap 5200 514 (freqLen 514) := by
  rw [freqLen_514]
  unfold InGap NoGap
  refine ⟨?_, ?_, ?_, ?_, fun j => ?_, ?_, ?_⟩ <;> omega

end Dsp
