import Verif.Props.Interpft
import Verif.Props.Interp
/-
C58: interpolation by a whole factor.
-/
namespace Dsp
open DspVec
variable {T : Type}

theorem interleave_real_flatten [Zero T] (m : Nat) (hm : 1 ≤ m) (c : List T) :
    (interleaveSpec [(0 : T)] (m * 2) (c.map (fun x => [x]))).flatten = fromComplex (interleaveSpec 0 m (c.map Cx.ofReal)) := by
  have hz : ∀ r, (List.replicate (2 * r) [(0 : T)]).flatten = fromComplex (List.replicate r 0) := by
    intro r
    induction r with
    | zero => rfl
    | succ r ih =>
      rw [show 2 * (r + 1) = 2 * r + 1 + 1 by ring, List.replicate_succ, List.replicate_succ, List.replicate_succ]
      show _ = (0 : Cx T).re :: (0 : Cx T).im :: fromComplex _
      rw [List.flatten_cons, List.flatten_cons, ih]; rfl
  induction c with
  | nil => rfl
  | cons x c ih =>
    simp only [interleaveSpec, List.map_cons, List.flatMap_cons, List.flatten_append, fromComplex_append] at ih ⊢
    rw [ih]
    congr 1
    rw [show m * 2 - 1 = 2 * (m - 1) + 1 by omega, List.replicate_succ, List.flatten_cons, List.flatten_cons, hz]
    rfl

theorem interleave_complex_flatten [Zero T] (m : Nat) (cs : List (Cx T)) :
    (interleaveSpec [(0 : T), 0] m (cs.map (fun c => [c.re, c.im]))).flatten = fromComplex (interleaveSpec 0 m cs) := by
  have hz : ∀ r, (List.replicate r [(0 : T), 0]).flatten = fromComplex (List.replicate r 0) := by
    intro r
    induction r with
    | zero => rfl
    | succ r ih =>
      rw [List.replicate_succ, List.replicate_succ]
      show _ = (0 : Cx T).re :: (0 : Cx T).im :: fromComplex _
      rw [List.flatten_cons, ih]; rfl
  induction cs with
  | nil => rfl
  | cons x c ih =>
    simp only [interleaveSpec, List.map_cons, List.flatMap_cons, List.flatten_append, fromComplex_append] at ih ⊢
    rw [ih]
    congr 1
    rw [List.flatten_cons, hz]
    rfl

section
variable [Field T] [LinearOrder T] [IsStrictOrderedRing T]

/-- What `interpolatei` computes, for every response. -/
theorem interpolatei_used (K : FftKernel T) (hK : K.KeepsLength) (k : RegKind) (addr : Nat) (st : MultiCoreSettings)
    (F : FrequencyResponse T T) (m : Nat) (hm : 2 ≤ m) (v : DspVec T) (s : Signal T) (hv : v.Shows s) (h1 : 1 ≤ s.numbers.count)
    (hsym : s.numbers.isComplex = false → F.isSymmetric = true) (b : Buffer T)
    (hroom : BufferOk b v.data (2 * (m * s.numbers.count))) (hb : ScratchOk K b (m * s.numbers.count))
    (hal : AlignmentAccepted addr k.len (2 * (m * s.numbers.count))) :
    ∃ w b', Always2 (v.interpolatei K k addr st F m b) (w, b', .ok ()) ∧
      w.Shows { s with
        numbers := s.numbers.receive ((K.inverse ((K.forward (interleaveSpec 0 m s.numbers.asCx)).mapIdx fun i c =>
          c * ⟨(m : T) * F.value (usedAxis F.isSymmetric (m * s.numbers.count) i * (m : T)), 0⟩)).map
            (Cx.scaleBy (1 / ((m * s.numbers.count : Nat) : T)))) } ∧
      w.data.kind = v.data.kind := by
  set n := s.numbers.count with hn
  have hcount : s.numbers.asCx.length = n := length_asCx _
  have hwf := hv.wf
  set A := interleaveSpec 0 m s.numbers.asCx with hA
  have hAl : A.length = m * n := by rw [hA, interleaveSpec_length _ _ (by omega), hcount]
  have hmn : 2 ≤ m * n := by nlinarith
  have hconv : ∃ c b1, v.zeroInterleaveB b (if v.isComplex then m else m * 2) = some (c, b1) ∧
      c.content = some (fromComplex A) ∧ c.SameMeta v ∧ BufferKept b v b1 c := by
    cases hN' : s.numbers with
    | complex cs =>
      have hc : v.isComplex = true := by rw [hv.isComplex, hN']; rfl
      have hlen : v.len = 2 * n := by rw [hv.len, hn, hN']; exact length_fromComplex cs
      have hcont : v.content = some (fromComplex cs) := by rw [hv.content, hN']; rfl
      obtain ⟨w, b', l, e1, e2, e3, e4⟩ := C09_zero_interleave_b v hwf b m (by omega)
        (by rw [hlen, show m * (2 * n) = 2 * (m * n) by ring]; exact hroom) (by omega)
      obtain ⟨⟨r, hr⟩, hvl⟩ := cells_of_content hcont
      have hp := pts_complex hc hr (by rw [hvl, length_fromComplex])
      rw [e2] at hp
      cases hp
      refine ⟨w, b', by rw [hc]; exact e1, ?_, e4, zeroInterleaveB_kept e1⟩
      have := content_of_pts_real e3
      rw [show v.zeroPoint = [0, 0] by simp [zeroPoint, stride, hc], interleave_complex_flatten] at this
      rw [this, hA, hN']; rfl
    | real xs =>
      have hc : v.isComplex = false := by rw [hv.isComplex, hN']; rfl
      have hlen : v.len = n := by rw [hv.len, hn, hN']; rfl
      have hcont : v.content = some xs := by rw [hv.content, hN']; rfl
      obtain ⟨w, b', l, e1, e2, e3, e4⟩ := C09_zero_interleave_b v hwf b (m * 2) (by omega)
        (by rw [hlen, show m * 2 * n = 2 * (m * n) by ring]; exact hroom) (by omega)
      obtain ⟨⟨r, hr⟩, hvl⟩ := cells_of_content hcont
      have hp := pts_real hc hr hvl.symm
      rw [e2] at hp
      cases hp
      refine ⟨w, b', by rw [hc]; exact e1, ?_, e4, zeroInterleaveB_kept e1⟩
      have := content_of_pts_real e3
      rw [show v.zeroPoint = [0] by simp [zeroPoint, stride, hc], interleave_real_flatten m (by omega)] at this
      rw [this, hA, hN']; rfl
  obtain ⟨c, b1, c1, c2, c3, c4⟩ := hconv
  have hcl : c.len = 2 * (m * n) := by
    have := (cells_of_content c2).2
    rw [length_fromComplex, hAl] at this; exact this
  have hb1 := c4.2 K _ hb
  -- the slice
  have hslice : (toStaticVec (.sliceMut (fromComplex A)) true false).OnSlice .time A :=
    ⟨(toStaticVec_slice A (.sliceMut (fromComplex A)) rfl (.inr rfl) false).1, rfl, rfl, rfl⟩
  obtain ⟨u, u1, u2, u3⟩ := fft_onSlice K hK hslice b1 (by rw [hAl]; exact hb1)
  have hfl : (K.forward A).length = m * n := by rw [hK.1, hAl]
  obtain ⟨q, q1, q2⟩ := multiplyBy_onSlice F.isSymmetric (m : T) F.value u2 (by omega)
  rw [hfl] at q2
  set B := (K.forward A).mapIdx fun i c => c * (⟨(m : T) * F.value (usedAxis F.isSymmetric (m * n) i * (m : T)), 0⟩ : Cx T) with hB
  have hBl : B.length = m * n := by rw [hB, List.length_mapIdx, hfl]
  obtain ⟨t, t1, t2⟩ := ifft_onSlice K hK q2 b1 (by rw [hBl]; exact hb1)
  have hSl : Always (fun sc => interpolateiSlice K F (m : T) (fromComplex A) b1 sc) t.data.cells := by
    refine q1.map (fun sc e => ?_) (fun sc e => ?_) <;>
    · simp only [interpolateiSlice, u1, e, Outcome.andThen, t1]
  obtain ⟨⟨s', hs'⟩, -⟩ := cells_of_content t2.content
  obtain ⟨rest, hrest⟩ := splice_prefix c.data.cells _ _ _ hs'
  set R := K.inverse B with hR
  have hRl : R.length = m * n := by rw [hR, hK.2, hBl]
  set y := c.withCells (splice c.data.cells 0 t.data.cells) with hy
  have hyc : y.content = some (fromComplex R) := content_of_cells (s := rest) hrest (by rw [length_fromComplex, hRl]; exact hcl)
  obtain ⟨x, x1, x2, x3, x4, x5, x6⟩ := scale_replaced k addr st (1 / ((m * n : Nat) : T)) y _ hyc (wf_of_content_complex hyc)
    (by rw [length_fromComplex, hRl]; exact hal)
  rw [fromComplex_scaleBy] at x2
  obtain ⟨⟨xs, hxs⟩, hxl⟩ := cells_of_content x2
  rw [length_fromComplex, List.length_map, hRl] at hxl
  have hm' : x.SameMeta v := ⟨x4.1.trans c3.1, x4.2.1.trans c3.2.1, x4.2.2.1.trans c3.2.2.1, x4.2.2.2.trans c3.2.2.2⟩
  have hguard : ¬ (F.isSymmetric = false ∧ v.isComplex = false) := by
    rintro ⟨f1, f2⟩
    rw [hv.isComplex] at f2
    rw [hsym f2] at f1; cases f1
  have hl2 : c.len / 2 = m * n := by omega
  cases hvc : v.isComplex with
  | true =>
    refine ⟨x, b1, ?_, ?_, hm'.2.2.2⟩
    · have hx1 := x1.andThen (f := fun u => .finished (u, b1, (.ok () : VoidResult))) rfl
      refine (Always2.of_andThen (g := fun cells sc => ((c.withCells (splice c.data.cells 0 cells)).scale k addr st
        (1 / ((m * n : Nat) : T)) sc).andThen fun u => .finished (u, b1, (.ok () : VoidResult))) hSl hx1).congr fun s1 s2 => ?_
      unfold interpolatei
      simp only [if_neg (by omega : ¬ m ≤ 1), if_neg hguard, c1, c2, hl2]
      simp only [hvc, if_true]
    · rw [hv.isComplex] at hvc
      cases hN : s.numbers with
      | real _ => rw [hN] at hvc; cases hvc
      | complex _ =>
        refine ⟨x2, ?_, ?_, hm'.1.trans hv.delta⟩
        · have := hv.space; rw [hN] at this; rw [← hm'.2.2.1] at this; exact this
        · have := hv.domain; rw [← hm'.2.1] at this; exact this
  | false =>
    obtain ⟨rr, r1, r2⟩ := complexToRealLoop_eq Cx.re (R.map (Cx.scaleBy (1 / ((m * n : Nat) : T)))) xs
    rw [← hxs, List.length_map, hRl] at r1
    have hxl2 : x.len / 2 = m * n := by show x.validLen / 2 = _; rw [hxl]; omega
    refine ⟨{ x.withCells ((R.map (Cx.scaleBy (1 / ((m * n : Nat) : T)))).map Cx.re ++ rr) with validLen := x.validLen / 2 }, b1, ?_, ?_,
      hm'.2.2.2⟩
    · have hx1 := x1.andThen (f := fun u : DspVec T => match complexToRealLoop Cx.re (u.len / 2) u.data.cells with
              | none => .panic
              | some cells => .finished ({ u.withCells cells with validLen := u.validLen / 2 }, b1, (.ok () : VoidResult)))
          (r' := ({ x.withCells ((R.map (Cx.scaleBy (1 / ((m * n : Nat) : T)))).map Cx.re ++ rr) with validLen := x.validLen / 2 }, b1,
            (.ok () : VoidResult))) (by simp only [hxl2, r1])
      refine (Always2.of_andThen (g := fun cells sc => ((c.withCells (splice c.data.cells 0 cells)).scale k addr st
        (1 / ((m * n : Nat) : T)) sc).andThen fun u : DspVec T => match complexToRealLoop Cx.re (u.len / 2) u.data.cells with
              | none => .panic
              | some cells => .finished ({ u.withCells cells with validLen := u.validLen / 2 }, b1, (.ok () : VoidResult)))
              hSl hx1).congr fun s1 s2 => ?_
      unfold interpolatei
      simp only [if_neg (by omega : ¬ m ≤ 1), if_neg hguard, c1, c2, hl2]
      simp only [hvc]
      rfl
    · rw [hv.isComplex] at hvc
      cases hN : s.numbers with
      | complex _ => rw [hN] at hvc; cases hvc
      | real _ =>
        refine ⟨?_, ?_, ?_, hm'.1.trans hv.delta⟩
        · refine content_of_cells (s := rr) rfl ?_
          show x.validLen / 2 = ((R.map (Cx.scaleBy (1 / ((m * n : Nat) : T)))).map Cx.re).length
          rw [hxl, List.length_map, List.length_map, hRl]; omega
        · have := hv.space; rw [hN] at this; rw [← hm'.2.2.1] at this; exact this
        · have := hv.domain; rw [← hm'.2.1] at this; exact this

/-- C58 (partial: a symmetric response needs an even number of points in the result, any other response an odd number, see
    `C58_response_odd_violated`): `interpolatei` with a factor of at least two, for real and complex vectors, every storage, buffer,
    settings and interleavings: `m - 1` zeros after every point, then the response. The sampling distance is not changed. -/
theorem C58_interpolatei_partial (K : FftKernel T) (hK : K.KeepsLength) (k : RegKind) (addr : Nat) (st : MultiCoreSettings)
    (F : FrequencyResponse T T) (m : Nat) (hm : 2 ≤ m) (v : DspVec T) (s : Signal T) (hv : v.Shows s) (h1 : 1 ≤ s.numbers.count)
    (hsym : s.numbers.isComplex = false → F.isSymmetric = true) (hF : ResponseFits (some F) (m * s.numbers.count)) (b : Buffer T)
    (hroom : BufferOk b v.data (2 * (m * s.numbers.count))) (hb : ScratchOk K b (m * s.numbers.count))
    (hal : AlignmentAccepted addr k.len (2 * (m * s.numbers.count))) :
    ∃ w b', Always2 (v.interpolatei K k addr st F m b) (w, b', .ok ()) ∧
      w.Shows { s with numbers := s.numbers.receive (interpolatedBy K F.value m s.numbers.asCx) } ∧
      w.data.kind = v.data.kind := by
  obtain ⟨w, b', w1, w2, w3⟩ := interpolatei_used K hK k addr st F m hm v s hv h1 hsym b hroom hb hal
  refine ⟨w, b', w1, ?_, w3⟩
  have hl : (K.forward (interleaveSpec 0 m s.numbers.asCx)).length = m * s.numbers.count := by
    rw [hK.1, interleaveSpec_length _ _ (by omega), length_asCx]
  have e : ((K.forward (interleaveSpec 0 m s.numbers.asCx)).mapIdx fun i c =>
          c * (⟨(m : T) * F.value (usedAxis F.isSymmetric (m * s.numbers.count) i * (m : T)), 0⟩ : Cx T)) =
      binFiltered F.value (m : T) (K.forward (interleaveSpec 0 m s.numbers.asCx)) := by
    unfold binFiltered
    rw [hl]
    apply List.ext_getElem (by simp)
    intro i i1 i2
    simp only [List.getElem_mapIdx]
    rw [usedAxis_value F.isSymmetric F.value _ i (hF F rfl).1 (hF F rfl).2]
  rw [e, ← length_asCx s.numbers] at w2
  exact w2

omit [IsStrictOrderedRing T] in
/-- C58: the factors zero and one change nothing; a real vector with a response which is not symmetric is rejected and not changed. -/
theorem C58_unchanged (K : FftKernel T) (k : RegKind) (addr : Nat) (st : MultiCoreSettings) (F : FrequencyResponse T T) (m : Nat)
    (v : DspVec T) (b : Buffer T) (s1 s2 : List Nat) :
    (m ≤ 1 → v.interpolatei K k addr st F m b s1 s2 = .finished (v, b, .ok ())) ∧
    (2 ≤ m → F.isSymmetric = false → v.isComplex = false →
      v.interpolatei K k addr st F m b s1 s2 = .finished (v, b, .error .argumentFunctionMustBeSymmetric)) := by
  refine ⟨fun h => ?_, fun h h2 h3 => ?_⟩
  · unfold interpolatei; rw [if_pos h]
  · unfold interpolatei; rw [if_neg (by omega), if_pos ⟨h2, h3⟩]

omit [IsStrictOrderedRing T] [LinearOrder T] in
theorem folded_filtered (f : T → T) (m : Nat) (X : List (Cx T)) (hf : NyquistResponse f m X.length) :
    foldedSpectrum m X.length (binFiltered f (m : T) (List.replicate m X).flatten) = X.map (Cx.scaleBy (m : T)) := by
  have hl : (List.replicate m X).flatten.length = m * X.length := by simp
  apply List.ext_getElem (by simp [foldedSpectrum])
  intro k h1 h2
  have hk : k < X.length := by simpa using h2
  simp only [foldedSpectrum, List.getElem_map, List.getElem_range]
  have e : (List.range m).map (fun j => (binFiltered f (m : T) (List.replicate m X).flatten).getD (k + j * X.length) 0) =
      (List.range m).map (fun j => X[k] * (⟨(m : T) * f (((binFrequency (m * X.length) (k + j * X.length) : Int) : T) /
        ((m * X.length / 2 : Nat) : T) * (m : T)), 0⟩ : Cx T)) := by
    refine List.map_congr_left fun j hj => ?_
    have hj := List.mem_range.1 hj
    have hlt : k + j * X.length < m * X.length := by nlinarith
    rw [List.getD_eq_getElem?_getD]
    unfold binFiltered
    rw [List.getElem?_mapIdx, getElem?_flatten_replicate _ _ _ hlt, Nat.add_mul_mod_self_right, Nat.mod_eq_of_lt hk,
      List.getElem?_eq_getElem hk, hl]
    rfl
  rw [e]
  have hs : ∀ (l : List Nat) (g : Nat → T) (c : Cx T), (l.map fun j => c * (⟨(m : T) * g j, 0⟩ : Cx T)).sum =
      Cx.scaleBy (m : T) (Cx.scaleBy (l.map g).sum c) := by
    intro l g c
    induction l with
    | nil => ext <;> simp [Cx.scaleBy]
    | cons x l ih =>
      rw [List.map_cons, List.sum_cons, ih, List.map_cons, List.sum_cons]
      ext <;> simp [Cx.scaleBy] <;> ring
  rw [hs, hf k hk]
  congr 1
  ext <;> simp [Cx.scaleBy]

/-- C58 (partial: as `C58_interpolatei_partial`): if the responses at the images of every frequency add up to one then the points of the
    signal are kept: they are the points `0, m, 2 m, ...` of the result. -/
theorem C58_keeps_points_partial (K : FftKernel T) (hK : K.Inverts) (hH : K.Homogeneous) (hR : K.Repeats) (hS : K.Folds) (k : RegKind)
    (addr : Nat) (st : MultiCoreSettings) (F : FrequencyResponse T T) (m : Nat) (hm : 2 ≤ m) (v : DspVec T) (s : Signal T)
    (hv : v.Shows s) (h1 : 1 ≤ s.numbers.count) (hsym : s.numbers.isComplex = false → F.isSymmetric = true)
    (hF : ResponseFits (some F) (m * s.numbers.count)) (hN : NyquistResponse F.value m s.numbers.count) (b : Buffer T)
    (hroom : BufferOk b v.data (2 * (m * s.numbers.count))) (hb : ScratchOk K b (m * s.numbers.count))
    (hal : AlignmentAccepted addr k.len (2 * (m * s.numbers.count))) :
    ∃ w b' M, Always2 (v.interpolatei K k addr st F m b) (w, b', .ok ()) ∧ w.Shows { s with numbers := M } ∧
      M.isComplex = s.numbers.isComplex ∧ M.count = m * s.numbers.count ∧
      ∀ i < s.numbers.count, M.asCx[m * i]? = s.numbers.asCx[i]? := by
  obtain ⟨w, b', w1, w2, -⟩ := C58_interpolatei_partial K hK.length k addr st F m hm v s hv h1 hsym hF b hroom hb hal
  have hcount : s.numbers.asCx.length = s.numbers.count := length_asCx _
  have hl : (interpolatedBy K F.value m s.numbers.asCx).length = m * s.numbers.count := by
    unfold interpolatedBy binFiltered
    rw [List.length_map, hK.length.2, List.length_mapIdx, hK.length.1, interleaveSpec_length _ _ (by omega), hcount]
  refine ⟨w, b', _, w1, w2, receive_isComplex _ _, ?_, fun i hi => receive_point _ _ _ _ ?_⟩
  · rw [← hl, ← length_asCx]
    cases s.numbers <;> simp [Numbers.receive, Numbers.asCx]
  · have hX : (K.forward s.numbers.asCx).length = s.numbers.count := by rw [hK.length.1, hcount]
    have hfold := folded_filtered F.value m (K.forward s.numbers.asCx) (by rw [hX]; exact hN)
    rw [hX] at hfold
    have hn0 : (s.numbers.count : T) ≠ 0 := by exact_mod_cast (by omega : s.numbers.count ≠ 0)
    have hm0 : (m : T) ≠ 0 := by exact_mod_cast (by omega : m ≠ 0)
    unfold interpolatedBy
    rw [List.getElem?_map, hS m s.numbers.count _ (by omega) (by
      unfold binFiltered
      rw [List.length_mapIdx, hK.length.1, interleaveSpec_length _ _ (by omega), hcount]) i hi, hR m _ (by omega), hfold, hH,
      hK.back, scaleBy_scaleBy, ← List.getElem?_map, scaleBy_scaleBy, hcount]
    have : 1 / ((m * s.numbers.count : Nat) : T) * ((m : T) * (s.numbers.count : T)) = 1 := by push_cast; field_simp
    rw [this, scaleBy_one]

/-- C58 (partial: as `C58_interpolatei_partial`): `decimatei` is the inverse function of `interpolatei`, for the responses of
    `C58_keeps_points_partial`. -/
theorem C58_decimatei_restores_partial (K : FftKernel T) (hK : K.Inverts) (hH : K.Homogeneous) (hR : K.Repeats) (hS : K.Folds)
    (k : RegKind) (addr : Nat) (st : MultiCoreSettings) (F : FrequencyResponse T T) (m : Nat) (hm : 2 ≤ m) (v : DspVec T) (s : Signal T)
    (hv : v.Shows s) (h1 : 1 ≤ s.numbers.count) (hsym : s.numbers.isComplex = false → F.isSymmetric = true)
    (hF : ResponseFits (some F) (m * s.numbers.count)) (hN : NyquistResponse F.value m s.numbers.count) (b : Buffer T)
    (hroom : BufferOk b v.data (2 * (m * s.numbers.count))) (hb : ScratchOk K b (m * s.numbers.count))
    (hal : AlignmentAccepted addr k.len (2 * (m * s.numbers.count))) :
    ∃ w b' u, Always2 (v.interpolatei K k addr st F m b) (w, b', .ok ()) ∧ w.decimatei m 0 = some u ∧ u.Shows s := by
  obtain ⟨w, b', M, w1, w2, w3, w4, w5⟩ := C58_keeps_points_partial K hK hH hR hS k addr st F m hm v s hv h1 hsym hF hN b hroom hb hal
  obtain ⟨u, L', u1, u2, u3, u4, -⟩ := C41_decimatei w _ w2.pts m 0 (by omega)
  refine ⟨w, b', u, w1, u1, ?_⟩
  have hL : L' = s.numbers.pointLists := by
    apply List.ext_getElem?
    intro t
    rw [u3 t, Nat.zero_add, Nat.mul_comm]
    by_cases ht : t < s.numbers.count
    · have := w5 t ht
      show M.pointLists[m * t]? = _
      revert w3 this
      cases M with
      | real xs =>
        cases s.numbers with
        | complex _ => intro h; cases h
        | real ys =>
          intro _ this
          simp only [Numbers.pointLists, Numbers.asCx, List.getElem?_map] at this ⊢
          cases hx : xs[m * t]? <;> cases hy : ys[t]? <;> rw [hx, hy] at this <;> simp [Cx.ofReal] at this ⊢
          exact this
      | complex xs =>
        cases s.numbers with
        | real _ => intro h; cases h
        | complex ys =>
          intro _ this
          simp only [Numbers.pointLists, Numbers.asCx, List.getElem?_map] at this ⊢
          rw [this]
    · have e1 : s.numbers.pointLists.length = s.numbers.count := by cases s.numbers <;> simp [Numbers.pointLists, Numbers.count]
      have e2 : M.pointLists.length = M.count := by cases M <;> simp [Numbers.pointLists, Numbers.count]
      have : m * s.numbers.count ≤ m * t := Nat.mul_le_mul_left _ (by omega)
      rw [List.getElem?_eq_none (l := s.numbers.pointLists) (by rw [e1]; omega)]
      exact List.getElem?_eq_none (l := M.pointLists) (by rw [e2, w4]; exact this)
  have h3 := w2.of_pts u4 (N := s.numbers) w3.symm (by rw [u2, hL])
  exact h3

end
end Dsp
