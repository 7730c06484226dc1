import Verif.Props.Refinement
import Verif.Props.Dft
import Verif.Props.SymFft
/-
C34: the transforms with a window.
-/
namespace Dsp
open DspVec
variable {T : Type} [Field T]

theorem cpoints_windowed {v w : DspVec T} {f : Nat → T} {cs : List (Cx T)} (h : v.cpoints = some cs)
    (hw : Windowed v w f) : w.cpoints = some (cs.mapIdx fun i c => Cx.scaleBy (f i) c) := by
  obtain ⟨a, h1, h2, h3, ⟨m1, m2, m3, m4⟩, -⟩ := hw
  have hcx : w.isComplex = v.isComplex := by unfold isComplex; rw [m3]
  cases hc : v.isComplex with
  | true =>
    have h4 := (cpoints_complex hc).mp h
    rw [h1] at h4
    cases h4
    refine (cpoints_complex (hcx.trans hc)).mpr ?_
    rw [h2, show v.stride = 2 by unfold stride; rw [hc]; rfl, ← fromComplex_weight f cs]
    simp only [Cx.scaleBy, mul_comm]
  | false =>
    obtain ⟨c, h4, rfl⟩ := (cpoints_real hc).mp h
    rw [h1] at h4
    cases h4
    refine (cpoints_real (hcx.trans hc)).mpr ⟨_, h2, ?_⟩
    rw [show v.stride = 1 by unfold stride; rw [hc]; rfl]
    apply List.ext_getElem?
    intro i
    simp only [List.getElem?_mapIdx, List.getElem?_map, Nat.div_one]
    cases a[i]? <;> simp [Cx.scaleBy, Cx.ofReal, mul_comm]

theorem windowed_keeps {v w : DspVec T} {f : Nat → T} (hv : v.WF) (hw : Windowed v w f) :
    w.WF ∧ w.points = v.points ∧ w.len = v.len ∧ w.SameMeta v ∧ w.data.cells.length = v.data.cells.length := by
  obtain ⟨a, h1, h2, h3, ⟨m1, m2, m3, m4⟩, h5, -⟩ := hw
  have hcx : w.isComplex = v.isComplex := by unfold isComplex; rw [m3]
  exact ⟨⟨by rw [h3, h5]; exact hv.1, fun hc => by rw [h3]; exact hv.2 (by rw [← hcx]; exact hc)⟩,
    by unfold points; rw [h3, hcx], h3, ⟨m1, m2, m3, m4⟩, h5⟩

theorem bufferOk_of_windowed {K : FftKernel T} {b : Buffer T} {v w : DspVec T} {f : Nat → T} (hv : v.WF) (hw : Windowed v w f)
    (hb : TransformBufferOk K b v) : TransformBufferOk K b w := by
  obtain ⟨-, k2, k3, k4, k5⟩ := windowed_keeps hv hw
  obtain ⟨h1, h2⟩ := hb
  have hcx : w.isComplex = v.isComplex := by unfold isComplex; rw [k4.2.2.1]
  refine ⟨fun h => ?_, by rw [k2]; exact h2⟩
  rw [hcx] at h
  rw [k3]
  refine ⟨(h1 h).1, ?_⟩
  have := (h1 h).2
  unfold BufferOk at *
  rw [k5]
  exact this

omit [Field T] in
theorem typed_of_sameMeta {v w : DspVec T} (h : w.SameMeta v) : (w.Typed ↔ v.Typed) ∧ (w.Generic ↔ v.Generic) ∧ w.dom = v.dom := by
  obtain ⟨m1, m2, m3, m4⟩ := h
  unfold Typed Generic dom
  rw [m2, m3]
  exact ⟨Iff.rfl, Iff.rfl, rfl⟩

/-- C34: `windowed_fft` multiplies every point with the window and then does what `fft` does: the forward
    transform, with the zero frequency in the middle. For a window which is declared symmetric see the conditions of C16. -/
theorem C34_windowed_fft (K : FftKernel T) (hK : K.KeepsLength) (st : MultiCoreSettings) (win : WindowFunction T)
    (v : DspVec T) (hv : v.WF) (ht : v.Typed) (hd : v.dom = .time) (b : Buffer T) (hb : TransformBufferOk K b v)
    (hw : WindowSafe v st win) :
    ∃ w b' cs, Always (v.windowedFft K st win b) (w, b') ∧ v.cpoints = some cs ∧
      w.cpoints = some (rotateRight (K.forward (cs.mapIdx fun i c => Cx.scaleBy (win.window i cs.length) c)) (cs.length / 2)) ∧
      w.points = v.points ∧ w.isComplex = true ∧ w.dom = .frequency ∧ w.Typed ∧ (w.Generic ↔ v.Generic) ∧ w.WF := by
  obtain ⟨u, h1, h2⟩ := windowed_of_safe hv st win hw
  obtain ⟨k1, k2, k3, k4, k5⟩ := windowed_keeps hv h2
  obtain ⟨t1, t2, t3⟩ := typed_of_sameMeta k4
  obtain ⟨w, b', cs', e1, e2, e3, e4, e5, e6, e7, e8, e9, -⟩ :=
    C34_fft K hK u k1 (t1.2 ht) (t3.trans hd) b (bufferOk_of_windowed hv h2 hb)
  have hcs : ∃ cs, v.cpoints = some cs := by
    cases hc : v.isComplex with
    | true =>
      obtain ⟨cs, h, -⟩ := hv.content_even hc
      exact ⟨cs, (cpoints_complex hc).mpr h⟩
    | false => exact ⟨_, (cpoints_real hc).mpr ⟨_, hv.content_eq, rfl⟩⟩
  obtain ⟨cs, hcs⟩ := hcs
  have := cpoints_windowed hcs h2
  rw [e2, Option.some.injEq] at this
  subst this
  have hl := length_of_cpoints hcs
  refine ⟨w, b', cs, h1.andThen (by rw [e1]; rfl), hcs, ?_, e4.trans k2, e5, e6, e7, e8.trans t2, e9⟩
  rw [e3, hl, List.length_mapIdx, hl]

/-- C34: `windowed_ifft` of `windowed_fft` with the same window and settings restores the points of the vector, for every window
    without zeros, every schedule of the workers of each of the calls, real (`x` becomes `x + 0j`) and complex vectors. -/
theorem C34_windowed_round_trip [CharZero T] (K : FftKernel T) (hK : K.Inverts) (hh : K.Homogeneous) (k : RegKind) (addr : Nat)
    (st : MultiCoreSettings) (win : WindowFunction T) (v : DspVec T) (hv : v.WF) (ht : v.Typed) (hd : v.dom = .time)
    (b : Buffer T) (hb : TransformBufferOk K b v) (h2 : 2 ≤ v.points) (hal : AlignmentAccepted addr k.len (2 * v.points))
    (hw : ∀ i < v.points, win.window i v.points ≠ 0) (hp : win.isSymmetric = true → st.coreLimit ≠ 0) :
    ∃ w b' u b'' cs, Always (v.windowedFft K st win b) (w, b') ∧
      (∀ sched sched2, w.windowedIfft K k addr st win b' sched sched2 = .running ∨
        w.windowedIfft K k addr st win b' sched sched2 = .finished (u, b'')) ∧
      (∃ sched sched2, w.windowedIfft K k addr st win b' sched sched2 = .finished (u, b'')) ∧
      v.cpoints = some cs ∧ u.cpoints = some cs ∧ u.isComplex = true ∧ u.points = v.points := by
  obtain ⟨g, g', hg, H1, H2⟩ := window_factors st win v.points hw (by
    cases hs : win.isSymmetric with
    | true => exact .inl ⟨rfl, h2, hp hs⟩
    | false => exact .inr ⟨rfl, by omega⟩)
  obtain ⟨x, x1, x2⟩ := H1 v hv rfl
  obtain ⟨k1, k2, k3, k4, k5⟩ := windowed_keeps hv x2
  obtain ⟨t1, t2, t3⟩ := typed_of_sameMeta k4
  obtain ⟨w, b', y, b'', cs', e1, e2, e3, e4, e5, e6⟩ :=
    C34_round_trip K hK hh k addr st x k1 (t1.2 ht) (t3.trans hd) b (bufferOk_of_windowed hv x2 hb) (by omega) (by rw [k2]; exact hal)
  have hyc := (cpoints_complex e5).mp e4
  obtain ⟨u, u1, u2⟩ := H2 y (wf_of_content_complex hyc) (e6.trans k2)
  obtain ⟨l1, l2, l3, l4, l5⟩ := windowed_keeps (wf_of_content_complex hyc) u2
  have hcs : ∃ cs, v.cpoints = some cs := by
    cases hc : v.isComplex with
    | true =>
      obtain ⟨cs, h, -⟩ := hv.content_even hc
      exact ⟨cs, (cpoints_complex hc).mpr h⟩
    | false => exact ⟨_, (cpoints_real hc).mpr ⟨_, hv.content_eq, rfl⟩⟩
  obtain ⟨cs, hcs⟩ := hcs
  have hx := cpoints_windowed hcs x2
  rw [e3, Option.some.injEq] at hx
  have hu := cpoints_windowed e4 u2
  have hl := length_of_cpoints hcs
  have hall : ∀ sched sched2, w.windowedIfft K k addr st win b' sched sched2 = .running ∨
        w.windowedIfft K k addr st win b' sched sched2 = .finished (u, b'') := by
    intro s s2
    unfold windowedIfft
    rcases e2.1 s with h | h <;> rw [h]
    · exact .inl rfl
    · rcases u1.1 s2 with h | h <;> simp [Outcome.andThen, h]
  refine ⟨w, b', u, b'', cs, x1.andThen (by rw [e1]; rfl), hall, ?_, hcs, ?_, ?_, ?_⟩
  · obtain ⟨s, hs⟩ := e2.2
    obtain ⟨s2, hs2⟩ := u1.2
    exact ⟨s, s2, by unfold windowedIfft; rw [hs]; simp [Outcome.andThen, hs2]⟩
  · rw [hu, hx]
    congr 1
    apply List.ext_getElem?
    intro i
    rw [List.getElem?_mapIdx, List.getElem?_mapIdx]
    cases hi : cs[i]? with
    | none => rfl
    | some c =>
      have hlt : i < cs.length := by
        by_contra hcon
        rw [List.getElem?_eq_none (by omega)] at hi; cases hi
      have := hg i (by omega)
      have e (z : T) : g' i * (g i * z) = z := by rw [← mul_assoc, mul_comm (g' i), this, one_mul]
      simp only [Option.map_some, Cx.scaleBy, e]
  · rw [← e5]; unfold isComplex; rw [l4.2.2.1]
  · exact l2.trans (e6.trans k2)

/-- The last steps of `sfft` and `windowed_sfft` for a `RealTimeVec`. -/
theorem sfft_finish (K : FftKernel T) (hK : K.KeepsLength) (hper : K.Periodic) (w1 : DspVec T) (c : List T) (hn1 : w1.numberSpace = .real)
    (hd1 : w1.domain = .time) (hc1 : w1.content = some (fromComplex (c.map Cx.ofReal))) (hodd : c.length % 2 = 1) (b0 : Buffer T)
    (hb : BufferOk b0 w1.data (4 * c.length)) (hsc : ScratchOk K b0 (2 * c.length)) :
    ∃ u b2 w, w1.fft K b0 = some (u, b2) ∧ u.unmirror w1.points = some w ∧
      w.cpoints = some ((K.forward (c.map Cx.ofReal)).take (c.length / 2 + 1)) ∧ w.numberSpace = .complex ∧ w.domain = .freq ∧ w.WF := by
  have hv1 : w1.validLen = 2 * c.length := by
    obtain ⟨-, hl⟩ := cells_of_content hc1
    rw [hl]; simp
  have hr1 : w1.isComplex = false := by unfold isComplex; rw [hn1]; rfl
  have hdm1 : w1.dom = .time := by unfold dom; rw [hd1]; rfl
  have hp1 : w1.points = 2 * c.length := by unfold points; rw [hr1]; simp [hv1]
  have ht1 : w1.Typed := .inr ⟨.inl hn1, .inl hd1⟩
  have hbo : TransformBufferOk K b0 w1 :=
    ⟨fun _ => ⟨by unfold len; omega, by
      have e : 2 * w1.len = 4 * c.length := by unfold len; omega
      rw [e]; exact hb⟩, by rw [hp1]; exact hsc⟩
  have hw1w := wf_of_content_complex hc1
  have hcp : w1.cpoints = some (interleaveSpec ⟨0, 0⟩ 2 (c.map Cx.ofReal)) :=
    (cpoints_real hr1).mpr ⟨_, hc1, (ofReal_fromComplex c).symm⟩
  have hXl : (K.forward (c.map Cx.ofReal)).length = c.length := by rw [hK.1]; simp
  have htake : ∀ Y : List (Cx T), Y = K.forward (c.map Cx.ofReal) ++ K.forward (c.map Cx.ofReal) →
      Y.take ((2 * c.length / 2 + 1) / 2) = (K.forward (c.map Cx.ofReal)).take (c.length / 2 + 1) := by
    rintro Y rfl
    have : (2 * c.length / 2 + 1) / 2 = c.length / 2 + 1 := by omega
    rw [this, List.take_append_of_le_length (by omega)]
  obtain ⟨u', b2, cs', f1', f2', f3', f4', f5', f6', f7', f8', f9', f10', f11'⟩ :=
    C34_fft K hK w1 hw1w ht1 hdm1 b0 hbo
  rw [hcp] at f2'
  cases f2'
  rw [hper] at f3'
  have hrot : rotateRight (K.forward (c.map Cx.ofReal) ++ K.forward (c.map Cx.ofReal))
      ((interleaveSpec ⟨0, 0⟩ 2 (c.map (Cx.ofReal (T := T)))).length / 2) =
      K.forward (c.map Cx.ofReal) ++ K.forward (c.map Cx.ofReal) := by
    have e : (interleaveSpec ⟨0, 0⟩ 2 (c.map (Cx.ofReal (T := T)))).length / 2 = c.length := by
      rw [interleaveSpec_length _ _ (by omega)]; simp
    rw [e]
    unfold rotateRight
    have e2 : (K.forward (c.map Cx.ofReal) ++ K.forward (c.map Cx.ofReal)).length - c.length =
      (K.forward (c.map Cx.ofReal)).length := by simp [hXl]
    rw [e2]; simp
  rw [hrot] at f3'
  obtain ⟨w', g1', ⟨n1', n2', n3', n4'⟩, g3', g4', g5'⟩ := (unmirror_spec u' f5' _ f3' (2 * c.length)
    (by simp [hXl]; omega)).2 (by omega)
  have hng : ¬ w1.Generic := by rintro ⟨_, _, h, _⟩; rw [hn1] at h; cases h
  have hst : u'.numberSpace = .complex ∧ u'.domain = .freq := by
    rcases f7' with ht | ⟨h1, h2⟩
    · exact absurd (f8'.1 ht) hng
    · constructor
      · rcases h1 with h1 | h1
        · unfold isComplex at f5'; rw [h1] at f5'; exact absurd f5' (by decide)
        · exact h1
      · rcases h2 with h2 | h2
        · unfold dom at f6'; rw [h2] at f6'; exact absurd f6' (by decide)
        · exact h2
  exact ⟨u', b2, w', f1', by rw [hp1]; exact g1', by rw [g3', htake _ rfl], by rw [n3', hst.1], by rw [n2', hst.2], g5'⟩

/-- C49 is violated by `windowed_sfft` (type `RealTimeVec`, an odd number `n` of points): the window is applied after the zeros are
    inserted, thus number `i` is multiplied by the value of the window for the point `2 i` of `2 n` points instead of `i` of `n`. -/
theorem C49_windowed_sfft_violated (K : FftKernel T) (hK : K.KeepsLength) (hper : K.Periodic) (st : MultiCoreSettings)
    (win : WindowFunction T) (v : DspVec T) (hv : v.WF) (hs : v.numberSpace = .real) (hd : v.domain = .time)
    (hodd : v.len % 2 = 1) (b : Buffer T) (hb : BufferOk b v.data (4 * v.len)) (hsc : ScratchOk K b (2 * v.len))
    (hw : win.isSymmetric = false ∨ win.isSymmetric = true ∧ SymmetricAt win (2 * v.len) ∧ st.coreLimit = 1) :
    ∃ w b' c, Always (v.windowedSfft K st win b) (w, b', .ok ()) ∧ v.content = some c ∧
      w.cpoints = some ((K.forward ((c.mapIdx fun i x => x * win.window (2 * i) (2 * c.length)).map Cx.ofReal)).take (c.length / 2 + 1)) ∧
      w.numberSpace = .complex ∧ w.domain = .freq ∧ w.WF := by
  have hr : v.isComplex = false := by unfold isComplex; rw [hs]; rfl
  have hdom : v.dom = .time := by unfold dom; rw [hd]; rfl
  have hpts : v.points = v.len := by unfold points; rw [hr]; simp [len]
  have hb2 : BufferOk b v.data (2 * v.len) := by
    unfold BufferOk at *; cases b <;> simp_all; omega
  obtain ⟨w0, b0, c, z1, z2, z3, ⟨m1, m2, m3, m4⟩, z4, z5⟩ := sfft_start v hv hr b hb2 (by omega)
  have hw1n : w0.numberSpace.toComplex = .real := by rw [m3, hs]; rfl
  generalize hw1 : ({ w0 with numberSpace := w0.numberSpace.toComplex } : DspVec T) = w1
  have hn1 : w1.numberSpace = .real := by rw [← hw1]; exact hw1n
  have hd1 : w1.domain = .time := by rw [← hw1]; show w0.domain = _; rw [m2, hd]
  have hc1 : w1.content = some (fromComplex (c.map Cx.ofReal)) := by rw [← hw1]; exact z3
  have hk1 : BufferKept b v b0 w1 := by rw [← hw1]; exact z4.congr rfl
  have hr1 : w1.isComplex = false := by unfold isComplex; rw [hn1]; rfl
  have hv1 : w1.validLen = 2 * c.length := by
    obtain ⟨-, hl⟩ := cells_of_content hc1
    rw [hl]; simp
  have hp1 : w1.points = 2 * v.len := by unfold points; rw [hr1]; simp [hv1, z5]
  obtain ⟨x, x1, x2⟩ := windowed_of_safe (wf_of_content_complex hc1) st win (by
    rcases hw with h | ⟨h, h', h''⟩
    · exact .inl ⟨h, by omega⟩
    · refine .inr ⟨h, by rw [hp1]; exact h', by omega, .inl ?_⟩
      unfold determineNumberOfChunks
      rw [if_pos h'', h''])
  obtain ⟨k1, k2, k3, ⟨k4, k5, k6, k7⟩, k8⟩ := windowed_keeps (wf_of_content_complex hc1) x2
  have hxc : x.content = some (fromComplex ((c.mapIdx fun i x => x * win.window (2 * i) (2 * c.length)).map Cx.ofReal)) := by
    obtain ⟨a, a1, a2, -⟩ := x2
    rw [hc1, Option.some.injEq] at a1
    subst a1
    rw [a2, show w1.stride = 1 by unfold stride; rw [hr1]; rfl, hp1, z5]
    congr 1
    apply List.ext_getElem?
    intro p
    obtain ⟨k, rfl | rfl⟩ : ∃ k, p = 2 * k ∨ p = 2 * k + 1 := ⟨p / 2, by omega⟩
    · rw [getElem?_fromComplex_even, List.getElem?_mapIdx, getElem?_fromComplex_even]
      simp only [List.getElem?_map, List.getElem?_mapIdx]
      cases c[k]? <;> simp [Cx.ofReal]
    · rw [getElem?_fromComplex_odd, List.getElem?_mapIdx, getElem?_fromComplex_odd]
      simp only [List.getElem?_map, List.getElem?_mapIdx]
      cases c[k]? <;> simp [Cx.ofReal]
  have hb0 : BufferOk b0 x.data (4 * v.len) := by
    have := hk1.1 _ hb
    unfold BufferOk at *
    rw [k8]; exact this
  obtain ⟨u, b2, w, g1, g2, g3, g4, g5, g6⟩ := sfft_finish K hK hper x _ (by rw [k6, hn1]) (by rw [k5, hd1]) hxc
    (by simp [z5, hodd]) b0 (by simpa [z5] using hb0) (by simpa [z5] using hk1.2 _ _ hsc)
  have hchk : v.sfftCheck = none := by
    unfold sfftCheck
    rw [if_neg (by simp [hdom, hr]), if_neg (by rw [hpts]; omega)]
  refine ⟨w, b2, c, ?_, z2, by simpa using g3, g4, g5, g6⟩
  unfold windowedSfft
  simp only [hchk, z1, Outcome.ofOption, Outcome.andThen, hw1]
  refine x1.map (fun s e => by simp [e]) (fun s e => ?_)
  simp [e, g1, g2]

/-- C49 is violated by `windowed_sifft`, see `C49_sifft_violated`. -/
theorem C49_windowed_sifft_violated (tiny : T → Bool) (K : FftKernel T) (k : RegKind) (addr : Nat) (win : WindowFunction T)
    (st : MultiCoreSettings) (v : DspVec T) (hv : v.WF) (hc : v.isComplex = true) (hd : v.dom = .frequency)
    (cs : List (Cx T)) (h : v.cpoints = some cs) (c : Cx T) (hmid : cs[cs.length / 2]? = some c)
    (h2 : 2 ≤ cs.length) (hbad : tiny (c.im * (1 / (cs.length : T))) = false) (b : Buffer T)
    (hal : ComplexAlignmentAccepted addr k.len v.len) :
    (∃ sched, ∀ sched2 sched3, ∃ w, v.windowedSifft tiny K k addr st win b sched sched2 sched3 =
      .finished (w, b, .error .inputMustBeConjSymmetric)) ∧
    ∀ sched sched2 sched3 w b', v.windowedSifft tiny K k addr st win b sched sched2 sched3 ≠ .finished (w, b', .ok ()) := by
  obtain ⟨⟨s, hs⟩, hn⟩ := C49_sifft_violated tiny K k addr st v hv hc hd cs h c hmid h2 hbad b hal
  refine ⟨⟨s, fun s2 s3 => ?_⟩, fun s s2 s3 w b' hcon => ?_⟩
  · obtain ⟨w, hw⟩ := hs s2
    exact ⟨w, by unfold windowedSifft; rw [hw]; rfl⟩
  · unfold windowedSifft at hcon
    cases he : v.sifft tiny K k addr st b s s2 with
    | panic => rw [he] at hcon; cases hcon
    | running => rw [he] at hcon; cases hcon
    | finished r =>
      rw [he] at hcon
      obtain ⟨w', b'', r⟩ := r
      cases r with
      | ok u => exact hn s s2 w' b'' he
      | error e => cases hcon

/-- The hypotheses of `C34_windowed_fft` and `C34_windowed_round_trip`: three points, one core and a Hamming window. -/
example : ∃ v : DspVec ℝ, v.WF ∧ v.Typed ∧ v.dom = .time ∧ TransformBufferOk dftKernel (.single []) v ∧ 2 ≤ v.points ∧
    WindowSafe v ⟨1, 0, 0, 0, 0⟩ (hamming (27 / 50)) ∧ (∀ i < v.points, (hamming (27 / 50)).window i v.points ≠ 0) ∧
    AlignmentAccepted 0 (RegKind.sseF32x4).len (2 * v.points) :=
  ⟨⟨⟨.vec, [1, 2, 3, 4]⟩, none, .time, .real, 3⟩, by decide, .inr ⟨.inl rfl, .inl rfl⟩, rfl,
    ⟨fun _ => ⟨by decide, trivial⟩, trivial⟩, by decide,
    .inr ⟨rfl, (C16_shipped_windows_symmetric 3 (by omega) _).2.1, by decide, .inl (by decide)⟩,
    fun i hi => (C17_shipped_windows_nonzero 3 i hi (27 / 50) (by norm_num) (by norm_num)).2.1, .inl (by decide)⟩

/-- The hypotheses of `C49_windowed_sfft_violated`, and a window whose values differ: the numbers are multiplied by other factors. -/
example : dftKernel.KeepsLength ∧ dftKernel.Periodic ∧
    (⟨⟨.vec, [1, 2, 3, 4]⟩, none, .time, .real, 3⟩ : DspVec ℝ).WF ∧
    BufferOk (.single []) (⟨.vec, [1, 2, 3, 4]⟩ : Storage ℝ) 12 ∧ ScratchOk dftKernel (.single []) 6 ∧
    SymmetricAt triangular (2 * 3) ∧ triangular.window (2 * 1) (2 * 3) ≠ triangular.window 1 3 :=
  ⟨dft_inverts.length, dft_periodic, by decide, trivial, trivial, (C16_shipped_windows_symmetric 6 (by omega) 1).1, by
    simp only [triangular]; norm_num [abs_of_neg]⟩

/-- The hypotheses of `C49_windowed_sifft_violated`. -/
example : (⟨⟨.vec, [1, 0, 2, 5, 3, 1]⟩, none, .freq, .complex, 6⟩ : DspVec ℝ).cpoints = some [⟨1, 0⟩, ⟨2, 5⟩, ⟨3, 1⟩] ∧
    (⟨⟨.vec, [1, 0, 2, 5, 3, 1]⟩, none, .freq, .complex, 6⟩ : DspVec ℝ).WF ∧
    ComplexAlignmentAccepted 0 (RegKind.sseF32x4).len 6 :=
  ⟨rfl, by decide, .inl (by decide), by decide⟩

end Dsp
