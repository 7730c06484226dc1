import Verif.Props.Fft
/-
C49: the symmetric transforms `sfft`, `plain_sfft`, `plain_sifft`, `sifft`.
-/
namespace Dsp
open DspVec
variable {T : Type}

/-- Specification: the transform of data with a zero after each point is the transform of the data,
    twice (the spectrum of a signal with inserted zeros is periodic). -/
def FftKernel.Periodic [Zero T] (K : FftKernel T) : Prop :=
  ∀ cs, K.forward (interleaveSpec ⟨0, 0⟩ 2 cs) = K.forward cs ++ K.forward cs

/-- Specification: the transform of real data is conjugate symmetric and its first point is real. -/
def FftKernel.RealSymmetric [Zero T] [Neg T] (K : FftKernel T) : Prop :=
  ∀ c : List T, ConjSymmetric (K.forward (c.map Cx.ofReal)) ∧
    ∀ c0, (K.forward (c.map Cx.ofReal))[0]? = some c0 → c0.im = 0

theorem ofReal_fromComplex [Zero T] (c : List T) :
    (fromComplex (c.map Cx.ofReal)).map Cx.ofReal = interleaveSpec ⟨0, 0⟩ 2 (c.map Cx.ofReal) := by
  induction c with
  | nil => rfl
  | cons x c ih =>
    simp only [List.map_cons, fromComplex, interleaveSpec, List.flatMap_cons] at ih ⊢
    rw [ih]; rfl

/-- The first step of the symmetric transforms. -/
theorem sfft_start [Zero T] (v : DspVec T) (hv : v.WF) (hr : v.isComplex = false) (b : Buffer T)
    (hb : BufferOk b v.data (2 * v.len)) (hne : v.len ≠ 0) :
    ∃ w b' c, v.zeroInterleaveB b 2 = some (w, b') ∧ v.content = some c ∧
      w.content = some (fromComplex (c.map Cx.ofReal)) ∧ w.SameMeta v ∧ BufferKept b v b' w ∧
      c.length = v.len := by
  obtain ⟨w, b', l, h1, h2, h3, m⟩ := C09_zero_interleave_b v hv b 2 (by omega) hb hne
  obtain ⟨c, s, c1, c2⟩ := hv.real
  have hl := pts_real hr c1 c2
  rw [h2] at hl
  cases hl
  have hz : v.zeroPoint = [0] := by simp [zeroPoint, stride, hr]
  have h4 := content_of_pts_real h3
  rw [hz, interleave_two_flatten] at h4
  exact ⟨w, b', c, h1, content_of_cells c1 c2.symm, h4, m, zeroInterleaveB_kept h1, c2⟩

/-- Shrinking of a complex vector by `unmirror!`. -/
theorem unmirror_spec [Zero T] (v : DspVec T) (hc : v.isComplex = true) (X : List (Cx T))
    (h : v.cpoints = some X) (points : Nat) (hp : points / 2 + 1 ≤ 2 * X.length) :
    ((points / 2 + 1) % 2 = 1 → v.unmirror points = none) ∧
    ((points / 2 + 1) % 2 = 0 → ∃ w, v.unmirror points = some w ∧ w.SameMeta v ∧
      w.cpoints = some (X.take ((points / 2 + 1) / 2)) ∧ w.data = v.data ∧ w.WF) := by
  have hcont := (cpoints_complex hc).mp h
  obtain ⟨⟨s, hs⟩, hl⟩ := cells_of_content hcont
  rw [length_fromComplex] at hl
  constructor
  · intro ho
    unfold unmirror resize
    rw [if_pos (by simp [hc]; omega)]
  · intro he
    have e : v.resize (points / 2 + 1) = ({ v with validLen := points / 2 + 1 }, .ok ()) := by
      unfold resize
      rw [if_neg (by simp [he]), if_neg (by unfold allocLen; rw [hs]; simp; omega)]
    refine ⟨{ v with validLen := points / 2 + 1 }, by unfold unmirror; rw [e], ⟨rfl, rfl, rfl, rfl⟩, ?_, rfl, ?_⟩
    · refine (cpoints_complex (by exact hc)).mpr ?_
      refine content_of_cells (s := fromComplex (X.drop ((points / 2 + 1) / 2)) ++ s) ?_ ?_
      · show v.data.cells = _
        rw [← List.append_assoc, ← fromComplex_append, List.take_append_drop, hs]
      · show points / 2 + 1 = _
        simp; omega
    · refine ⟨?_, fun _ => he⟩
      show points / 2 + 1 ≤ v.data.cells.length
      rw [hs]; simp; omega

/-- C49 (partial): `plain_sfft` and `sfft` of a real time vector (the type `RealTimeVec`) with an odd
    number `n` of points both give the first `n/2 + 1` points of the forward transform, as a complex vector in
    frequency domain. Missing: generic vectors, see `C49_generic_violated`. -/
theorem C49_sfft_static_partial [Zero T] [Mul T] [NatCast T] (K : FftKernel T) (hK : K.KeepsLength)
    (hper : K.Periodic) (v : DspVec T) (hv : v.WF) (hs : v.numberSpace = .real) (hd : v.domain = .time)
    (hodd : v.len % 2 = 1) (b : Buffer T) (hb : BufferOk b v.data (4 * v.len))
    (hsc : ScratchOk K b (2 * v.len)) :
    ∃ w b' w' b'' c, v.plainSfft K b = some (w, b', .ok ()) ∧ v.sfft K b = some (w', b'', .ok ()) ∧
      v.content = some c ∧
      w.cpoints = some ((K.forward (c.map Cx.ofReal)).take (v.len / 2 + 1)) ∧
      w'.cpoints = some ((K.forward (c.map Cx.ofReal)).take (v.len / 2 + 1)) ∧
      w.numberSpace = .complex ∧ w.domain = .freq ∧ w.WF ∧ BufferKept b v b' w ∧
      w'.numberSpace = .complex ∧ w'.domain = .freq ∧ w'.WF := by
  have hr : v.isComplex = false := by unfold isComplex; rw [hs]; rfl
  have hdom : v.dom = .time := by unfold dom; rw [hd]; rfl
  have hpts : v.points = v.len := by unfold points; rw [hr]; simp [len]
  have hb2 : BufferOk b v.data (2 * v.len) := by
    unfold BufferOk at *; cases b <;> simp_all; omega
  obtain ⟨w0, b0, c, z1, z2, z3, ⟨m1, m2, m3, m4⟩, z4, z5⟩ := sfft_start v hv hr b hb2 (by omega)
  have hw0l : w0.validLen = 2 * v.len := by
    obtain ⟨-, hl⟩ := cells_of_content z3
    rw [hl]; simp [z5]
  have hw1n : w0.numberSpace.toComplex = .real := by rw [m3, hs]; rfl
  generalize hw1 : ({ w0 with numberSpace := w0.numberSpace.toComplex } : DspVec T) = w1
  have hn1 : w1.numberSpace = .real := by rw [← hw1]; exact hw1n
  have hd1 : w1.domain = .time := by rw [← hw1]; show w0.domain = _; rw [m2, hd]
  have hc1 : w1.content = some (fromComplex (c.map Cx.ofReal)) := by rw [← hw1]; exact z3
  have hv1 : w1.validLen = 2 * v.len := by rw [← hw1]; exact hw0l
  have hr1 : w1.isComplex = false := by unfold isComplex; rw [hn1]; rfl
  have hdm1 : w1.dom = .time := by unfold dom; rw [hd1]; rfl
  have hp1 : w1.points = 2 * v.len := by unfold points; rw [hr1]; simp [hv1]
  have hk1 : BufferKept b v b0 w1 := by rw [← hw1]; exact z4.congr rfl
  have ht1 : w1.Typed := .inr ⟨.inl hn1, .inl hd1⟩
  have hf1 : w1.freqType = .complexFreq := by unfold freqType; rw [hn1]
  have hbo : TransformBufferOk K b0 w1 :=
    ⟨fun _ => ⟨by unfold len; omega, by
      have := hk1.1 _ hb
      have e : 2 * w1.len = 4 * v.len := by have := hv1; unfold len at *; omega
      rw [e]; exact this⟩, by rw [hp1]; exact hk1.2 _ _ hsc⟩
  have hw1w := wf_of_content_complex hc1
  have hcp : w1.cpoints = some (interleaveSpec ⟨0, 0⟩ 2 (c.map Cx.ofReal)) :=
    (cpoints_real hr1).mpr ⟨_, hc1, (ofReal_fromComplex c).symm⟩
  have hXl : (K.forward (c.map Cx.ofReal)).length = v.len := by rw [hK.1]; simp [z5]
  have hchk : v.sfftCheck = none := by
    unfold sfftCheck
    rw [if_neg (by simp [hdom, hr]), if_neg (by rw [hpts]; omega)]
  have htake : ∀ Y : List (Cx T), Y = K.forward (c.map Cx.ofReal) ++ K.forward (c.map Cx.ofReal) →
      Y.take ((2 * v.len / 2 + 1) / 2) = (K.forward (c.map Cx.ofReal)).take (v.len / 2 + 1) := by
    rintro Y rfl
    have : (2 * v.len / 2 + 1) / 2 = v.len / 2 + 1 := by omega
    rw [this, List.take_append_of_le_length (by omega)]
  -- plain_sfft
  obtain ⟨u, b1, cs, f1, f2, f3, f4, f5, f6, f7, f8, f9, f10, f11, f12⟩ :=
    C34_plain_fft K hK w1 hw1w ht1 hdm1 b0 hbo
  rw [hcp] at f2
  cases f2
  rw [hper] at f3
  obtain ⟨w, g1, ⟨n1, n2, n3, n4⟩, g3, g4, g5⟩ := (unmirror_spec u f5 _ f3 (2 * v.len)
    (by simp [hXl]; omega)).2 (by omega)
  -- sfft
  obtain ⟨u', b2, cs', f1', f2', f3', f4', f5', f6', f7', f8', f9', f10', f11'⟩ :=
    C34_fft K hK w1 hw1w ht1 hdm1 b0 hbo
  rw [hcp] at f2'
  cases f2'
  rw [hper] at f3'
  have hrot : rotateRight (K.forward (c.map Cx.ofReal) ++ K.forward (c.map Cx.ofReal))
      ((interleaveSpec ⟨0, 0⟩ 2 (c.map (Cx.ofReal (T := T)))).length / 2) =
      K.forward (c.map Cx.ofReal) ++ K.forward (c.map Cx.ofReal) := by
    have e : (interleaveSpec ⟨0, 0⟩ 2 (c.map (Cx.ofReal (T := T)))).length / 2 = v.len := by
      rw [interleaveSpec_length _ _ (by omega)]; simp [z5]
    rw [e]
    unfold rotateRight
    have e2 : (K.forward (c.map Cx.ofReal) ++ K.forward (c.map Cx.ofReal)).length - v.len =
      (K.forward (c.map Cx.ofReal)).length := by simp [hXl]
    rw [e2]; simp
  rw [hrot] at f3'
  obtain ⟨w', g1', ⟨n1', n2', n3', n4'⟩, g3', g4', g5'⟩ := (unmirror_spec u' f5' _ f3' (2 * v.len)
    (by simp [hXl]; omega)).2 (by omega)
  have hmk : ∀ x : DspVec T, x.Typed → ¬ x.Generic → x.isComplex = true → x.dom = .frequency →
      x.numberSpace = .complex ∧ x.domain = .freq := by
    intro x ht hg hc hf
    rcases ht with ht | ⟨h1, h2⟩
    · exact absurd ht hg
    · constructor
      · rcases h1 with h1 | h1
        · unfold isComplex at hc; rw [h1] at hc; exact absurd hc (by decide)
        · exact h1
      · rcases h2 with h2 | h2
        · unfold dom at hf; rw [h2] at hf; exact absurd hf (by decide)
        · exact h2
  have hng : ¬ w1.Generic := by rintro ⟨_, _, h, _⟩; rw [hn1] at h; cases h
  obtain ⟨q1, q2⟩ := hmk u f7 (by rw [f8]; exact hng) f5 f6
  obtain ⟨q1', q2'⟩ := hmk u' f7' (by rw [f8']; exact hng) f5' f6'
  refine ⟨w, b1, w', b2, c, ?_, ?_, z2, by rw [g3, htake _ rfl], by rw [g3', htake _ rfl], by rw [n3, q1],
    by rw [n2, q2], g5, (hk1.trans f10).congr (by rw [g4]), by rw [n3', q1'], by rw [n2', q2'], g5'⟩
  · unfold plainSfft
    rw [hchk]
    simp only [z1, Option.bind_eq_bind, Option.bind_some, hw1, f1, hp1, g1]
  · unfold sfft
    rw [hchk]
    simp only [z1, Option.bind_eq_bind, Option.bind_some, hw1, f1', hp1, g1']

/-- C49 is violated by every generic real vector with an odd number `n` of points: `plain_sfft` panics
    if `n % 4 = 1`, and otherwise gives only `(n/2 + 1)/2` of the `n/2 + 1` points. -/
theorem C49_generic_violated [Zero T] [Mul T] [NatCast T] (K : FftKernel T) (hK : K.KeepsLength)
    (v : DspVec T) (hv : v.WF) (hg : v.Generic) (hr : v.isComplex = false) (hd : v.dom = .time)
    (hodd : v.len % 2 = 1) (b : Buffer T) (hb : BufferOk b v.data (2 * v.len))
    (hsc : ScratchOk K b v.len) :
    (v.len % 4 = 1 → v.plainSfft K b = none) ∧
    (v.len % 4 = 3 → ∃ w b', v.plainSfft K b = some (w, b', .ok ()) ∧
      w.points = (v.len / 2 + 1) / 2 ∧ w.points < v.len / 2 + 1) := by
  have hpts : v.points = v.len := by unfold points; rw [hr]; simp [len]
  obtain ⟨w0, b0, c, z1, z2, z3, ⟨m1, m2, m3, m4⟩, z4, z5⟩ := sfft_start v hv hr b hb (by omega)
  have hw0l : w0.validLen = 2 * v.len := by
    obtain ⟨-, hl⟩ := cells_of_content z3
    rw [hl]; simp [z5]
  obtain ⟨bb, dd, hns, hdo⟩ := hg
  have hw1n : w0.numberSpace.toComplex = .realOrComplex true := by rw [m3, hns]; rfl
  generalize hw1 : ({ w0 with numberSpace := w0.numberSpace.toComplex } : DspVec T) = w1
  have hn1 : w1.numberSpace = .realOrComplex true := by rw [← hw1]; exact hw1n
  have hd1 : w1.domain = v.domain := by rw [← hw1]; exact m2
  have hc1 : w1.content = some (fromComplex (c.map Cx.ofReal)) := by rw [← hw1]; exact z3
  have hv1 : w1.validLen = 2 * v.len := by rw [← hw1]; exact hw0l
  have hr1 : w1.isComplex = true := by unfold isComplex; rw [hn1]; rfl
  have hdm1 : w1.dom = .time := by unfold dom at *; rw [hd1, hd]
  have hp1 : w1.points = v.len := by unfold points; rw [hr1]; simp [hv1]
  have hk1 : BufferKept b v b0 w1 := by rw [← hw1]; exact z4.congr rfl
  have ht1 : w1.Typed := .inl ⟨_, dd, hn1, by rw [hd1, hdo]⟩
  have hchk : v.sfftCheck = none := by
    unfold sfftCheck
    rw [if_neg (by simp [hd, hr]), if_neg (by rw [hpts]; omega)]
  obtain ⟨u, b1, cs, f1, f2, f3, f4, f5, f6, f7, f8, f9, f10, f11, f12⟩ :=
    C34_plain_fft K hK w1 (wf_of_content_complex hc1) ht1 hdm1 b0
      ⟨fun h => by rw [hr1] at h; exact absurd h (by simp), by rw [hp1]; exact hk1.2 _ _ hsc⟩
  have hl := length_of_cpoints f3
  rw [f4, hp1] at hl
  obtain ⟨g1, g2⟩ := unmirror_spec u f5 _ f3 v.len (by omega)
  constructor
  · intro h4
    unfold plainSfft
    rw [hchk]
    simp only [z1, Option.bind_eq_bind, Option.bind_some, hw1, f1, hp1, g1 (by omega), Option.bind_none]
  · intro h4
    obtain ⟨w, k1, k2, k3, k4, k5⟩ := g2 (by omega)
    refine ⟨w, b1, ?_, ?_, ?_⟩
    · unfold plainSfft
      rw [hchk]
      simp only [z1, Option.bind_eq_bind, Option.bind_some, hw1, f1, hp1, k1]
    · rw [← length_of_cpoints k3, List.length_take, hl]; omega
    · rw [← length_of_cpoints k3, List.length_take, hl]; omega

/-- What `pure_complex_to_real_operation` with a buffer computes. -/
theorem complexToRealB_spec [Zero T] (op : Cx T → T) (st : MultiCoreSettings) (v : DspVec T)
    (cs : List (Cx T)) (h : v.content = some (fromComplex cs))
    (b : Buffer T) (hb : BufferOk b v.data cs.length) :
    ∃ w b', Always (v.complexToRealB op st b) (w, b') ∧ w.content = some (cs.map op) ∧ w.SameMeta v := by
  obtain ⟨⟨s, hs⟩, hl⟩ := cells_of_content h
  rw [length_fromComplex] at hl
  have hlen : v.len / 2 = cs.length := by unfold len; omega
  obtain ⟨temp, ht1, ht2⟩ := borrow_ok b v.data cs.length hb
  obtain ⟨rest, hrest⟩ := trade_ok b v.data (cs.map op) (by simpa using hb)
  refine ⟨{ v with data := (b.trade (cs.map op) v.data).2, validLen := v.len / 2 },
    (b.trade (cs.map op) v.data).1, ?_, ?_, rfl, rfl, rfl, ?_⟩
  · have := convert_always op st cs temp ht2
    refine this.map (fun sched hr => ?_) (fun sched hr => ?_) <;>
    · unfold complexToRealB
      rw [hlen]
      simp only [ht1, h]
      rw [if_neg (by simp), hr]
      try rfl
  · refine content_of_cells (s := rest) ?_ ?_
    · show (b.trade (cs.map op) v.data).2.cells = _
      rw [hrest]
    · show v.len / 2 = _
      simp [hlen]
  · show (b.trade (cs.map op) v.data).2.kind = _
    rw [hrest]

/-- C49 (partial): `plain_sifft` of a complex frequency vector (type `ComplexFreqVec`) which holds the
    first `n/2 + 1` points of a conjugate symmetric spectrum `X` with an odd number `n` of points gives the real
    parts of the inverse transform of `X`, as a real vector in time domain, for every schedule.
    Missing: generic vectors, see `C49_sifft_generic_violated`. -/
theorem C49_plain_sifft_static_partial [Zero T] [Mul T] [NatCast T] [Neg T] (tiny : T → Bool)
    (K : FftKernel T) (hK : K.KeepsLength) (st : MultiCoreSettings) (X : List (Cx T)) (hX : ConjSymmetric X)
    (hodd : X.length % 2 = 1) (v : DspVec T) (hn : v.numberSpace = .complex) (hd : v.domain = .freq)
    (h : v.cpoints = some (X.take (X.length / 2 + 1)))
    (htiny : ∀ c0, X[0]? = some c0 → tiny c0.im = true) (b : Buffer T)
    (hb : BufferOk b v.data (2 * X.length)) (hsc : ScratchOk K b X.length) :
    ∃ w b', Always (v.plainSifft tiny K st b) (w, b', .ok ()) ∧
      w.content = some ((K.inverse X).map Cx.re) ∧ w.numberSpace = .real ∧ w.domain = .time := by
  have hc : v.isComplex = true := by unfold isComplex; rw [hn]; rfl
  have hdom : v.dom = .frequency := by unfold dom; rw [hd]; rfl
  obtain ⟨m, b1, m1, m2, ⟨q1, q2, q3, q4⟩, m4, m5⟩ := C36_restores X hX hodd v hc h b hb
  have hmc : m.isComplex = true := by unfold isComplex at *; rw [q3]; exact hc
  obtain ⟨u, f1, f2, f3, f4, f5, f6, f7, f8⟩ := fftRaw_spec K hK .inverse m b1 X ((cpoints_complex hmc).mp m2)
    (m5.2 _ _ hsc)
  have hconj : v.notConj tiny = some false := by
    obtain ⟨c0, cs, rfl⟩ : ∃ c0 cs, X = c0 :: cs := by
      cases X with
      | nil => simp at hodd
      | cons c0 cs => exact ⟨c0, cs, rfl⟩
    have hcont := (cpoints_complex hc).mp h
    have hp := length_of_cpoints h
    unfold notConj
    rw [if_pos (by rw [← hp]; simp), hcont]
    simp [fromComplex, get, htiny c0 rfl]
  have hdata : v.plainSifftData K b = some ({ u with domain := u.domain.toFreq }, b1) := by
    unfold plainSifftData
    simp only [m1, Option.bind_eq_bind, Option.bind_some, f1]
  have hbb : BufferOk b1 ({ u with domain := u.domain.toFreq } : DspVec T).data (K.inverse X).length := by
    have hb' := (m5.congr f4).1 _ hb
    rw [hK.2]
    unfold BufferOk at *
    cases b1 with
    | single _ => trivial
    | noBuffer => trivial
    | fixedLen mem => simp only at *; omega
  obtain ⟨w, b', a1, a2, a3⟩ := complexToRealB_spec Cx.re st
    ({ u with domain := u.domain.toFreq } : DspVec T) (K.inverse X) f2 b1 hbb
  have hrt : v.realTimeType = .realTime := by unfold realTimeType; rw [hn]
  refine ⟨w.rededicateForce .realTime, b', ?_, ?_, rfl, rfl⟩
  · refine (a1.andThen (f := fun s => .finished (s.1.rededicateForce .realTime, s.2, (.ok () : VoidResult))) rfl).congr
      (fun sched => ?_)
    unfold plainSifft
    rw [if_neg (by simp [hdom, hc]), hconj, hdata, hrt]
    rfl
  · rw [rededicateForce_content]; exact a2

/-- C49 (partial): `plain_sifft` of `plain_sfft` multiplies every number with the number of points:
    for the types `RealTimeVec` and `ComplexFreqVec`, every odd number of points and every transform pair with
    the properties of the discrete Fourier transform. -/
theorem C49_round_trip_partial [Zero T] [Mul T] [NatCast T] [Neg T] (tiny : T → Bool) (ht0 : tiny 0 = true)
    (K : FftKernel T) (hK : K.Inverts) (hper : K.Periodic) (hsym : K.RealSymmetric) (st : MultiCoreSettings)
    (v : DspVec T) (hv : v.WF) (hs : v.numberSpace = .real) (hd : v.domain = .time)
    (hodd : v.len % 2 = 1) (b : Buffer T) (hb : BufferOk b v.data (4 * v.len))
    (hsc : ScratchOk K b (2 * v.len)) (hsc' : ScratchOk K b v.len) :
    ∃ w b' u b'' c, v.plainSfft K b = some (w, b', .ok ()) ∧
      Always (w.plainSifft tiny K st b') (u, b'', .ok ()) ∧ v.content = some c ∧
      u.content = some (c.map (fun x => (v.len : T) * x)) ∧ u.numberSpace = .real ∧ u.domain = .time := by
  obtain ⟨w, b', w', b'', c, h1, h2, h3, h4, h5, h6, h7, h8, h9, _⟩ :=
    C49_sfft_static_partial K hK.length hper v hv hs hd hodd b hb hsc
  have hl := hv.content_length h3
  have hXl : (K.forward (c.map Cx.ofReal)).length = v.len := by
    rw [hK.length.1]; simp only [List.length_map]; exact hl
  obtain ⟨s1, s2⟩ := hsym c
  obtain ⟨u, b3, i1, i2, i3, i4⟩ := C49_plain_sifft_static_partial tiny K hK.length st _ s1
    (by rw [hXl]; exact hodd) w h6 h7 (by rw [hXl]; exact h4) (fun c0 hc0 => by rw [s2 c0 hc0]; exact ht0) b'
    (h9.1 _ (by
      rw [hXl]
      unfold BufferOk at *
      cases b with
      | single _ => trivial
      | noBuffer => trivial
      | fixedLen mem => simp only at *; omega)) (h9.2 _ _ (by rw [hXl]; exact hsc'))
  refine ⟨w, b', u, b3, c, h1, i1, h3, ?_, i3, i4⟩
  rw [i2, hK.back, List.map_map, List.map_map, List.length_map, hl]
  rfl

/-- C35, C49 are violated: a generic vector is still complex and in frequency domain after
    `plain_sifft`, and half of its numbers are the result: with an odd number of points its length is
    odd although it reports complex numbers (which breaks C01, too). -/
theorem C49_sifft_generic_violated [Zero T] [Mul T] [NatCast T] [Neg T] (tiny : T → Bool)
    (K : FftKernel T) (hK : K.KeepsLength) (st : MultiCoreSettings) (X : List (Cx T)) (hX : ConjSymmetric X)
    (hodd : X.length % 2 = 1) (v : DspVec T) (hg : v.Generic) (hc : v.isComplex = true)
    (hdom : v.dom = .frequency) (h : v.cpoints = some (X.take (X.length / 2 + 1)))
    (htiny : ∀ c0, X[0]? = some c0 → tiny c0.im = true) (b : Buffer T)
    (hb : BufferOk b v.data (2 * X.length)) (hsc : ScratchOk K b X.length) :
    ∃ w b', Always (v.plainSifft tiny K st b) (w, b', .ok ()) ∧
      w.isComplex = true ∧ w.dom = .frequency ∧ w.len = X.length ∧ ¬ w.WF := by
  obtain ⟨m, b1, m1, m2, ⟨q1, q2, q3, q4⟩, m4, m5⟩ := C36_restores X hX hodd v hc h b hb
  have hmc : m.isComplex = true := by unfold isComplex at *; rw [q3]; exact hc
  obtain ⟨u, f1, f2, f3, f4, f5, f6, f7, f8⟩ := fftRaw_spec K hK .inverse m b1 X ((cpoints_complex hmc).mp m2)
    (m5.2 _ _ hsc)
  have hconj : v.notConj tiny = some false := by
    obtain ⟨c0, cs, rfl⟩ : ∃ c0 cs, X = c0 :: cs := by
      cases X with
      | nil => simp at hodd
      | cons c0 cs => exact ⟨c0, cs, rfl⟩
    have hcont := (cpoints_complex hc).mp h
    have hp := length_of_cpoints h
    unfold notConj
    rw [if_pos (by rw [← hp]; simp), hcont]
    simp [fromComplex, get, htiny c0 rfl]
  have hdata : v.plainSifftData K b = some ({ u with domain := u.domain.toFreq }, b1) := by
    unfold plainSifftData
    simp only [m1, Option.bind_eq_bind, Option.bind_some, f1]
  have hbb : BufferOk b1 ({ u with domain := u.domain.toFreq } : DspVec T).data (K.inverse X).length := by
    have hb' := (m5.congr f4).1 _ hb
    rw [hK.2]
    unfold BufferOk at *
    cases b1 with
    | single _ => trivial
    | noBuffer => trivial
    | fixedLen mem => simp only at *; omega
  obtain ⟨w, b', a1, a2, n1, n2, n3, n4⟩ := complexToRealB_spec Cx.re st
    ({ u with domain := u.domain.toFreq } : DspVec T) (K.inverse X) f2 b1 hbb
  obtain ⟨bb, dd, hns, hdo⟩ := hg
  have hrt : v.realTimeType = .gen := by unfold realTimeType; rw [hns]
  have hwc : (w.rededicateForce .gen).isComplex = true := by
    show w.isComplex = true
    unfold isComplex at *
    rw [n3]; show u.numberSpace.isComplex = true
    rw [f6]; exact hmc
  have hwl : (w.rededicateForce .gen).len = X.length := by
    obtain ⟨-, hl⟩ := cells_of_content a2
    show w.validLen = _
    rw [hl, List.length_map, hK.2]
  refine ⟨w.rededicateForce .gen, b', ?_, hwc, ?_, hwl, ?_⟩
  · refine (a1.andThen (f := fun s => .finished (s.1.rededicateForce .gen, s.2, (.ok () : VoidResult))) rfl).congr
      (fun sched => ?_)
    unfold plainSifft
    rw [if_neg (by simp [hdom, hc]), hconj, hdata, hrt]
    rfl
  · show w.dom = .frequency
    unfold dom
    rw [n2]; show u.domain.toFreq.domain = _
    rw [f5, q2, hdo]; rfl
  · intro hw
    have := hw.2 hwc
    have e : (w.rededicateForce .gen).validLen = X.length := hwl
    rw [e] at this; omega

/-- C49 is violated by `sifft`: it rotates the half spectrum before it is mirrored. A half spectrum
    whose middle point has an imaginary part is rejected as not symmetric: the first point after the
    rotation is the middle one. -/
theorem C49_sifft_violated [Field T] (tiny : T → Bool) (K : FftKernel T) (k : RegKind) (addr : Nat)
    (st : MultiCoreSettings) (v : DspVec T) (hv : v.WF) (hc : v.isComplex = true) (hd : v.dom = .frequency)
    (cs : List (Cx T)) (h : v.cpoints = some cs) (c : Cx T) (hmid : cs[cs.length / 2]? = some c)
    (h2 : 2 ≤ cs.length) (hbad : tiny (c.im * (1 / (cs.length : T))) = false) (b : Buffer T)
    (hal : ComplexAlignmentAccepted addr k.len v.len) :
    (∃ sched, ∀ sched2, ∃ w, v.sifft tiny K k addr st b sched sched2 =
      .finished (w, b, .error .inputMustBeConjSymmetric)) ∧
    ∀ sched sched2 w b', v.sifft tiny K k addr st b sched sched2 ≠ .finished (w, b', .ok ()) := by
  have hlen := length_of_cpoints h
  obtain ⟨cs', c1, -, -, -, u, a1, r1, r2, ⟨m1, m2, m3, m4⟩, r5, r6⟩ :=
    C20_complex_vector k addr st (1 : T) ⟨1 / ((v.points : Nat) : T), 0⟩ v hv hc hal
  have : cs' = cs := by
    have := (cpoints_complex hc).mp h
    rw [c1] at this
    exact fromComplex_injective (Option.some.inj this)
  subst this
  have huc : u.isComplex = true := by unfold isComplex at *; rw [m3]; exact hc
  have hup : u.points = v.points := by unfold points isComplex; rw [m3, r2]
  have hud : u.dom = .frequency := by unfold dom at *; rw [m2]; exact hd
  obtain ⟨x, s1, s2⟩ := C06_ifft_shift u (wf_of_content_complex r1) (by omega)
  obtain ⟨p1, p2, p3, p4, p5, p6, p7⟩ := permutes_meta s2
  have hp := cpoints_of_permutes (F := fun _ l => rotateLeft l (l.length / 2))
    (by intro α β m l; simp [rotateLeft]) huc ((cpoints_complex huc).mpr r1) s2
  have hxc : x.isComplex = true := by rw [p1, huc]
  have hbad' : x.notConj tiny = some true := by
    unfold notConj
    rw [if_pos (by omega), (cpoints_complex hxc).mp hp]
    have e : (rotateLeft (cs'.map (·.mul ⟨1 / (v.points : T), 0⟩)) ((cs'.map (·.mul ⟨1 / (v.points : T), 0⟩)).length / 2))[0]? =
        some (c.mul ⟨1 / (v.points : T), 0⟩) := by
      unfold rotateLeft
      rw [List.getElem?_append_left (by simp; omega), List.getElem?_drop, List.length_map, Nat.add_zero,
        List.getElem?_map, hmid]; rfl
    have e2 := getElem?_fromComplex_odd (rotateLeft (cs'.map (·.mul ⟨1 / (v.points : T), 0⟩)) ((cs'.map (·.mul ⟨1 / (v.points : T), 0⟩)).length / 2)) 0
    rw [e] at e2
    have e3 : (c.mul ⟨1 / (v.points : T), 0⟩).im = c.im * (1 / (cs'.length : T)) := by
      simp [Cx.mul, hlen]
    simp only [Option.map_some, e3, Nat.mul_zero, Nat.zero_add] at e2
    simp only [get, e2, Option.bind_eq_bind, Option.bind_some, hbad]
    rfl
  have hfin : ∀ sched2, x.plainSifft tiny K st b sched2 =
      .finished (x.transformError.rededicateForce x.realTimeType, b, .error .inputMustBeConjSymmetric) := by
    intro sched2
    unfold plainSifft
    rw [if_neg (by rw [p2, hud, hxc]; simp), hbad']
    rfl
  obtain ⟨a2, s, a3⟩ := a1
  constructor
  · refine ⟨s, fun sched2 => ⟨x.transformError.rededicateForce x.realTimeType, ?_⟩⟩
    unfold sifft
    rw [a3]
    simp only [Outcome.andThen, s1, Outcome.ofOption]
    exact hfin sched2
  · intro sched sched2 w b' hw
    unfold sifft at hw
    rcases a2 sched with h' | h' <;> rw [h'] at hw <;>
      simp only [Outcome.andThen, s1, Outcome.ofOption, hfin] at hw
    · exact absurd hw (by simp)
    · injection hw with hw
      have := (Prod.mk.inj (Prod.mk.inj hw).2).2
      exact absurd this (by simp)

end Dsp
