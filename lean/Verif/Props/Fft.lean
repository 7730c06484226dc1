import Verif.Spec.Fft
import Verif.Props.ComplexReal
import Verif.Props.Reorg
import Mathlib.Algebra.CharZero.Defs
import Mathlib.Algebra.Field.Defs
import Mathlib.Tactic.FieldSimp
/-
C34 (`fft` and `ifft` are inverse), C35 (domain and number space after a transform), C36 (`mirror`),
C48 (sampling distance after a transform).
-/
namespace Dsp
open DspVec
variable {T : Type}

theorem ScratchOk.trade [Zero T] {K : FftKernel T} {b : Buffer T} {n : Nat} (h : ScratchOk K b n)
    (res : List T) (s : Storage T) : ScratchOk K (b.trade res s).1 n := by
  cases b with
  | single temp => trivial
  | noBuffer => trivial
  | fixedLen mem =>
    simp only [ScratchOk, Buffer.trade, splice] at h ⊢
    simp; omega

theorem scratch_borrow [Zero T] {K : FftKernel T} {b : Buffer T} {n : Nat} (h : ScratchOk K b n) :
    ∃ t, b.borrow (2 * K.scratch n) = some t := by
  cases b with
  | single temp => exact ⟨_, rfl⟩
  | noBuffer => exact ⟨_, rfl⟩
  | fixedLen mem =>
    simp only [ScratchOk] at h
    exact ⟨_, by simp only [Buffer.borrow]; rw [if_neg (by omega)]⟩

/-- Specification: buffer and storage after an operation serve at least as much as before: a buffer
    with a fixed length does not lose memory. -/
def BufferKept (b : Buffer T) (v : DspVec T) (b' : Buffer T) (w : DspVec T) : Prop :=
  (∀ k, BufferOk b v.data k → BufferOk b' w.data k) ∧ ∀ K n, ScratchOk K b n → ScratchOk K b' n

theorem BufferKept.refl (b : Buffer T) (v : DspVec T) : BufferKept b v b v :=
  ⟨fun _ h => h, fun _ _ h => h⟩

theorem BufferKept.trans {b b' b'' : Buffer T} {v w u : DspVec T} (h : BufferKept b v b' w)
    (h' : BufferKept b' w b'' u) : BufferKept b v b'' u :=
  ⟨fun k a => h'.1 k (h.1 k a), fun K n a => h'.2 K n (h.2 K n a)⟩

theorem BufferKept.congr {b b' : Buffer T} {v w u : DspVec T} (h : BufferKept b v b' w)
    (e : u.data.cells.length = w.data.cells.length) : BufferKept b v b' u :=
  ⟨fun k a => by
    have := h.1 k a
    unfold BufferOk at *
    cases b' <;> simp_all, h.2⟩

theorem BufferOk.trade [Zero T] {b : Buffer T} {s : Storage T} {k : Nat} (h : BufferOk b s k)
    (res : List T) : BufferOk (b.trade res s).1 (b.trade res s).2 k := by
  cases b with
  | single temp => trivial
  | noBuffer => trivial
  | fixedLen mem =>
    simp only [BufferOk, Buffer.trade, splice] at h ⊢
    simp; omega

theorem BufferKept.of_trade [Zero T] {b : Buffer T} {v w : DspVec T} (res : List T)
    (e : w.data = (b.trade res v.data).2) : BufferKept b v (b.trade res v.data).1 w :=
  ⟨fun _ h => by rw [e]; exact h.trade res, fun _ _ h => h.trade res _⟩

theorem zeroInterleaveB_kept [Zero T] {b b' : Buffer T} {f : Nat}
    {v v' : DspVec T} (e : v.zeroInterleaveB b f = some (v', b')) :
    BufferKept b v b' v' := by
  unfold zeroInterleaveB at e
  dsimp only at e
  split at e
  · cases e; exact .refl _ _
  · simp only [Option.bind_eq_bind, Option.bind_eq_some_iff, Option.some.injEq, Prod.mk.injEq] at e
    obtain ⟨_, _, _, _, _, _, _, _, _, _, rfl, rfl⟩ := e
    exact .of_trade _ rfl

/-- What `fft` in time_freq/mod.rs does with the points. -/
theorem fftRaw_spec [Zero T] [Mul T] [NatCast T] (K : FftKernel T) (hK : K.KeepsLength)
    (dir : FftDirection) (v : DspVec T) (b : Buffer T) (cs : List (Cx T))
    (h : v.content = some (fromComplex cs)) (hb : ScratchOk K b cs.length) :
    ∃ u, v.fftRaw K dir b = some u ∧ u.content = some (fromComplex (K.run dir cs)) ∧
      u.validLen = v.validLen ∧ u.data.cells.length = v.data.cells.length ∧
      u.domain = v.domain ∧ u.numberSpace = v.numberSpace ∧ u.data.kind = v.data.kind ∧
      u.delta = if K.useRust v.len then v.delta.map (fun d => (cs.length : T) * d) else v.delta := by
  obtain ⟨⟨s, hs⟩, hl⟩ := cells_of_content h
  rw [length_fromComplex] at hl
  have hlen : v.len / 2 = cs.length := by unfold len; omega
  have hr : (K.run dir cs).length = cs.length := by
    cases dir
    · exact hK.1 cs
    · exact hK.2 cs
  have e : splice v.data.cells 0 (fromComplex (K.run dir cs)) = fromComplex (K.run dir cs) ++ s := by
    rw [hs, splice_append_left _ _ _ (by simp [hr])]
  obtain ⟨t, ht⟩ := scratch_borrow hb
  have hlen' : (fromComplex (K.run dir cs) ++ s).length = v.data.cells.length := by
    rw [hs]; simp [hr]
  unfold fftRaw
  cases hu : K.useRust v.len with
  | true =>
    simp only [if_true, hlen, ht, h, Option.bind_eq_bind, Option.bind_some, toComplex?_fromComplex, e]
    refine ⟨_, rfl, ?_, rfl, hlen', rfl, rfl, rfl, rfl⟩
    exact content_of_cells (s := s) rfl (by simp [hr, hl, withCells])
  | false =>
    simp only [Bool.false_eq_true, if_false, h, Option.bind_eq_bind, Option.bind_some, toComplex?_fromComplex, e]
    refine ⟨_, rfl, ?_, rfl, hlen', rfl, rfl, rfl, rfl⟩
    exact content_of_cells (s := s) rfl (by simp [hr, hl, withCells])

/-- Specification: a buffer which serves for the transform of `v`: it can hold the interleaved
    numbers if `v` is real, and the scratch memory. -/
def TransformBufferOk (K : FftKernel T) (b : Buffer T) (v : DspVec T) : Prop :=
  (v.isComplex = false → v.len ≠ 0 ∧ BufferOk b v.data (2 * v.len)) ∧ ScratchOk K b v.points

theorem cpoints_complex [Zero T] {v : DspVec T} {cs : List (Cx T)} (hc : v.isComplex = true) :
    v.cpoints = some cs ↔ v.content = some (fromComplex cs) := by
  unfold cpoints
  constructor
  · intro h
    obtain ⟨c, h1, h2⟩ := Option.bind_eq_some_iff.mp h
    rw [if_pos hc] at h2
    rw [h1, fromComplex_of_toComplex? h2]
  · intro h
    rw [h]; simp [hc]

theorem cpoints_real [Zero T] {v : DspVec T} {cs : List (Cx T)} (hc : v.isComplex = false) :
    v.cpoints = some cs ↔ ∃ c, v.content = some c ∧ cs = c.map Cx.ofReal := by
  unfold cpoints
  simp only [hc, Bool.false_eq_true, if_false, Option.bind_eq_some_iff, Option.some.injEq]
  constructor
  · rintro ⟨c, h1, h2⟩; exact ⟨c, h1, h2.symm⟩
  · rintro ⟨c, h1, h2⟩; exact ⟨c, h1, h2.symm⟩

theorem DspVec.WF.exists_cpoints [Zero T] {v : DspVec T} (h : v.WF) :
    ∃ cs, v.cpoints = some cs ∧ cs.length = v.points := by
  cases hc : v.isComplex with
  | true =>
    obtain ⟨cs, h1, h2⟩ := h.content_even hc
    refine ⟨cs, (cpoints_complex hc).mpr h1, ?_⟩
    simp only [points, hc, if_true]; omega
  | false =>
    refine ⟨_, (cpoints_real hc).mpr ⟨_, h.content_eq, rfl⟩, ?_⟩
    have := h.content_length h.content_eq
    simp only [points, hc, List.length_map]; simpa using this

theorem length_of_cpoints [Zero T] {v : DspVec T} {cs : List (Cx T)} (h : v.cpoints = some cs) :
    cs.length = v.points := by
  cases hc : v.isComplex with
  | true =>
    obtain ⟨-, h2⟩ := cells_of_content ((cpoints_complex hc).mp h)
    simp only [points, hc, if_true]; simp at h2; omega
  | false =>
    obtain ⟨c, h1, rfl⟩ := (cpoints_real hc).mp h
    obtain ⟨-, h2⟩ := cells_of_content h1
    simp [points, hc, h2]

/-- The conversion of real data before the transform. -/
theorem ensureComplex_spec [Zero T] (K : FftKernel T) (v : DspVec T) (hv : v.WF) (b : Buffer T)
    (hb : TransformBufferOk K b v) (cs : List (Cx T)) (h : v.cpoints = some cs) :
    ∃ w b', v.ensureComplex b = some (w, b') ∧ w.content = some (fromComplex cs) ∧
      w.domain = v.domain ∧ (w.numberSpace = v.numberSpace ∧ v.isComplex = true ∨
        w.numberSpace = v.numberSpace.toComplex) ∧
      w.delta = v.delta ∧ w.data.kind = v.data.kind ∧ BufferKept b v b' w := by
  have hlen := length_of_cpoints h
  unfold ensureComplex
  cases hc : v.isComplex with
  | true =>
    exact ⟨v, b, rfl, (cpoints_complex hc).mp h, rfl, .inl ⟨rfl, rfl⟩, rfl, rfl, .refl _ _⟩
  | false =>
    obtain ⟨hb1, hb2⟩ := hb.1 hc
    obtain ⟨w, b', l, h1, h2, h3, m1, m2, m3, m4⟩ := C09_zero_interleave_b v hv b 2 (by omega) hb2 hb1
    simp only [Bool.false_eq_true, if_false, h1, Option.bind_eq_bind, Option.bind_some]
    obtain ⟨c, c1, rfl⟩ := (cpoints_real hc).mp h
    have hl : l = c.map (fun x => [x]) := by
      obtain ⟨⟨s, hs⟩, hl⟩ := cells_of_content c1
      have := pts_real hc hs hl.symm
      rw [this] at h2; exact (Option.some.inj h2).symm
    have hz : v.zeroPoint = [0] := by simp [zeroPoint, stride, hc]
    have h4 := content_of_pts_real h3
    rw [hl, hz, interleave_two_flatten] at h4
    refine ⟨_, _, rfl, ?_, m2, .inr ?_, m1, m4, ?_⟩
    · unfold content at h4 ⊢; exact h4
    · show w.numberSpace.toComplex = _; rw [m3]
    · exact (zeroInterleaveB_kept h1).congr rfl

theorem rededicateForce_data (v : DspVec T) (ty : VecType) :
    (v.rededicateForce ty).data = v.data ∧ (v.rededicateForce ty).validLen = v.validLen ∧
      (v.rededicateForce ty).delta = v.delta := by
  cases ty <;> exact ⟨rfl, rfl, rfl⟩

theorem rededicateForce_content (v : DspVec T) (ty : VecType) :
    (v.rededicateForce ty).content = v.content := by
  cases ty <;> rfl

theorem wf_of_content_complex {v : DspVec T} {cs : List (Cx T)} (h : v.content = some (fromComplex cs)) :
    v.WF := by
  obtain ⟨⟨s, hs⟩, hl⟩ := cells_of_content h
  refine ⟨by rw [hs, hl]; simp, fun _ => by rw [hl]; simp⟩

/-- The marker of the result of a transform to the frequency domain. -/
theorem freqType_result (v u : DspVec T) (hv : v.Typed)
    (hn : u.numberSpace = v.numberSpace ∧ v.isComplex = true ∨ u.numberSpace = v.numberSpace.toComplex)
    (hd : u.domain = v.domain) :
    ({ u with domain := u.domain.toFreq }.rededicateForce v.freqType).isComplex = true ∧
    ({ u with domain := u.domain.toFreq }.rededicateForce v.freqType).dom = .frequency ∧
    ({ u with domain := u.domain.toFreq }.rededicateForce v.freqType).Typed ∧
    (({ u with domain := u.domain.toFreq }.rededicateForce v.freqType).Generic ↔ v.Generic) := by
  rcases hv with ⟨b, d, h1, h2⟩ | ⟨h1, h2⟩
  · have hu : u.numberSpace = .realOrComplex true := by
      rcases hn with ⟨a, c⟩ | a
      · rw [a, h1]; unfold isComplex at c; rw [h1] at c; simp only [NumberSpace.isComplex] at c; rw [c]
      · rw [a, h1]; rfl
    have hf : v.freqType = .gen := by unfold freqType; rw [h1]
    have hd' : u.domain = .timeOrFreq d := by rw [hd, h2]
    simp only [hf, rededicateForce, isComplex, dom, hu, hd', Typed, Generic, Domain.toFreq,
      Domain.domain, NumberSpace.isComplex, h1, h2]
    simp
  · have hf : v.freqType = .complexFreq := by
      unfold freqType
      rcases h1 with h1 | h1 <;> rw [h1]
    have hg : ¬ v.Generic := by
      rintro ⟨b, d, g1, g2⟩
      rcases h1 with h1 | h1 <;> rw [h1] at g1 <;> cases g1
    simp only [hf, rededicateForce, isComplex, dom, Typed, NumberSpace.isComplex, Domain.domain, hg]
    simp [Generic]

/-- C34, C35: `plain_fft` of a time domain vector (complex, or real: a number `x` counts as
    `x + 0j`) computes the forward transform of its points, keeps the number of points and gives a
    complex vector in the frequency domain, for static and generic vectors. Excluded: the empty real
    vector, see `C51_fft_empty_violated`, and buffers with a fixed size which are too small. -/
theorem C34_plain_fft [Zero T] [Mul T] [NatCast T] (K : FftKernel T) (hK : K.KeepsLength)
    (v : DspVec T) (hv : v.WF) (ht : v.Typed) (hd : v.dom = .time) (b : Buffer T)
    (hb : TransformBufferOk K b v) :
    ∃ w b' cs, v.plainFft K b = some (w, b') ∧ v.cpoints = some cs ∧
      w.cpoints = some (K.forward cs) ∧ w.points = v.points ∧ w.isComplex = true ∧
      w.dom = .frequency ∧ w.Typed ∧ (w.Generic ↔ v.Generic) ∧ w.WF ∧ BufferKept b v b' w ∧
      w.data.kind = v.data.kind ∧
      w.delta = if K.useRust (2 * v.points) then v.delta.map (fun d => (v.points : T) * d) else v.delta := by
  obtain ⟨cs, hcs, hlen⟩ := hv.exists_cpoints
  obtain ⟨w1, b1, e1, e2, e3, e4, e5, e6, e7⟩ := ensureComplex_spec K v hv b hb cs hcs
  obtain ⟨u, f1, f2, f3, f4, f5, f6, f7, f8⟩ := fftRaw_spec K hK .forward w1 b1 cs e2 (by rw [hlen]; exact e7.2 _ _ hb.2)
  have hw1 : w1.len = 2 * v.points := by
    obtain ⟨-, hl⟩ := cells_of_content e2
    simp at hl; unfold len; omega
  obtain ⟨g1, g2, g3, g4⟩ := freqType_result v u ht (by rw [f6]; exact e4) (by rw [f5, e3])
  have hc : ({ u with domain := u.domain.toFreq }.rededicateForce v.freqType).content =
      some (fromComplex (K.forward cs)) := by
    rw [rededicateForce_content]; exact f2
  have hp : ({ u with domain := u.domain.toFreq }.rededicateForce v.freqType).cpoints =
      some (K.forward cs) := (cpoints_complex g1).mpr hc
  refine ⟨{ u with domain := u.domain.toFreq }.rededicateForce v.freqType, b1, cs, ?_, hcs, hp, ?_,
    g1, g2, g3, g4, wf_of_content_complex hc,
    e7.congr (by rw [(rededicateForce_data _ _).1]; exact f4), ?_, ?_⟩
  · unfold plainFft
    rw [if_neg (by simp [hd])]
    simp only [e1, Option.bind_eq_bind, Option.bind_some, f1]
  · rw [← length_of_cpoints hp, hK.1, hlen]
  · rw [(rededicateForce_data _ _).1]; show u.data.kind = _; rw [f7, e6]
  · rw [(rededicateForce_data _ _).2.2]; show u.delta = _; rw [f8, e5, hw1, hlen]

/-- The marker of the result of a transform to the time domain. -/
theorem timeType_result (v u : DspVec T) (hv : v.Typed)
    (hn : u.numberSpace = v.numberSpace ∧ v.isComplex = true ∨ u.numberSpace = v.numberSpace.toComplex)
    (hd : u.domain = v.domain) :
    ({ u with domain := u.domain.toFreq }.rededicateForce v.timeType).isComplex = true ∧
    (¬ v.Generic → ({ u with domain := u.domain.toFreq }.rededicateForce v.timeType).dom = .time) ∧
    (v.Generic → ({ u with domain := u.domain.toFreq }.rededicateForce v.timeType).dom = .frequency) ∧
    (({ u with domain := u.domain.toFreq }.rededicateForce v.timeType).Typed ∧
      (({ u with domain := u.domain.toFreq }.rededicateForce v.timeType).Generic ↔ v.Generic)) := by
  rcases hv with ⟨b, d, h1, h2⟩ | ⟨h1, h2⟩
  · have hu : u.numberSpace = .realOrComplex true := by
      rcases hn with ⟨a, c⟩ | a
      · rw [a, h1]; unfold isComplex at c; rw [h1] at c; simp only [NumberSpace.isComplex] at c; rw [c]
      · rw [a, h1]; rfl
    have hf : v.timeType = .gen := by unfold timeType; rw [h1]
    have hd' : u.domain = .timeOrFreq d := by rw [hd, h2]
    simp only [hf, rededicateForce, isComplex, dom, hu, hd', Typed, Generic, Domain.toFreq,
      Domain.domain, NumberSpace.isComplex, h1, h2]
    simp
  · have hf : v.timeType = .complexTime := by
      unfold timeType
      rcases h1 with h1 | h1 <;> rw [h1]
    have hg : ¬ v.Generic := by
      rintro ⟨b, d, g1, g2⟩
      rcases h1 with h1 | h1 <;> rw [h1] at g1 <;> cases g1
    simp only [hf, rededicateForce, isComplex, dom, Typed, NumberSpace.isComplex, Domain.domain, hg]
    simp [Generic]

/-- C34, C35: `plain_ifft` of a frequency domain vector computes the inverse transform of
    its points and keeps the number of points; the result is complex. A vector of static type is in
    time domain afterwards, a generic one is not (`C35_plain_ifft_violated`). -/
theorem C34_plain_ifft [Zero T] [Mul T] [NatCast T] (K : FftKernel T) (hK : K.KeepsLength)
    (v : DspVec T) (hv : v.WF) (ht : v.Typed) (hd : v.dom = .frequency) (b : Buffer T)
    (hb : TransformBufferOk K b v) :
    ∃ w b' cs, v.plainIfft K b = some (w, b') ∧ v.cpoints = some cs ∧
      w.cpoints = some (K.inverse cs) ∧ w.points = v.points ∧ w.isComplex = true ∧
      (¬ v.Generic → w.dom = .time) ∧ (v.Generic → w.dom = .frequency) ∧
      (w.Typed ∧ (w.Generic ↔ v.Generic)) ∧ w.WF ∧
      w.delta = if K.useRust (2 * v.points) then v.delta.map (fun d => (v.points : T) * d) else v.delta := by
  obtain ⟨cs, hcs, hlen⟩ := hv.exists_cpoints
  obtain ⟨w1, b1, e1, e2, e3, e4, e5, e6, e7⟩ := ensureComplex_spec K v hv b hb cs hcs
  obtain ⟨u, f1, f2, f3, f4, f5, f6, f7, f8⟩ := fftRaw_spec K hK .inverse w1 b1 cs e2 (by rw [hlen]; exact e7.2 _ _ hb.2)
  have hw1 : w1.len = 2 * v.points := by
    obtain ⟨-, hl⟩ := cells_of_content e2
    simp at hl; unfold len; omega
  obtain ⟨g1, g2, g3, g4⟩ := timeType_result v u ht (by rw [f6]; exact e4) (by rw [f5, e3])
  have hc : ({ u with domain := u.domain.toFreq }.rededicateForce v.timeType).content =
      some (fromComplex (K.inverse cs)) := by
    rw [rededicateForce_content]; exact f2
  have hp : ({ u with domain := u.domain.toFreq }.rededicateForce v.timeType).cpoints =
      some (K.inverse cs) := (cpoints_complex g1).mpr hc
  refine ⟨{ u with domain := u.domain.toFreq }.rededicateForce v.timeType, b1, cs, ?_, hcs, hp, ?_,
    g1, g2, g3, g4, wf_of_content_complex hc, ?_⟩
  · unfold plainIfft
    rw [if_neg (by simp [hd])]
    simp only [e1, Option.bind_eq_bind, Option.bind_some, f1]
  · rw [← length_of_cpoints hp, hK.2, hlen]
  · rw [(rededicateForce_data _ _).2.2]; show u.delta = _; rw [f8, e5, hw1, hlen]

/-- C34: `plain_ifft` of `plain_fft` multiplies every point with the number of points.
    Excluded: see `C34_plain_fft`. -/
theorem C34_plain_round_trip [Zero T] [Mul T] [NatCast T] (K : FftKernel T) (hK : K.Inverts)
    (v : DspVec T) (hv : v.WF) (ht : v.Typed) (hd : v.dom = .time) (b : Buffer T)
    (hb : TransformBufferOk K b v) :
    ∃ w b' u b'' cs, v.plainFft K b = some (w, b') ∧ w.plainIfft K b' = some (u, b'') ∧
      v.cpoints = some cs ∧ u.cpoints = some (cs.map (Cx.scaleBy (v.points : T))) := by
  obtain ⟨w, b', cs, h1, h2, h3, h4, h5, h6, h7, h8, h9, h10, h11, h12⟩ :=
    C34_plain_fft K hK.length v hv ht hd b hb
  obtain ⟨u, b'', cs', i1, i2, i3, _⟩ := C34_plain_ifft K hK.length w h9 h7 h6 b'
    ⟨fun h => by rw [h5] at h; exact absurd h (by simp), by rw [h4]; exact h10.2 _ _ hb.2⟩
  rw [h3] at i2
  cases i2
  refine ⟨w, b', u, b'', cs, h1, i1, h2, ?_⟩
  rw [i3, hK.back, length_of_cpoints h2]

/-- Rotation of the points of a complex vector, in terms of the complex numbers. -/
theorem cpoints_of_permutes [Zero T] {F : (α : Type) → List α → List α}
    (hmap : ∀ (α β : Type) (m : α → β) l, (F α l).map m = F β (l.map m))
    {v w : DspVec T} (hc : v.isComplex = true) {cs : List (Cx T)} (h : v.cpoints = some cs)
    (hp : PermutesPoints (F (List T)) v w) : w.cpoints = some (F (Cx T) cs) := by
  obtain ⟨⟨l, h1, h2⟩, _, ⟨_, _, m3, _⟩, _⟩ := hp
  have hc' : w.isComplex = true := by unfold isComplex at *; rw [m3]; exact hc
  have h3 := (cpoints_complex hc).mp h
  obtain ⟨⟨s, hs⟩, hl⟩ := cells_of_content h3
  have h4 := pts_complex hc hs (by rw [hl]; simp)
  rw [h1] at h4
  cases h4
  rw [← hmap] at h2
  have := content_of_pts_real h2
  rw [flatten_pairs] at this
  exact (cpoints_complex hc').mpr this

theorem permutes_meta {f : List (List T) → List (List T)} {v w : DspVec T} (h : PermutesPoints f v w) :
    w.isComplex = v.isComplex ∧ w.dom = v.dom ∧ w.points = v.points ∧ w.len = v.len ∧
      (v.Typed → w.Typed) ∧ (w.Generic ↔ v.Generic) ∧ w.delta = v.delta := by
  obtain ⟨_, h3, ⟨m1, m2, m3, m4⟩, _⟩ := h
  refine ⟨by unfold isComplex; rw [m3], by unfold dom; rw [m2], by unfold points isComplex; rw [m3, h3], h3,
    fun ht => ?_, ?_, m1⟩
  · unfold Typed at *; rw [m2, m3]; exact ht
  · unfold Generic; rw [m2, m3]

/-- `scale` on any vector multiplies all numbers. -/
theorem scale_spec [CommRing T] (k : RegKind) (addr : Nat) (st : MultiCoreSettings) (x : T)
    (v : DspVec T) (hv : v.WF) (hal : AlignmentAccepted addr k.len v.len) :
    ∃ a v', v.content = some a ∧ Always (v.scale k addr st x) v' ∧ Replaced v v' (a.map (· * x)) := by
  have e1 := hv.content_length hv.content_eq
  obtain ⟨h1, h2⟩ := C20_offset_scale k addr x (v.data.cells.take v.validLen) st
    (by rw [e1]; exact hal)
  refine ⟨_, _, hv.content_eq, h2.mapOutcome.congr (fun s => ?_), replaced_splice hv _ (by rw [List.length_map, e1])⟩
  unfold scale; rw [hv.content_eq]

theorem map_fromComplex (f : T → T) (cs : List (Cx T)) :
    (fromComplex cs).map f = fromComplex (cs.map (fun c => ⟨f c.re, f c.im⟩)) := by
  induction cs with
  | nil => rfl
  | cons c cs ih => simp [fromComplex, ih]

/-- C34, C35: `fft` computes the forward transform and rotates it so that the zero frequency
    is in the middle. -/
theorem C34_fft [Zero T] [Mul T] [NatCast T] (K : FftKernel T) (hK : K.KeepsLength)
    (v : DspVec T) (hv : v.WF) (ht : v.Typed) (hd : v.dom = .time) (b : Buffer T)
    (hb : TransformBufferOk K b v) :
    ∃ w b' cs, v.fft K b = some (w, b') ∧ v.cpoints = some cs ∧
      w.cpoints = some (rotateRight (K.forward cs) (cs.length / 2)) ∧ w.points = v.points ∧
      w.isComplex = true ∧ w.dom = .frequency ∧ w.Typed ∧ (w.Generic ↔ v.Generic) ∧ w.WF ∧
      BufferKept b v b' w ∧
      w.delta = if K.useRust (2 * v.points) then v.delta.map (fun d => (v.points : T) * d) else v.delta := by
  obtain ⟨w, b', cs, h1, h2, h3, h4, h5, h6, h7, h8, h9, h10, h11, h12⟩ :=
    C34_plain_fft K hK v hv ht hd b hb
  obtain ⟨u, s1, s2⟩ := C06_fft_shift w h9
  obtain ⟨p1, p2, p3, p4, p5, p6, p7⟩ := permutes_meta s2
  have hp := cpoints_of_permutes (F := fun _ l => rotateRight l (l.length / 2))
    (by intro α β m l; simp [rotateRight]) h5 h3 s2
  rw [hK.1] at hp
  refine ⟨u, b', cs, ?_, h2, hp, by rw [p3, h4], by rw [p1, h5], by rw [p2, h6], p5 h7,
    p6.trans h8, s2.wf h9, h10.congr s2.2.2.2.1, by rw [p7, h12]⟩
  unfold fft
  simp only [h1, Option.bind_eq_bind, Option.bind_some, s1]

/-- The `scale` of `ifft` in front of the other steps. -/
theorem Always.andThen {α β : Type} {run : List Nat → Outcome α} {r : α} {f : α → Outcome β} {r' : β}
    (h : Always run r) (hf : f r = .finished r') : Always (fun s => (run s).andThen f) r' :=
  h.map (fun s e => by simp [Outcome.andThen, e]) (fun s e => by simp [Outcome.andThen, e, hf])

/-- C34, C35: `ifft` rotates the spectrum back, divides by the number of points and computes
    the inverse transform. Excluded: one point (`C51_ifft_one_point_violated`), addresses which the SIMD code
    rejects (C19). -/
theorem C34_ifft [Field T] (K : FftKernel T) (hK : K.KeepsLength) (k : RegKind) (addr : Nat)
    (st : MultiCoreSettings) (v : DspVec T) (hv : v.WF) (ht : v.Typed) (hc : v.isComplex = true)
    (hd : v.dom = .frequency) (b : Buffer T) (hb : ScratchOk K b v.points)
    (h1 : v.points ≠ 1) (hal : AlignmentAccepted addr k.len v.len) :
    ∃ w b' cs, Always (v.ifft K k addr st b) (w, b') ∧ v.cpoints = some cs ∧
      w.cpoints = some (K.inverse (rotateLeft (cs.map (Cx.scaleBy (1 / (v.points : T)))) (cs.length / 2))) ∧
      w.points = v.points ∧ w.isComplex = true ∧ (w.Typed ∧ (w.Generic ↔ v.Generic)) ∧ w.WF ∧
      (¬ v.Generic → w.dom = .time) ∧ (v.Generic → w.dom = .frequency) ∧
      w.delta = if K.useRust (2 * v.points) then v.delta.map (fun d => (v.points : T) * d) else v.delta := by
  obtain ⟨cs, hcs, hlen⟩ := hv.exists_cpoints
  have hcont := (cpoints_complex hc).mp hcs
  obtain ⟨a, u, a1, a2, r1, r2, ⟨m1, m2, m3, m4⟩, r5, r6⟩ := scale_spec k addr st (1 / ((v.points : Nat) : T)) v hv hal
  rw [hcont] at a1
  cases a1
  rw [map_fromComplex] at r1
  have huc : u.isComplex = true := by unfold isComplex at *; rw [m3]; exact hc
  have hup : u.points = v.points := by unfold points isComplex; rw [m3, r2]
  have hud : u.dom = .frequency := by unfold dom at *; rw [m2]; exact hd
  have hut : u.Typed := by unfold Typed at *; rw [m2, m3]; exact ht
  have hug : u.Generic ↔ v.Generic := by unfold Generic; rw [m2, m3]
  have huw := wf_of_content_complex r1
  have hucp := (cpoints_complex huc).mpr r1
  have hsc : (fun c : Cx T => (⟨c.re * (1 / (v.points : T)), c.im * (1 / (v.points : T))⟩ : Cx T)) =
      Cx.scaleBy (1 / (v.points : T)) := by
    funext c; simp [Cx.scaleBy, mul_comm]
  rw [hsc] at hucp
  obtain ⟨x, s1, s2⟩ := C06_ifft_shift u huw (by rw [hup]; exact h1)
  obtain ⟨p1, p2, p3, p4, p5, p6, p7⟩ := permutes_meta s2
  have hp := cpoints_of_permutes (F := fun _ l => rotateLeft l (l.length / 2))
    (by intro α β m l; simp [rotateLeft]) huc hucp s2
  rw [List.length_map] at hp
  obtain ⟨w, b', cs', i1, i2, i3, i4, i5, i6, i7, i8, i9, i10⟩ :=
    C34_plain_ifft K hK x (s2.wf huw) (p5 hut) (by rw [p2, hud]) b
    ⟨fun h => by rw [p1, huc] at h; exact absurd h (by simp), by rw [p3, hup]; exact hb⟩
  rw [hp] at i2
  cases i2
  refine ⟨w, b', cs, ?_, hcs, i3, by rw [i4, p3, hup], i5, ⟨i8.1, i8.2.trans (p6.trans hug)⟩, i9, ?_, ?_, ?_⟩
  · exact a2.andThen (f := fun w => .ofOption (do
      let u ← w.ifftShift
      u.plainIfft K b)) (by simp only [s1, Option.bind_eq_bind, Option.bind_some, i1]; rfl)
  · intro hg; exact i6 (by rw [p6, hug]; exact hg)
  · intro hg; exact i7 (by rw [p6, hug]; exact hg)
  · rw [i10, p3, hup, p7, m1]

theorem rotateRight_map {α β : Type} (m : α → β) (l : List α) (k : Nat) :
    (rotateRight l k).map m = rotateRight (l.map m) k := by simp [rotateRight]

/-- C34: `ifft` of `fft` restores exactly the points of the vector, for all odd and even
    numbers of points, all schedules of the workers, real (`x` becomes `x + 0j`) and complex vectors,
    for every transform pair which is inverse up to the factor `n`. Excluded: one point
    (`C51_ifft_one_point_violated`), the empty real vector (`C51_fft_empty_violated`), addresses which the SIMD
    code rejects (C19). -/
theorem C34_round_trip [Field T] [CharZero T] (K : FftKernel T) (hK : K.Inverts)
    (hh : K.Homogeneous) (k : RegKind) (addr : Nat) (st : MultiCoreSettings) (v : DspVec T) (hv : v.WF)
    (ht : v.Typed) (hd : v.dom = .time) (b : Buffer T) (hb : TransformBufferOk K b v)
    (h1 : v.points ≠ 1) (hal : AlignmentAccepted addr k.len (2 * v.points)) :
    ∃ w b' u b'' cs, v.fft K b = some (w, b') ∧ Always (w.ifft K k addr st b') (u, b'') ∧
      v.cpoints = some cs ∧ u.cpoints = some cs ∧ u.isComplex = true ∧ u.points = v.points := by
  obtain ⟨w, b', cs, f1, f2, f3, f4, f5, f6, f7, f8, f9, f10, f11⟩ :=
    C34_fft K hK.length v hv ht hd b hb
  have hwl : w.len = 2 * v.points := by
    obtain ⟨-, hl⟩ := cells_of_content ((cpoints_complex f5).mp f3)
    have := length_of_cpoints f3
    rw [f4] at this
    simp only [length_fromComplex] at hl
    unfold len; omega
  have hlen := length_of_cpoints f2
  obtain ⟨u, b'', cs', i1, i2, i3, i4, i5, i6, i7, _⟩ := C34_ifft K hK.length k addr st w f9 f7 f5 f6 b'
    (by rw [f4]; exact f10.2 _ _ hb.2) (by rw [f4]; exact h1) (by rw [hwl]; exact hal)
  rw [f3] at i2
  cases i2
  refine ⟨w, b', u, b'', cs, f1, i1, f2, ?_, i5, i4.trans f4⟩
  rw [i3, f4, rotateRight_map]
  have hl : ((K.forward cs).map (Cx.scaleBy (1 / (v.points : T)))).length = cs.length := by
    simp [hK.length.1]
  have hc := rotate_cancel ((K.forward cs).map (Cx.scaleBy (1 / (v.points : T))))
  rw [hl] at hc
  have : (rotateRight (K.forward cs) (cs.length / 2)).length =
      (rotateRight ((K.forward cs).map (Cx.scaleBy (1 / (v.points : T)))) (cs.length / 2)).length := by
    rw [← rotateRight_map, List.length_map]
  rw [this, hc, hh, hK.back, hlen, List.map_map]
  by_cases h0 : v.points = 0
  · have : cs = [] := List.length_eq_zero_iff.mp (by omega)
    subst this; rfl
  · have hne : (v.points : T) ≠ 0 := Nat.cast_ne_zero.mpr h0
    congr 1
    conv_rhs => rw [← List.map_id cs]
    apply List.map_congr_left
    intro c _
    simp only [Function.comp, Cx.scaleBy, id]
    rw [← mul_assoc, ← mul_assoc, one_div, inv_mul_cancel₀ hne, one_mul, one_mul]

/-- C34 is violated for vectors with one point: `ifft` never gives a result, since `ifft_shift` panics.
    `fft` accepts such a vector. -/
theorem C51_ifft_one_point_violated [Field T] (K : FftKernel T) (k : RegKind) (addr : Nat)
    (st : MultiCoreSettings) (v : DspVec T) (hv : v.WF) (h1 : v.points = 1) (b : Buffer T)
    (hal : AlignmentAccepted addr k.len v.len) :
    (∀ sched r, v.ifft K k addr st b sched ≠ .finished r) ∧ ∃ sched, v.ifft K k addr st b sched = .panic := by
  obtain ⟨a, u, a1, ⟨a2, s, a3⟩, r1, r2, ⟨m1, m2, m3, m4⟩, r5, r6⟩ :=
    scale_spec k addr st (1 / ((v.points : Nat) : T)) v hv hal
  have hup : u.points = 1 := by unfold points isComplex at *; rw [m3, r2]; exact h1
  have huw : u.WF := by unfold WF isComplex at *; rw [m3, r2, r5]; exact hv
  have hn := C51_ifft_shift_one_point_violated u huw hup
  constructor
  · intro sched r
    unfold ifft
    rcases a2 sched with h | h <;> rw [h] <;> simp [Outcome.andThen, hn, Outcome.ofOption]
  · exact ⟨s, by unfold ifft; rw [a3]; simp [Outcome.andThen, hn, Outcome.ofOption]⟩

/-- C34 is violated for empty real vectors: the transforms panic, whatever buffer is used. -/
theorem C51_fft_empty_violated [Zero T] [Mul T] [NatCast T] (K : FftKernel T) (v : DspVec T)
    (hr : v.isComplex = false) (h0 : v.len = 0) (b : Buffer T) :
    (v.dom = .time → v.plainFft K b = none ∧ v.fft K b = none) ∧
    (v.dom = .frequency → v.plainIfft K b = none) := by
  have he : v.ensureComplex b = none := by
    unfold ensureComplex zeroInterleaveB
    simp only [hr, h0, Bool.false_eq_true, if_false]
    cases b <;> simp [Buffer.borrow, resizeCells, get, slice]
  refine ⟨fun hd => ?_, fun hd => ?_⟩
  · have : v.plainFft K b = none := by
      unfold plainFft
      rw [if_neg (by simp [hd]), he]; rfl
    exact ⟨this, by unfold fft; rw [this]; rfl⟩
  · unfold plainIfft
    rw [if_neg (by simp [hd]), he]; rfl

/-- C35 is violated by every generic vector: after `plain_ifft` it still reports the frequency
    domain. -/
theorem C35_plain_ifft_violated [Zero T] [Mul T] [NatCast T] (K : FftKernel T) (hK : K.KeepsLength)
    (v : DspVec T) (hv : v.WF) (hg : v.Generic) (hd : v.dom = .frequency) (b : Buffer T)
    (hb : TransformBufferOk K b v) :
    ∃ w b', v.plainIfft K b = some (w, b') ∧ w.dom ≠ .time := by
  obtain ⟨w, b', cs, h1, _, _, _, _, _, h7, _⟩ := C34_plain_ifft K hK v hv (.inl hg) hd b hb
  exact ⟨w, b', h1, by rw [h7 hg]; simp⟩

/-- C48 is violated: `fft` followed by `ifft` multiplies the sampling distance with the square of the
    number of points. -/
theorem C48_round_trip_violated [Field T] [CharZero T] (K : FftKernel T) (hK : K.Inverts) (k : RegKind)
    (addr : Nat) (st : MultiCoreSettings) (v : DspVec T) (hv : v.WF)
    (ht : v.Typed) (hd : v.dom = .time) (b : Buffer T) (hb : TransformBufferOk K b v)
    (h1 : v.points ≠ 1) (hal : AlignmentAccepted addr k.len (2 * v.points))
    (hrust : K.useRust (2 * v.points) = true) (d : T) (hdelta : v.delta = some d) :
    ∃ w b' u b'', v.fft K b = some (w, b') ∧ Always (w.ifft K k addr st b') (u, b'') ∧
      w.delta = some ((v.points : T) * d) ∧ u.delta = some ((v.points : T) * ((v.points : T) * d)) ∧
      (2 ≤ v.points → d ≠ 0 → u.delta ≠ v.delta) := by
  obtain ⟨w, b', cs, f1, f2, f3, f4, f5, f6, f7, f8, f9, f10, f11⟩ :=
    C34_fft K hK.length v hv ht hd b hb
  have hwl : w.len = 2 * v.points := by
    obtain ⟨-, hl⟩ := cells_of_content ((cpoints_complex f5).mp f3)
    have := length_of_cpoints f3
    rw [f4] at this
    simp only [length_fromComplex] at hl
    unfold len; omega
  obtain ⟨u, b'', cs', i1, i2, i3, i4, i5, i6, i7, i8, i9, i10⟩ :=
    C34_ifft K hK.length k addr st w f9 f7 f5 f6 b'
    (by rw [f4]; exact f10.2 _ _ hb.2) (by rw [f4]; exact h1) (by rw [hwl]; exact hal)
  rw [hrust, hdelta] at f11
  rw [f4, hrust, f11] at i10
  refine ⟨w, b', u, b'', f1, i1, f11, i10, fun h2 h0 => ?_⟩
  rw [i10, hdelta]
  intro e
  have e : (v.points : T) * ((v.points : T) * d) = d := Option.some.inj e
  rw [← mul_assoc, ← Nat.cast_mul] at e
  have e2 : ((v.points * v.points : Nat) : T) = 1 := mul_right_cancel₀ h0 (by rw [e, one_mul])
  have e3 : v.points * v.points = 1 := by exact_mod_cast e2
  have := Nat.mul_le_mul h2 h2
  omega

/-- C48 is violated: the sampling distance of a spectrum should be `1 / (n d)` Hertz for `n` points with a
    distance of `d` seconds. The library gives `n d`, which is right only if `n d = 1` or `n d = -1`. -/
theorem C48_hertz_violated [Field T] (K : FftKernel T) (hK : K.KeepsLength) (v : DspVec T) (hv : v.WF)
    (ht : v.Typed) (hd : v.dom = .time) (b : Buffer T) (hb : TransformBufferOk K b v)
    (hrust : K.useRust (2 * v.points) = true) (d : T) (hdelta : v.delta = some d)
    (hn : (v.points : T) * d ≠ 0) :
    ∃ w b', v.fft K b = some (w, b') ∧ w.delta = some ((v.points : T) * d) ∧
      (w.delta = some (1 / ((v.points : T) * d)) ↔ (v.points : T) * d = 1 ∨ (v.points : T) * d = -1) := by
  obtain ⟨w, b', cs, f1, f2, f3, f4, f5, f6, f7, f8, f9, f10, f11⟩ := C34_fft K hK v hv ht hd b hb
  rw [hrust, hdelta] at f11
  refine ⟨w, b', f1, f11, ?_⟩
  rw [f11]
  simp only [Option.map_some, if_true, Option.some.injEq]
  rw [eq_div_iff hn, mul_self_eq_one_iff]

/-- C35 (partial): after `fft` and `plain_fft` the vector reports complex numbers and the frequency
    domain, for every vector type. The other direction fails for generic vectors:
    `C35_plain_ifft_violated`. -/
theorem C35_fft_partial [Zero T] [Mul T] [NatCast T] (K : FftKernel T) (hK : K.KeepsLength)
    (v : DspVec T) (hv : v.WF) (ht : v.Typed) (hd : v.dom = .time) (b : Buffer T)
    (hb : TransformBufferOk K b v) :
    ∃ w b' w' b'', v.plainFft K b = some (w, b') ∧ w.isComplex = true ∧ w.dom = .frequency ∧
      v.fft K b = some (w', b'') ∧ w'.isComplex = true ∧ w'.dom = .frequency := by
  obtain ⟨w, b', cs, h1, _, _, _, h5, h6, _⟩ := C34_plain_fft K hK v hv ht hd b hb
  obtain ⟨w', b'', cs', i1, _, _, _, i5, i6, _⟩ := C34_fft K hK v hv ht hd b hb
  exact ⟨w, b', w', b'', h1, h5, h6, i1, i5, i6⟩

/-- C35 (partial): `plain_ifft` of a vector with the static type `ComplexFreqVec` gives a complex vector
    in time domain. -/
theorem C35_plain_ifft_partial [Zero T] [Mul T] [NatCast T] (K : FftKernel T) (hK : K.KeepsLength)
    (v : DspVec T) (hv : v.WF) (hn : v.numberSpace = .complex) (hd : v.domain = .freq) (b : Buffer T)
    (hb : ScratchOk K b v.points) :
    ∃ w b', v.plainIfft K b = some (w, b') ∧ w.isComplex = true ∧ w.dom = .time := by
  have hc : v.isComplex = true := by unfold isComplex; rw [hn]; rfl
  obtain ⟨w, b', cs, h1, _, _, _, h5, h6, _⟩ := C34_plain_ifft K hK v hv (.inr ⟨.inr hn, .inr hd⟩)
    (by unfold dom; rw [hd]; rfl) b ⟨fun h => by rw [hc] at h; exact absurd h (by simp), hb⟩
  exact ⟨w, b', h1, h5, h6 (by rintro ⟨_, _, h, _⟩; rw [hn] at h; cases h)⟩

/-! ### C32: wrong domain -/

/-- C32: `plain_fft`, `fft` on a vector in frequency domain, and `plain_ifft` on a vector in time
    domain (only generic vectors allow these calls), give an empty vector in the error state. -/
theorem C32_transforms [Zero T] [Mul T] [NatCast T] (K : FftKernel T) (v : DspVec T) (b : Buffer T) :
    (v.dom = .frequency → ∃ w, v.plainFft K b = some (w, b) ∧ v.fft K b = some (w, b) ∧
      w.len = 0 ∧ w.isErroneous = true) ∧
    (v.dom = .time → ∃ w, v.plainIfft K b = some (w, b) ∧ w.len = 0 ∧ w.isErroneous = true) := by
  constructor
  · intro hd
    have h1 : v.plainFft K b = some (v.transformError.rededicateForce v.freqType, b) := by
      unfold plainFft; rw [if_pos (by simp [hd])]
    have h2 : (v.transformError.rededicateForce v.freqType).len = 0 := (rededicateForce_data _ _).2.1
    refine ⟨_, h1, ?_, h2, ?_⟩
    · unfold fft; simp only [h1, Option.bind_eq_bind, Option.bind_some, fftShift, swapHalvesPriv, h2]
      rfl
    · unfold isErroneous
      rw [(rededicateForce_data _ _).2.1, (rededicateForce_data _ _).2.2]; rfl
  · intro hd
    have h1 : v.plainIfft K b = some (v.transformError.rededicateForce v.timeType, b) := by
      unfold plainIfft; rw [if_pos (by simp [hd])]
    refine ⟨_, h1, (rededicateForce_data _ _).2.1, ?_⟩
    unfold isErroneous
    rw [(rededicateForce_data _ _).2.1, (rededicateForce_data _ _).2.2]; rfl

/-- C32: `plain_sfft` and `sfft` report an error and leave an empty vector in the error state if the
    vector is complex, in frequency domain, or has an even number of points; `plain_sifft` does so for a vector
    which is real or in time domain. -/
theorem C32_symmetric_transforms [Zero T] [Mul T] [NatCast T] [Neg T] (tiny : T → Bool) (K : FftKernel T)
    (st : MultiCoreSettings) (v : DspVec T) (b : Buffer T) :
    (v.dom ≠ .time ∨ v.isComplex = true ∨ v.points % 2 = 0 → ∃ w e, v.plainSfft K b = some (w, b, .error e) ∧
      v.sfft K b = some (w, b, .error e) ∧ w.len = 0 ∧ w.isErroneous = true) ∧
    (v.dom ≠ .frequency ∨ v.isComplex = false → ∃ w, (∀ sched, v.plainSifft tiny K st b sched =
      .finished (w, b, .error .inputMustBeInFrequencyDomain)) ∧ w.len = 0 ∧ w.isErroneous = true) := by
  constructor
  · intro h
    have : ∃ e, v.sfftCheck = some e := by
      unfold sfftCheck
      by_cases h1 : v.dom ≠ .time ∨ v.isComplex = true
      · exact ⟨_, by rw [if_pos h1]⟩
      · push Not at h1
        rcases h with h | h | h
        · exact absurd h1.1 h
        · exact absurd h h1.2
        · exact ⟨_, by rw [if_neg (by simp [h1]), if_pos h]⟩
    obtain ⟨e, he⟩ := this
    refine ⟨v.transformError.rededicateForce v.freqType, e, by unfold plainSfft; rw [he], by unfold sfft; rw [he],
      (rededicateForce_data _ _).2.1, ?_⟩
    unfold isErroneous
    rw [(rededicateForce_data _ _).2.1, (rededicateForce_data _ _).2.2]; rfl
  · intro h
    refine ⟨v.transformError.rededicateForce v.realTimeType, fun sched => by unfold plainSifft; rw [if_pos h], (rededicateForce_data _ _).2.1, ?_⟩
    unfold isErroneous
    rw [(rededicateForce_data _ _).2.1, (rededicateForce_data _ _).2.2]; rfl

/-! ### C36: mirror -/

theorem put_fromComplex_odd (hd g' : List (Cx T)) (g : Cx T) (tail : List T) (x : T) :
    put (fromComplex (hd ++ (g' ++ [g])) ++ tail) (2 * (hd.length + (g'.length + 1)) - 1) x =
      some (fromComplex (hd ++ (g' ++ [⟨g.re, x⟩])) ++ tail) := by
  rw [put_eq (by simp; omega)]
  congr 1
  have e : 2 * (hd.length + (g'.length + 1)) - 1 = (fromComplex (hd ++ g') ++ [g.re]).length := by
    simp; omega
  have e1 : fromComplex (hd ++ (g' ++ [g])) ++ tail = (fromComplex (hd ++ g') ++ [g.re]) ++ g.im :: tail := by
    simp [fromComplex]
  rw [e, e1, List.set_append_right _ _ (by simp), Nat.sub_self]
  simp [fromComplex]

theorem put_fromComplex_even (hd g' : List (Cx T)) (g : Cx T) (tail : List T) (x : T) :
    put (fromComplex (hd ++ (g' ++ [g])) ++ tail) (2 * (hd.length + (g'.length + 1)) - 1 - 1) x =
      some (fromComplex (hd ++ (g' ++ [⟨x, g.im⟩])) ++ tail) := by
  rw [put_eq (by simp; omega)]
  congr 1
  have e : 2 * (hd.length + (g'.length + 1)) - 1 - 1 = (fromComplex (hd ++ g')).length := by
    simp; omega
  have e1 : fromComplex (hd ++ (g' ++ [g])) ++ tail = fromComplex (hd ++ g') ++ g.re :: g.im :: tail := by
    simp [fromComplex]
  rw [e, e1, List.set_append_right _ _ (by simp), Nat.sub_self]
  simp [fromComplex]

theorem mirrorLoop_spec [Neg T] (hd : List (Cx T)) (hne : hd ≠ []) (s : List T) :
    ∀ (todo done garbage : List (Cx T))
    (tail : List T) (fuel : Nat), garbage.length = todo.length → todo.length ≤ fuel →
    mirrorLoop (2 * hd.length) (fromComplex (done ++ todo) ++ s) fuel
      (2 * (hd.length + garbage.length) - 1) (2 * done.length + 1) (fromComplex (hd ++ garbage) ++ tail) =
      some (fromComplex (hd ++ (todo.map Cx.conj).reverse) ++ tail) := by
  have hpos : 0 < hd.length := List.length_pos_iff.mpr hne
  intro todo
  induction todo with
  | nil =>
    intro done garbage tail fuel hg _
    have : garbage = [] := List.length_eq_zero_iff.mp (by simpa using hg)
    subst this
    cases fuel with
    | zero => simp [mirrorLoop]
    | succ n =>
      unfold mirrorLoop
      rw [if_neg (by simp; omega)]; simp
  | cons c todo ih =>
    intro done garbage tail fuel hg hf
    obtain ⟨g', g, rfl⟩ : ∃ g' g, garbage = g' ++ [g] := by
      rcases List.eq_nil_or_concat garbage with h | ⟨a, b, h⟩
      · subst h; simp at hg
      · exact ⟨a, b, by simpa using h⟩
    have hg' : g'.length = todo.length := by simpa using hg
    obtain ⟨n, rfl⟩ : ∃ n, fuel = n + 1 := ⟨fuel - 1, by simp at hf; omega⟩
    have e1 : (fromComplex (done ++ c :: todo) ++ s)[2 * done.length + 1]? = some c.im := by
      rw [List.getElem?_append_left (by simp; omega), getElem?_fromComplex_odd]; simp
    have e2 : (fromComplex (done ++ c :: todo) ++ s)[2 * done.length + 1 - 1]? = some c.re := by
      rw [Nat.add_sub_cancel, List.getElem?_append_left (by simp), getElem?_fromComplex_even]; simp
    have e3 : (g' ++ [g]).length = g'.length + 1 := by simp
    unfold mirrorLoop
    rw [if_pos (by rw [e3]; omega), e3]
    simp only [get, e1, e2, Option.bind_eq_bind, Option.bind_some, put_fromComplex_odd, put_fromComplex_even]
    have := ih (done ++ [c]) g' (fromComplex [c.conj] ++ tail) n hg' (by simp at hf; omega)
    have e4 : 2 * (done ++ [c]).length + 1 = 2 * done.length + 1 + 2 := by simp; omega
    have e5 : 2 * (hd.length + (g'.length + 1)) - 1 - 2 = 2 * (hd.length + g'.length) - 1 := by omega
    have e6 : done ++ [c] ++ todo = done ++ c :: todo := by simp
    have e7 : fromComplex (hd ++ g') ++ (fromComplex [c.conj] ++ tail) =
        fromComplex (hd ++ (g' ++ [⟨c.re, -c.im⟩])) ++ tail := by
      simp [Cx.conj]
    rw [e4, e6, e7] at this
    rw [e5, this]
    simp

/-- C36: `mirror` of the points `c0, c1, ..., c(N-1)` of a complex vector in frequency domain gives the
    `2N-1` points `c0, ..., c(N-1), conj c(N-1), ..., conj c1`, for every buffer which is large enough
    and whatever it contains. Excluded: the empty vector, see `C51_mirror_empty_violated`. -/
theorem C36_mirror [Zero T] [Neg T] (v : DspVec T) (hc : v.isComplex = true) (c0 : Cx T)
    (cs : List (Cx T)) (h : v.cpoints = some (c0 :: cs)) (b : Buffer T)
    (hb : BufferOk b v.data (2 * v.len - 2)) :
    ∃ w b', v.mirror b = some (w, b') ∧
      w.cpoints = some (c0 :: cs ++ (cs.map Cx.conj).reverse) ∧ w.SameMeta v ∧ w.WF ∧
      BufferKept b v b' w := by
  have hcont := (cpoints_complex hc).mp h
  obtain ⟨⟨s, hs⟩, hl⟩ := cells_of_content hcont
  have hlen : v.len = 2 * (cs.length + 1) := by unfold len; rw [hl]; simp
  obtain ⟨t, t1, t2⟩ := borrow_ok b v.data _ hb
  have hsl1 : slice v.data.cells 2 v.len = some (fromComplex cs) := by
    unfold slice
    rw [if_pos (by rw [hs, hlen]; simp), hs, hlen]
    simp only [fromComplex, List.cons_append, List.drop_succ_cons, List.drop_zero]
    rw [List.take_append_of_le_length (by simp; omega), List.take_of_length_le (by simp; omega)]
  have hsl2 : slice v.data.cells 0 2 = some [c0.re, c0.im] := by
    unfold slice
    rw [if_pos (by rw [hs]; simp; omega), hs]
    simp [fromComplex]
  have hcp1 : copyFromSlice t 2 v.len (fromComplex cs) = some (t.take 2 ++ fromComplex cs ++ t.drop v.len) := by
    unfold copyFromSlice
    rw [if_pos (by rw [t2, hlen]; simp; omega)]
    have : 2 + (fromComplex cs).length = v.len := by rw [hlen]; simp; omega
    simp only [splice, this]
  have hcp2 : copyFromSlice (t.take 2 ++ fromComplex cs ++ t.drop v.len) 0 2 [c0.re, c0.im] =
      some ([c0.re, c0.im] ++ fromComplex cs ++ t.drop v.len) := by
    have l2 : (t.take 2).length = 2 := by simp [t2, hlen]; omega
    unfold copyFromSlice
    rw [if_pos (by simp [t2, hlen]; omega)]
    rw [List.append_assoc, splice_append_left _ _ _ (by simp [l2]), ← List.append_assoc]
  obtain ⟨g, hg⟩ := exists_fromComplex (l := t.drop v.len) (by rw [List.length_drop, t2, hlen]; omega)
  rw [hg] at hcp1 hcp2
  have hgl : g.length = cs.length := by
    have := congrArg List.length hg
    rw [List.length_drop, t2, hlen, length_fromComplex] at this; omega
  have hloop := mirrorLoop_spec (c0 :: cs) (by simp) s cs [c0] g [] v.len hgl (by omega)
  have e1 : 2 * ((c0 :: cs).length + g.length) - 1 = 2 * v.len - 2 - 1 := by rw [hlen]; simp; omega
  have e2 : 2 * (c0 :: cs).length = v.len := by rw [hlen]; simp
  have e3 : [c0.re, c0.im] ++ fromComplex cs ++ fromComplex g = fromComplex (c0 :: cs ++ g) ++ [] := by
    simp [fromComplex]
  have e4 : fromComplex ([c0] ++ cs) ++ s = v.data.cells := by rw [hs]; rfl
  have e5 : 2 * [c0].length + 1 = 3 := rfl
  rw [e1, e2, e4, e5] at hloop
  have hml : (fromComplex (c0 :: cs ++ (cs.map Cx.conj).reverse) ++ []).length = 2 * v.len - 2 := by
    rw [hlen]; simp; omega
  obtain ⟨rest, htr⟩ := trade_ok b v.data _ (by rw [hml]; exact hb)
  refine ⟨{ v with data := (b.trade (fromComplex (c0 :: cs ++ (cs.map Cx.conj).reverse) ++ []) v.data).2, validLen := 2 * v.len - 2 },
    (b.trade (fromComplex (c0 :: cs ++ (cs.map Cx.conj).reverse) ++ []) v.data).1, ?_, ?_, ?_, ?_⟩
  · unfold mirror
    rw [if_neg (by simp [hc]), if_neg (by omega)]
    simp only [t1, hsl1, hcp1, hsl2, hcp2, Option.bind_eq_bind, Option.bind_some, e3, hloop]
  · refine (cpoints_complex (by exact hc)).mpr ?_
    refine content_of_cells (s := rest) ?_ ?_
    · show (b.trade _ _).2.cells = _
      rw [htr]; simp
    · show 2 * v.len - 2 = _
      rw [← hml]; simp
  · refine ⟨rfl, rfl, rfl, ?_⟩
    show (b.trade _ _).2.kind = _
    rw [htr]
  · refine ⟨⟨?_, fun _ => ?_⟩, .of_trade _ rfl⟩
    · show 2 * v.len - 2 ≤ (b.trade _ _).2.cells.length
      rw [htr, ← hml]; simp
    · show (2 * v.len - 2) % 2 = 0
      omega

/-- C36 is violated: `mirror` panics on an empty vector in frequency domain. -/
theorem C51_mirror_empty_violated [Zero T] [Neg T] (v : DspVec T) (hd : v.dom = .frequency) (h0 : v.len = 0)
    (b : Buffer T) : v.mirror b = none := by
  unfold mirror
  rw [if_neg (by simp [hd]), if_pos (by omega)]

/-- C32, C36 are violated: `mirror` accepts a real vector in frequency domain and a complex vector in
    time domain; in both cases the data is changed and no error is visible. -/
theorem C32_mirror_violated :
    (let v : DspVec Int := ⟨⟨.vec, [1, 2, 3, 4]⟩, some 1, .timeOrFreq .frequency, .realOrComplex false, 4⟩
     v.WF ∧ (v.mirror .noBuffer).map (fun r => (r.1.content, r.1.isErroneous)) =
      some (some [1, 2, 3, 4, 3, -4], false)) ∧
    (let v : DspVec Int := ⟨⟨.vec, [1, 2, 3, 4]⟩, some 1, .timeOrFreq .time, .realOrComplex true, 4⟩
     v.WF ∧ (v.mirror .noBuffer).map (fun r => (r.1.content, r.1.isErroneous)) =
      some (some [1, 2, 3, 4, 3, -4], false)) := by
  decide

example : (exampleVec.mirror (.single [9, 9, 9, 9, 9, 9, 9, 9, 9, 9, 9, 9])).bind (fun r => r.1.cpoints) =
    some [⟨1, 2⟩, ⟨3, 4⟩, ⟨5, 6⟩, ⟨5, -6⟩, ⟨3, -4⟩] := by decide

/-- Specification: `X` is conjugate symmetric: the point at `n - k` is the conjugate of the point
    at `k`. -/
def ConjSymmetric [Neg T] (X : List (Cx T)) : Prop :=
  ∀ k, 0 < k → k < X.length → X[X.length - k]? = (X[k]?).map Cx.conj

/-- C36: the first `n/2 + 1` points of a conjugate symmetric spectrum with an odd number `n` of points,
    mirrored, are the whole spectrum. -/
theorem C36_restores [Zero T] [Neg T] (X : List (Cx T)) (hX : ConjSymmetric X)
    (hodd : X.length % 2 = 1) (v : DspVec T) (hc : v.isComplex = true)
    (h : v.cpoints = some (X.take (X.length / 2 + 1))) (b : Buffer T)
    (hb : BufferOk b v.data (2 * X.length)) :
    ∃ w b', v.mirror b = some (w, b') ∧ w.cpoints = some X ∧ w.SameMeta v ∧ w.WF ∧
      BufferKept b v b' w := by
  obtain ⟨c0, cs, rfl⟩ : ∃ c0 cs, X = c0 :: cs := by
    cases X with
    | nil => simp at hodd
    | cons c0 cs => exact ⟨c0, cs, rfl⟩
  rw [List.take_succ_cons] at h
  have hl := length_of_cpoints h
  have hcl : cs.length % 2 = 0 := by simp at hodd; omega
  have hvl : v.len = 2 * (cs.length / 2 + 1) := by
    obtain ⟨-, hl⟩ := cells_of_content ((cpoints_complex hc).mp h)
    unfold len; rw [hl]; simp; omega
  obtain ⟨w, b', h1, h2, h3, h4, h5⟩ := C36_mirror v hc c0 _ h b
    (by have : 2 * v.len - 2 = 2 * (c0 :: cs).length := by rw [hvl]; simp; omega
        rw [this]; exact hb)
  refine ⟨w, b', h1, ?_, h3, h4, h5⟩
  rw [h2]
  congr 1
  have hh : (c0 :: cs).length / 2 = cs.length / 2 := by simp; omega
  rw [hh, List.cons_append]
  congr 1
  apply List.ext_getElem?
  intro i
  have hm : (cs.take (cs.length / 2)).length = cs.length / 2 := by simp; omega
  rw [List.getElem?_append, hm]
  split
  · rename_i hi
    rw [List.getElem?_take_of_lt hi]
  · rename_i hi
    by_cases hi2 : i < cs.length
    · rw [List.getElem?_reverse (by simp; omega)]
      simp only [List.length_map, hm, List.getElem?_map]
      rw [List.getElem?_take_of_lt (by omega)]
      have := hX (cs.length - i) (by omega) (by simp; omega)
      have e1 : (c0 :: cs).length - (cs.length - i) = i + 1 := by simp; omega
      have e2 : cs.length - i = (cs.length / 2 - 1 - (i - cs.length / 2)) + 1 := by omega
      rw [e1, e2, List.getElem?_cons_succ, List.getElem?_cons_succ] at this
      exact this.symm
    · rw [List.getElem?_eq_none (by simp; omega), List.getElem?_eq_none (by omega)]

/-- C36: the result of `mirror` is always conjugate symmetric. -/
theorem C36_conj_symmetric (T : Type) [AddGroup T] (c0 : Cx T) (cs : List (Cx T)) :
    ConjSymmetric (c0 :: cs ++ (cs.map Cx.conj).reverse) := by
  intro k hk hkl
  simp only [List.length_append, List.length_cons, List.length_reverse, List.length_map] at hkl ⊢
  obtain ⟨j, rfl⟩ : ∃ j, k = j + 1 := ⟨k - 1, by omega⟩
  have e : cs.length + 1 + cs.length - (j + 1) = (2 * cs.length - 1 - j) + 1 := by omega
  rw [e, List.cons_append, List.getElem?_cons_succ, List.getElem?_cons_succ]
  by_cases hj : j < cs.length
  · rw [List.getElem?_append_right (by omega), List.getElem?_append_left hj,
      List.getElem?_reverse (by simp; omega), List.getElem?_map, List.length_map]
    congr 2; omega
  · rw [List.getElem?_append_left (by omega), List.getElem?_append_right (by omega),
      List.getElem?_reverse (by simp; omega), List.getElem?_map, List.length_map]
    have e2 : cs.length - 1 - (j - cs.length) = 2 * cs.length - 1 - j := by omega
    rw [e2, Option.map_map]
    have : (Cx.conj ∘ Cx.conj : Cx T → Cx T) = id := by funext c; simp [Cx.conj]
    rw [this, Option.map_id_fun, id]

example : ConjSymmetric ([⟨1, 0⟩, ⟨2, 3⟩, ⟨4, 5⟩, ⟨4, -5⟩, ⟨2, -3⟩] : List (Cx Int)) :=
  C36_conj_symmetric Int ⟨1, 0⟩ [⟨2, 3⟩, ⟨4, 5⟩]

end Dsp
