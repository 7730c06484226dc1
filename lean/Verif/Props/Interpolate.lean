import Verif.Model.Interpolate
import Verif.Spec.Interpolate
import Verif.Props.FreqResponse
import Verif.Props.Correlation
/-
C57, C58: interpolation in the frequency domain.
-/
namespace Dsp
open DspVec
variable {T : Type}

theorem Always2.of_andThen {α β : Type} {f : List Nat → Outcome α} {x : α} {g : α → List Nat → Outcome β} {r : β}
    (hf : Always f x) (hg : Always (g x) r) : Always2 (fun s1 s2 => (f s1).andThen fun y => g y s2) r := by
  obtain ⟨f1, s1, f2⟩ := hf
  obtain ⟨g1, s2, g2⟩ := hg
  refine ⟨fun a b => ?_, s1, s2, by simp [Outcome.andThen, f2, g2]⟩
  rcases f1 a with h | h <;> simp [Outcome.andThen, h, g1 b]

theorem Always2.congr {α : Type} {f g : List Nat → List Nat → Outcome α} {r : α} (h : Always2 f r) (e : ∀ a b, g a b = f a b) :
    Always2 g r := by
  have : g = f := by funext a b; exact e a b
  rw [this]; exact h

theorem Always2.const {α : Type} (r : α) : Always2 (fun _ _ => .finished r) r := ⟨fun _ _ => .inr rfl, [], [], rfl⟩

theorem Always2.andThen {α β : Type} {run : List Nat → List Nat → Outcome α} {r : α} {f : α → Outcome β} {r' : β}
    (h : Always2 run r) (hf : f r = .finished r') : Always2 (fun a b => (run a b).andThen f) r' := by
  obtain ⟨h1, s1, s2, h2⟩ := h
  refine ⟨fun a b => ?_, s1, s2, by simp [Outcome.andThen, h2, hf]⟩
  rcases h1 a b with h | h <;> simp [Outcome.andThen, h, hf]

theorem Always.andThen' {α β : Type} {run : List Nat → Outcome α} {r : α} {f : α → Outcome β} {r' : β}
    (h : Always run r) (hf : f r = .finished r') : Always (fun s => (run s).andThen f) r' := h.andThen hf

theorem getD_of_lt {α : Type} {l : List α} {i : Nat} (d : α) (h : i < l.length) : l.getD i d = l[i] := by
  rw [List.getD_eq_getElem?_getD, List.getElem?_eq_getElem h]; rfl

/-- A complex vector on a slice. -/
structure DspVec.OnSlice (w : DspVec T) (d : Domain) (A : List (Cx T)) : Prop where
  content : w.content = some (fromComplex A)
  space : w.numberSpace = .complex
  domain : w.domain = d
  kind : w.data.kind = .fixed

namespace DspVec.OnSlice
variable {w : DspVec T} {d : Domain} {A : List (Cx T)}

theorem isComplex (h : w.OnSlice d A) : w.isComplex = true := by unfold DspVec.isComplex; rw [h.space]; rfl

theorem validLen (h : w.OnSlice d A) : w.validLen = 2 * A.length := by
  obtain ⟨_, h2⟩ := cells_of_content h.content
  rw [h2, length_fromComplex]

theorem wf (h : w.OnSlice d A) : w.WF := wf_of_content_complex h.content

theorem le_cells (h : w.OnSlice d A) : 2 * A.length ≤ w.data.cells.length := by
  obtain ⟨⟨s, h1⟩, h2⟩ := cells_of_content h.content
  rw [h1, List.length_append, length_fromComplex]; omega

theorem of_replaced {u : DspVec T} {B : List (Cx T)} (h : w.OnSlice d A) (hr : Replaced w u (fromComplex B)) : u.OnSlice d B :=
  ⟨hr.1, by rw [hr.2.2.1.2.2.1, h.space], by rw [hr.2.2.1.2.1, h.domain], by rw [hr.2.2.1.2.2.2, h.kind]⟩

end DspVec.OnSlice

/-- Scaling of the valid numbers of a vector. -/
theorem scale_replaced [CommRing T] (k : RegKind) (addr : Nat) (st : MultiCoreSettings) (x : T) (v : DspVec T) (c : List T)
    (h : v.content = some c) (hv : v.WF) (hal : AlignmentAccepted addr k.len c.length) :
    ∃ w, Always (v.scale k addr st x) w ∧ Replaced v w (c.map (· * x)) := by
  have h2 := (C20_offset_scale k addr x c st hal).2
  refine ⟨_, h2.mapOutcome.congr (fun s => ?_), replaced_splice hv _ (by rw [List.length_map]; exact hv.content_length h)⟩
  unfold scale
  rw [h]

theorem fromComplex_scaleBy [CommRing T] (x : T) (A : List (Cx T)) :
    (fromComplex A).map (· * x) = fromComplex (A.map (Cx.scaleBy x)) := by
  induction A with
  | nil => rfl
  | cons c A ih =>
    simp only [fromComplex, List.map_cons] at ih ⊢
    rw [ih]
    simp [Cx.scaleBy, mul_comm]

theorem scale_onSlice [CommRing T] (k : RegKind) (addr : Nat) (st : MultiCoreSettings) (x : T) {v : DspVec T} {d : Domain}
    {A : List (Cx T)} (h : v.OnSlice d A) (hal : AlignmentAccepted addr k.len (2 * A.length)) :
    ∃ w, Always (v.scale k addr st x) w ∧ w.OnSlice d (A.map (Cx.scaleBy x)) := by
  obtain ⟨w, h1, h2⟩ := scale_replaced k addr st x v _ h.content h.wf (by rw [length_fromComplex]; exact hal)
  exact ⟨w, h1, h.of_replaced (by rw [← fromComplex_scaleBy]; exact h2)⟩

theorem fft_onSlice [Zero T] [Mul T] [NatCast T] (K : FftKernel T) (hK : K.KeepsLength) {v : DspVec T} {A : List (Cx T)}
    (h : v.OnSlice .time A) (b : Buffer T) (hb : ScratchOk K b A.length) :
    ∃ w, v.plainFft K b = some (w, b) ∧ w.OnSlice .freq (K.forward A) ∧ w.data.cells.length = v.data.cells.length := by
  obtain ⟨u, f1, f2, f3, f4, f5, f6, f7, f8⟩ := fftRaw_spec K hK .forward v b A h.content hb
  have hc := h.isComplex
  have hdom : v.dom = .time := by unfold dom; rw [h.domain]; rfl
  have hft : v.freqType = .complexFreq := by unfold freqType; rw [h.space]
  refine ⟨{ u with domain := u.domain.toFreq }.rededicateForce v.freqType, ?_, ⟨?_, ?_, ?_, ?_⟩, ?_⟩
  · unfold plainFft
    rw [if_neg (by simp [hdom])]
    simp only [ensureComplex, hc, if_true, Option.bind_eq_bind, Option.bind_some, f1]
  · rw [rededicateForce_content]; exact f2
  · rw [hft]; rfl
  · rw [hft]; rfl
  · rw [hft]; exact f7.trans h.kind
  · rw [hft]; exact f4

theorem ifft_onSlice [Zero T] [Mul T] [NatCast T] (K : FftKernel T) (hK : K.KeepsLength) {v : DspVec T} {A : List (Cx T)}
    (h : v.OnSlice .freq A) (b : Buffer T) (hb : ScratchOk K b A.length) :
    ∃ w, v.plainIfft K b = some (w, b) ∧ w.OnSlice .time (K.inverse A) := by
  obtain ⟨u, f1, f2, f3, f4, f5, f6, f7, f8⟩ := fftRaw_spec K hK .inverse v b A h.content hb
  have hc := h.isComplex
  have hdom : v.dom = .frequency := by unfold dom; rw [h.domain]; rfl
  have hft : v.timeType = .complexTime := by unfold timeType; rw [h.space]
  refine ⟨{ u with domain := u.domain.toFreq }.rededicateForce v.timeType, ?_, ⟨?_, ?_, ?_, ?_⟩⟩
  · unfold plainIfft
    rw [if_neg (by simp [hdom])]
    simp only [ensureComplex, hc, if_true, Option.bind_eq_bind, Option.bind_some, f1]
  · rw [rededicateForce_content]; exact f2
  · rw [hft]; rfl
  · rw [hft]; rfl
  · rw [hft]; exact f7.trans h.kind

/-- The slice of complex numbers at the beginning. -/
theorem slice_start [Zero T] [One T] (cs : List (Cx T)) (s : List T) (hs : s.length % 2 = 0) :
    ∃ v, (toStaticVec (.sliceMut (fromComplex cs ++ s)) true false).resize (2 * cs.length) = (v, .ok ()) ∧ v.OnSlice .time cs ∧
      v.data.cells.length = 2 * cs.length + s.length := by
  refine ⟨{ toStaticVec (.sliceMut (fromComplex cs ++ s)) true false with validLen := 2 * cs.length }, ?_, ⟨?_, rfl, rfl, rfl⟩, ?_⟩
  · unfold resize
    rw [if_neg (by simp), if_neg]
    show ¬ (_ > (fromComplex cs ++ s).length)
    rw [List.length_append, length_fromComplex]; omega
  · exact content_of_cells (c := fromComplex cs) (s := s) rfl (length_fromComplex cs).symm
  · show (fromComplex cs ++ s).length = _
    rw [List.length_append, length_fromComplex]

theorem toStatic_onSlice [Zero T] [One T] (cs : List (Cx T)) :
    (toStaticVec (.sliceMut (fromComplex cs)) true true).OnSlice .freq cs :=
  ⟨(toStaticVec_slice cs (.sliceMut (fromComplex cs)) rfl (.inr rfl) true).1, rfl, rfl, rfl⟩

theorem exp_onSlice [CommRing T] (cis : T → Cx T) (h0 : cis 0 = 1) (hadd : ∀ x y, cis (x + y) = cis x * cis y) (a b : T)
    (cs : List (Cx T)) :
    ∃ w, (toStaticVec (.sliceMut (fromComplex cs)) true true).multiplyComplexExponential cis a b = some w ∧
      w.data.cells = fromComplex (cs.mapIdx fun i c => c * cis (a * i + b)) := by
  have h := toStatic_onSlice (T := T) cs
  obtain ⟨w, h1, h2⟩ := C31_exponential_partial cis h0 hadd a b 1 _ h.wf h.isComplex cs h.content rfl
  refine ⟨w, h1, ?_⟩
  simp only [mul_one] at h2
  obtain ⟨⟨s, h3⟩, h4⟩ := cells_of_content h2.1
  have h5 : w.data.cells.length = 2 * cs.length := by rw [h2.2.2.2.1]; exact length_fromComplex cs
  rw [h3] at h5 ⊢
  rw [List.length_append, length_fromComplex, List.length_mapIdx] at h5
  have : s = [] := List.length_eq_zero_iff.1 (by omega)
  rw [this, List.append_nil]

section
variable [Field T] [LinearOrder T] [IsStrictOrderedRing T]

omit [LinearOrder T] [IsStrictOrderedRing T] in
/-- `apply_linear_phase`: the phase belongs to the frequency of the bin, except for the bin in the middle of an odd
    number of bins. -/
theorem phase_onSlice (cis : T → Cx T) (h0 : cis 0 = 1) (hadd : ∀ x y, cis (x + y) = cis x * cis y) (pi d : T) {v : DspVec T}
    {A : List (Cx T)} (h : v.OnSlice .freq A) :
    ∃ w, v.applyLinearPhase cis pi d = some w ∧ w.data.cells.length = v.data.cells.length ∧
      w.OnSlice .freq (A.mapIdx fun i c => c * cis (2 * pi * d / (A.length : T) *
        (if i < A.length / 2 then (i : T) else (i : T) - (A.length : T)))) := by
  have hl : v.len / 2 = A.length := by show v.validLen / 2 = _; rw [h.validLen]; omega
  obtain ⟨lo, l1, l2⟩ := exp_onSlice cis h0 hadd (2 * pi * d / (A.length : T)) 0 (A.take (A.length / 2))
  obtain ⟨hi, g1, g2⟩ := exp_onSlice cis h0 hadd (2 * pi * d / (A.length : T))
    (-((A.length - A.length / 2 : Nat) : T) * (2 * pi * d / (A.length : T))) (A.drop (A.length / 2))
  rw [fromComplex_take] at l1
  rw [fromComplex_drop] at g1
  have hr := replaced_splice h.wf (lo.data.cells ++ hi.data.cells) (by
    rw [l2, g2, h.validLen]; simp only [List.length_append, length_fromComplex, List.length_mapIdx, List.length_take, List.length_drop]
    omega)
  refine ⟨_, ?_, hr.2.2.2.1, h.of_replaced (hr := ?_)⟩
  · unfold applyLinearPhase
    simp only [hl, h.content, Option.bind_eq_bind, Option.bind_some, g1, l1]
  · convert hr using 2
    rw [l2, g2, ← fromComplex_append]
    congr 1
    apply List.ext_getElem
    · simp only [List.length_append, List.length_mapIdx, List.length_take, List.length_drop]; omega
    · intro i h1 h2
      rw [List.length_mapIdx] at h1
      rw [List.getElem_append]
      simp only [List.getElem_mapIdx, List.length_mapIdx, List.length_take, List.getElem_take, List.getElem_drop]
      by_cases hi : i < A.length / 2
      · rw [if_pos hi, dif_pos (by omega), add_zero]
      · rw [if_neg hi, dif_neg (by omega)]
        have e1 : min (A.length / 2) A.length = A.length / 2 := by omega
        simp only [e1, show A.length / 2 + (i - A.length / 2) = i by omega]
        congr 2
        have e2 : ((i - A.length / 2 : Nat) : T) = (i : T) - ((A.length / 2 : Nat) : T) := by
          rw [Nat.cast_sub (by omega)]
        have e3 : ((A.length - A.length / 2 : Nat) : T) = (A.length : T) - ((A.length / 2 : Nat) : T) := by
          rw [Nat.cast_sub (by omega)]
        rw [e2, e3]; ring

omit [LinearOrder T] [IsStrictOrderedRing T] [Field T] in
theorem DspVec.OnSlice.shows {w : DspVec T} {A : List (Cx T)} (h : w.OnSlice .freq A) :
    w.Shows ⟨.complex A, .frequency, false, w.delta⟩ :=
  ⟨h.content, by rw [h.space]; rfl, by rw [h.domain]; rfl, rfl⟩

omit [Field T] [LinearOrder T] [IsStrictOrderedRing T] in
theorem length_resampled [Zero T] (N : Nat) (S : List (Cx T)) : (resampledSpectrum N S).length = N := by
  simp [resampledSpectrum]

omit [Field T] [LinearOrder T] [IsStrictOrderedRing T] in
theorem resampled_self [Zero T] (S : List (Cx T)) : resampledSpectrum S.length S = S := by
  apply List.ext_getElem (length_resampled _ _)
  intro i h1 h2
  simp only [resampledSpectrum, List.getElem_map, List.getElem_range, le_refl, if_true, Nat.sub_self, Nat.sub_zero]
  simp only [getD_of_lt _ h2]
  split
  · rfl
  · rw [if_pos (by omega)]

omit [Field T] [LinearOrder T] [IsStrictOrderedRing T] in
theorem resampled_pad [Zero T] (N right : Nat) (S : List (Cx T)) (h : S.length ≤ N) :
    padSpec 0 S N right .center = resampledSpectrum N S := by
  apply List.ext_getElem
  · simp [padSpec, length_resampled]; omega
  · intro i h1 h2
    rw [length_resampled] at h2
    simp only [resampledSpectrum, List.getElem_map, List.getElem_range, if_pos h, padSpec, List.getElem_append, List.length_append,
      List.length_take, List.length_replicate, List.getElem_take, List.getElem_drop, List.getElem_replicate]
    have e1 : min (S.length - S.length / 2) S.length = S.length - S.length / 2 := by omega
    simp only [e1]
    by_cases c1 : i < S.length - S.length / 2
    · rw [if_pos c1, dif_pos (by omega), dif_pos c1, getD_of_lt _ (by omega)]
    · rw [if_neg c1]
      by_cases c2 : N - S.length / 2 ≤ i
      · rw [if_pos c2, dif_neg (by omega), getD_of_lt _ (by omega)]
        congr 1; omega
      · rw [if_neg c2, dif_pos (by omega), dif_neg c1]

omit [LinearOrder T] [IsStrictOrderedRing T] in
theorem pad_onSlice {v : DspVec T} {A : List (Cx T)} (h : v.OnSlice .freq A) (N : Nat) (hN : A.length < N)
    (hL : 2 * N ≤ v.data.cells.length) :
    ∃ w, v.zeroPad N .center = some (w, .ok ()) ∧ w.OnSlice .freq (resampledSpectrum N A) := by
  have hs := h.shows
  have hst : v.stride = 2 := hs.stride
  have hp : v.points = A.length := hs.points
  obtain ⟨-, -, h3⟩ := C07_zero_pad v h.wf (by intro c; rw [h.kind]; intro e; cases e) N .center
  obtain ⟨w, l, e1, e2, e3, e4, e5⟩ := h3 (by rw [hp]; exact hN) (.inl (by rw [hst]; omega))
  refine ⟨w, e1, ?_⟩
  rw [hs.pts] at e2; cases e2
  have := hs.rearrange (fun z l => padSpec z l N (surroundRight l.length N) .center) (natural_pad N _) e5 (by
    rw [e3]; simp only [Numbers.length_pointLists, hp]; rfl)
  refine ⟨?_, this.space, this.domain, by rw [e5.2.2.2, h.kind]⟩
  rw [this.content]
  show some (fromComplex (padSpec 0 A N _ .center)) = _
  rw [resampled_pad _ _ _ (by omega)]

theorem down_onSlice (k : RegKind) (addr : Nat) {v : DspVec T} {A : List (Cx T)} (h : v.OnSlice .freq A) (N : Nat)
    (hN : N < A.length) (hal : AlignmentAccepted addr k.len (2 * N)) :
    ∃ w, Always (v.interpolateDownsample k addr N) w ∧
      w.OnSlice .freq ((resampledSpectrum N A).map (Cx.scaleBy ((N : T) / (A.length : T)))) := by
  obtain ⟨⟨s, hs⟩, hl⟩ := cells_of_content h.content
  rw [length_fromComplex] at hl
  have e : resampledSpectrum N A = A.take (N - N / 2) ++ A.drop (A.length - N / 2) := by
    apply List.ext_getElem
    · simp [length_resampled]; omega
    · intro i h1 h2
      rw [length_resampled] at h1
      simp only [resampledSpectrum, List.getElem_map, List.getElem_range, if_neg (show ¬ A.length ≤ N by omega),
        List.getElem_append, List.length_take, List.getElem_take, List.getElem_drop]
      by_cases c : i < N - N / 2
      · rw [if_pos c, dif_pos (by omega), getD_of_lt _ (by omega)]
      · rw [if_neg c, dif_neg (by omega), getD_of_lt _ (by omega)]
        congr 1; omega
  have hcl : v.data.cells.length = 2 * A.length + s.length := by rw [hs, List.length_append, length_fromComplex]
  have hm := memcpy_ok v.data.cells (2 * A.length - 2 * (N / 2)) (2 * A.length) (2 * (N - N / 2)) (by omega) (by omega) (by omega)
  set cells := splice v.data.cells (2 * (N - N / 2)) (List.take (2 * A.length - (2 * A.length - 2 * (N / 2)))
    (List.drop (2 * A.length - 2 * (N / 2)) v.data.cells)) with hcells
  have hc2 : ∃ s', cells = fromComplex (resampledSpectrum N A) ++ s' := by
    refine ⟨v.data.cells.drop (2 * N), ?_⟩
    rw [e, fromComplex_append, fromComplex_take, fromComplex_drop, hcells]
    unfold splice
    have i1 : 2 * A.length - 2 * (N / 2) = 2 * (A.length - N / 2) := by omega
    have i2 : List.take (2 * A.length - 2 * (A.length - N / 2)) (List.drop (2 * (A.length - N / 2)) v.data.cells) =
        List.drop (2 * (A.length - N / 2)) (fromComplex A) := by
      rw [hs, List.drop_append_of_le_length (by rw [length_fromComplex]; omega), List.take_append_of_le_length (by
        rw [List.length_drop, length_fromComplex]), List.take_of_length_le (by rw [List.length_drop, length_fromComplex])]
    rw [i1, i2]
    congr 2
    · rw [hs, List.take_append_of_le_length (by rw [length_fromComplex]; omega)]
    · rw [List.length_drop, length_fromComplex]; congr 1; omega
  obtain ⟨s', hs'⟩ := hc2
  have hcl' : cells.length = 2 * N + s'.length := by rw [hs', List.length_append, length_fromComplex, length_resampled]
  have hres : (v.withCells cells).resize (2 * N) = ({ v.withCells cells with validLen := 2 * N }, .ok ()) := by
    unfold resize
    rw [if_neg (by simp), if_neg]
    show ¬ (2 * N > cells.length); omega
  have hw : ({ v.withCells cells with validLen := 2 * N } : DspVec T).OnSlice .freq (resampledSpectrum N A) :=
    ⟨content_of_cells (c := fromComplex (resampledSpectrum N A)) (s := s') hs' (by rw [length_fromComplex, length_resampled]),
      h.space, h.domain, h.kind⟩
  obtain ⟨u, u1, u2⟩ := scale_onSlice k addr defaultSettings ((N : T) / (A.length : T)) hw (by rw [length_resampled]; exact hal)
  refine ⟨u, u1.congr (fun sc => ?_), u2⟩
  have n1 : N / 2 + (N - N / 2) = N := by omega
  have n2 : ((2 * N : Nat) : T) / ((2 * A.length : Nat) : T) = (N : T) / (A.length : T) := by
    push_cast
    exact mul_div_mul_left _ _ two_ne_zero
  unfold interpolateDownsample
  have hlen : v.len = 2 * A.length := hl
  simp only [hlen, if_neg (show ¬ 2 * A.length < 2 * (N / 2) by omega), hm, n1, hres, n2]

/-- The axis which the code uses for a spectrum which starts with 0 Hz: `m` is half of the number of points. -/
def usedAxis (sym : Bool) (N i : Nat) : T :=
  if sym then (if i < (N + 1) / 2 then (i : T) else ((2 * (N / 2) : Nat) : T) - (i : T)) / ((N / 2 : Nat) : T)
  else (if i ≤ N / 2 then (i : T) else (i : T) - ((2 * (N / 2) + 1 : Nat) : T)) / ((N / 2 : Nat) : T)

theorem fftSwapX_low (m i : Nat) (hm : 0 < m) (h : i ≤ m) : fftSwapX true (-(m : T) + (i : T)) (m : T) = (i : T) / (m : T) := by
  have h1 : (i : T) ≤ (m : T) := by exact_mod_cast h
  have h0 : (m : T) ≠ 0 := by exact_mod_cast hm.ne'
  unfold fftSwapX
  rw [if_neg (by simp), if_pos (by linarith)]
  field_simp; ring

theorem fftSwapX_high (m i : Nat) (hm : 0 < m) (h : m < i) :
    fftSwapX true (-(m : T) + (i : T)) (m : T) = ((i : T) - ((2 * m + 1 : Nat) : T)) / (m : T) := by
  have h1 : (m : T) < (i : T) := by exact_mod_cast h
  have h0 : (m : T) ≠ 0 := by exact_mod_cast hm.ne'
  unfold fftSwapX
  rw [if_neg (by simp), if_neg (by linarith)]
  congr 1
  push_cast; ring

theorem fftSwapX_mirror (m i : Nat) (hm : 0 < m) (h : m ≤ i) :
    fftSwapX true ((m : T) - (i : T)) (m : T) = (((2 * m : Nat) : T) - (i : T)) / (m : T) := by
  have h1 : (m : T) ≤ (i : T) := by exact_mod_cast h
  have h0 : (m : T) ≠ 0 := by exact_mod_cast hm.ne'
  unfold fftSwapX
  rw [if_neg (by simp), if_pos (by linarith)]
  push_cast
  field_simp; ring

/-- The multiplication with a response with `shifted` on one core. -/
theorem multiplyFunction_shifted (sym : Bool) (ratio : T) (f : T → T) (a : List (Cx T)) (h2 : 2 ≤ a.length) :
    Always (multiplyFunction defaultSettings sym true ratio ⟨ratio, 0⟩ (fun x => (⟨f x, 0⟩ : Cx T)) a)
      (a.mapIdx fun i c => c * ⟨ratio * f (usedAxis sym a.length i * ratio), 0⟩) := by
  have hm : 0 < a.length / 2 := by omega
  have hone : determineNumberOfChunks a.length .medium defaultSettings = 1 := rfl
  have hc : ∀ x y : T, (⟨x, 0⟩ : Cx T) * ⟨y, 0⟩ = ⟨x * y, 0⟩ := by intro x y; ext <;> simp
  cases sym with
  | false =>
    have := executeWithRange_mapIdx a (by rintro rfl; simp at h2)
      (fun x i => x * ⟨ratio, 0⟩ * (⟨f (fftSwapX true (-(axisCenter a.length : T) + (i : T)) (axisCenter a.length) * ratio), 0⟩ : Cx T))
      .medium defaultSettings
    refine Always.congr (run := executeWithRange .medium defaultSettings a 1 _) ?_ (fun s => rfl)
    convert this using 1
    congr 1
    funext i x
    rw [mul_assoc, hc, axisCenter_eq]
    congr 5
    unfold usedAxis
    rw [if_neg (by simp)]
    split
    · rw [fftSwapX_low _ _ hm (by assumption)]
    · rw [fftSwapX_high _ _ hm (by omega)]
  | true =>
    obtain ⟨hcl, hn⟩ := fullPairs_one a.length h2 defaultSettings hone (by decide)
    have hcs : calcChunkSize a.length 1 (2 * 1) = (a.length + 1) / 2 := by
      unfold calcChunkSize ceilDiv; simp [Nat.mod_one]
    have := executeResponse defaultSettings a h2 (⟨ratio, 0⟩ : Cx T)
      (fun j => (⟨f (fftSwapX true j (axisCenter a.length) * ratio), 0⟩ : Cx T)) hcl hn
      (fun i => ⟨ratio * f (usedAxis true a.length i * ratio), 0⟩) (fun i _ => by
        rw [hone, hcs, one_mul]
        simp only [axisCenter_eq, usedAxis, if_true]
        refine ⟨fun h => ?_, fun h => ?_⟩
        · rw [fftSwapX_low _ _ hm (by omega), hc, if_pos h]
        · rw [fftSwapX_mirror _ _ hm (by omega), hc, if_neg (by omega)])
    refine Always.congr this (fun s => ?_)
    simp only [multiplyFunction, if_true, axisCenter_eq]

/-- The used axis is the right one for even functions and an even number of points, and for other functions and an odd number
    of points. -/
theorem usedAxis_value (sym : Bool) (f : T → T) (N i : Nat) (hs : sym = true → EvenFunction f ∧ N % 2 = 0)
    (hns : sym = false → N % 2 = 1) (ratio : T) :
    f (usedAxis sym N i * ratio) = f (((binFrequency N i : Int) : T) / ((N / 2 : Nat) : T) * ratio) := by
  unfold usedAxis binFrequency
  cases sym with
  | false =>
    have := hns rfl
    rw [if_neg (by simp)]
    by_cases h : i ≤ N / 2
    · rw [if_pos h, if_pos (by omega)]; push_cast; rfl
    · rw [if_neg h, if_neg (by omega), show 2 * (N / 2) + 1 = N by omega]; push_cast; rfl
  | true =>
    obtain ⟨he, h2⟩ := hs rfl
    rw [if_pos rfl]
    by_cases h : i < (N + 1) / 2
    · rw [if_pos h, if_pos (by omega)]; push_cast; rfl
    · rw [if_neg h, if_neg (by omega), show 2 * (N / 2) = N by omega, ← he]; push_cast
      congr 1; ring

/-- The number of points and the symmetry for which `interpolate` and `interpolatei` use the right frequencies. -/
def ResponseFits (function : Option (FrequencyResponse T T)) (N : Nat) : Prop :=
  ∀ f, function = some f → (f.isSymmetric = true → EvenFunction f.value ∧ N % 2 = 0) ∧ (f.isSymmetric = false → N % 2 = 1)

theorem multiplyBy_onSlice (sym : Bool) (ratio : T) (f : T → T) {v : DspVec T} {A : List (Cx T)} (h : v.OnSlice .freq A)
    (h2 : 2 ≤ A.length) :
    ∃ w, Always (v.multiplyFunctionBy defaultSettings sym true ratio (fun _ => 0) (fun x => ⟨f x, 0⟩)) w ∧
      w.OnSlice .freq (A.mapIdx fun i c => c * ⟨ratio * f (usedAxis sym A.length i * ratio), 0⟩) := by
  have hA := multiplyFunction_shifted sym ratio f A h2
  set R := A.mapIdx fun i c => c * (⟨ratio * f (usedAxis sym A.length i * ratio), 0⟩ : Cx T) with hR
  have hrep := replaced_splice h.wf (fromComplex R) (by rw [length_fromComplex, hR, List.length_mapIdx, h.validLen])
  refine ⟨v.withCells (splice v.data.cells 0 (fromComplex R)), ?_, h.of_replaced hrep⟩
  refine hA.map (fun s e => ?_) (fun s e => ?_) <;>
  · unfold multiplyFunctionBy
    simp [h.content, h.isComplex, e, toComplex?_fromComplex, Outcome.andThen]

/-- The spectrum which the code computes, for every delay and response. -/
def usedSpectrum (cis : T → Cx T) (pi : T) (function : Option (FrequencyResponse T T)) (N : Nat) (d : T) (S : List (Cx T)) :
    List (Cx T) :=
  let P := if d = 0 then S else S.mapIdx fun i c => c * cis (2 * pi * d / (S.length : T) *
        (if i < S.length / 2 then (i : T) else (i : T) - (S.length : T)))
  let R := resampledSpectrum N P
  match function with
  | none => R.map (Cx.scaleBy ((N : T) / (S.length : T)))
  | some F => if S.length < N then R.mapIdx fun i c => c * ⟨(N : T) / (S.length : T) *
        F.value (usedAxis F.isSymmetric N i * ((N : T) / (S.length : T))), 0⟩
      else R.map (Cx.scaleBy ((N : T) / (S.length : T)))

omit [IsStrictOrderedRing T] in
theorem length_usedSpectrum (cis : T → Cx T) (pi : T) (function : Option (FrequencyResponse T T)) (N : Nat) (d : T)
    (S : List (Cx T)) : (usedSpectrum cis pi function N d S).length = N := by
  unfold usedSpectrum
  dsimp only
  split
  · rw [List.length_map, length_resampled]
  · split
    · rw [List.length_mapIdx, length_resampled]
    · rw [List.length_map, length_resampled]

/-- The steps between both transforms. -/
theorem spectrum_onSlice (k : RegKind) (addr : Nat) (function : Option (FrequencyResponse T T)) (N : Nat) {v : DspVec T}
    {A : List (Cx T)} (h : v.OnSlice .freq A) (h1 : 1 ≤ A.length) (hL : 2 * N ≤ v.data.cells.length)
    (hal : AlignmentAccepted addr k.len (2 * N)) :
    ∃ w, Always (fun s => v.interpolateSpectrum k addr function ((N : T) / (A.length : T)) N (decide (A.length < N))
        (decide (N < A.length)) s) (w, .ok ()) ∧
      w.OnSlice .freq (match function with
        | none => (resampledSpectrum N A).map (Cx.scaleBy ((N : T) / (A.length : T)))
        | some F => if A.length < N then (resampledSpectrum N A).mapIdx fun i c => c * ⟨(N : T) / (A.length : T) *
            F.value (usedAxis F.isSymmetric N i * ((N : T) / (A.length : T))), 0⟩
            else (resampledSpectrum N A).map (Cx.scaleBy ((N : T) / (A.length : T)))) := by
  rcases lt_trichotomy A.length N with hl | hl | hl
  · obtain ⟨p, p1, p2⟩ := pad_onSlice h N hl hL
    cases function with
    | none =>
      obtain ⟨w, w1, w2⟩ := scale_onSlice k addr defaultSettings ((N : T) / (A.length : T)) p2 (by rw [length_resampled]; exact hal)
      refine ⟨w, (w1.andThen (f := fun u => .finished (u, (.ok () : VoidResult))) rfl).congr fun s => ?_, w2⟩
      unfold interpolateSpectrum
      simp only [hl, decide_true, if_true, p1]
      rfl
    | some F =>
      obtain ⟨w, w1, w2⟩ := multiplyBy_onSlice F.isSymmetric ((N : T) / (A.length : T)) F.value p2 (by rw [length_resampled]; omega)
      rw [length_resampled] at w2
      refine ⟨w, (w1.andThen (f := fun u => .finished (u, (.ok () : VoidResult))) rfl).congr fun s => ?_, ?_⟩
      · unfold interpolateSpectrum
        simp only [hl, decide_true, if_true, p1]
        rfl
      · simp only [if_pos hl]; exact w2
  · subst hl
    have h0 : (A.length : T) ≠ 0 := by exact_mod_cast (by omega : A.length ≠ 0)
    refine ⟨v, (Always.const (v, (.ok () : VoidResult))).congr fun s => ?_, ?_⟩
    · unfold interpolateSpectrum
      simp
    · have e : (resampledSpectrum A.length A).map (Cx.scaleBy ((A.length : T) / (A.length : T))) = A := by
        rw [resampled_self, div_self h0]
        conv_rhs => rw [← List.map_id A]
        congr 1
        funext c
        simp [Cx.scaleBy]
      cases function with
      | none => simp only; rw [e]; exact h
      | some F => simp only [lt_irrefl, if_false]; rw [e]; exact h
  · obtain ⟨w, w1, w2⟩ := down_onSlice k addr h N hl hal
    refine ⟨w, (w1.andThen (f := fun u => .finished (u, (.ok () : VoidResult))) rfl).congr fun s => ?_, ?_⟩
    · unfold interpolateSpectrum
      rw [if_neg (by simp; omega), if_pos (by simpa using hl)]
    · cases function with
      | none => exact w2
      | some F => simp only [if_neg (show ¬ A.length < N by omega)]; exact w2

omit [LinearOrder T] [IsStrictOrderedRing T] in
theorem phaseShifted_zero (cis : T → Cx T) (h0 : cis 0 = 1) (pi : T) (S : List (Cx T)) : phaseShifted cis pi 0 S = S := by
  apply List.ext_getElem
  · simp [phaseShifted]
  · intro i h1 h2
    simp [phaseShifted, h0]

/-- The delays for which the phases are right: with an odd number of points only whole sampling distances. -/
def DelayFits (cis : T → Cx T) (pi d : T) (n : Nat) : Prop := d = 0 ∨ n % 2 = 0 ∨ cis (2 * pi * d) = 1

omit [LinearOrder T] [IsStrictOrderedRing T] in
theorem phase_value [CharZero T] (cis : T → Cx T) (hadd : ∀ x y, cis (x + y) = cis x * cis y) (pi d : T) (n i : Nat) (hi : i < n)
    (hd : n % 2 = 0 ∨ cis (2 * pi * d) = 1) :
    cis (2 * pi * d / (n : T) * (if i < n / 2 then (i : T) else (i : T) - (n : T))) =
      cis (2 * pi * d * ((binFrequency n i : Int) : T) / (n : T)) := by
  have hn : (n : T) ≠ 0 := by exact_mod_cast (by omega : n ≠ 0)
  unfold binFrequency
  by_cases h : i < n / 2
  · rw [if_pos h, if_pos (by omega)]
    congr 1; push_cast; ring
  · rw [if_neg h]
    by_cases h' : i < n - n / 2
    · rw [if_pos h']
      rcases hd with hd | hd
      · omega
      · rw [← mul_one (cis (_ / (n : T) * _)), ← hd, ← hadd]
        congr 1; push_cast; field_simp; ring
    · rw [if_neg h']
      congr 1; push_cast; ring

/-- The work on the slice. -/
theorem interpolateSlice_spec (K : FftKernel T) (hK : K.KeepsLength) (k : RegKind) (addr : Nat) (cis : T → Cx T) (h0 : cis 0 = 1)
    (hadd : ∀ x y, cis (x + y) = cis x * cis y) (pi : T) (function : Option (FrequencyResponse T T)) (d : T) (N : Nat)
    (a : List (Cx T)) (s : List T) (hs : s.length % 2 = 0) (h1 : 1 ≤ a.length) (hL : 2 * N ≤ 2 * a.length + s.length)
    (b : Buffer T) (hb : ScratchOk K b a.length) (hb' : ScratchOk K b N) (hal : AlignmentAccepted addr k.len (2 * N)) :
    ∃ cells s', Always (fun sc => interpolateSlice K k addr cis pi function ((N : T) / (a.length : T)) d (2 * a.length) N
        (decide (a.length < N)) (decide (N < a.length)) (fromComplex a ++ s) b sc) (cells, .ok ()) ∧
      cells = fromComplex (K.inverse (usedSpectrum cis pi function N d (K.forward a))) ++ s' := by
  obtain ⟨v, v1, v2, v3⟩ := slice_start a s hs
  obtain ⟨u, u1, u2, u3⟩ := fft_onSlice K hK v2 b hb
  have hl : (K.forward a).length = a.length := hK.1 a
  set P := (if d = 0 then K.forward a else (K.forward a).mapIdx fun i c => c * cis (2 * pi * d / ((K.forward a).length : T) *
        (if i < (K.forward a).length / 2 then (i : T) else (i : T) - ((K.forward a).length : T)))) with hP
  have hph : ∃ p, (if d ≠ 0 then u.applyLinearPhase cis pi d else some u) = some p ∧ p.data.cells.length = u.data.cells.length ∧
      p.OnSlice .freq P := by
    by_cases hz : d = 0
    · exact ⟨u, by rw [if_neg (not_not.2 hz)], rfl, by rw [hP, if_pos hz]; exact u2⟩
    · obtain ⟨p, p1, p2, p3⟩ := phase_onSlice cis h0 hadd pi d u2
      exact ⟨p, by rw [if_pos hz]; exact p1, p2, by rw [hP, if_neg hz]; exact p3⟩
  obtain ⟨p, p1, p2, p3⟩ := hph
  have hpl : P.length = a.length := by rw [hP]; split <;> simp [hl]
  obtain ⟨q, q1, q2⟩ := spectrum_onSlice k addr function N p3 (by omega) (by rw [p2, u3, v3]; exact hL) hal
  rw [hpl] at q1 q2
  replace q2 : q.OnSlice .freq (usedSpectrum cis pi function N d (K.forward a)) := by
    convert q2 using 1
    unfold usedSpectrum
    rw [← hP, hl]
  have hil := length_usedSpectrum cis pi function N d (K.forward a)
  obtain ⟨t, t1, t2⟩ := ifft_onSlice K hK q2 b (by rw [hil]; exact hb')
  obtain ⟨⟨s', hs'⟩, -⟩ := cells_of_content t2.content
  refine ⟨t.data.cells, s', ?_, hs'⟩
  refine q1.map (fun sc e => ?_) (fun sc e => ?_) <;>
  · simp only [interpolateSlice, v1, u1, p1, e, Outcome.andThen, t1]

omit [LinearOrder T] [IsStrictOrderedRing T] [Field T] in
/-- `resize_b` makes room. -/
theorem resizeB_room [Zero T] (v : DspVec T) (hv : v.WF) (hk : NotInline v.data.kind) (b : Buffer T) (L : Nat) (hL : v.len ≤ L)
    (hpar : ¬ (v.isComplex = true ∧ L % 2 = 1)) (hroom : CanHold v.data L ∨ BufferOk b v.data L) (c : List T)
    (hc : v.content = some c) :
    ∃ w b' s, v.resizeB b L = some (w, b', .ok ()) ∧ w.SameMeta v ∧ w.content = some (c ++ s) ∧ s.length = L - v.len ∧
      ∀ K n, ScratchOk K b n → ScratchOk K b' n := by
  obtain ⟨-, h2, h3⟩ := C02_resize_b v hv hk b L
  have hcl : c.length = v.len := hv.content_length hc
  obtain ⟨⟨r, hr⟩, -⟩ := cells_of_content hc
  have finish : ∀ w : DspVec T, w.len = L → w.WF → w.data.cells.take v.len = v.data.cells.take v.len →
      ∃ s, w.content = some (c ++ s) ∧ s.length = L - v.len := by
    intro w w1 w2 w3
    obtain ⟨c', s', e1, e2⟩ := w2.real
    have e3 : c'.length = L := by rw [← w1]; exact e2
    have e4 : c'.take v.len = c := by
      rw [e1, hr, List.take_append_of_le_length (by omega), List.take_append_of_le_length (by omega), ← hcl, List.take_length] at w3
      rw [← hcl]; exact w3
    refine ⟨c'.drop v.len, ?_, by rw [List.length_drop, e3]⟩
    rw [← e4, List.take_append_drop]
    exact content_of_cells e1 (by rw [e3]; exact w1)
  by_cases hh : CanHold v.data L
  · obtain ⟨w, e1, e2, e3, e4, e5⟩ := h2 hpar hh
    obtain ⟨s, s1, s2⟩ := finish w e2 e3 (by rw [Nat.min_eq_left hL] at e5; exact e5)
    exact ⟨w, b, s, e1, e4, s1, s2, fun _ _ h => h⟩
  · have hb := hroom.resolve_left hh
    have hnf : ∀ mem, b ≠ .fixedLen mem := by
      rintro mem rfl
      exact hh (.inl hb.2)
    obtain ⟨w, b', e1, e2, e3, e4, e5⟩ := h3 hpar hh hnf
    obtain ⟨s, s1, s2⟩ := finish w e2 e3 e5
    refine ⟨w, b', s, e1, e4, s1, s2, fun K n h => ?_⟩
    unfold resizeB at e1
    split at e1
    · cases e1
    · split at e1
      · cases e1; exact h
      · simp only [Option.bind_eq_bind, Option.bind_eq_some_iff, Option.some.injEq, Prod.mk.injEq] at e1
        obtain ⟨_, _, _, _, _, _, _, rfl, _⟩ := e1
        exact h.trade _ _

omit [LinearOrder T] [IsStrictOrderedRing T] in
/-- The last steps. -/
theorem finish_spec (k : RegKind) (addr : Nat) (st : MultiCoreSettings) (N : Nat) (factor : T) (R : List (Cx T)) (hR : R.length = N)
    (hal : AlignmentAccepted addr k.len (2 * N)) (v : DspVec T) (s : Signal T) (v0 : DspVec T) (h0 : v0.Shows s)
    (hm : v.SameMeta v0) (rest : List T) (hc : v.data.cells = fromComplex R ++ rest) :
    ∃ w, Always (v.interpolateFinish k addr st v0.isComplex N factor) w ∧
      w.Shows { s with numbers := s.numbers.receive (R.map (Cx.scaleBy (1 / (N : T)))), delta := s.delta.map (· / factor) } ∧
      w.data.kind = v0.data.kind := by
  have hcl : v.data.cells.length = 2 * N + rest.length := by rw [hc, List.length_append, length_fromComplex, hR]
  have hres : v.resize (2 * N) = ({ v with validLen := 2 * N }, .ok ()) := by
    unfold resize
    rw [if_neg (by simp), if_neg]
    show ¬ (2 * N > v.data.cells.length); omega
  set u : DspVec T := { v with validLen := 2 * N } with hu
  have huc : u.content = some (fromComplex R) := content_of_cells (s := rest) hc (by rw [length_fromComplex, hR])
  obtain ⟨x, x1, x2, x3, x4, x5, x6⟩ := scale_replaced k addr st (1 / (N : T)) u _ huc (wf_of_content_complex huc)
    (by rw [length_fromComplex, hR]; exact hal)
  rw [fromComplex_scaleBy] at x2
  obtain ⟨⟨xs, hxs⟩, hxl⟩ := cells_of_content x2
  rw [length_fromComplex, List.length_map, hR] at hxl
  have hm' : x.SameMeta v0 := ⟨x4.1.trans hm.1, x4.2.1.trans hm.2.1, x4.2.2.1.trans hm.2.2.1, x4.2.2.2.trans hm.2.2.2⟩
  cases hv : v0.isComplex with
  | true =>
    refine ⟨{ x with delta := x.delta.map (· / factor) }, (x1.andThen (r' := { x with delta := x.delta.map (· / factor) })
      (f := fun u =>
      let x : DspVec T := { u with delta := u.delta.map (· / factor) }
      .finished x) rfl).congr (fun sc => ?_), ?_, hm'.2.2.2⟩
    · unfold interpolateFinish
      rw [hres]
      rfl
    · rw [h0.isComplex] at hv
      cases hN : s.numbers with
      | real _ => rw [hN] at hv; cases hv
      | complex _ =>
        refine ⟨x2, ?_, ?_, ?_⟩
        · have := h0.space; rw [hN] at this; rw [← hm'.2.2.1] at this; exact this
        · have := h0.domain; rw [← hm'.2.1] at this; exact this
        · show x.delta.map _ = _; rw [hm'.1, h0.delta]
  | false =>
    obtain ⟨rr, r1, r2⟩ := complexToRealLoop_eq Cx.re (R.map (Cx.scaleBy (1 / (N : T)))) xs
    rw [← hxs, List.length_map, hR] at r1
    set y : DspVec T := { x with delta := x.delta.map (· / factor) } with hy
    have hyl : y.len / 2 = N := by show x.validLen / 2 = N; rw [hxl]; omega
    refine ⟨{ y.withCells ((R.map (Cx.scaleBy (1 / (N : T)))).map Cx.re ++ rr) with validLen := y.validLen / 2 },
      (x1.andThen (f := fun u =>
      let x : DspVec T := { u with delta := u.delta.map (· / factor) }
        match complexToRealLoop Cx.re (x.len / 2) x.data.cells with
        | none => .panic
        | some cells => .finished { x.withCells cells with validLen := x.validLen / 2 }) ?_).congr (fun sc => ?_), ?_, hm'.2.2.2⟩
    · show (match complexToRealLoop Cx.re (y.len / 2) y.data.cells with
        | none => Outcome.panic
        | some cells => .finished { y.withCells cells with validLen := y.validLen / 2 }) = _
      rw [hyl, show y.data.cells = x.data.cells from rfl, r1]
    · unfold interpolateFinish
      rw [hres]
      rfl
    · rw [h0.isComplex] at hv
      cases hN : s.numbers with
      | complex _ => rw [hN] at hv; cases hv
      | real _ =>
        refine ⟨?_, ?_, ?_, ?_⟩
        · refine content_of_cells (s := rr) rfl ?_
          show x.validLen / 2 = ((R.map (Cx.scaleBy (1 / (N : T)))).map Cx.re).length
          rw [hxl, List.length_map, List.length_map, hR]; omega
        · have := h0.space; rw [hN] at this; rw [← hm'.2.2.1] at this; exact this
        · have := h0.domain; rw [← hm'.2.1] at this; exact this
        · show x.delta.map _ = _; rw [hm'.1, h0.delta]

omit [LinearOrder T] [IsStrictOrderedRing T] [Field T] in
theorem splice_prefix (X A r : List T) (cells : List T) (h : cells = A ++ r) : ∃ rest, splice X 0 cells = A ++ rest :=
  ⟨r ++ X.drop cells.length, by simp [splice, h]⟩

/-- What `interpolate` computes, for every delay and response. -/
theorem interpolate_used (K : FftKernel T) (hK : K.KeepsLength) (k : RegKind) (addr : Nat) (cis : T → Cx T) (h0 : cis 0 = 1)
    (hadd : ∀ x y, cis (x + y) = cis x * cis y) (pi : T) (st : MultiCoreSettings) (function : Option (FrequencyResponse T T))
    (N : Nat) (delay d : T) (v : DspVec T) (s : Signal T) (hv : v.Shows s) (h1 : 1 ≤ s.numbers.count)
    (hdelay : (delay = 0 ∧ d = 0) ∨ ∃ x, s.delta = some x ∧ d = delay / x)
    (hsym : s.numbers.isComplex = false → ∀ f, function = some f → f.isSymmetric = true)
    (b : Buffer T) (hk : NotInline v.data.kind)
    (hroom : BufferOk b v.data (2 * max s.numbers.count N) ∨
      (s.numbers.isComplex = true ∧ CanHold v.data (2 * max s.numbers.count N)))
    (hb : ScratchOk K b s.numbers.count) (hb' : ScratchOk K b N) (hal : AlignmentAccepted addr k.len (2 * N)) :
    ∃ w b', Always2 (v.interpolate K k addr cis pi st function N delay b) (w, b', .ok ()) ∧
      w.Shows { s with
        numbers := s.numbers.receive ((K.inverse (usedSpectrum cis pi function N d (K.forward s.numbers.asCx))).map
          (Cx.scaleBy (1 / (N : T))))
        delta := s.delta.map (· / ((N : T) / (s.numbers.count : T))) } ∧
      w.data.kind = v.data.kind := by
  set n := s.numbers.count with hn
  have hcount : s.numbers.asCx.length = n := by rw [hn]; cases s.numbers <;> simp [Numbers.asCx, Numbers.count]
  have hwf := hv.wf
  have hpts : v.points = n := hv.points
  -- conversion to complex numbers
  have hconv : ∃ c b1, (if v.isComplex then some (v, b) else v.zeroInterleaveB b 2) = some (c, b1) ∧
      c.content = some (fromComplex s.numbers.asCx) ∧ c.SameMeta v ∧
      (CanHold c.data (2 * max n N) ∨ BufferOk b1 c.data (2 * max n N)) ∧ ∀ m, ScratchOk K b m → ScratchOk K b1 m := by
    cases hN' : s.numbers with
    | complex cs =>
      have hc : v.isComplex = true := by rw [hv.isComplex, hN']; rfl
      refine ⟨v, b, by rw [if_pos hc], by rw [hv.content, hN']; rfl, ⟨rfl, rfl, rfl, rfl⟩, ?_, fun _ h => h⟩
      rcases hroom with h | h
      · exact .inr h
      · exact .inl h.2
    | real xs =>
      have hc : v.isComplex = false := by rw [hv.isComplex, hN']; rfl
      have hbo : BufferOk b v.data (2 * max n N) := by
        rcases hroom with h | h
        · exact h
        · rw [hN'] at h; cases h.1
      have hlen : v.len = n := by rw [hv.len, hn, hN']; rfl
      have hbo2 : BufferOk b v.data (2 * v.len) := by
        have hmx : 2 * n ≤ 2 * max n N := by omega
        cases b with
        | fixedLen mem =>
          obtain ⟨o1, o2⟩ := hbo
          exact ⟨by rw [hlen]; omega, by rw [hlen]; omega⟩
        | single _ => trivial
        | noBuffer => trivial
      obtain ⟨w, b', c, e1, e2, e3, e4, e5, e6⟩ := sfft_start v hwf hc b hbo2 (by omega)
      refine ⟨w, b', by rw [hc]; exact e1, ?_, e4, .inr (e5.1 _ hbo), fun m h => e5.2 K m h⟩
      rw [hv.content, hN'] at e2
      cases e2
      exact e3
  obtain ⟨c, b1, c1, c2, c3, c4, c5⟩ := hconv
  have hcl : c.len = 2 * n := by
    have := (cells_of_content c2).2
    rw [length_fromComplex, hcount] at this; exact this
  have hmax : max c.len (2 * N) = 2 * max n N := by rw [hcl]; omega
  obtain ⟨w, b2, t, r1, r2, r3, r4, r5⟩ := resizeB_room c (wf_of_content_complex c2)
    (by intro cap; rw [c3.2.2.2]; exact hk cap) b1 (2 * max n N) (by omega) (by omega) c4 _ c2
  obtain ⟨cells, s', q1, q2⟩ := interpolateSlice_spec K hK k addr cis h0 hadd pi function d N s.numbers.asCx t (by omega)
    (by omega) (by omega) b2
    (by rw [hcount]; exact r5 _ _ (c5 _ hb)) (r5 _ _ (c5 _ hb')) hal
  rw [hcount] at q1
  obtain ⟨rest, hrest⟩ := splice_prefix w.data.cells _ _ _ q2
  have hil := length_usedSpectrum cis pi function N d (K.forward s.numbers.asCx)
  have hwm : w.SameMeta v := ⟨r2.1.trans c3.1, r2.2.1.trans c3.2.1, r2.2.2.1.trans c3.2.2.1, r2.2.2.2.trans c3.2.2.2⟩
  obtain ⟨x, x1, x2⟩ := finish_spec k addr st N ((N : T) / (n : T))
    (K.inverse (usedSpectrum cis pi function N d (K.forward s.numbers.asCx)))
    (by rw [hK.2, hil]) hal (w.withCells (splice w.data.cells 0 cells)) s v hv hwm rest hrest
  refine ⟨x, b2, ?_, x2.1, x2.2⟩
  have hx1 := x1.andThen (f := fun u => .finished (u, b2, (.ok () : VoidResult))) rfl
  have hde : (if delay = 0 then some 0 else v.delta.map (delay / ·)) = some d := by
    rcases hdelay with ⟨e1, e2⟩ | ⟨y, e1, e2⟩
    · rw [if_pos e1, e2]
    · rw [hv.delta, e1]
      by_cases hz : delay = 0
      · rw [if_pos hz, e2, hz, zero_div]
      · rw [if_neg hz, e2]; rfl
  have hguard : ¬ ((∃ f, function = some f ∧ f.isSymmetric = false) ∧ v.isComplex = false) := by
    rintro ⟨⟨f, f1, f2⟩, f3⟩
    rw [hv.isComplex] at f3
    rw [hsym f3 f f1] at f2; cases f2
  have hlens : (decide ((if v.isComplex then 2 * N else N) > v.len) = decide (n < N)) ∧
      (decide ((if v.isComplex then 2 * N else N) < v.len) = decide (N < n)) := by
    cases hN' : s.numbers with
    | complex cs =>
      have hc : v.isComplex = true := by rw [hv.isComplex, hN']; rfl
      have hlen : v.len = 2 * n := by rw [hv.len, hn, hN']; exact length_fromComplex cs
      rw [hc, hlen, if_pos rfl]
      constructor <;> congr 1 <;> simp
    | real xs =>
      have hc : v.isComplex = false := by rw [hv.isComplex, hN']; rfl
      have hlen : v.len = n := by rw [hv.len, hn, hN']; rfl
      rw [hc, hlen, if_neg (by simp)]
      exact ⟨rfl, rfl⟩
  have key := Always2.of_andThen (g := fun r sc => match r with
      | (cells, .error e) => .finished (w.withCells (splice w.data.cells 0 cells), b2, .error e)
      | (cells, .ok ()) =>
        ((w.withCells (splice w.data.cells 0 cells)).interpolateFinish k addr st v.isComplex N ((N : T) / (n : T)) sc).andThen
          fun u => .finished (u, b2, (.ok () : VoidResult))) q1 hx1
  refine key.congr fun s1 s2 => ?_
  unfold interpolate
  rw [hcl] at hmax
  simp only [if_neg hguard, c1, hcl, hmax, r1, r3, hde, hpts, hlens.1, hlens.2]
  congr 1

theorem usedSpectrum_eq (cis : T → Cx T) (h0 : cis 0 = 1) (hadd : ∀ x y, cis (x + y) = cis x * cis y) (pi : T)
    (function : Option (FrequencyResponse T T)) (N : Nat) (d : T) (S : List (Cx T)) (hd : DelayFits cis pi d S.length)
    (hF : S.length < N → ResponseFits function N) :
    usedSpectrum cis pi function N d S = interpolatedSpectrum cis pi (function.map FrequencyResponse.value) N d S := by
  have hP : (if d = 0 then S else S.mapIdx fun i c => c * cis (2 * pi * d / (S.length : T) *
        (if i < S.length / 2 then (i : T) else (i : T) - (S.length : T)))) = phaseShifted cis pi d S := by
    by_cases hz : d = 0
    · subst hz; rw [if_pos rfl, phaseShifted_zero cis h0]
    · rw [if_neg hz]
      unfold phaseShifted
      apply List.ext_getElem
      · simp
      · intro i i1 i2
        rw [List.length_mapIdx] at i1
        simp only [List.getElem_mapIdx]
        rw [phase_value cis hadd pi d _ i i1 (hd.resolve_left hz)]
  unfold usedSpectrum interpolatedSpectrum
  rw [hP]
  cases function with
  | none => rfl
  | some F =>
    simp only [Option.map_some]
    by_cases hl : S.length < N
    · rw [if_pos hl, if_pos hl]
      unfold binFiltered
      apply List.ext_getElem
      · simp
      · intro i i1 i2
        simp only [List.getElem_mapIdx, length_resampled]
        rw [usedAxis_value F.isSymmetric F.value N i (hF hl F rfl).1 (hF hl F rfl).2]
    · rw [if_neg hl, if_neg hl]

/-- C57 (partial: `DelayFits`, `ResponseFits`): `interpolate` for real and complex vectors, every storage, buffer, settings and
    interleavings: the result is the inverse transform of the resampled spectrum. The sampling distance is divided by `N / n`. -/
theorem C57_interpolate_partial (K : FftKernel T) (hK : K.KeepsLength) (k : RegKind) (addr : Nat) (cis : T → Cx T) (h0 : cis 0 = 1)
    (hadd : ∀ x y, cis (x + y) = cis x * cis y) (pi : T) (st : MultiCoreSettings) (function : Option (FrequencyResponse T T))
    (N : Nat) (delay d : T) (v : DspVec T) (s : Signal T) (hv : v.Shows s) (h1 : 1 ≤ s.numbers.count) (_hN : 1 ≤ N)
    (hdelay : (delay = 0 ∧ d = 0) ∨ ∃ x, s.delta = some x ∧ d = delay / x) (hd : DelayFits cis pi d s.numbers.count)
    (hsym : s.numbers.isComplex = false → ∀ f, function = some f → f.isSymmetric = true)
    (hF : s.numbers.count < N → ResponseFits function N) (b : Buffer T) (hk : NotInline v.data.kind)
    (hroom : BufferOk b v.data (2 * max s.numbers.count N) ∨
      (s.numbers.isComplex = true ∧ CanHold v.data (2 * max s.numbers.count N)))
    (hb : ScratchOk K b s.numbers.count) (hb' : ScratchOk K b N) (hal : AlignmentAccepted addr k.len (2 * N)) :
    ∃ w b', Always2 (v.interpolate K k addr cis pi st function N delay b) (w, b', .ok ()) ∧
      w.Shows { s with
        numbers := s.numbers.receive (interpolated K cis pi (function.map FrequencyResponse.value) N d s.numbers.asCx)
        delta := s.delta.map (· / ((N : T) / (s.numbers.count : T))) } ∧
      w.data.kind = v.data.kind := by
  obtain ⟨w, b', w1, w2, w3⟩ := interpolate_used K hK k addr cis h0 hadd pi st function N delay d v s hv h1 hdelay hsym b hk hroom hb
    hb' hal
  refine ⟨w, b', w1, ?_, w3⟩
  have hcount : s.numbers.asCx.length = s.numbers.count := by cases s.numbers <;> simp [Numbers.asCx, Numbers.count]
  rw [usedSpectrum_eq cis h0 hadd pi function N d _ (by rw [hK.1, hcount]; exact hd) (by rw [hK.1, hcount]; exact hF)] at w2
  exact w2

end
end Dsp
