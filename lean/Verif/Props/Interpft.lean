import Verif.Props.Interpolate
import Verif.Props.DftStretch
/-
C57: what a user relies on when a signal is interpolated in the frequency domain.
-/
namespace Dsp
open DspVec
variable {T : Type}

theorem length_asCx [Zero T] (N : Numbers T) : N.asCx.length = N.count := by cases N <;> simp [Numbers.asCx, Numbers.count]

theorem scaleBy_scaleBy [CommRing T] (x y : T) (A : List (Cx T)) :
    (A.map (Cx.scaleBy x)).map (Cx.scaleBy y) = A.map (Cx.scaleBy (y * x)) := by
  rw [List.map_map]; congr 1; funext c; simp [Cx.scaleBy, mul_assoc]

theorem scaleBy_one [CommRing T] (A : List (Cx T)) : A.map (Cx.scaleBy (1 : T)) = A := by
  conv_rhs => rw [← List.map_id A]
  congr 1; funext c; simp [Cx.scaleBy]

theorem receive_asCx [Zero T] (N : Numbers T) : N.receive N.asCx = N := by
  cases N with
  | complex cs => rfl
  | real xs =>
    show Numbers.real ((xs.map Cx.ofReal).map Cx.re) = _
    rw [List.map_map]
    congr 1
    conv_rhs => rw [← List.map_id xs]
    rfl

theorem receive_isComplex (N : Numbers T) (cs : List (Cx T)) : (N.receive cs).isComplex = N.isComplex := by cases N <;> rfl

/-- A point of the result which is a point of the signal. -/
theorem receive_point [Zero T] (N : Numbers T) (cs : List (Cx T)) (i j : Nat) (h : cs[i]? = N.asCx[j]?) :
    (N.receive cs).asCx[i]? = N.asCx[j]? := by
  cases N with
  | complex _ => exact h
  | real xs =>
    simp only [Numbers.receive, Numbers.asCx, List.getElem?_map] at h ⊢
    rw [h]
    cases xs[j]? <;> rfl

section
variable [Field T] [LinearOrder T] [IsStrictOrderedRing T]

/-- The conditions under which an interpolation to `N` points runs: a storage and a buffer which can hold the points, and an
    address which the SIMD code accepts (C19). -/
structure InterpolationEnv (K : FftKernel T) (k : RegKind) (addr : Nat) (v : DspVec T) (b : Buffer T) (n N : Nat) : Prop where
  storage : NotInline v.data.kind
  room : BufferOk b v.data (2 * max n N) ∨ (v.isComplex = true ∧ CanHold v.data (2 * max n N))
  before : ScratchOk K b n
  after : ScratchOk K b N
  address : AlignmentAccepted addr k.len (2 * N)

omit [LinearOrder T] [IsStrictOrderedRing T] in
theorem interpolated_none (K : FftKernel T) (hK : K.KeepsLength) (cis : T → Cx T) (h0 : cis 0 = 1) (pi : T) (N : Nat) (a : List (Cx T)) :
    interpolated K cis pi none N 0 a =
      (K.inverse ((resampledSpectrum N (K.forward a)).map (Cx.scaleBy ((N : T) / (a.length : T))))).map (Cx.scaleBy (1 / (N : T))) := by
  unfold interpolated interpolatedSpectrum
  rw [phaseShifted_zero cis h0, hK.1]

/-- C57: `interpft` never panics, for real and complex vectors with at least one point: the bins of the transform are moved to
    a transform with `N` points, and the result is transformed back. The sampling distance is divided by `N / n`; the domain,
    the type and the storage are kept. `cis x` is only needed for delays. -/
theorem C57_interpft (K : FftKernel T) (hK : K.KeepsLength) (k : RegKind) (addr : Nat) (cis : T → Cx T) (h0 : cis 0 = 1)
    (hadd : ∀ x y, cis (x + y) = cis x * cis y) (pi : T) (st : MultiCoreSettings) (N : Nat) (v : DspVec T) (s : Signal T)
    (hv : v.Shows s) (h1 : 1 ≤ s.numbers.count) (hN : 1 ≤ N) (b : Buffer T)
    (he : InterpolationEnv K k addr v b s.numbers.count N) :
    ∃ w b', Always2 (v.interpft K k addr cis pi st N b) (w, b') ∧
      w.Shows { s with
        numbers := s.numbers.receive ((K.inverse ((resampledSpectrum N (K.forward s.numbers.asCx)).map
          (Cx.scaleBy ((N : T) / (s.numbers.count : T))))).map (Cx.scaleBy (1 / (N : T))))
        delta := s.delta.map (· / ((N : T) / (s.numbers.count : T))) } ∧
      w.data.kind = v.data.kind := by
  obtain ⟨w, b', h2, h3, h4⟩ := C57_interpolate_partial K hK k addr cis h0 hadd pi st none N 0 0 v s hv h1 hN (.inl ⟨rfl, rfl⟩)
    (.inl rfl) (fun _ f h => by cases h) (fun _ f h => by cases h) b he.storage
    (he.room.imp_right fun h => ⟨by rw [← hv.isComplex]; exact h.1, h.2⟩) he.before he.after he.address
  rw [Option.map_none, interpolated_none K hK cis h0, length_asCx] at h3
  refine ⟨w, b', (h2.andThen (f := fun r => match r with
    | (w, b', .ok ()) => .finished (w, b')
    | (_, _, .error _) => .panic) rfl).congr fun _ _ => rfl, h3, h4⟩

/-- C57: `interpft` preserves the shape of a complex signal in the frequency domain: the transform of the result are the bins of
    the transform of the signal, times `N / n`. -/
theorem C57_spectrum (K : FftKernel T) (hK : K.Inverts) (hH : K.Homogeneous) (k : RegKind) (addr : Nat) (cis : T → Cx T) (h0 : cis 0 = 1)
    (hadd : ∀ x y, cis (x + y) = cis x * cis y) (pi : T) (st : MultiCoreSettings) (N : Nat) (v : DspVec T) (a : List (Cx T))
    (dom : DataDomain) (g : Bool) (x : Option T) (hv : v.Shows ⟨.complex a, dom, g, x⟩) (h1 : 1 ≤ a.length) (hN : 1 ≤ N)
    (b : Buffer T) (he : InterpolationEnv K k addr v b a.length N) :
    ∃ w b' r, Always2 (v.interpft K k addr cis pi st N b) (w, b') ∧
      w.Shows ⟨.complex r, dom, g, x.map (· / ((N : T) / (a.length : T)))⟩ ∧
      K.forward r = (resampledSpectrum N (K.forward a)).map (Cx.scaleBy ((N : T) / (a.length : T))) := by
  obtain ⟨w, b', h2, h3, -⟩ := C57_interpft K hK.length k addr cis h0 hadd pi st N v _ hv h1 hN b he
  refine ⟨w, b', _, h2, h3, ?_⟩
  have hN0 : (N : T) ≠ 0 := by exact_mod_cast (by omega : N ≠ 0)
  show K.forward ((K.inverse ((resampledSpectrum N (K.forward a)).map (Cx.scaleBy ((N : T) / (a.length : T))))).map
    (Cx.scaleBy (1 / (N : T)))) = _
  rw [← hH, hK.forth, scaleBy_scaleBy, scaleBy_scaleBy, List.length_map, List.length_map, length_resampled]
  congr 2
  field_simp

/-- C57: the number of points is kept: nothing changes, for real and complex vectors. -/
theorem C57_same_points (K : FftKernel T) (hK : K.Inverts) (k : RegKind) (addr : Nat) (cis : T → Cx T) (h0 : cis 0 = 1)
    (hadd : ∀ x y, cis (x + y) = cis x * cis y) (pi : T) (st : MultiCoreSettings) (v : DspVec T) (s : Signal T)
    (hv : v.Shows s) (h1 : 1 ≤ s.numbers.count) (b : Buffer T)
    (he : InterpolationEnv K k addr v b s.numbers.count s.numbers.count) :
    ∃ w b', Always2 (v.interpft K k addr cis pi st s.numbers.count b) (w, b') ∧ w.Shows s := by
  obtain ⟨w, b', h2, h3, -⟩ := C57_interpft K hK.length k addr cis h0 hadd pi st _ v s hv h1 h1 b he
  have hn0 : (s.numbers.count : T) ≠ 0 := by exact_mod_cast (by omega : s.numbers.count ≠ 0)
  refine ⟨w, b', h2, ?_⟩
  have e : resampledSpectrum s.numbers.count (K.forward s.numbers.asCx) = K.forward s.numbers.asCx := by
    have := resampled_self (K.forward s.numbers.asCx)
    rwa [hK.length.1, length_asCx] at this
  rw [e, div_self hn0, scaleBy_one, hK.back, scaleBy_scaleBy, length_asCx, one_div, inv_mul_cancel₀ hn0, scaleBy_one, receive_asCx] at h3
  simpa using h3

/-- C57: if the number of points grows by the whole factor `m` then the points of the signal are kept: they are the points
    `0, m, 2 m, ...` of the result. -/
theorem C57_keeps_points (K : FftKernel T) (hK : K.Inverts) (hH : K.Homogeneous) (hS : K.Stretches) (k : RegKind) (addr : Nat)
    (cis : T → Cx T) (h0 : cis 0 = 1) (hadd : ∀ x y, cis (x + y) = cis x * cis y) (pi : T) (st : MultiCoreSettings) (m : Nat)
    (hm : 1 ≤ m) (v : DspVec T) (s : Signal T) (hv : v.Shows s) (h1 : 1 ≤ s.numbers.count) (b : Buffer T)
    (he : InterpolationEnv K k addr v b s.numbers.count (m * s.numbers.count)) :
    ∃ w b' M, Always2 (v.interpft K k addr cis pi st (m * s.numbers.count) b) (w, b') ∧
      w.Shows { s with numbers := M, delta := s.delta.map (· / (m : T)) } ∧ M.isComplex = s.numbers.isComplex ∧
      M.count = m * s.numbers.count ∧ ∀ i < s.numbers.count, M.asCx[m * i]? = s.numbers.asCx[i]? := by
  have hmn : 1 ≤ m * s.numbers.count := Nat.mul_le_mul hm h1
  obtain ⟨w, b', h2, h3, -⟩ := C57_interpft K hK.length k addr cis h0 hadd pi st _ v s hv h1 hmn b he
  have hn0 : (s.numbers.count : T) ≠ 0 := by exact_mod_cast (by omega : s.numbers.count ≠ 0)
  have hm0 : (m : T) ≠ 0 := by exact_mod_cast (by omega : m ≠ 0)
  set n := s.numbers.count with hn
  have hf : ((m * n : Nat) : T) / (n : T) = (m : T) := by push_cast; field_simp
  rw [hf] at h3
  refine ⟨w, b', _, h2, h3, receive_isComplex _ _, ?_, fun i hi => receive_point _ _ _ _ ?_⟩
  · rw [← length_asCx]
    cases s.numbers with
    | real _ => simp [Numbers.receive, Numbers.asCx, hK.length.2, length_resampled]
    | complex _ => simp [Numbers.receive, Numbers.asCx, hK.length.2, length_resampled]
  · have hl : (K.forward s.numbers.asCx).length = n := by rw [hK.length.1, length_asCx]
    have hst := hS m (K.forward s.numbers.asCx) hm i (by rw [hl]; exact hi)
    rw [hl] at hst
    rw [hH, scaleBy_scaleBy, List.getElem?_map, hst, hK.back, ← List.getElem?_map, scaleBy_scaleBy, length_asCx, ← hn]
    have : 1 / ((m * n : Nat) : T) * (m : T) * (n : T) = 1 := by push_cast; field_simp
    rw [this, scaleBy_one]

omit [LinearOrder T] [IsStrictOrderedRing T] [Field T] in
theorem resampled_back [Zero T] (N : Nat) (S : List (Cx T)) (h : S.length ≤ N) :
    resampledSpectrum S.length (resampledSpectrum N S) = S := by
  apply List.ext_getElem (length_resampled _ _)
  intro i h1 h2
  rcases Nat.eq_or_lt_of_le h with e | hlt
  · subst e
    have := resampled_self S
    simp only [this]
  · have hg : ∀ j < N, (resampledSpectrum N S).getD j 0 = if j < S.length - S.length / 2 then S.getD j 0
        else if N - S.length / 2 ≤ j then S.getD (j - (N - S.length)) 0 else 0 := by
      intro j hj
      rw [List.getD_eq_getElem?_getD]
      simp [resampledSpectrum, hj, h]
    simp only [resampledSpectrum, List.getElem_map, List.getElem_range]
    rw [show (List.map (fun i => if S.length ≤ N then if i < S.length - S.length / 2 then S.getD i 0 else
      if N - S.length / 2 ≤ i then S.getD (i - (N - S.length)) 0 else 0 else if i < N - N / 2 then S.getD i 0 else
      S.getD (i + (S.length - N)) 0) (List.range N)) = resampledSpectrum N S from rfl, length_resampled, if_neg (by omega)]
    by_cases c : i < S.length - S.length / 2
    · rw [if_pos c, hg _ (by omega), if_pos c, getD_of_lt _ h2]
    · rw [if_neg c, hg _ (by omega), if_neg (by omega), if_pos (by omega),
        show i + (N - S.length) - (N - S.length) = i by omega, getD_of_lt _ h2]

/-- C57: more points and back: a complex signal is restored. -/
theorem C57_round_trip (K : FftKernel T) (hK : K.Inverts) (hH : K.Homogeneous) (k : RegKind) (addr addr' : Nat) (cis : T → Cx T)
    (h0 : cis 0 = 1) (hadd : ∀ x y, cis (x + y) = cis x * cis y) (pi : T) (st : MultiCoreSettings) (N : Nat) (v : DspVec T)
    (a : List (Cx T)) (dom : DataDomain) (g : Bool) (x : Option T) (hv : v.Shows ⟨.complex a, dom, g, x⟩) (h1 : 1 ≤ a.length)
    (hN : a.length ≤ N) (b : Buffer T) (he : InterpolationEnv K k addr v b a.length N) :
    ∃ w b', Always2 (v.interpft K k addr cis pi st N b) (w, b') ∧ ∀ b2, InterpolationEnv K k addr' w b2 N a.length →
      ∃ u b3, Always2 (w.interpft K k addr' cis pi st a.length b2) (u, b3) ∧ u.Shows ⟨.complex a, dom, g, x⟩ := by
  obtain ⟨w, b', r, h2, h3, h4⟩ := C57_spectrum K hK hH k addr cis h0 hadd pi st N v a dom g x hv h1 (by omega) b he
  refine ⟨w, b', h2, fun b2 he2 => ?_⟩
  have hr : r.length = N := by
    have := congrArg List.length h4
    rw [hK.length.1, List.length_map, length_resampled] at this; exact this
  have hn0 : (a.length : T) ≠ 0 := by exact_mod_cast (by omega : a.length ≠ 0)
  have hN0 : (N : T) ≠ 0 := by exact_mod_cast (by omega : N ≠ 0)
  obtain ⟨u, b3, u1, u2, -⟩ := C57_interpft K hK.length k addr' cis h0 hadd pi st a.length w _ h3 (by show 1 ≤ r.length; omega) h1 b2
    (by show InterpolationEnv K k addr' w b2 r.length _; rw [hr]; exact he2)
  refine ⟨u, b3, u1, ?_⟩
  have hres : resampledSpectrum a.length (K.forward r) = (K.forward a).map (Cx.scaleBy ((N : T) / (a.length : T))) := by
    have hl := hK.length.1 a
    have e1 : (resampledSpectrum N (K.forward a)).map (Cx.scaleBy ((N : T) / (a.length : T))) =
        resampledSpectrum N ((K.forward a).map (Cx.scaleBy ((N : T) / (a.length : T)))) := by
      have hz : ∀ y : T, Cx.scaleBy y (0 : Cx T) = 0 := by intro y; ext <;> simp [Cx.scaleBy]
      unfold resampledSpectrum
      rw [List.map_map, List.length_map]
      congr 1
      funext i
      have hgd : ∀ j, ((K.forward a).map (Cx.scaleBy ((N : T) / (a.length : T)))).getD j 0 =
          Cx.scaleBy ((N : T) / (a.length : T)) ((K.forward a).getD j 0) := by
        intro j
        rw [List.getD_eq_getElem?_getD, List.getD_eq_getElem?_getD, List.getElem?_map]
        cases (K.forward a)[j]? <;> simp [hz]
      simp only [Function.comp_apply, hgd]
      split_ifs <;> simp [hz]
    rw [h4, e1]
    have := resampled_back N ((K.forward a).map (Cx.scaleBy ((N : T) / (a.length : T)))) (by rw [List.length_map, hl]; exact hN)
    rwa [List.length_map, hl] at this
  have e2 : (Numbers.complex r).asCx = r := rfl
  have e3 : (Numbers.complex r).count = N := hr
  simp only [e2, e3, hres, scaleBy_scaleBy] at u2
  rw [show (a.length : T) / (N : T) * ((N : T) / (a.length : T)) = 1 by field_simp, scaleBy_one, hK.back, scaleBy_scaleBy,
    show 1 / (a.length : T) * (a.length : T) = 1 by field_simp, scaleBy_one] at u2
  have hxx : (x.map (· / ((N : T) / (a.length : T)))).map (· / ((a.length : T) / (N : T))) = x := by
    cases x with
    | none => rfl
    | some y =>
      simp only [Option.map_some]
      congr 1
      field_simp
  rw [hxx] at u2
  exact u2

/-- C57 (partial: the same number of points, a delay of `r` whole sampling distances): the points are moved to the
    start, the first `r` points come to the end. (`interpolatef` moves into the other direction.) -/
theorem C57_whole_delay_partial (K : FftKernel T) (hK : K.Inverts) (cis : T → Cx T) (h0 : cis 0 = 1)
    (hadd : ∀ x y, cis (x + y) = cis x * cis y) (pi : T) (hM : K.Moves cis pi) (k : RegKind) (addr : Nat) (st : MultiCoreSettings)
    (r : Nat) (hr : cis (2 * pi * (r : T)) = 1) (v : DspVec T) (s : Signal T) (x : T) (hx : s.delta = some x) (hx0 : x ≠ 0)
    (hv : v.Shows s) (h1 : 1 ≤ s.numbers.count) (b : Buffer T) (he : InterpolationEnv K k addr v b s.numbers.count s.numbers.count) :
    ∃ w b' M, Always2 (v.interpolate K k addr cis pi st none s.numbers.count ((r : T) * x) b) (w, b', .ok ()) ∧
      w.Shows { s with numbers := M } ∧ M.isComplex = s.numbers.isComplex ∧
      ∀ i < s.numbers.count, M.asCx[i]? = s.numbers.asCx[(i + r) % s.numbers.count]? := by
  have hn0 : (s.numbers.count : T) ≠ 0 := by exact_mod_cast (by omega : s.numbers.count ≠ 0)
  obtain ⟨w, b', h2, h3, -⟩ := C57_interpolate_partial K hK.length k addr cis h0 hadd pi st none s.numbers.count ((r : T) * x) (r : T)
    v s hv h1 h1 (.inr ⟨x, hx, by field_simp⟩) (.inr (.inr hr)) (fun _ f h => by cases h) (fun _ f h => by cases h) b he.storage
    (he.room.imp_right fun h => ⟨by rw [← hv.isComplex]; exact h.1, h.2⟩) he.before he.after he.address
  rw [div_self hn0, hx] at h3
  set n := s.numbers.count with hn
  refine ⟨w, b', s.numbers.receive (interpolated K cis pi (Option.map FrequencyResponse.value none) n (↑r) s.numbers.asCx), h2, ?_, receive_isComplex _ _, fun i hi => receive_point _ _ _ _ ?_⟩
  · simp only [Option.map_some, div_one] at h3
    convert h3 using 2
  · have hl : (K.forward s.numbers.asCx).length = n := by rw [hK.length.1, length_asCx]
    have hpl : (phaseShifted cis pi (r : T) (K.forward s.numbers.asCx)).length = n := by simp [phaseShifted, hl]
    unfold interpolated interpolatedSpectrum
    simp only [Option.map_none]
    have hs := resampled_self (phaseShifted cis pi (r : T) (K.forward s.numbers.asCx))
    rw [hpl] at hs
    have hm := hM r (K.forward s.numbers.asCx) i (by rw [hl]; exact hi)
    rw [hl] at hm
    rw [hs, hl, div_self hn0, scaleBy_one, List.getElem?_map, hm, hK.back, ← List.getElem?_map, scaleBy_scaleBy, length_asCx, ← hn,
      one_div, inv_mul_cancel₀ hn0, scaleBy_one]

omit [IsStrictOrderedRing T] in
/-- C57: a real vector with a response which is not symmetric is rejected and not changed. -/
theorem C57_rejects (K : FftKernel T) (k : RegKind) (addr : Nat) (cis : T → Cx T) (pi : T) (st : MultiCoreSettings)
    (f : FrequencyResponse T T) (hf : f.isSymmetric = false) (N : Nat) (delay : T) (v : DspVec T) (hv : v.isComplex = false)
    (b : Buffer T) (s1 s2 : List Nat) :
    v.interpolate K k addr cis pi st (some f) N delay b s1 s2 = .finished (v, b, .error .argumentFunctionMustBeSymmetric) := by
  unfold interpolate
  rw [if_pos ⟨⟨f, rfl, hf⟩, hv⟩]

end
end Dsp
