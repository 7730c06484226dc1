import Verif.Props.MatrixRes
import Verif.Spec.MatrixOps
/-
Operations leave a buffer which serves as well as the one they got.
-/
namespace Dsp
open DspVec
variable {T : Type}

theorem AsGood.single (temp temp' : List T) : AsGood (.single temp) (.single temp') :=
  ⟨fun _ _ _ => trivial, fun _ _ _ => trivial, fun _ _ _ _ _ h => by cases h⟩

theorem zeroPadB_good [Zero T] {b b' : Buffer T} {v v' : DspVec T} {n : Nat} {o : PaddingOption} {r : VoidResult}
    (e : v.zeroPadB b n o = some (v', b', r)) : AsGood b b' := by
  unfold zeroPadB at e
  dsimp only at e
  generalize (if v.isComplex = true then 2 else 1) = step at e
  split at e
  · cases e; exact .refl _
  · simp only [Option.bind_eq_bind, Option.bind_eq_some_iff, Option.some.injEq, Prod.mk.injEq] at e
    obtain ⟨_, _, _, _, _, rfl, _⟩ := e
    exact .trade _ _ _

theorem resizeB_good [Zero T] {b b' : Buffer T} {v v' : DspVec T} {n : Nat} {r : VoidResult}
    (e : v.resizeB b n = some (v', b', r)) : AsGood b b' := by
  unfold resizeB at e
  split at e
  · cases e; exact .refl _
  · split at e
    · cases e; exact .refl _
    · simp only [Option.bind_eq_bind, Option.bind_eq_some_iff, Option.some.injEq, Prod.mk.injEq] at e
      obtain ⟨_, _, _, _, _, _, _, rfl, _⟩ := e
      exact .trade _ _ _

theorem tradeOutcome_good [Zero T] {b b' : Buffer T} {v v' : DspVec T} {o : Outcome (List T)}
    (e : v.tradeOutcome b o = .finished (v', b')) : AsGood b b' := by
  unfold tradeOutcome at e
  obtain ⟨r, _, e⟩ := andThen_finished e
  cases e
  exact .trade _ _ _

theorem prepareArgument_good [Field T] {K : FftKernel T} {k : RegKind} {addr : Nat} {st : MultiCoreSettings} {sched : List Nat}
    {b b' : Buffer T} {v v' : DspVec T} (e : v.prepareArgument K k addr st b sched = .finished (v', b')) : AsGood b b' := by
  unfold prepareArgument at e
  split at e
  · cases e
  · rename_i h
    obtain ⟨r, _, e⟩ := andThen_finished e
    cases e
    exact plainFft_good h

theorem prepareArgumentPadded_good [Field T] {K : FftKernel T} {k : RegKind} {addr : Nat} {st : MultiCoreSettings} {sched : List Nat}
    {b b' : Buffer T} {v v' : DspVec T} (e : v.prepareArgumentPadded K k addr st b sched = .finished (v', b')) : AsGood b b' := by
  unfold prepareArgumentPadded at e
  split at e
  · cases e
  · split at e
    · rename_i h
      exact (zeroPadB_good h).trans (prepareArgument_good e)
    · cases e

theorem convolveSignal_good [Field T] [LinearOrder T] {K : FftKernel T} {junk : List (Cx T) → List (Cx T)} {k : RegKind} {addr : Nat}
    {st : MultiCoreSettings} {sched : List Nat} {b b' : Buffer T} {v h v' : DspVec T} {r : VoidResult}
    (e : v.convolveSignal K junk k addr st h b sched = .finished (v', b', r)) : AsGood b b' := by
  unfold convolveSignal at e
  split at e
  · cases e; exact .refl _
  · split at e
    · cases e; exact .refl _
    · split at e
      · cases e; exact .refl _
      · split at e
        · obtain ⟨q, h', e⟩ := andThen_finished e
          cases e
          unfold convolveSignalSimd at h'
          repeat' split at h'
          all_goals first
            | exact tradeOutcome_good h'
            | cases h'
        · have e := ofOption_finished e
          unfold DspVec.overlapDiscard at e
          split at e
          · cases e; exact .refl _
          · split at e
            · cases e
            · dsimp only at e
              generalize (if nextPowerOfTwo h.len > nextPowerOfTwo (4 * (h.points - 1)) then nextPowerOfTwo h.len
                else nextPowerOfTwo (4 * (h.points - 1))) = n at e
              by_cases hr : (v.points - v.points % n) % 2 ≠ 0
              · rw [if_pos hr] at e; cases e
              · rw [if_neg hr] at e
                simp only [Option.bind_eq_bind, Option.bind_eq_some_iff, Option.some.injEq, Prod.mk.injEq] at e
                obtain ⟨_, _, _, _, _, _, _, _, _, _, _, _, _, _, _, rfl, _⟩ := e
                exact .refl _
        · obtain ⟨q, h', e⟩ := andThen_finished e
          cases e
          unfold convolveSignalScalar at h'
          repeat' split at h'
          all_goals first
            | exact tradeOutcome_good h'
            | cases h'

section
variable [Field T] [LinearOrder T] [FloorRing T]

theorem interpolateLin_good {b b' : Buffer T} {v v' : DspVec T} {f d : T} (e : v.interpolateLin b f d = some (v', b')) : AsGood b b' := by
  unfold interpolateLin at e
  simp only [Option.bind_eq_bind, Option.bind_eq_some_iff] at e
  obtain ⟨n, _, temp, _, e⟩ := e
  split at e
  · split at e
    · cases e; exact .single _ _
    · cases e; exact .refl _
  · simp only [Option.bind_eq_some_iff, Option.some.injEq, Prod.mk.injEq] at e
    obtain ⟨_, _, _, _, _, rfl⟩ := e
    exact .trade _ _ _

theorem interpolateHermite_good {b b' : Buffer T} {v v' : DspVec T} {f d : T} (e : v.interpolateHermite b f d = some (v', b')) :
    AsGood b b' := by
  unfold interpolateHermite at e
  simp only [Option.bind_eq_bind, Option.bind_eq_some_iff] at e
  obtain ⟨n, _, temp, _, e⟩ := e
  split at e
  · split at e
    · cases e; exact .single _ _
    · cases e; exact .refl _
  · simp only [Option.bind_eq_some_iff, Option.some.injEq, Prod.mk.injEq] at e
    obtain ⟨_, _, _, _, _, rfl⟩ := e
    exact .trade _ _ _

omit [LinearOrder T] [FloorRing T] in
theorem convolveFunction_good {b b' : Buffer T} {v v' : DspVec T} {ratio : T} {len : Nat} {fr : T → T} {fc : T → Cx T}
    (e : v.convolveFunction b ratio len fr fc = some (v', b')) : AsGood b b' := by
  unfold convolveFunction at e
  simp only [Option.bind_eq_bind, Option.bind_eq_some_iff, Option.some.injEq, Prod.mk.injEq] at e
  obtain ⟨_, _, _, _, _, _, _, rfl⟩ := e
  exact .trade _ _ _

theorem convolveReal_good {K : FftKernel T} {junk : List (Cx T) → List (Cx T)} {k : RegKind} {addr : Nat}
    {st : MultiCoreSettings} {sched : List Nat} {b b' : Buffer T} {v v' : DspVec T} {fn : T → T} {ratio : T} {len : Nat}
    (e : v.convolveReal K junk k addr st b fn ratio len sched = .finished (v', b')) : AsGood b b' := by
  unfold convolveReal at e
  split at e
  · cases e; exact .refl _
  · split at e
    · cases e
    · split at e
      · obtain ⟨⟨w, b1, r⟩, h, e⟩ := andThen_finished e
        cases r with
        | ok x => cases e; exact convolveSignal_good h
        | error x => cases e
      · exact convolveFunction_good (ofOption_finished e)

theorem convolveComplex_good {K : FftKernel T} {junk : List (Cx T) → List (Cx T)} {k : RegKind} {addr : Nat}
    {st : MultiCoreSettings} {sched : List Nat} {b b' : Buffer T} {v v' : DspVec T} {fn : T → Cx T} {ratio : T} {len : Nat}
    (e : v.convolveComplex K junk k addr st b fn ratio len sched = .finished (v', b')) : AsGood b b' := by
  unfold convolveComplex at e
  split at e
  · cases e; exact .refl _
  · split at e
    · cases e; exact .refl _
    · split at e
      · cases e
      · split at e
        · split at e
          · cases e
          · obtain ⟨⟨w, b1, r⟩, h, e⟩ := andThen_finished e
            cases r with
            | ok x => cases e; exact convolveSignal_good h
            | error x => cases e
        · exact convolveFunction_good (ofOption_finished e)

omit [FloorRing T] in
theorem correlate_good {K : FftKernel T} {k : RegKind} {addr : Nat} {st : MultiCoreSettings} {sched : List Nat}
    {b b' : Buffer T} {v o v' : DspVec T} {r : VoidResult} (e : v.correlate K k addr st o b sched = .finished (v', b', r)) : AsGood b b' := by
  unfold correlate at e
  split at e
  · cases e; exact .refl _
  · split at e
    · cases e; exact .refl _
    · split at e
      · cases e
      · rename_i h; cases e; exact zeroPadB_good h
      · rename_i h
        split at e
        · split at e
          · cases e
          · cases e; exact zeroPadB_good h
          · obtain ⟨u, _, e⟩ := andThen_finished e
            split at e
            · cases e
            · cases e; exact zeroPadB_good h
        · cases e

omit [LinearOrder T] in
theorem interpolate_good [LinearOrder T] {K : FftKernel T} {k : RegKind} {addr : Nat} {cis : T → Cx T} {pi : T} {st : MultiCoreSettings}
    {function : Option (FrequencyResponse T T)} {N : Nat} {delay : T} {s1 s2 : List Nat}
    {b b' : Buffer T} {v v' : DspVec T} {r : VoidResult}
    (e : v.interpolate K k addr cis pi st function N delay b s1 s2 = .finished (v', b', r)) : AsGood b b' := by
  unfold DspVec.interpolate at e
  split at e
  · cases e; exact .refl _
  · dsimp only at e
    split at e
    · cases e
    · rename_i c b1 hc
      have g1 : AsGood b b1 := by
        split at hc
        · cases hc; exact .refl _
        · exact zeroInterleaveB_good hc
      split at e
      · cases e
      · rename_i h; cases e; exact g1.trans (resizeB_good h)
      · rename_i h
        have g2 := g1.trans (resizeB_good h)
        split at e
        · obtain ⟨⟨cells, r⟩, _, e⟩ := andThen_finished e
          cases r with
          | error x => cases e; exact g2
          | ok x =>
            obtain ⟨u, _, e⟩ := andThen_finished e
            cases e; exact g2
        · cases e

omit [FloorRing T] in
theorem interpft_good {K : FftKernel T} {k : RegKind} {addr : Nat} {cis : T → Cx T} {pi : T} {st : MultiCoreSettings}
    {N : Nat} {s1 s2 : List Nat} {b b' : Buffer T} {v v' : DspVec T}
    (e : v.interpft K k addr cis pi st N b s1 s2 = .finished (v', b')) : AsGood b b' := by
  unfold DspVec.interpft at e
  obtain ⟨⟨w, b1, r⟩, h, e⟩ := andThen_finished e
  cases r with
  | ok x => cases e; exact interpolate_good h
  | error x => cases e

omit [FloorRing T] in
theorem interpolatei_good {K : FftKernel T} {k : RegKind} {addr : Nat} {st : MultiCoreSettings}
    {F : FrequencyResponse T T} {m : Nat} {s1 s2 : List Nat} {b b' : Buffer T} {v v' : DspVec T} {r : VoidResult}
    (e : v.interpolatei K k addr st F m b s1 s2 = .finished (v', b', r)) : AsGood b b' := by
  unfold DspVec.interpolatei at e
  split at e
  · cases e; exact .refl _
  · split at e
    · cases e; exact .refl _
    · split at e
      · cases e
      · rename_i h
        split at e
        · cases e
        · obtain ⟨_, _, e⟩ := andThen_finished e
          obtain ⟨u, _, e⟩ := andThen_finished e
          split at e
          · cases e; exact zeroInterleaveB_good h
          · split at e
            · cases e
            · cases e; exact zeroInterleaveB_good h

theorem interpolatef_good {k : RegKind} {addr : Nat} {st : MultiCoreSettings} {fn : T → T} {factor delay : T}
    {L : Nat} {s1 : List Nat} {b b' : Buffer T} {v v' : DspVec T}
    (e : v.interpolatef k addr st fn factor delay L b s1 = .finished (v', b')) : AsGood b b' := by
  unfold DspVec.interpolatef at e
  dsimp only at e
  repeat' split at e
  all_goals first
    | exact tradeOutcome_good e
    | cases e

omit [LinearOrder T] [FloorRing T] in
theorem windowedFft_good {K : FftKernel T} {st : MultiCoreSettings} {win : WindowFunction T} {s1 : List Nat}
    {b b' : Buffer T} {v v' : DspVec T} (e : v.windowedFft K st win b s1 = .finished (v', b')) : AsGood b b' := by
  unfold windowedFft at e
  obtain ⟨w, _, e⟩ := andThen_finished e
  exact fft_good (ofOption_finished e)

omit [LinearOrder T] [FloorRing T] in
theorem windowedIfft_good {K : FftKernel T} {k : RegKind} {addr : Nat} {st : MultiCoreSettings} {win : WindowFunction T} {s1 s2 : List Nat}
    {b b' : Buffer T} {v v' : DspVec T} (e : v.windowedIfft K k addr st win b s1 s2 = .finished (v', b')) : AsGood b b' := by
  unfold windowedIfft at e
  obtain ⟨⟨w, b1⟩, h, e⟩ := andThen_finished e
  obtain ⟨u, _, e⟩ := andThen_finished e
  cases e
  exact ifft_good h

end

/-! ### Symmetric transforms -/

theorem complexToRealB_good [Zero T] {b b' : Buffer T} {v v' : DspVec T} {op : Cx T → T} {st : MultiCoreSettings} {sched : List Nat}
    (e : v.complexToRealB op st b sched = .finished (v', b')) : AsGood b b' := by
  unfold complexToRealB at e
  split at e
  · split at e
    · cases e
    · split at e
      · cases e
      · cases e
      · cases e; exact .trade _ _ _
  · cases e

theorem windowedSfft_good [Zero T] [Add T] [Sub T] [Mul T] [NatCast T] {K : FftKernel T} {st : MultiCoreSettings} {win : WindowFunction T}
    {sched : List Nat} {b b' : Buffer T} {v v' : DspVec T} {r : VoidResult}
    (e : v.windowedSfft K st win b sched = .finished (v', b', r)) : AsGood b b' := by
  unfold windowedSfft at e
  split at e
  · cases e; exact .refl _
  · obtain ⟨q, h, e⟩ := andThen_finished e
    obtain ⟨w, _, e⟩ := andThen_finished e
    have e := ofOption_finished e
    simp only [Option.bind_eq_bind, Option.bind_eq_some_iff, Option.some.injEq, Prod.mk.injEq, Prod.exists] at e
    obtain ⟨_, _, h', _, _, _, rfl, _⟩ := e
    exact (zeroInterleaveB_good (ofOption_finished h)).trans (fft_good h')

theorem plainSifft_good [Zero T] [Mul T] [NatCast T] [Neg T] {tiny : T → Bool} {K : FftKernel T} {st : MultiCoreSettings}
    {sched : List Nat} {b b' : Buffer T} {v v' : DspVec T} {r : VoidResult}
    (e : v.plainSifft tiny K st b sched = .finished (v', b', r)) : AsGood b b' := by
  unfold plainSifft at e
  split at e
  · cases e; exact .refl _
  · obtain ⟨bad, _, e⟩ := andThen_finished e
    split at e
    · cases e; exact .refl _
    · obtain ⟨q, h, e⟩ := andThen_finished e
      obtain ⟨s, h', e⟩ := andThen_finished e
      cases e
      have h := ofOption_finished h
      unfold plainSifftData at h
      simp only [Option.bind_eq_bind, Option.bind_eq_some_iff, Option.some.injEq, Prod.exists] at h
      obtain ⟨_, b1, h1, _, _, rfl⟩ := h
      exact (mirror_good h1).trans (complexToRealB_good h')

end Dsp
