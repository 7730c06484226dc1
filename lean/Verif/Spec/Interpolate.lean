import Verif.Spec.Schedule
import Verif.Spec.Fft
import Verif.Spec.FreqResponse
import Verif.Spec.Reorg
import Verif.Model.FreqResponse
/-
Specification of the interpolation in the frequency domain.
-/
namespace Dsp
variable {T : Type}

/-- Specification: as `Always`, for two independent parallel sections. -/
def Always2 {α : Type} (run : List Nat → List Nat → Outcome α) (r : α) : Prop :=
  (∀ s1 s2, run s1 s2 = .running ∨ run s1 s2 = .finished r) ∧ ∃ s1 s2, run s1 s2 = .finished r

/-- Specification: the frequency (as a multiple of the resolution) of bin `i` of a spectrum with `n` points: the first half
    are the frequencies which are not negative, the others are negative. -/
def binFrequency (n i : Nat) : Int := if i < n - n / 2 then (i : Int) else (i : Int) - (n : Int)

/-- Specification: the spectrum of a signal which is moved by `d` sampling distances. -/
def phaseShifted [Field T] (cis : T → Cx T) (pi d : T) (S : List (Cx T)) : List (Cx T) :=
  S.mapIdx fun i c => c * cis (2 * pi * d * ((binFrequency S.length i : Int) : T) / (S.length : T))

/-- Specification: a spectrum with `N` points which agrees with `S` at all frequencies of the shorter one of both; the other
    frequencies are zero. -/
def resampledSpectrum [Zero T] (N : Nat) (S : List (Cx T)) : List (Cx T) :=
  (List.range N).map fun i =>
    if S.length ≤ N then
      if i < S.length - S.length / 2 then S.getD i 0
      else if N - S.length / 2 ≤ i then S.getD (i - (N - S.length)) 0 else 0
    else if i < N - N / 2 then S.getD i 0 else S.getD (i + (S.length - N)) 0

/-- Specification: every bin is multiplied with `ratio` and with the value of the response at its frequency, where 1 is the
    highest frequency and the frequencies are multiplied with `ratio`. -/
def binFiltered [Field T] (f : T → T) (ratio : T) (S : List (Cx T)) : List (Cx T) :=
  S.mapIdx fun i c => c * ⟨ratio * f (((binFrequency S.length i : Int) : T) / ((S.length / 2 : Nat) : T) * ratio), 0⟩

/-- Specification: what happens to the spectrum if the number of points is changed from `S.length` to `N`: the phase for the
    delay `d` (in sampling distances), the changed number of bins and the gain `N / n`. A frequency response is only
    applied if the number of points grows. -/
def interpolatedSpectrum [Field T] (cis : T → Cx T) (pi : T) (function : Option (T → T)) (N : Nat) (d : T) (S : List (Cx T)) :
    List (Cx T) :=
  let R := resampledSpectrum N (phaseShifted cis pi d S)
  match function with
  | none => R.map (Cx.scaleBy ((N : T) / (S.length : T)))
  | some f => if S.length < N then binFiltered f ((N : T) / (S.length : T)) R
      else R.map (Cx.scaleBy ((N : T) / (S.length : T)))

/-- Specification: the interpolated signal: the inverse transform (which is not scaled) divided by the number of points. -/
def interpolated [Field T] (K : FftKernel T) (cis : T → Cx T) (pi : T) (function : Option (T → T)) (N : Nat) (d : T)
    (a : List (Cx T)) : List (Cx T) :=
  (K.inverse (interpolatedSpectrum cis pi function N d (K.forward a))).map (Cx.scaleBy (1 / (N : T)))

/-- Specification: a spectrum with more bins gives the same signal with more points: if the number of bins grows by the
    factor `m` then every `m`-th point is a point of the signal. -/
def FftKernel.Stretches [Zero T] (K : FftKernel T) : Prop :=
  ∀ (m : Nat) (S : List (Cx T)), 1 ≤ m → ∀ i < S.length,
    (K.inverse (resampledSpectrum (m * S.length) S))[m * i]? = (K.inverse S)[i]?

/-- Specification: the linear phase moves the points of the signal. -/
def FftKernel.Moves [Field T] (K : FftKernel T) (cis : T → Cx T) (pi : T) : Prop :=
  ∀ (r : Nat) (S : List (Cx T)), ∀ i < S.length,
    (K.inverse (phaseShifted cis pi (r : T) S))[i]? = (K.inverse S)[(i + r) % S.length]?

/-- Specification: the numbers of a vector which gets complex results: a real vector keeps the real parts. -/
def Numbers.receive (N : Numbers T) (cs : List (Cx T)) : Numbers T :=
  match N with
  | .real _ => .real (cs.map Cx.re)
  | .complex _ => .complex cs

/-- Specification: the signal after the interpolation by a whole factor: `m - 1` zeros after every point, then the frequency response
    is applied to the transform. -/
def interpolatedBy [Field T] (K : FftKernel T) (f : T → T) (m : Nat) (a : List (Cx T)) : List (Cx T) :=
  (K.inverse (binFiltered f (m : T) (K.forward (interleaveSpec 0 m a)))).map (Cx.scaleBy (1 / ((m * a.length : Nat) : T)))

/-- Specification: bin `k` is the sum of the bins `k, k + n, k + 2 n, ...` -/
def foldedSpectrum [Add T] [Zero T] (m n : Nat) (S : List (Cx T)) : List (Cx T) :=
  (List.range n).map fun k => ((List.range m).map fun j => S.getD (k + j * n) 0).sum

/-- Specification: every `m`-th point of a signal is the signal of the folded spectrum (aliasing). -/
def FftKernel.Folds [Add T] [Zero T] (K : FftKernel T) : Prop :=
  ∀ (m n : Nat) (S : List (Cx T)), 1 ≤ m → S.length = m * n → ∀ i < n, (K.inverse S)[m * i]? = (K.inverse (foldedSpectrum m n S))[i]?

/-- Specification: the transform of a signal with `m - 1` zeros after every point is the transform, `m` times. -/
def FftKernel.Repeats [Zero T] (K : FftKernel T) : Prop :=
  ∀ (m : Nat) (a : List (Cx T)), 1 ≤ m → K.forward (interleaveSpec 0 m a) = (List.replicate m (K.forward a)).flatten

/-- Specification: the response does not change the points of a signal with `n` points which is interpolated by `m` (Nyquist
    criterion): the responses at the frequencies `k, k + n, k + 2 n, ...` add up to one. -/
def NyquistResponse [Field T] (f : T → T) (m n : Nat) : Prop :=
  ∀ k < n, ((List.range m).map fun j =>
    f (((binFrequency (m * n) (k + j * n) : Int) : T) / ((m * n / 2 : Nat) : T) * (m : T))).sum = 1

end Dsp
