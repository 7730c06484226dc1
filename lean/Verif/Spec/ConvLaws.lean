import Verif.Spec.FourierLaws
/-
Specification vocabulary for the laws of the convolution (C86).
-/
namespace Dsp

/-- `m` numbers: a one in the centre (index `(m - 1) / 2`) and zeros. -/
def centredImpulse {α : Type} [Zero α] [One α] (m : Nat) : List α := (List.range m).map fun k => if k = (m - 1) / 2 then 1 else 0

/-- The impulse as a signal: `m` points, a one in the centre and zeros. -/
def Signal.IsImpulse (s : Signal ℝ) (m : Nat) : Prop :=
  s.numbers = .real (centredImpulse m) ∨ s.numbers = .complex (centredImpulse m)

/-- `convolve_signal` of `s` with `o` is accepted: the signals agree, are in time domain, and the response is not longer. -/
def Signal.Filters (o s : Signal ℝ) : Prop := s.Agrees o ∧ s.dom = .time ∧ o.numbers.count ≤ s.numbers.count

end Dsp
