import Verif.Spec.FourierLaws
/-
Specification of sampled waves: what a user means by a band limited signal and its points.
-/
namespace Dsp

/-- Specification: a wave with the period `P`: the sum of the `m` oscillations with the frequencies `f / P`, where
    `-⌊m / 2⌋ ≤ f < m - ⌊m / 2⌋`, and the amplitudes `c f`. -/
noncomputable def wave (P : ℝ) (m : Nat) (c : ℤ → ℂ) (t : ℝ) : ℂ :=
  ∑ f ∈ Finset.Ico (-((m / 2 : Nat) : ℤ)) ((m - m / 2 : Nat) : ℤ), c f * turn (f * t / P)

/-- Specification: `n` points of `g`, the first at the time `t0`, with the distance `x`. -/
noncomputable def samples (g : ℝ → ℂ) (n : Nat) (x t0 : ℝ) : List (Cx ℝ) :=
  (List.range n).map fun (i : Nat) => Cx.ofC (g (t0 + i * x))

/-- Specification: the amplitude which the points of a signal with `n` points show at the frequency `f`: the frequencies repeat after
    `n`. -/
noncomputable def imageOf (n : Nat) (c : ℤ → ℂ) (f : ℤ) : ℂ := c ((f + ((n / 2 : Nat) : ℤ)) % n - ((n / 2 : Nat) : ℤ))

end Dsp
