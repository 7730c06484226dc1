import Verif.Model.LookupTable
import Mathlib.Analysis.SpecialFunctions.Trigonometric.Basic
import Mathlib.Order.Interval.Finset.Defs
import Mathlib.Data.Int.Interval
/-
Specification for the spectra of lookup tables.
-/
namespace Dsp

/-- Specification: bin `k` of the spectrum of a function of time which is sampled at the multiples of `δ` from `-len` to `len`:
    the sum of `f (m δ) exp (-2 π j k m / (2 len + 1))`. -/
noncomputable def spectrumAt (f : ℝ → ℂ) (δ : ℝ) (len : Nat) (k : Int) : ℂ :=
  ∑ m ∈ Finset.Icc (-(len : Int)) len, f (m * δ) * Complex.exp (-(2 * Real.pi * Complex.I * k * m / (2 * len + 1 : Nat)))

end Dsp
