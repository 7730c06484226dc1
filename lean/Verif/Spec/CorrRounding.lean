import Verif.Spec.ConvFftRounding
/-
C96: the cross correlation of complex vectors with rounded numbers. Nothing here mentions the model of the code.
-/
namespace Dsp
variable {R : Rounding}
open scoped ComplexConjugate

noncomputable section

/-- The negation is exact. -/
instance Fl.instNeg : Neg (Fl R) := ⟨fun x => ⟨-x.val⟩⟩

/-- The complex number which point `i` of a vector of rounded numbers stands for; zero before the first and behind the last point. -/
def valueOrZero (a : List (Cx (Fl R))) (i : ℤ) : ℂ := if 0 ≤ i then pointValue a i.toNat else 0

/-- The exact cross correlation for one lag: the sum of `a[k + lag] * conj(c[k])` over all `k`. -/
def exactCorrelation (a c : List (Cx (Fl R))) (lag : ℤ) : ℂ :=
  ∑ k ∈ Finset.range c.length, valueOrZero a (k + lag) * conj (pointValue c k)

/-- The error of a correlation of two signals with `n` points each (after padding) by two transforms, the conjugation, a multiplication, a
    transform back and the division by `n`, with an FFT library with error `e` and roundings with error `u`. -/
def correlationError (e u : ℝ) (n : Nat) : ℝ :=
  ((1 + e) * (1 + u)) ^ 2 * (1 + ((1 + e) * (1 + u) - 1) * Real.sqrt n) * (1 + 3 * u) * (1 + u) ^ 2 - 1

end
end Dsp
