import Verif.Spec.ConvRounding
import Verif.Spec.FftRounding
/-
C84: the convolution of complex vectors with rounded numbers, measured by the absolute value. Nothing here mentions the model of the
code.
-/
namespace Dsp
variable {R : Rounding}

noncomputable section

/-- Value `i` of the exact convolution: the sum of `x[i + c - k] * h[k]` over all `k`, where `x` is continued periodically. -/
def exactConvAt (x h : List (Cx (Fl R))) (i : Nat) : ℂ :=
  ((convPairs x h i).map fun p => Fl.complex p.1 * Fl.complex p.2).sum

/-- The sum of the absolute values. -/
def l1 (h : List (Cx (Fl R))) : ℝ := (h.map fun c => ‖Fl.complex c‖).sum

/-- Every point of `z` is the corresponding point of the convolution of `x` with `h` with an error of at most `E`, relative to the
    Euclidean norm of `x` and the sum of the absolute values of `h`. -/
def ConvNear (E : ℝ) (x h z : List (Cx (Fl R))) : Prop :=
  z.length = x.length ∧ ∀ (i : Nat) (y : Cx (Fl R)), z[i]? = some y →
    ‖Fl.complex y - exactConvAt x h i‖ ≤ E * (l2 x.length (pointValue x) * l1 h)

/-- The error of a convolution by two transforms of length `n`, a multiplication and a transform back, with an FFT library with error `e`
    and roundings with error `u`. -/
def fftConvError (e u : ℝ) (n : Nat) : ℝ := (1 + e) ^ 2 * (1 + e * Real.sqrt n) * ((1 + 3 * u) * (1 + u)) - 1

/-- The error of a convolution of complex numbers by definition, with `d` additions for every point. -/
def directConvError (u : ℝ) (d : Nat) : ℝ := Real.sqrt 2 * ((1 + u) ^ (d + 2) - 1)

end
end Dsp
