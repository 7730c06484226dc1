import Verif.Spec.ElementaryRounding
/-
C82: the square root of complex numbers of the library, and sums of squares. Nothing here mentions the model of the code.
-/
namespace Dsp
variable {R : Rounding}

noncomputable section

/-- The square of the complex root which the library computes is right up to a relative error of `e`. -/
def ComplexSqrtAccurate (sqrt : Cx (Fl R) → Cx (Fl R)) (e : ℝ) : Prop :=
  ∀ x, ‖Fl.complex (sqrt x) ^ 2 - Fl.complex x‖ ≤ e * ‖Fl.complex x‖

/-- The exact sum of the squares of complex numbers, and the sum of their absolute values. -/
def exactSquares (cs : List (Cx (Fl R))) : ℂ := (cs.map fun c => Fl.complex c ^ 2).sum
def absSquares (cs : List (Cx (Fl R))) : ℝ := (cs.map fun c => ‖Fl.complex c‖ ^ 2).sum

end
end Dsp
