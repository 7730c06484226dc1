import Verif.Spec.ElementaryRounding
import Verif.Spec.Windows
import Mathlib.Analysis.SpecialFunctions.Trigonometric.Basic
/-
C94: the functions of the mathematical library, accurate up to an error, and the exact results of the operations which use them.
Nothing here mentions the model of the code.
-/
namespace Dsp
variable {R : Rounding}

noncomputable section
/-- One is a floating point number. -/
instance Fl.instOne : One (Fl R) := ⟨⟨1⟩⟩

/-- `exp(j x)`. -/
def phasor (x : ℝ) : ℂ := Complex.exp (Complex.I * x)

/-- `sin` and `cos` of the library: together they differ from `exp(j x)` by at most `e`. -/
def CisAccurate (cis : Fl R → Cx (Fl R)) (e : ℝ) : Prop := ∀ x, ‖Fl.complex (cis x) - phasor x.val‖ ≤ e

/-- The square root of the library is right up to a relative error of `u` (IEEE: rounded once). -/
def SqrtAccurate (sqrt : Fl R → Fl R) : Prop := ∀ x, 0 ≤ x.val → |(sqrt x).val - Real.sqrt x.val| ≤ R.u * Real.sqrt x.val

/-- A window function of floating point numbers which differs from the window `W` by at most `e`. -/
def WindowAccurate (w : WindowFunction (Fl R)) (W : Nat → Nat → ℝ) (e : ℝ) : Prop :=
  ∀ i n, |(w.window i n).val - W i n| ≤ e

/-- Arithmetic without rounding errors. -/
def exactRounding : Rounding := ⟨id, 0, by simp⟩
end

/-- The point whose window value is taken for point `i`: the point itself, or what `symmetricIndex` says if the window is declared
    symmetric. -/
def windowIndex (symmetric : Bool) (workers n i : Nat) : Option Nat :=
  if symmetric then symmetricIndex workers n i else some i

end Dsp
