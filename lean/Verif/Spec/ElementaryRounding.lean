import Verif.Spec.Rounding
import Verif.Spec.Elementary
import Mathlib.Analysis.Complex.Norm
/-
The elementary operations on exact real and complex numbers and the errors which are allowed for rounded numbers.
Nothing here mentions the model of the code, except for the names of the four operations.
-/
namespace Dsp

/-- The complex number which a pair of rounded numbers stands for. -/
def Fl.complex {R : Rounding} (z : Cx (Fl R)) : ℂ := ⟨z.re.val, z.im.val⟩

/-- The exact operation on real numbers. -/
noncomputable def ElemOp.exact : ElemOp → ℝ → ℝ → ℝ
  | .add, x, y => x + y | .sub, x, y => x - y | .mul, x, y => x * y | .div, x, y => x / y

/-- The exact operation on complex numbers. -/
noncomputable def ElemOp.exactComplex : ElemOp → ℂ → ℂ → ℂ
  | .add, x, y => x + y | .sub, x, y => x - y | .mul, x, y => x * y | .div, x, y => x / y

/-- How many units `u` the error of an operation on complex numbers may have, relative to the exact result. -/
def ElemOp.complexUnits : ElemOp → ℝ
  | .add | .sub => 1 | .mul => 3 | .div => 6

end Dsp
