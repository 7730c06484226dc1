import Verif.Spec.Conv
import Mathlib.Algebra.Field.Defs
/-
Specification of the convolution with a function.
-/
namespace Dsp
variable {T α : Type}

/-- Specification: the convolution of the periodic continuation of `x` with the function `f`, which is evaluated
    in the distance `ratio`, for the `2 len + 1` points around zero: point `i` is the sum of
    `x[i - m] * f (m * ratio)` over all `m` from `-len` to `len`. -/
def convolveWith [Ring T] [CommRing α] (f : T → α) (ratio : T) (len : Nat) (x : List α) : List α :=
  (List.range x.length).map fun (i : Nat) =>
    ((List.range (2 * len + 1)).map fun (m : Nat) =>
      (cyclic x ((i : Int) - ((m : Int) - len))).getD 0 * f (((m : T) - len) * ratio)).sum

end Dsp
