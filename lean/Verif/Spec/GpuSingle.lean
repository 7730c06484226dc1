import Verif.Spec.Gpu
/-
Specification for complex convolutions on a GPU in single precision.
-/
namespace Dsp

/-- Specification: `x` with the points `1 - p`, `3 - p`, `5 - p`, … multiplied by -1. -/
def everySecondNegated {T : Type} [Neg T] (p : Nat) (x : List (Cx T)) : List (Cx T) :=
  x.zipIdx.map fun zi => if (zi.2 + p) % 2 = 1 then -zi.1 else zi.1

end Dsp
