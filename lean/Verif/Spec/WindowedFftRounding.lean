import Verif.Spec.ModulationRounding
import Verif.Spec.FftRounding
/-
C97: the value which the points are multiplied with by a window. Nothing here mentions the model of the code.
-/
namespace Dsp

/-- The number which point `i` of `n` points is multiplied with by a window with the values `W`: the value of the window at the point
    which the workers take for `i` (`windowIndex`); a point which no worker visits is multiplied with nothing. -/
noncomputable def weightAt (symmetric : Bool) (workers : Nat) (W : Nat → Nat → ℝ) (n i : Nat) : ℝ :=
  match windowIndex symmetric workers n i with
  | some j => W j n
  | none => 1

end Dsp
