import Mathlib.Algebra.Order.Floor.Ring
import Mathlib.Algebra.Order.Field.Basic
/-
What `wrap` and `unwrap` mean for a list of numbers.
-/
namespace Dsp
variable {T : Type} [Field T] [LinearOrder T] [FloorRing T]

/-- The remainder of the division of the magnitudes, with the sign of the number. -/
def wrapped (d x : T) : T :=
  if x < 0 then -(|x| - |d| * (⌊|x| / |d|⌋ : Int)) else |x| - |d| * (⌊|x| / |d|⌋ : Int)

/-- The number `c` behind the (unwrapped) number `p`: a step of more than half of the divisor is replaced by its remainder, moved by the
    divisor towards zero and beyond. -/
def unwrapNext (d p c : T) : T :=
  if d / 2 < c - p then p + wrapped d (c - p) - d
  else if c - p < -(d / 2) then p + wrapped d (c - p) + d
  else c

/-- The numbers behind `p`. -/
def unwrapFrom (d : T) : T → List T → List T
  | _, [] => []
  | p, c :: l => unwrapNext d p c :: unwrapFrom d (unwrapNext d p c) l

/-- All numbers: the first one stays. -/
def unwrapped (d : T) : List T → List T
  | [] => []
  | x :: l => x :: unwrapFrom d x l

end Dsp
