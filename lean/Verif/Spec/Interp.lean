import Verif.Spec.View
import Mathlib.Algebra.Order.Field.Basic
/-
Specification of the interpolation of real vectors.
-/
namespace Dsp
variable {T : Type} [Field T] [LinearOrder T]

/-- Specification: `y` is the value at position `x` of the straight lines which connect the points
    `(0, data[0]), (1, data[1]), …`. -/
def OnLine (data : List T) (x y : T) : Prop :=
  ∃ (k : Nat) (y0 y1 : T), data[k]? = some y0 ∧ data[k + 1]? = some y1 ∧ (k : T) ≤ x ∧ x < k + 1 ∧
    y = y0 + (y1 - y0) * (x - k)

/-- Specification: `R` is `x` rounded to an integer. -/
def Rounded (x : T) (R : Nat) : Prop := x - 1 / 2 < R ∧ (R : T) ≤ x + 1 / 2

/-- Specification: `l` is the linear interpolation of `data` with the factor `f` and a delay (in
    steps of the input): with `R = (n - 1) f` (rounded) there are `R + 1` numbers, number
    `i < R` is the value at position `i / f + delay`, and the last number is the last number of
    the input. -/
def LinInterpolation (data : List T) (f delay : T) (l : List T) : Prop :=
  ∃ R : Nat, Rounded (((data.length - 1 : Nat) : T) * f) R ∧ l.length = R + 1 ∧
    (∀ i < R, ∃ y, l[i]? = some y ∧ OnLine data ((i : T) / f + delay) y) ∧
    l[R]? = data[data.length - 1]?

/-- Specification: the cubic which has the value `p` and the slope `s` at 0 and the value `q` and the
    slope `t` at 1, written with the Hermite basis polynomials. -/
def cubicHermite (p s q t x : T) : T :=
  (2 * x ^ 3 - 3 * x ^ 2 + 1) * p + (x ^ 3 - 2 * x ^ 2 + x) * s + (-2 * x ^ 3 + 3 * x ^ 2) * q +
    (x ^ 3 - x ^ 2) * t

/-- Specification: the data continued by straight lines at both ends. -/
def extendLin (data : List T) (k : Int) : T :=
  let n := data.length
  if k < 0 then data.getD 0 0 + (k : T) * (data.getD 1 0 - data.getD 0 0)
  else if k < n then data.getD k.toNat 0
  else data.getD (n - 1) 0 + ((k - (n - 1 : Nat) : Int) : T) * (data.getD (n - 1) 0 - data.getD (n - 2) 0)

/-- Specification: the piecewise cubic Hermite interpolation of the (continued) data at position
    `k + x`; the slope at every point is the slope of the line through its neighbours. -/
def hermiteAt (data : List T) (k : Nat) (x : T) : T :=
  cubicHermite (extendLin data k) ((extendLin data (k + 1) - extendLin data (k - 1)) / 2)
    (extendLin data (k + 1)) ((extendLin data (k + 2) - extendLin data k) / 2) x

end Dsp
