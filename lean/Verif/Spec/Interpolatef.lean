import Verif.Spec.Conv
import Verif.Spec.Signal
import Verif.Model.Interp
import Verif.Lemmas.Complex
import Mathlib.Algebra.Field.Defs
/-
Specification of the interpolation with a function in the time domain.
-/
namespace Dsp
variable {T α : Type}

/-- Specification: the sum of `x[p] * f (t - p)` over the `n` points `lo, lo + 1, ...` of the periodic continuation of `x`: what the
    function `f` makes of the points at the position `t`. -/
def windowSum [Ring T] [CommRing α] (f : T → α) (t : T) (lo : Int) (n : Nat) (x : List α) : α :=
  ((List.range n).map fun (m : Nat) => (cyclic x (lo + (m : Int))).getD 0 * f (t - ((lo + (m : Int) : Int) : T))).sum

/-- Specification: `n` points in the distance `1 / factor`, delayed by `d`: point `i` is the interpolation at the position
    `i / factor - d`, where `L` points on both sides of the position `i / factor` are taken into account. -/
def interpolateWith [Field T] [LinearOrder T] [FloorRing T] [CommRing α] (f : T → α) (factor d : T) (L n : Nat) (x : List α) : List α :=
  (List.range n).map fun (i : Nat) =>
    windowSum f ((i : T) / factor - d) (⌊(i : T) / factor⌋ - (L : Int)) (2 * L + 1) x

/-- Specification: the same, where every point may be computed from any window of `2 L + 1` successive points which contains all
    points with a distance below `L`. -/
def Interpolates [Field T] [LinearOrder T] [CommRing α] (f : T → α) (factor d : T) (L n : Nat) (x ys : List α) : Prop :=
  ys.length = n ∧ ∀ i < n, ∃ lo : Int,
    (∀ p : Int, |(i : T) / factor - (p : T)| < (L : T) → lo ≤ p ∧ p ≤ lo + 2 * (L : Int)) ∧
    ys[i]? = some (windowSum f ((i : T) / factor - d) lo (2 * L + 1) x)

/-- Specification: a real function is applied to real or complex numbers. -/
def Numbers.interpolateWith [Field T] [LinearOrder T] [FloorRing T] (f : T → T) (factor d : T) (L n : Nat) : Numbers T → Numbers T
  | .real xs => .real (Dsp.interpolateWith f factor d L n xs)
  | .complex cs => .complex (Dsp.interpolateWith (fun t => (⟨f t, 0⟩ : Cx T)) factor d L n cs)

/-- Specification: as `Interpolates`, for real or complex numbers. -/
def Numbers.Interpolates [Field T] [LinearOrder T] (f : T → T) (factor d : T) (L n : Nat) : Numbers T → Numbers T → Prop
  | .real xs, .real ys => Dsp.Interpolates f factor d L n xs ys
  | .complex cs, .complex ds => Dsp.Interpolates (fun t => (⟨f t, 0⟩ : Cx T)) factor d L n cs ds
  | _, _ => False

/-- Specification: the number of points of the result for `n` points: the number of numbers times the factor, rounded, and one more
    number if that is odd. -/
def interpolatedPoints [Field T] [LinearOrder T] [FloorRing T] (isComplex : Bool) (n : Nat) (factor : T) : Nat :=
  let r := ⌊((if isComplex then 2 * n else n : Nat) : T) * factor + 1 / 2⌋.toNat
  if isComplex then (r + r % 2) / 2 else r + r % 2

end Dsp
