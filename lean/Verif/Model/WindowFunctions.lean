import Verif.Model.SymPairs
/-
Model of vector/src/window_functions.rs for every kind of numbers.
-/
namespace Dsp

/-- The constants and functions of the number type which the windows use: `T::from(2.0)`, `T::PI()`, `T::from(n: usize)`, `cos`, `abs`:
    window_functions.rs:36-41, 78-85, 102-115. -/
structure WindowLib (T : Type) where
  ofNat : Nat → T
  two : T
  four : T
  six : T
  pi : T
  /-- `0.35875`, `0.48829`, `0.14128`, `0.01168`, window_functions.rs:107-110 -/
  a0 : T
  a1 : T
  a2 : T
  a3 : T
  cos : T → T
  abs : T → T

variable {T : Type} [One T] [Add T] [Sub T] [Mul T] [Div T]

/-- `TriangularWindow`, window_functions.rs:28-42. -/
def triangularWindow (l : WindowLib T) : WindowFunction T :=
  ⟨true, fun n length => 1 - l.abs ((l.ofNat n - (l.ofNat length - 1) / l.two) / (l.ofNat length / l.two))⟩

/-- `HammingWindow::new(alpha)`, window_functions.rs:45-87. -/
def hammingWindow (l : WindowLib T) (alpha : T) : WindowFunction T :=
  ⟨true, fun n length => alpha - (1 - alpha) * l.cos (l.two * l.pi * l.ofNat n / (l.ofNat length - 1))⟩

/-- `BlackmanHarrisWindow`, window_functions.rs:90-117. -/
def blackmanHarrisWindow (l : WindowLib T) : WindowFunction T :=
  ⟨true, fun n length =>
    l.a0 - l.a1 * l.cos (l.two * l.pi * l.ofNat n / (l.ofNat length - 1)) +
      l.a2 * l.cos (l.four * l.pi * l.ofNat n / (l.ofNat length - 1)) -
      l.a3 * l.cos (l.six * l.pi * l.ofNat n / (l.ofNat length - 1))⟩

end Dsp
