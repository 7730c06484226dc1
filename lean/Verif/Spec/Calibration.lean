import Verif.Model.Calibration
/-
A machine whose times are linear in the number of elements.
-/
namespace Dsp
variable {T : Type} [Field T] [LinearOrder T]

/-- The time for `n` elements is `slope * n + start`. -/
structure Line (T : Type) where
  slope : T
  start : T

/-- The time for `n` elements. -/
def Line.at (l : Line T) (n : T) : T := l.slope * n + l.start

/-- The measured times lie on the lines `one` (through the origin), `two` and `many`, every measurement takes at least 1 microsecond, and
    the regression finds the line through points which lie on a line. -/
structure LinearMachine (mc : Machinery T) (cores : Nat) (one two many : Line T) : Prop where
  origin : one.start = 0
  time1 : ∀ n ∈ calibrationSizes, mc.clock n 1 = one.at n
  time2 : ∀ n ∈ calibrationSizes, mc.clock n 2 = two.at n
  timeMany : ∀ n ∈ calibrationSizes, mc.clock n cores = many.at n
  measurable : ∀ n ∈ calibrationSizes, ∀ l ∈ [one, two, many], 1000 ≤ l.at n
  regression : ∀ l : Line T, mc.fit (calibrationSizes.map fun n : Nat => (n : T)) (calibrationSizes.map fun n : Nat => l.at (n : T)) = some (l.slope, l.start)

end Dsp
