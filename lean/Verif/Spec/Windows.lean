import Verif.Spec.Elementary
import Verif.Model.SymPairs
import Mathlib.Analysis.SpecialFunctions.Trigonometric.Basic
/-
Specification of windows: what it means to multiply a vector with a window, and the windows which
the crate ships, as functions to the real numbers.
-/
namespace Dsp
variable {T : Type}

/-- Specification: `v'` is `v` with point `i` multiplied by `f i` (both parts of a complex
    point). -/
def Windowed [Mul T] (v v' : DspVec T) (f : Nat → T) : Prop :=
  ∃ a, v.content = some a ∧ Replaced v v' (a.mapIdx (fun p x => x * f (p / v.stride)))

/-- Specification: the window is symmetric: the values at both ends of `n` points agree. -/
def SymmetricAt (w : WindowFunction T) (n : Nat) : Prop :=
  ∀ i < n, w.window i n = w.window (n - 1 - i) n

/-- Specification: the index of the window value which the crate takes for point `i` of `n` points, if the window is declared
    symmetric and `workers` threads are used. The points are cut into `chunks` chunks of `size` points (the last one may be
    shorter); the first `workers` chunks are paired with the others, from the outside to the inside. `none`: the chunk of
    the point has no partner, its points are not multiplied. -/
def symmetricIndex (workers n i : Nat) : Option Nat :=
  let size := (n + 2 * workers - 1) / (2 * workers)
  let chunks := (n + size - 1) / size
  if i < (chunks - workers) * size then some i
  else if i < workers * size then none
  else if i < (chunks - 1) * size then some (chunks * size - 1 - i)
  else some (n - 1 - i)

/-- `TriangularWindow`, window_functions.rs:28-42. -/
noncomputable def triangular : WindowFunction ℝ :=
  ⟨true, fun n length => 1 - |((n : ℝ) - ((length : ℝ) - 1) / 2) / ((length : ℝ) / 2)|⟩

/-- `HammingWindow::new(alpha)`, window_functions.rs:59-87. -/
noncomputable def hamming (alpha : ℝ) : WindowFunction ℝ :=
  ⟨true, fun n length => alpha - (1 - alpha) * Real.cos (2 * Real.pi * n / ((length : ℝ) - 1))⟩

/-- `BlackmanHarrisWindow`, window_functions.rs:91-117. -/
noncomputable def blackmanHarris : WindowFunction ℝ :=
  ⟨true, fun n length =>
    0.35875 - 0.48829 * Real.cos (2 * Real.pi * n / ((length : ℝ) - 1)) +
      0.14128 * Real.cos (4 * Real.pi * n / ((length : ℝ) - 1)) -
      0.01168 * Real.cos (6 * Real.pi * n / ((length : ℝ) - 1))⟩

/-- `RectangularWindow`, window_functions.rs:121-133. -/
def rectangular [One T] : WindowFunction T := ⟨true, fun _ _ => 1⟩

end Dsp
