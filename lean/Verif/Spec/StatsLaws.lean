import Verif.Spec.FourierLaws
import Mathlib.Analysis.SpecialFunctions.Pow.NNReal
/-
Specification vocabulary for the laws of the statistics (C89).
-/
namespace Dsp

/-- What `statistics` returns for a signal which is not empty: the sum, the number of points, the average, the root mean square, the smallest
    number and where it stands first, the largest number and where it stands first. -/
def report (total : ℝ) (n : Nat) (average rms lo : ℝ) (i : Nat) (hi : ℝ) (j : Nat) : Out ℝ :=
  .stats ⟨total, n, some average, some rms, .fin lo, i, .fin hi, j⟩

/-- `x.statistics()`. -/
noncomputable def statisticsOf (x : Nat) : StmtCall ℝ := .stats x (.real Real.sqrt)

/-- The variable holds a real signal with the points `xs`, at least one. -/
def World.Holds (w : World ℝ) (x : Nat) (xs : List ℝ) : Prop := (w.sig x).numbers = .real xs ∧ xs ≠ []

end Dsp
