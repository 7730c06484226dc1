import Verif.Spec.RoundTrips
/-
Specification vocabulary for the laws of the interpolation of real signals (C99).
-/
namespace Dsp

/-- The points `a, a + b, a + 2 b, ...` of a line. -/
noncomputable def linePoints (a b : ℝ) (n : Nat) : List ℝ := (List.range n).map fun (i : Nat) => a + b * i

/-- `x.interpolate_lin(f, d)`. -/
def interpolateLinOf (x : Nat) (f d : ℝ) : StmtCall ℝ := .unary x (.interpolateLin f d)

/-- `x.interpolate_hermite(f, d)`. -/
def interpolateHermiteOf (x : Nat) (f d : ℝ) : StmtCall ℝ := .unary x (.interpolateHermite f d)

end Dsp
