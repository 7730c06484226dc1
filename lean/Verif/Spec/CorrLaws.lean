import Verif.Spec.FourierLaws
import Verif.Spec.Correlation
/-
Specification vocabulary for the laws of the correlation (C88).
-/
namespace Dsp

/-- A pulse at position `p` of `n` points, which are zero otherwise. -/
def placed (n p : Nat) (pulse : List (Cx ℝ)) : List (Cx ℝ) :=
  List.replicate p 0 ++ pulse ++ List.replicate (n - p - pulse.length) 0

/-- `Σ |c|²`. -/
def energy (cs : List (Cx ℝ)) : ℝ := (cs.map Cx.normSq).sum

/-- The calls which correlate `x` with `y`: `y.prepare_argument_padded(buffer)`, `x.correlate(buffer, &y)`. -/
def correlating (K : FftKernel ℝ) (x y : Nat) : List (StmtCall ℝ) :=
  [.unary y (.prepareArgumentPadded K), .binary x y (.correlate K)]

/-- The variables hold complex signals in time domain with the points `a` and `c`, the same number, at least two. -/
structure World.Pair (w : World ℝ) (x y : Nat) (a c : List (Cx ℝ)) : Prop where
  left : (w.sig x).numbers = .complex a
  right : (w.sig y).numbers = .complex c
  time : (w.sig x).dom = .time
  same : a.length = c.length
  two : 2 ≤ c.length

end Dsp
