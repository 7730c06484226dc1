import Verif.Spec.FourierLaws
import Mathlib.Analysis.SpecialFunctions.Arcosh
import Mathlib.Analysis.SpecialFunctions.Artanh
import Mathlib.Analysis.SpecialFunctions.Arsinh
import Mathlib.Analysis.SpecialFunctions.Trigonometric.Arctan
import Mathlib.Analysis.SpecialFunctions.Trigonometric.Inverse
import Mathlib.Analysis.SpecialFunctions.Pow.Real
import Mathlib.Analysis.SpecialFunctions.Log.Base
/-
Specification vocabulary for programs which restore a vector (C92).
-/
namespace Dsp
open DspVec

/-- In every environment which accepts it and for all schedules: a program with the calls `c` which starts with vectors which show
    the signals of `w` ends with the same numbers, number space, domain and sampling distance in the variable `x` as it started. -/
def Restores (w : World ℝ) (c : List (StmtCall ℝ)) (x : Nat) : Prop :=
  ∀ (m : Machine ℝ) (p : List (Stmt ℝ)), m.Shows w → p.map Stmt.call = c → m.SafeAll p →
    ∀ oracle f, runProgram oracle 0 m p = .finished f →
      (f.vec x).content = (m.vec x).content ∧ (f.vec x).isComplex = (m.vec x).isComplex ∧ (f.vec x).dom = (m.vec x).dom ∧
        (f.vec x).delta = (m.vec x).delta

/-- The variables which a call writes. -/
def StmtCall.writes : StmtCall ℝ → List Nat
  | .single x _ | .unary x _ | .binary x _ _ | .setComplex _ x _ _ | .merge x _ => [x]
  | .split _ ys => ys
  | .get _ dest _ => [dest]
  | .getTwo _ first second _ _ => [first, second]
  | .sum _ _ _ | .dot _ _ _ | .stats _ _ => []
  | .clone _ dest => [dest]

/-- All numbers (points of a complex signal) are different from zero. -/
def Numbers.NonZero : Numbers ℝ → Prop
  | .real l => ∀ x ∈ l, x ≠ 0
  | .complex l => ∀ x ∈ l, x ≠ 0

/-- The function which an operation computes. -/
noncomputable def MathOp.exact : MathOp ℝ → ℝ → ℝ
  | .sin => Real.sin | .cos => Real.cos | .tan => Real.tan
  | .asin => Real.arcsin | .acos => Real.arccos | .atan => Real.arctan
  | .sinh => Real.sinh | .cosh => Real.cosh | .tanh => Real.tanh
  | .asinh => Real.arsinh | .acosh => Real.arcosh | .atanh => Real.artanh
  | .ln => Real.log | .exp => Real.exp
  | .powf e => fun x => x ^ e
  | .log b => Real.logb b
  | .expf b => fun x => b ^ x

/-- The operations which undo each other, and the numbers for which they do. -/
inductive MathOp.Undoes : MathOp ℝ → MathOp ℝ → (ℝ → Prop) → Prop
  | sin : Undoes .asin .sin fun a => -(Real.pi / 2) ≤ a ∧ a ≤ Real.pi / 2
  | asin : Undoes .sin .asin fun a => -1 ≤ a ∧ a ≤ 1
  | cos : Undoes .acos .cos fun a => 0 ≤ a ∧ a ≤ Real.pi
  | acos : Undoes .cos .acos fun a => -1 ≤ a ∧ a ≤ 1
  | tan : Undoes .atan .tan fun a => -(Real.pi / 2) < a ∧ a < Real.pi / 2
  | atan : Undoes .tan .atan fun _ => True
  | sinh : Undoes .asinh .sinh fun _ => True
  | asinh : Undoes .sinh .asinh fun _ => True
  | cosh : Undoes .acosh .cosh fun a => 0 ≤ a
  | acosh : Undoes .cosh .acosh fun a => 1 ≤ a
  | tanh : Undoes .atanh .tanh fun _ => True
  | atanh : Undoes .tanh .atanh fun a => -1 < a ∧ a < 1
  | exp : Undoes .ln .exp fun _ => True
  | ln : Undoes .exp .ln fun a => 0 < a
  | expf (b : ℝ) (h : 0 < b) (h1 : b ≠ 1) : Undoes (.log b) (.expf b) fun _ => True
  | log (b : ℝ) (h : 0 < b) (h1 : b ≠ 1) : Undoes (.expf b) (.log b) fun a => 0 < a
  | powf (e : ℝ) (h : e ≠ 0) : Undoes (.powf (1 / e)) (.powf e) fun a => 0 ≤ a

end Dsp
