import Verif.Model.Approximations
import Mathlib.Analysis.SpecialFunctions.Log.Base
/-
Positive normal floating point numbers.
-/
namespace Dsp

/-- The smallest exponent of a normal number. -/
def FloatFormat.minExp : FloatFormat → ℤ
  | f32 => -126
  | f64 => -1022

/-- The largest exponent of a normal number. -/
def FloatFormat.maxExp : FloatFormat → ℤ
  | f32 => 127
  | f64 => 1023

/-- `x` is a positive normal number of the format: `(1 + f / 2 ^ m) * 2 ^ k`. -/
def PositiveNormal (fmt : FloatFormat) (x : ℝ) : Prop :=
  ∃ (k : ℤ) (f : ℕ), fmt.minExp ≤ k ∧ k ≤ fmt.maxExp ∧ f < 2 ^ fmt.mantLen ∧ x = (1 + (f : ℝ) / 2 ^ fmt.mantLen) * 2 ^ k

noncomputable section

/-- The function which is approximated. -/
def ApproxOp.exact (op : ApproxOp) (x : ℝ) : ℝ :=
  match op with
  | .ln => Real.log x
  | .exp => Real.exp x
  | .sin => Real.sin x
  | .cos => Real.cos x
  | .log b => Real.logb b x
  | .expf b => b ^ x
  | .powf y => x ^ y

/-- The documented error: `1E-6` for sine and cosine, otherwise one percent. -/
def ApproxOp.tolerance (op : ApproxOp) (x : ℝ) : ℝ :=
  match op with
  | .sin | .cos => 1e-6
  | _ => 0.01 * |op.exact x|

/-- The arguments for which the documented error is proved. -/
def ApproxOp.Covers (op : ApproxOp) (fmt : FloatFormat) (x : ℝ) : Prop :=
  match op with
  | .sin | .cos => |x| ≤ 1e8
  | .exp => |x| ≤ 87
  | .ln => PositiveNormal fmt x ∧ 1 < x ∧ (x ≤ 1.9 ∨ 2 ≤ x)
  | .log b => 1 < b ∧ PositiveNormal fmt x ∧ 1 < x ∧ (x ≤ 1.9 ∨ 2 ≤ x)
  | .expf b => 0 < b ∧ |Real.log b * x| ≤ 87
  | .powf y => PositiveNormal fmt x ∧ |y| ≤ 1 / 2 ∧ |Real.log x * y| ≤ 86

end

/-- The number type of the lanes of a register: single precision if it is in the name of the register type. -/
def laneType (k : RegKind) : FloatFormat :=
  if k = .fallbackF32x4 ∨ k = .sseF32x4 ∨ k = .avxF32x8 then .f32 else .f64

/-- The register types which are used on machines without SIMD support. -/
def NoSimd (k : RegKind) : Prop := k = .fallbackF32x4 ∨ k = .fallbackF64x2

end Dsp
