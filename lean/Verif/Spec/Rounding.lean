import Verif.Model.Vec
import Mathlib.Data.Multiset.AddSub
import Mathlib.Algebra.BigOperators.Group.Multiset.Basic
import Mathlib.Data.Real.Basic
import Mathlib.Data.Int.Log
import Mathlib.Order.Lattice
import Mathlib.Algebra.Order.Round
import Mathlib.Algebra.Order.Floor.Ring
import Mathlib.Algebra.Order.Archimedean.Real.Basic
import Mathlib.Tactic.Linarith
import Mathlib.Tactic.Positivity
import Mathlib.Tactic.FieldSimp
import Mathlib.Tactic.Ring
/-
Arithmetic with rounding: what it means that a number was computed by additions of given numbers, without any law for the
addition, and the standard model of floating point arithmetic. Nothing here mentions the model of the code.
-/
namespace Dsp

/-- `r` is computed from exactly the numbers `l` (each as often as it is listed) and zeros, using additions only; no number goes
    through more than `d` additions. -/
inductive SumOf {T : Type} [Add T] [Zero T] : Nat → T → Multiset T → Prop
  | zero (d : Nat) : SumOf d 0 0
  | leaf (d : Nat) (x : T) : SumOf d x {x}
  | add {d : Nat} {a b : T} {s t : Multiset T} : SumOf d a s → SumOf d b t → SumOf (d + 1) (a + b) (s + t)

/-- How many additions a number goes through at most in a sum of `n` numbers with registers of `w` numbers. -/
def sumDepth (n w : Nat) : Nat := n / w + 2 * w + 1

/-- The standard model of floating point arithmetic: the result of an operation is the exact result up to a relative error of at
    most `u` (no overflow, no underflow). -/
structure Rounding where
  rnd : ℝ → ℝ
  u : ℝ
  error : ∀ x, |rnd x - x| ≤ u * |x|

/-- Numbers whose operations are rounded. -/
structure Fl (R : Rounding) where
  val : ℝ

namespace Fl
variable {R : Rounding}
noncomputable section
instance : Zero (Fl R) := ⟨⟨0⟩⟩
instance : Add (Fl R) := ⟨fun x y => ⟨R.rnd (x.val + y.val)⟩⟩
instance : Sub (Fl R) := ⟨fun x y => ⟨R.rnd (x.val - y.val)⟩⟩
instance : Mul (Fl R) := ⟨fun x y => ⟨R.rnd (x.val * y.val)⟩⟩
instance : Div (Fl R) := ⟨fun x y => ⟨R.rnd (x.val / y.val)⟩⟩
/-- The conversion of a count is rounded as well. -/
instance : NatCast (Fl R) := ⟨fun n => ⟨R.rnd n⟩⟩
/-- Comparisons are exact. -/
instance : LinearOrder (Fl R) := LinearOrder.lift' Fl.val fun x y h => by cases x; cases y; simpa using h
end
end Fl

/-- The exact sum of a list of rounded numbers and the sum of their absolute values. -/
noncomputable def exactSum {R : Rounding} (l : List (Fl R)) : ℝ := (l.map Fl.val).sum
/-- The sum of the absolute values. -/
noncomputable def absSum {R : Rounding} (l : List (Fl R)) : ℝ := (l.map fun x => |x.val|).sum

/-- Round to nearest with `p + 1` binary digits and unbounded exponents (`p = 52`: like `f64`, `p = 23`: like `f32`). -/
noncomputable def binaryRounding (p : Nat) : Rounding where
  rnd x := round (x / (2 : ℝ) ^ (Int.log 2 |x| - p)) * (2 : ℝ) ^ (Int.log 2 |x| - p)
  u := 1 / 2 ^ (p + 1)
  error x := by
    by_cases hx : x = 0
    · subst hx; simp
    have hpos : 0 < |x| := abs_pos.2 hx
    have hb : (0 : ℝ) < (2 : ℝ) ^ (Int.log 2 |x| - p) := zpow_pos (by norm_num) _
    have h1 : (2 : ℝ) ^ Int.log 2 |x| ≤ |x| := Int.zpow_log_le_self (by norm_num) hpos
    have h2 : (2 : ℝ) ^ (Int.log 2 |x| - p) = (2 : ℝ) ^ Int.log 2 |x| / 2 ^ p := by
      rw [zpow_sub₀ (by norm_num)]; simp
    generalize (2 : ℝ) ^ (Int.log 2 |x| - p) = b at *
    have h3 : (round (x / b) : ℝ) * b - x = ((round (x / b) : ℝ) - x / b) * b := by field_simp
    rw [h3, abs_mul, abs_of_pos hb, abs_sub_comm]
    have h4 := abs_sub_round (x / b)
    have h5 : b ≤ |x| / 2 ^ p := by
      rw [h2]; exact div_le_div_of_nonneg_right h1 (by positivity)
    calc |x / b - (round (x / b) : ℝ)| * b ≤ 1 / 2 * b := mul_le_mul_of_nonneg_right h4 hb.le
      _ ≤ 1 / 2 * (|x| / 2 ^ p) := by linarith
      _ = 1 / 2 ^ (p + 1) * |x| := by rw [pow_succ]; field_simp

end Dsp
