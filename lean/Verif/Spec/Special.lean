import Verif.Model.Stats
import Mathlib.Algebra.Order.Field.Basic
import Mathlib.Algebra.BigOperators.Group.List.Basic
/-
Numbers with infinities and NaN, for C90. The arithmetic is the one of IEEE 754 without rounding, without overflow and with one zero, which
counts as positive: all rules which concern infinities and NaN are the ones of the standard.
-/
namespace Dsp

/-- A floating point number: not a number, an infinity, or a number. -/
inductive Wide (T : Type)
  | nan
  | negInf
  | num (x : T)
  | posInf
deriving DecidableEq, Repr

namespace Wide
section
variable {T : Type} [Field T] [LinearOrder T]

/-- An infinity times a number with the sign of `s`; `inf * 0` is not a number. -/
def inf (s : T) : Wide T := if 0 < s then .posInf else if s < 0 then .negInf else .nan

/-- `inf + -inf` is not a number. -/
def add : Wide T → Wide T → Wide T
  | .nan, _ => .nan
  | _, .nan => .nan
  | .posInf, .negInf => .nan
  | .negInf, .posInf => .nan
  | .posInf, _ => .posInf
  | .negInf, _ => .negInf
  | _, .posInf => .posInf
  | _, .negInf => .negInf
  | .num x, .num y => .num (x + y)

def neg : Wide T → Wide T
  | .nan => .nan
  | .posInf => .negInf
  | .negInf => .posInf
  | .num x => .num (-x)

def mul : Wide T → Wide T → Wide T
  | .nan, _ => .nan
  | _, .nan => .nan
  | .posInf, .posInf => .posInf
  | .posInf, .negInf => .negInf
  | .negInf, .posInf => .negInf
  | .negInf, .negInf => .posInf
  | .posInf, .num y => inf y
  | .negInf, .num y => inf (-y)
  | .num x, .posInf => inf x
  | .num x, .negInf => inf (-x)
  | .num x, .num y => .num (x * y)

/-- `0 / 0` and `inf / inf` are not numbers, `x / 0` is an infinity. -/
def div : Wide T → Wide T → Wide T
  | .nan, _ => .nan
  | _, .nan => .nan
  | .num _, .posInf => .num 0
  | .num _, .negInf => .num 0
  | .posInf, .num y => if y < 0 then .negInf else .posInf
  | .negInf, .num y => if y < 0 then .posInf else .negInf
  | .num x, .num y => if y = 0 then inf x else .num (x / y)
  | _, _ => .nan

/-- A comparison with NaN is false. -/
def lt : Wide T → Wide T → Bool
  | .nan, _ => false
  | _, .nan => false
  | .posInf, _ => false
  | _, .negInf => false
  | .negInf, _ => true
  | _, .posInf => true
  | .num x, .num y => decide (x < y)

instance : Add (Wide T) := ⟨add⟩
instance : Neg (Wide T) := ⟨neg⟩
instance : Sub (Wide T) := ⟨fun x y => add x (neg y)⟩
instance : Mul (Wide T) := ⟨mul⟩
instance : Div (Wide T) := ⟨div⟩
instance : Zero (Wide T) := ⟨.num 0⟩
instance : LT (Wide T) := ⟨fun x y => lt x y = true⟩
instance : DecidableLT (Wide T) := fun x y => inferInstanceAs (Decidable (lt x y = true))

end
end Wide

section
variable {T : Type}

/-- The numbers of a list, if all of them are numbers. -/
def Wide.Finite (l : List (Wide T)) (xs : List T) : Prop := l = xs.map .num

/-- NaN occurs, or infinities with different signs. -/
def Wide.Undefined (l : List (Wide T)) : Prop := .nan ∈ l ∨ .posInf ∈ l ∧ .negInf ∈ l

/-- What the sum of a list with special values is. -/
def IsSum [Field T] (l : List (Wide T)) (s : Wide T) : Prop :=
  (Wide.Undefined l → s = .nan) ∧
  (¬ Wide.Undefined l → .posInf ∈ l → s = .posInf) ∧
  (¬ Wide.Undefined l → .negInf ∈ l → s = .negInf) ∧
  ∀ xs, Wide.Finite l xs → s = .num xs.sum

/-- The statistics of `f32`, `f64` numbers: minimum and maximum start with the infinities, statistics.rs:185-196. -/
def wideStatOps [Field T] [LinearOrder T] (sqrt : Wide T → Wide T) : StatOps (Wide T) (Wide T) :=
  ⟨fun x => x, .fin .posInf, .fin .negInf, fun x n => x / .num (n : T), sqrt⟩

/-- `x` is the smallest of the elements of `l` which are not NaN, and stands first at position `i`. -/
def IsFirstLeast [Field T] [LinearOrder T] (l : List (Wide T)) (i : Nat) (x : Wide T) : Prop :=
  l[i]? = some x ∧ x ≠ .nan ∧ (∀ y ∈ l, ¬ y < x) ∧ ∀ (j : Nat) y, j < i → l[j]? = some y → y = .nan ∨ x < y

/-- `x` is the largest of the elements of `l` which are not NaN, and stands first at position `i`. -/
def IsFirstGreatest [Field T] [LinearOrder T] (l : List (Wide T)) (i : Nat) (x : Wide T) : Prop :=
  l[i]? = some x ∧ x ≠ .nan ∧ (∀ y ∈ l, ¬ x < y) ∧ ∀ (j : Nat) y, j < i → l[j]? = some y → y = .nan ∨ y < x

/-- The minimum which the statistics of `l` report: the first smallest element, or infinity with the index zero if no element is below it. -/
def MinimumIs [Field T] [LinearOrder T] (l : List (Wide T)) (m : Ext (Wide T)) (i : Nat) : Prop :=
  ((∃ y ∈ l, y < .posInf) → ∃ x, m = .fin x ∧ IsFirstLeast l i x) ∧
  (¬ (∃ y ∈ l, y < .posInf) → m = .fin .posInf ∧ i = 0)

/-- The maximum which the statistics of `l` report. -/
def MaximumIs [Field T] [LinearOrder T] (l : List (Wide T)) (m : Ext (Wide T)) (i : Nat) : Prop :=
  ((∃ y ∈ l, .negInf < y) → ∃ x, m = .fin x ∧ IsFirstGreatest l i x) ∧
  (¬ (∃ y ∈ l, .negInf < y) → m = .fin .negInf ∧ i = 0)

/-- The statistics of the non-empty data `l`, with the sum `total` and the sum of squares `squares`. -/
structure SpecialReport [Field T] [LinearOrder T] (sqrt : Wide T → Wide T) (l : List (Wide T)) (total squares : Wide T)
    (s : Statistics (Wide T)) : Prop where
  count : s.count = l.length
  sum : s.sum = total
  average : s.average = some (total / .num (l.length : T))
  rms : s.rms = some (sqrt (squares / .num (l.length : T)))
  min : MinimumIs l s.min s.minIndex
  max : MaximumIs l s.max s.maxIndex

end
end Dsp
