import Verif.Model.Stats
import Mathlib.Algebra.BigOperators.Group.List.Basic
import Mathlib.Order.Defs.LinearOrder
/-
Specification of statistics.
-/
namespace Dsp
variable {E K : Type}

/-- `m` is the first smallest element of `l` (with respect to `norm`) and stands at position `i`. -/
def IsFirstMin [LinearOrder K] (norm : E → K) (l : List E) (i : Nat) (m : E) : Prop :=
  l[i]? = some m ∧ (∀ x ∈ l, norm m ≤ norm x) ∧ ∀ j x, j < i → l[j]? = some x → norm m < norm x

/-- `m` is the first largest element of `l` and stands at position `i`. -/
def IsFirstMax [LinearOrder K] (norm : E → K) (l : List E) (i : Nat) (m : E) : Prop :=
  l[i]? = some m ∧ (∀ x ∈ l, norm x ≤ norm m) ∧ ∀ j x, j < i → l[j]? = some x → norm x < norm m

/-- `s` is the statistics of the non-empty data `l`. -/
structure Describes [AddCommMonoid E] [Mul E] [LinearOrder K] (ops : StatOps E K) (l : List E)
    (s : Statistics E) : Prop where
  count : s.count = l.length
  sum : s.sum = l.sum
  average : s.average = some (ops.divN l.sum l.length)
  rms : s.rms = some (ops.sqrt (ops.divN (l.map fun x => x * x).sum l.length))
  min : ∃ m, s.min = .fin m ∧ IsFirstMin ops.norm l s.minIndex m
  max : ∃ m, s.max = .fin m ∧ IsFirstMax ops.norm l s.maxIndex m

/-- What the statistics of the non-empty data `l` say about it without any computation: how many numbers there are, and the smallest and
    the largest number with their positions. -/
structure Extremes [LinearOrder K] (ops : StatOps E K) (l : List E) (s : Statistics E) : Prop where
  count : s.count = l.length
  min : ∃ m, s.min = .fin m ∧ IsFirstMin ops.norm l s.minIndex m
  max : ∃ m, s.max = .fin m ∧ IsFirstMax ops.norm l s.maxIndex m

/-- Where the first element stands which satisfies `p`, and this element; no number if there is none. -/
def firstWith (p : E → Bool) (l : List E) : Nat × Ext E := (l.findIdx p, (l[l.findIdx p]?).elim .nan .fin)

/-- The statistics of the data `l`: numbers are compared by `norm`, `divN` divides by a natural number. Without data there are no average,
    no mean square, no minimum and no maximum. -/
def summary [AddCommMonoid E] [Mul E] [LinearOrder K] (norm : E → K) (divN : E → Nat → E) (sqrt : E → E) (l : List E) : Statistics E where
  sum := l.sum
  count := l.length
  average := if l = [] then none else some (divN l.sum l.length)
  rms := if l = [] then none else some (sqrt (divN (l.map fun x => x * x).sum l.length))
  min := (firstWith (fun x => l.all fun y => decide (norm x ≤ norm y)) l).2
  minIndex := (firstWith (fun x => l.all fun y => decide (norm x ≤ norm y)) l).1
  max := (firstWith (fun x => l.all fun y => decide (norm y ≤ norm x)) l).2
  maxIndex := (firstWith (fun x => l.all fun y => decide (norm y ≤ norm x)) l).1

/-- `x_0`, `x_1`, ... combined from left to right; an empty list has no aggregate. -/
def leftFold {R : Type} (agg : R → R → R) : List R → Except ErrorReason R
  | [] => .error .inputMustNotBeEmpty
  | x :: xs => .ok (xs.foldl agg x)

/-- The initial minimum is larger than all numbers. The initial maximum is smaller than all numbers, or it is a number of which the norm is smaller
    than the norm of all other numbers (zero for complex numbers). -/
def InitOk [LinearOrder K] (ops : StatOps E K) : Prop :=
  ops.initMin = .posInf ∧ (ops.initMax = .negInf ∨
    ∃ z, ops.initMax = .fin z ∧ ∀ x, ops.norm z ≤ ops.norm x ∧ (ops.norm x = ops.norm z → x = z))

/-- `s` consists of the elements `i`, `i + k`, `i + 2k`, ... of `l`. -/
def IsEveryKth (k i : Nat) (l s : List E) : Prop := ∀ q, s[q]? = l[i + q * k]?

end Dsp
