import Verif.Spec.Special
/-
The statistics of complex numbers with infinities and NaN, for C90.
-/
namespace Dsp
variable {T : Type} [Field T] [LinearOrder T]

/-- `hypot` of IEEE 754 with the square root `root` of numbers: an infinite part makes it infinite, even if the other one is not a number. -/
def Wide.hypot (root : T → T) (x : Cx (Wide T)) : Wide T :=
  match x.re, x.im with
  | .posInf, _ => .posInf
  | .negInf, _ => .posInf
  | _, .posInf => .posInf
  | _, .negInf => .posInf
  | .nan, _ => .nan
  | _, .nan => .nan
  | .num a, .num b => .num (root (a * a + b * b))

/-- The statistics of complex floats: the minimum starts with `inf + inf i`, the maximum with zero, statistics.rs:270-282. -/
def wideComplexOps (norm : Cx (Wide T) → Wide T) (sqrt : Cx (Wide T) → Cx (Wide T)) : StatOps (Cx (Wide T)) (Wide T) :=
  ⟨norm, .fin ⟨.posInf, .posInf⟩, .fin ⟨.num 0, .num 0⟩, fun x n => ⟨x.re / .num (n : T), x.im / .num (n : T)⟩, sqrt⟩

/-- The minimum which the statistics of `cs` report: the first element whose norm is the least of all norms which are not NaN, or
    `inf + inf i` with the index zero if no norm is below infinity. -/
def ComplexMinimumIs (norm : Cx (Wide T) → Wide T) (cs : List (Cx (Wide T))) (m : Ext (Cx (Wide T))) (i : Nat) : Prop :=
  ((∃ c ∈ cs, norm c < .posInf) → ∃ c, m = .fin c ∧ cs[i]? = some c ∧ IsFirstLeast (cs.map norm) i (norm c)) ∧
  (¬ (∃ c ∈ cs, norm c < .posInf) → m = .fin ⟨.posInf, .posInf⟩ ∧ i = 0)

/-- The maximum: the first element with the greatest norm, or zero with the index zero if no norm is above zero. -/
def ComplexMaximumIs (norm : Cx (Wide T) → Wide T) (cs : List (Cx (Wide T))) (m : Ext (Cx (Wide T))) (i : Nat) : Prop :=
  ((∃ c ∈ cs, .num 0 < norm c) → ∃ c, m = .fin c ∧ cs[i]? = some c ∧ IsFirstGreatest (cs.map norm) i (norm c)) ∧
  (¬ (∃ c ∈ cs, .num 0 < norm c) → m = .fin ⟨.num 0, .num 0⟩ ∧ i = 0)

/-- The statistics of the non-empty complex data `cs`, with the sum `total` and the sum of squares `squares`. -/
structure ComplexSpecialReport (norm : Cx (Wide T) → Wide T) (sqrt : Cx (Wide T) → Cx (Wide T)) (cs : List (Cx (Wide T)))
    (total squares : Cx (Wide T)) (s : Statistics (Cx (Wide T))) : Prop where
  count : s.count = cs.length
  sum : s.sum = total
  average : s.average = some ⟨total.re / .num (cs.length : T), total.im / .num (cs.length : T)⟩
  rms : s.rms = some (sqrt ⟨squares.re / .num (cs.length : T), squares.im / .num (cs.length : T)⟩)
  min : ComplexMinimumIs norm cs s.min s.minIndex
  max : ComplexMaximumIs norm cs s.max s.maxIndex

end Dsp
