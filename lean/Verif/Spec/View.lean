import Verif.Model.Vec
/-
Small specification vocabulary: what a user sees of a vector, and what a well formed vector is.
-/
namespace Dsp
namespace DspVec
variable {T : Type}

/-- A vector is well formed: its length fits into its storage and a complex vector holds an even
    number of values. -/
def WF (v : DspVec T) : Prop :=
  v.validLen ≤ v.data.cells.length ∧ (v.isComplex = true → v.validLen % 2 = 0)

instance (v : DspVec T) : Decidable v.WF := by unfold WF; infer_instance

/-- Numbers per point: 1 for real and 2 for complex vectors. -/
def stride (v : DspVec T) : Nat := if v.isComplex then 2 else 1

/-- The points of a vector as the user sees them: the list of single numbers for a real vector, the
    list of pairs `[re, im]` for a complex vector. `none` if the vector is not well formed. -/
def pts (v : DspVec T) : Option (List (List T)) :=
  if v.validLen ≤ v.data.cells.length then
    if v.isComplex then
      (toComplex? (v.data.cells.take v.validLen)).map (fun l => l.map (fun c => [c.re, c.im]))
    else some ((v.data.cells.take v.validLen).map (fun x => [x]))
  else none

/-- Everything but the numbers and the length is the same. -/
def SameMeta (v w : DspVec T) : Prop :=
  v.delta = w.delta ∧ v.domain = w.domain ∧ v.numberSpace = w.numberSpace ∧
    v.data.kind = w.data.kind

/-- The zero point of the number space of `v`: `[0]` or `[0, 0]`. -/
def zeroPoint [Zero T] (v : DspVec T) : List T := List.replicate v.stride 0

end DspVec

open DspVec
variable {T : Type}

/-- Specification: rotation of a list to the right by `k` places (`k ≤ length`). -/
def rotateRight {α : Type} (l : List α) (k : Nat) : List α :=
  l.drop (l.length - k) ++ l.take (l.length - k)

/-- Specification: rotation of a list to the left by `k` places (`k ≤ length`). -/
def rotateLeft {α : Type} (l : List α) (k : Nat) : List α := l.drop k ++ l.take k

/-- Specification: `v'` is `v` with the list of points mapped by `f`: `f` keeps the number of
    points, everything else (length, meta data, unused cells) is unchanged. -/
def PermutesPoints (f : List (List T) → List (List T)) (v v' : DspVec T) : Prop :=
  (∃ l, v.pts = some l ∧ v'.pts = some (f l)) ∧ v'.validLen = v.validLen ∧ v'.SameMeta v ∧
    v'.data.cells.length = v.data.cells.length ∧
    v'.data.cells.drop v.validLen = v.data.cells.drop v.validLen

/-- A complex vector with three points and two unused cells. -/
def exampleVec : DspVec Int :=
  { data := ⟨.vec, [1, 2, 3, 4, 5, 6, 70, 80]⟩, delta := some 1, domain := .timeOrFreq .time,
    numberSpace := .realOrComplex true, validLen := 6 }

end Dsp
