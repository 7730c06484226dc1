import Verif.Spec.View
import Verif.Model.Complex
/-
Specification of the circular convolution.
-/
namespace Dsp
variable {α : Type}

/-- Specification: element `p` of the periodic continuation of `s`. (`%` is the non-negative
    remainder.) -/
def cyclic (s : List α) (p : Int) : Option α := s[(p % (s.length : Int)).toNat]?

/-- Specification: value `i` of the convolution of the periodic continuation of `x` with the impulse
    response `h`: the sum of `x[i + c - k] * h[k]` over all `k`, in this order, where `c` is the
    index of the center of `h` (`(m - 1) / 2` for `m` values). -/
def convAt [Zero α] [Add α] [Mul α] (x h : List α) (i : Nat) : α :=
  (List.range h.length).foldl
    (fun sum (k : Nat) => sum + (cyclic x ((i : Int) + ((h.length - 1) / 2 : Nat) - k)).getD 0 * h.getD k 0)
    0

/-- Specification: the convolution of `x` with `h`. -/
def circularConv [Zero α] [Add α] [Mul α] (x h : List α) : List α :=
  (List.range x.length).map (convAt x h)

/-- Specification: `v'` is the vector `v` convolved with `h`: same length, same meta data, and the points
    of `v'` are the circular convolution of the points of `v` with those of `h` (numbers for
    real, complex numbers for complex vectors). -/
def IsConvolution {T : Type} [Zero T] [Add T] [Sub T] [Mul T] (v h v' : DspVec T) : Prop :=
  v'.validLen = v.validLen ∧ v'.SameMeta v ∧
  (v.isComplex = false → ∃ x y, v.content = some x ∧ h.content = some y ∧
    v'.content = some (circularConv x y)) ∧
  (v.isComplex = true → ∃ x y : List (Cx T), v.content = some (fromComplex x) ∧
    h.content = some (fromComplex y) ∧ v'.content = some (fromComplex (circularConv x y)))

end Dsp
