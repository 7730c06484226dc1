import Verif.Spec.Conv
import Verif.Spec.Rounding
/-
Convolution with rounded numbers. Nothing here mentions the model of the code.
-/
namespace Dsp

/-- The pairs of numbers whose products are added for value `i` of the convolution: `x[i + c - k]` and `h[k]` for all `k`, where `x` is
    continued periodically and `c = (m - 1) / 2` is the center of the response. -/
def convPairs {α : Type} [Zero α] (x h : List α) (i : Nat) : List (α × α) :=
  (List.range h.length).map fun (k : Nat) =>
    ((cyclic x ((i : Int) + ((h.length - 1) / 2 : Nat) - k)).getD 0, h.getD k 0)

section
variable {R : Rounding}

/-- Every number of `z` is the corresponding number of the convolution of `x` with `h` up to the rounding errors of `d` additions and one
    multiplication, relative to the sum of the absolute values of all products. -/
def ConvWithin (d : Nat) (x h z : List (Fl R)) : Prop :=
  z.length = x.length ∧ ∀ (i : Nat) (y : Fl R), z[i]? = some y →
    |y.val - ((convPairs x h i).map fun p => p.1.val * p.2.val).sum| ≤
      ((1 + R.u) ^ (d + 1) - 1) * ((convPairs x h i).map fun p => |p.1.val * p.2.val|).sum

/-- The same for the real and the imaginary parts of complex numbers; a product of complex numbers is rounded twice. -/
def ComplexConvWithin (d : Nat) (x h z : List (Cx (Fl R))) : Prop :=
  z.length = x.length ∧ ∀ (i : Nat) (y : Cx (Fl R)), z[i]? = some y →
    |y.re.val - ((convPairs x h i).map fun p => p.1.re.val * p.2.re.val - p.1.im.val * p.2.im.val).sum| ≤
      ((1 + R.u) ^ (d + 2) - 1) *
        ((convPairs x h i).map fun p => |p.1.re.val * p.2.re.val| + |p.1.im.val * p.2.im.val|).sum ∧
    |y.im.val - ((convPairs x h i).map fun p => p.1.re.val * p.2.im.val + p.1.im.val * p.2.re.val).sum| ≤
      ((1 + R.u) ^ (d + 2) - 1) *
        ((convPairs x h i).map fun p => |p.1.re.val * p.2.im.val| + |p.1.im.val * p.2.re.val|).sum

/-- `v'` is the vector `v` convolved with `h` up to the rounding errors of `d` additions. -/
def IsConvolutionWithin (d : Nat) (v h v' : DspVec (Fl R)) : Prop :=
  v'.validLen = v.validLen ∧ v'.SameMeta v ∧
  (v.isComplex = false → ∃ x y z, v.content = some x ∧ h.content = some y ∧ v'.content = some z ∧ ConvWithin d x y z) ∧
  (v.isComplex = true → ∃ x y z : List (Cx (Fl R)), v.content = some (fromComplex x) ∧ h.content = some (fromComplex y) ∧
    v'.content = some (fromComplex z) ∧ ComplexConvWithin d x y z)

end
end Dsp
