import Verif.Spec.Special
import Verif.Spec.ConvRounding
/-
Infinities and NaN in a convolution (C93). Nothing here mentions the model of the code.
-/
namespace Dsp
variable {T : Type}

/-- An infinity or NaN. -/
def Wide.Special (x : Wide T) : Prop := ∀ t, x ≠ .num t

/-- One of the parts of a complex number is an infinity or NaN. -/
def Cx.Special (x : Cx (Wide T)) : Prop := x.re.Special ∨ x.im.Special

/-- A value of a convolution uses the `m` points from `i + (m - 1) / 2 + 1 - m` to `i + (m - 1) / 2`. The position `j` is none of them, but
    lies in a register with one of them; registers have `s` points, the first one begins at `lp`. -/
def SharesRegister (s lp m i j : Nat) : Prop :=
  lp ≤ j ∧ ¬ (i + (m - 1) / 2 + 1 - m ≤ j ∧ j ≤ i + (m - 1) / 2) ∧
    (i + (m - 1) / 2 + 1 - m - lp) / s ≤ (j - lp) / s ∧ (j - lp) / s ≤ (i + (m - 1) / 2 - lp) / s

/-- Every number of `z` is the sum of the products of the numbers of `x` and `h` which belong to it. -/
def ConvIsSum [Field T] [LinearOrder T] (x h z : List (Wide T)) : Prop :=
  z.length = x.length ∧ ∀ (i : Nat) y, z[i]? = some y → IsSum ((convPairs x h i).map fun p => p.1 * p.2) y

/-- The same for complex numbers, part by part. -/
def ComplexConvIsSum [Field T] [LinearOrder T] (x h z : List (Cx (Wide T))) : Prop :=
  z.length = x.length ∧ ∀ (i : Nat) y, z[i]? = some y →
    IsSum ((convPairs x h i).map fun p => p.1.re * p.2.re - p.1.im * p.2.im) y.re ∧
    IsSum ((convPairs x h i).map fun p => p.1.re * p.2.im + p.1.im * p.2.re) y.im

/-- The value `i` of the convolution lies between the first and last `edge` values, and an infinity or NaN which does not belong to it lies in
    the same register as a point which does. -/
def Contaminated {α : Type} (special : α → Prop) (edge s lp m : Nat) (x : List α) (i : Nat) : Prop :=
  edge ≤ i ∧ i < x.length - edge ∧ ∃ (j : Nat) (a : α), x[j]? = some a ∧ special a ∧ SharesRegister s lp m i j

/-- What a convolution with registers computes: NaN where a special value contaminates the value, and the sum of the products everywhere else. -/
def ConvInRegisters [Field T] [LinearOrder T] (edge s lp : Nat) (x h z : List (Wide T)) : Prop :=
  z.length = x.length ∧ ∀ (i : Nat) y, z[i]? = some y →
    (Contaminated Wide.Special edge s lp h.length x i → y = .nan) ∧
    (¬ Contaminated Wide.Special edge s lp h.length x i → IsSum ((convPairs x h i).map fun p => p.1 * p.2) y)

/-- The same for complex numbers. -/
def ComplexConvInRegisters [Field T] [LinearOrder T] (edge s lp : Nat) (x h z : List (Cx (Wide T))) : Prop :=
  z.length = x.length ∧ ∀ (i : Nat) y, z[i]? = some y →
    (Contaminated Cx.Special edge s lp h.length x i → y = ⟨.nan, .nan⟩) ∧
    (¬ Contaminated Cx.Special edge s lp h.length x i →
      IsSum ((convPairs x h i).map fun p => p.1.re * p.2.re - p.1.im * p.2.im) y.re ∧
      IsSum ((convPairs x h i).map fun p => p.1.re * p.2.im + p.1.im * p.2.re) y.im)

/-- `v'` is `v` with new numbers, for which `R` (real vectors) or `C` (complex vectors) holds together with the old ones and those of `h`. -/
def ConvolvedAs {U : Type} (R : List U → List U → List U → Prop) (C : List (Cx U) → List (Cx U) → List (Cx U) → Prop)
    (v h v' : DspVec U) : Prop :=
  v'.validLen = v.validLen ∧ v'.SameMeta v ∧
  (v.isComplex = false → ∃ x y z, v.content = some x ∧ h.content = some y ∧ v'.content = some z ∧ R x y z) ∧
  (v.isComplex = true → ∃ x y z : List (Cx U), v.content = some (fromComplex x) ∧ h.content = some (fromComplex y) ∧
    v'.content = some (fromComplex z) ∧ C x y z)

end Dsp
