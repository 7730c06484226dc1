import Verif.Spec.View
/-
Specification of the conversions between complex and real vectors.
-/
namespace Dsp
variable {T : Type}

/-- Specification: `w` is a real vector with exactly the numbers `c`, in the domain and with the
    sampling distance of `v`. -/
def RealVersion (v w : DspVec T) (c : List T) : Prop :=
  w.content = some c ∧ w.len = c.length ∧ w.isComplex = false ∧ w.dom = v.dom ∧ w.delta = v.delta

/-- Specification: `w` is a complex vector with exactly the points `cs`, in the domain and with the
    sampling distance of `v`. -/
def ComplexVersion (v w : DspVec T) (cs : List (Cx T)) : Prop :=
  w.content = some (fromComplex cs) ∧ w.len = 2 * cs.length ∧ w.isComplex = true ∧ w.dom = v.dom ∧
    w.delta = v.delta

end Dsp
