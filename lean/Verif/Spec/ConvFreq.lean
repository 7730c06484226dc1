import Verif.Spec.Fft
import Verif.Spec.Conv
import Verif.Model.Conv
/-
Specification of the convolution in frequency domain.
-/
namespace Dsp
variable {T : Type}

/-- Specification: multiplying two spectra of `n` points and transforming the product (divided by
    `n`) back gives the circular convolution of the two signals. -/
def FftKernel.Convolves [Zero T] [Add T] [Sub T] [Mul T] [Div T] [NatCast T] (K : FftKernel T) : Prop :=
  K.KeepsLength ∧ ∀ a b : List (Cx T), a.length = b.length → ∀ i < a.length,
    (K.inverse (List.zipWith (scaledMul (a.length : T)) (K.forward a) (K.forward b)))[i]? =
      some ((List.range a.length).foldl (fun sum (k : Nat) =>
        sum + (cyclic a ((i : Int) - k)).getD 0 * b.getD k 0) 0)

end Dsp
