import Verif.Model.Fft
import Verif.Spec.View
/-
Specification vocabulary for the transforms.
-/
namespace Dsp
variable {T : Type}

namespace DspVec

/-- Specification: the vector has one of the five vector types of the library: either both number
    space and domain are known at compile time, or both are tracked at run time. -/
def Typed (v : DspVec T) : Prop :=
  (∃ b d, v.numberSpace = .realOrComplex b ∧ v.domain = .timeOrFreq d) ∨
  ((v.numberSpace = .real ∨ v.numberSpace = .complex) ∧ (v.domain = .time ∨ v.domain = .freq))

/-- Specification: the vector tracks number space and domain at run time (`GenDspVec`). -/
def Generic (v : DspVec T) : Prop :=
  ∃ b d, v.numberSpace = .realOrComplex b ∧ v.domain = .timeOrFreq d

/-- Specification: the points of a vector as complex numbers; a real number `x` counts as
    `x + 0j`. -/
def cpoints [Zero T] (v : DspVec T) : Option (List (Cx T)) :=
  v.content.bind (fun c => if v.isComplex then toComplex? c else some (c.map Cx.ofReal))

end DspVec

/-- Specification: both transforms keep the number of points. -/
def FftKernel.KeepsLength (K : FftKernel T) : Prop :=
  (∀ cs, (K.forward cs).length = cs.length) ∧ (∀ cs, (K.inverse cs).length = cs.length)

/-- Specification: `x` times a complex number. -/
def Cx.scaleBy [Mul T] (x : T) (c : Cx T) : Cx T := ⟨x * c.re, x * c.im⟩

/-- Specification: the two transforms are inverse up to the factor `n`, as the unnormalised discrete
    Fourier transform and its inverse are. -/
structure FftKernel.Inverts [Mul T] [NatCast T] (K : FftKernel T) : Prop where
  length : K.KeepsLength
  back : ∀ cs, K.inverse (K.forward cs) = cs.map (Cx.scaleBy (cs.length : T))
  forth : ∀ cs, K.forward (K.inverse cs) = cs.map (Cx.scaleBy (cs.length : T))

/-- Specification: the inverse transform of a multiple is the multiple of the inverse transform. -/
def FftKernel.Homogeneous [Mul T] (K : FftKernel T) : Prop :=
  ∀ x cs, K.inverse (cs.map (Cx.scaleBy x)) = (K.inverse cs).map (Cx.scaleBy x)

/-- Specification: the buffer can lend the scratch memory for `n` points. Only buffers with a fixed
    length can fail to do so. -/
def ScratchOk (K : FftKernel T) (b : Buffer T) (n : Nat) : Prop :=
  match b with
  | .fixedLen mem => 2 * K.scratch n ≤ mem.length
  | _ => True

end Dsp
