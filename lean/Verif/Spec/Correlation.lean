import Verif.Spec.Fft
import Verif.Lemmas.Complex
/-
Specification of the cross correlation.
-/
namespace Dsp
variable {T : Type}

/-- Specification: point `i` of a list which is continued with zeros to both sides. -/
def atOrZero [Zero T] (a : List (Cx T)) (i : Int) : Cx T := if 0 ≤ i then a.getD i.toNat 0 else 0

/-- Specification: the cross correlation of two signals, for all lags for which the signals overlap:
    point `r` belongs to the lag `l = r - (n - 1)` and is the sum of `a (k + l) * conj (b k)`. -/
def crossCorrelation [CommRing T] (a b : List (Cx T)) : List (Cx T) :=
  (List.range (2 * b.length - 1)).map fun (r : Nat) =>
    ((List.range b.length).map fun (k : Nat) =>
      atOrZero a ((k : Int) + r - (b.length - 1 : Nat)) * (b.getD k 0).conj).sum

/-- Specification: the circular cross correlation of two lists of the same length. -/
def circularCorrelation [CommRing T] (a b : List (Cx T)) : List (Cx T) :=
  (List.range a.length).map fun (i : Nat) =>
    ((List.range a.length).map fun (k : Nat) => a.getD ((k + i) % a.length) 0 * (b.getD k 0).conj).sum

/-- Specification: the cross correlation theorem: the inverse transform of the product of a spectrum with
    a conjugated spectrum is (`n` times) the circular cross correlation. -/
def FftKernel.Correlates [CommRing T] (K : FftKernel T) : Prop :=
  K.KeepsLength ∧ ∀ a b : List (Cx T), a.length = b.length →
    K.inverse (List.zipWith (· * ·) (K.forward a) ((K.forward b).map Cx.conj)) =
      (circularCorrelation a b).map (Cx.scaleBy (a.length : T))

end Dsp
