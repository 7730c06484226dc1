import Verif.Spec.ElementaryRounding
import Verif.Spec.FourierLaws
/-
C95: an FFT library with rounding errors, and the exact transforms. Nothing here mentions the model of the code, except for
`FftKernel`, the interface of the FFT library.
-/
namespace Dsp
variable {R : Rounding}

noncomputable section

/-- The complex number which point `i` of a vector of rounded numbers stands for. -/
def pointValue (cs : List (Cx (Fl R))) (i : Nat) : ℂ := Fl.complex (cs.getD i ⟨0, 0⟩)

/-- The Euclidean norm of `f 0, …, f (n - 1)`. -/
def l2 (n : Nat) (f : Nat → ℂ) : ℝ := Real.sqrt (∑ i ∈ Finset.range n, ‖f i‖ ^ 2)

/-- Frequency `k` of the exact discrete Fourier transform of `f 0, …, f (n - 1)`. -/
def dftAt (n : Nat) (f : Nat → ℂ) (k : ℤ) : ℂ := ∑ m ∈ Finset.range n, f m * turn (-(k * m) / n)

/-- The exact inverse transform of the spectrum `f` with the zero frequency at position `n / 2`: point `i`. -/
def inverseAt (n : Nat) (f : Nat → ℂ) (i : Nat) : ℂ :=
  (1 / n) * ∑ k ∈ Finset.range n, f k * turn ((k - (n / 2 : Nat)) * i / n)

/-- The points `f` after the filter whose frequency response is `H` (zero frequency at position `n / 2`), exactly: every frequency
    multiplied with the response, and transformed back. -/
def exactFilter (n : Nat) (f H : Nat → ℂ) (i : Nat) : ℂ :=
  inverseAt n (fun k => dftAt n f (k - (n / 2 : Nat)) * H k) i

/-- The FFT library computes both transforms with a relative error of at most `e`, in the Euclidean norm. -/
structure FftKernel.Accurate (K : FftKernel (Fl R)) (e : ℝ) : Prop where
  forward_length : ∀ cs, (K.forward cs).length = cs.length
  inverse_length : ∀ cs, (K.inverse cs).length = cs.length
  forward : ∀ cs, l2 cs.length (fun k => pointValue (K.forward cs) k - dftAt cs.length (pointValue cs) k) ≤
    e * l2 cs.length (fun k => dftAt cs.length (pointValue cs) k)
  inverse : ∀ cs, l2 cs.length (fun k => pointValue (K.inverse cs) k - dftAt cs.length (pointValue cs) (-k)) ≤
    e * l2 cs.length (fun k => dftAt cs.length (pointValue cs) (-k))

end
end Dsp
