import Verif.Spec.Conv
import Verif.Spec.Matrix
/-
Specification of the convolution of a matrix: a system with several inputs and outputs.
-/
namespace Dsp
variable {T α : Type}

/-- Specification: `n` values of an output of a system with the inputs `xs`: the sum over all inputs of the (circular) convolution
    of the input with its impulse response. -/
def mixedConv [AddMonoid α] [Mul α] (xs hs : List (List α)) (n : Nat) : List α :=
  (List.range n).map fun i => ((xs.zip hs).map fun p => convAt p.1 p.2 i).sum

/-- The vectors have the numbers `xs`. -/
def HaveNumbers (vs : List (DspVec T)) (xs : List (List T)) : Prop := List.Forall₂ (fun v x => v.content = some x) vs xs

/-- The vectors have the complex points `xs`. -/
def HavePoints (vs : List (DspVec T)) (xs : List (List (Cx T))) : Prop :=
  List.Forall₂ (fun v x => v.content = some (fromComplex x)) vs xs

/-- A list of impulse responses, one for each row of `m`, which `convolve_signal` handles: all of the same length and, for a real matrix,
    not longer than the rows, for a complex matrix exactly as long as the rows. -/
def ResponsesFit (m : Mat T) (h : List (DspVec T)) : Prop :=
  h.length = m.rows.length ∧
  ((m.isComplex = false ∧ ∃ M ≤ m.rowLen, ∀ v ∈ h, v.WF ∧ v.isComplex = false ∧ v.len = M) ∨
   (m.isComplex = true ∧ ∀ v ∈ h, v.WF ∧ v.isComplex = true ∧ v.len = m.rowLen))

/-- A matrix with at most 64 rows which agree in length and number space. -/
def Rectangular (m : Mat T) : Prop :=
  m.rows.length ≤ 64 ∧ ∀ v ∈ m.rows, v.WF ∧ v.isComplex = m.isComplex ∧ v.len = m.rowLen

end Dsp
