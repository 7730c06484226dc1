import Verif.Spec.Conv
import Verif.Model.Gpu
/-
Specification for the convolution on a GPU.
-/
namespace Dsp

/-- Specification: for a vector with `n` and a response with `m` numbers: the length of the response,
    rounded up to whole registers of the GPU, and one more register. The first `gpuMargin` numbers
    are computed by the CPU. -/
def gpuMargin (g : GpuType) (m : Nat) : Nat := (m + g.vecLen - 1) / g.vecLen * g.vecLen + g.vecLen

/-- Specification: the part of the vector which is made of whole registers. -/
def gpuWhole (g : GpuType) (n : Nat) : Nat := n / g.vecLen * g.vecLen

/-- Specification: a GPU executes all work items, but in any order. -/
def AnyOrder (schedule : List Nat → List Nat) : Prop := ∀ l, (schedule l).Perm l

/-- Specification: the contents of a new result buffer: `gpuWhole / vecLen - 1` registers with unknown
    contents. -/
def FreshBuffer {T : Type} (g : GpuType) (n : Nat) (res : List (List T)) : Prop :=
  res.length = n / g.vecLen - 1 ∧ ∀ r ∈ res, r.length = g.vecLen

end Dsp
