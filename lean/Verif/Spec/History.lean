import Verif.Model.History
import Verif.Spec.View
/-
Specification vocabulary for C01: which operations are excluded in which state. Every exclusion is
necessary, see the theorems `C01_*_violated`.
-/
namespace Dsp
variable {T : Type}

/-- The buffer which is handed to an operation. -/
def VecOp.buffer : VecOp T → Option (Buffer T)
  | .resizeB b _ | .zeroPadB b _ _ | .zeroInterleaveB b _ | .toComplexB b | .complexToRealB _ b _ _
  | .magnitudeB _ _ _ _ b | .plainFft _ b | .fft _ b | .plainIfft _ b | .ifft _ _ _ _ b _
  | .plainSfft _ b | .sfft _ b | .mirror b | .plainSifft _ _ _ b _ => some b
  | _ => none

/-- A storage can hold `n` numbers, possibly after it has grown. -/
def Storage.canHold (s : Storage T) (n : Nat) : Bool :=
  decide (n ≤ s.cells.length) ||
    match s.kind with
    | .vec => true
    | .arrayVec cap | .inlineHeap cap => decide (n ≤ cap)
    | _ => false

/-- The cases in which the library keeps a vector well formed:
    * a buffer of fixed length is only used if the result fits into the present storage,
    * a real vector with an odd length is not re-dedicated to a complex type of the same domain,
    * `to_complex` on a real vector with an odd length needs a storage which can hold the result,
    * `plain_sifft` is used on vectors with a static type. -/
def DspVec.Admits [Zero T] [One T] [Add T] [Sub T] [Mul T] [Div T] [Neg T] [NatCast T] (v : DspVec T)
    (op : VecOp T) : Prop :=
  (∀ mem, op.buffer = some (.fixedLen mem) → ∀ w, v.apply op = some w → w.len ≤ v.allocLen) ∧
  match op with
  | .rededicate ty => v.isComplex = false → v.len % 2 = 1 →
      ¬ (ty = .complexTime ∧ v.dom = .time) ∧ ¬ (ty = .complexFreq ∧ v.dom = .frequency)
  | .toComplex => v.isComplex = false → v.len % 2 = 1 → v.data.canHold (2 * v.len) = true
  | .plainSifft .. => ∀ c, v.numberSpace ≠ .realOrComplex c
  | _ => True

/-- Every operation of a history is admissible in the state in which it is executed. -/
def DspVec.AdmitsAll [Zero T] [One T] [Add T] [Sub T] [Mul T] [Div T] [Neg T] [NatCast T] :
    DspVec T → List (VecOp T) → Prop
  | _, [] => True
  | v, op :: ops => v.Admits op ∧ ∀ w, v.apply op = some w → w.AdmitsAll ops

end Dsp
