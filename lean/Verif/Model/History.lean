import Verif.Model.Fft
import Verif.Model.RealOps
import Verif.Model.DiffSum
import Verif.Model.Interp
/-
The operations which a user can apply one after the other to one vector, as a data type. Every
operation is one of the modelled functions, see there for the lines in the source.
-/
namespace Dsp
variable {T : Type}

/-- The result of an operation which returned; `none` if it panicked (or has not returned). -/
def Outcome.result {α : Type} : Outcome α → Option α
  | .finished a => some a
  | _ => none

/-- Operations on a vector with all their arguments, among them buffers with arbitrary contents, the
    functions handed to the library, the multicore settings, register types, addresses and schedules. -/
inductive VecOp (T : Type)
  | resize (n : Nat)
  | resizeB (b : Buffer T) (n : Nat)
  | zeroPad (points : Nat) (o : PaddingOption)
  | zeroPadB (b : Buffer T) (points : Nat) (o : PaddingOption)
  | zeroInterleave (f : Nat)
  | zeroInterleaveB (b : Buffer T) (f : Nat)
  | reverse
  | swapHalves
  | fftShift
  | ifftShift
  | diff
  | diffWithStart
  | cumSum
  | decimatei (f delay : Nat)
  | rededicate (ty : DspVec.VecType)
  | toComplex
  | toComplexB (b : Buffer T)
  | complexToReal (op : Cx T → T)
  | complexToRealB (op : Cx T → T) (b : Buffer T) (st : MultiCoreSettings) (sched : List Nat)
  | magnitudeB (k : RegKind) (addr : Nat) (simdOp : List T → List T) (op : Cx T → T) (b : Buffer T)
  | setRealImag (re im : DspVec T)
  | setMagPhase (cart : T → T → Cx T) (mag phase : DspVec T)
  | merge (sources : List (DspVec T))
  | offset (k : RegKind) (addr : Nat) (st : MultiCoreSettings) (x : T) (sched : List Nat)
  | offsetComplex (k : RegKind) (addr : Nat) (st : MultiCoreSettings) (x : Cx T) (sched : List Nat)
  | scale (k : RegKind) (addr : Nat) (st : MultiCoreSettings) (x : T) (sched : List Nat)
  | scaleComplex (k : RegKind) (addr : Nat) (st : MultiCoreSettings) (x : Cx T) (sched : List Nat)
  | mathOp (lib : MathLib T) (op : MathOp T) (st : MultiCoreSettings) (sched : List Nat)
  | sqrt (lib : MathLib T) (k : RegKind) (addr : Nat) (st : MultiCoreSettings) (sched : List Nat)
  | square (k : RegKind) (addr : Nat) (st : MultiCoreSettings) (sched : List Nat)
  | abs (lib : MathLib T) (k : RegKind) (addr : Nat) (st : MultiCoreSettings) (sched : List Nat)
  | conj (k : RegKind) (addr : Nat) (st : MultiCoreSettings) (sched : List Nat)
  | mapInplace (f : T → Nat → T) (st : MultiCoreSettings) (sched : List Nat)
  | mapInplaceComplex (f : Cx T → Nat → Cx T) (st : MultiCoreSettings) (sched : List Nat)
  | applyWindow (w : WindowFunction T) (st : MultiCoreSettings) (sched : List Nat)
  | unapplyWindow (w : WindowFunction T) (st : MultiCoreSettings) (sched : List Nat)
  | plainFft (K : FftKernel T) (b : Buffer T)
  | fft (K : FftKernel T) (b : Buffer T)
  | plainIfft (K : FftKernel T) (b : Buffer T)
  | ifft (K : FftKernel T) (k : RegKind) (addr : Nat) (st : MultiCoreSettings) (b : Buffer T) (sched : List Nat)
  | plainSfft (K : FftKernel T) (b : Buffer T)
  | sfft (K : FftKernel T) (b : Buffer T)
  | mirror (b : Buffer T)
  | plainSifft (tiny : T → Bool) (K : FftKernel T) (st : MultiCoreSettings) (b : Buffer T) (sched : List Nat)

/-- The vector after an operation, whether it reported success or an error; `none` if it panicked. -/
def DspVec.apply [Zero T] [One T] [Add T] [Sub T] [Mul T] [Div T] [Neg T] [NatCast T] (v : DspVec T) :
    VecOp T → Option (DspVec T)
  | .resize n => some (v.resize n).1
  | .resizeB b n => (v.resizeB b n).map (·.1)
  | .zeroPad p o => (v.zeroPad p o).map (·.1)
  | .zeroPadB b p o => (v.zeroPadB b p o).map (·.1)
  | .zeroInterleave f => (v.zeroInterleave f).map (·.1)
  | .zeroInterleaveB b f => (v.zeroInterleaveB b f).map (·.1)
  | .reverse => v.reverse
  | .swapHalves => v.swapHalves
  | .fftShift => v.fftShift
  | .ifftShift => v.ifftShift
  | .diff => v.diff
  | .diffWithStart => v.diffWithStart
  | .cumSum => v.cumSum
  | .decimatei f d => v.decimatei f d
  | .rededicate ty => some (v.rededicate ty)
  | .toComplex => v.toComplexVec.map (·.1)
  | .toComplexB b => (v.toComplexVecB b).map (·.1)
  | .complexToReal op => v.toRealWith op
  | .complexToRealB op b st sched => (v.toRealBWith op st b sched).result.map (·.1)
  | .magnitudeB k addr simdOp op b => (v.magnitudeBWith k addr simdOp op b).map (·.1)
  | .setRealImag re im => (v.setRealImag re im).map (·.1)
  | .setMagPhase cart m p => (v.setMagPhase cart m p).map (·.1)
  | .merge sources => (v.merge sources).map (·.1)
  | .offset k addr st x sched => (v.offset k addr st x sched).result
  | .offsetComplex k addr st x sched => (v.offsetComplex k addr st x sched).result
  | .scale k addr st x sched => (v.scale k addr st x sched).result
  | .scaleComplex k addr st x sched => (v.scaleComplex k addr st x sched).result
  | .mathOp lib op st sched => (v.mathOp lib op st sched).result
  | .sqrt lib k addr st sched => (v.sqrt lib k addr st sched).result
  | .square k addr st sched => (v.square k addr st sched).result
  | .abs lib k addr st sched => (v.abs lib k addr st sched).result
  | .conj k addr st sched => (v.conj k addr st sched).result
  | .mapInplace f st sched => (v.mapInplace st f sched).result
  | .mapInplaceComplex f st sched => (v.mapInplaceComplex st f sched).result
  | .applyWindow w st sched => (v.applyWindow st w sched).result
  | .unapplyWindow w st sched => (v.unapplyWindow st w sched).result
  | .plainFft K b => (v.plainFft K b).map (·.1)
  | .fft K b => (v.fft K b).map (·.1)
  | .plainIfft K b => (v.plainIfft K b).map (·.1)
  | .ifft K k addr st b sched => (v.ifft K k addr st b sched).result.map (·.1)
  | .plainSfft K b => (v.plainSfft K b).map (·.1)
  | .sfft K b => (v.sfft K b).map (·.1)
  | .mirror b => (v.mirror b).map (·.1)
  | .plainSifft tiny K st b sched => (v.plainSifft tiny K st b sched).result.map (·.1)

/-- The vector after a sequence of operations; `none` as soon as one panics. -/
def DspVec.applyAll [Zero T] [One T] [Add T] [Sub T] [Mul T] [Div T] [Neg T] [NatCast T] :
    DspVec T → List (VecOp T) → Option (DspVec T)
  | v, [] => some v
  | v, op :: ops => (v.apply op).bind fun w => w.applyAll ops

/-- The operation with another schedule of its workers. -/
def VecOp.withSchedule (op : VecOp T) (sched : List Nat) : VecOp T :=
  match op with
  | .complexToRealB op b st _ => .complexToRealB op b st sched
  | .offset k addr st x _ => .offset k addr st x sched
  | .offsetComplex k addr st x _ => .offsetComplex k addr st x sched
  | .scale k addr st x _ => .scale k addr st x sched
  | .scaleComplex k addr st x _ => .scaleComplex k addr st x sched
  | .mathOp lib op st _ => .mathOp lib op st sched
  | .sqrt lib k addr st _ => .sqrt lib k addr st sched
  | .square k addr st _ => .square k addr st sched
  | .abs lib k addr st _ => .abs lib k addr st sched
  | .conj k addr st _ => .conj k addr st sched
  | .mapInplace f st _ => .mapInplace f st sched
  | .mapInplaceComplex f st _ => .mapInplaceComplex f st sched
  | .applyWindow w st _ => .applyWindow w st sched
  | .unapplyWindow w st _ => .unapplyWindow w st sched
  | .ifft K k addr st b _ => .ifft K k addr st b sched
  | .plainSifft tiny K st b _ => .plainSifft tiny K st b sched
  | op => op

/-- The vector in the outcome of an operation which returns a buffer (and a result) as well. -/
def Outcome.vec {α β : Type} : Outcome (α × β) → Outcome α
  | .panic => .panic
  | .running => .running
  | .finished r => .finished r.1

/-- The outcome of an operation: a panic, workers which have not yet terminated, or the vector. For
    operations with workers this distinguishes the two cases in which `apply` gives no result. -/
def DspVec.exec [Zero T] [One T] [Add T] [Sub T] [Mul T] [Div T] [Neg T] [NatCast T] (v : DspVec T)
    (op : VecOp T) : Outcome (DspVec T) :=
  match op with
  | .complexToRealB op b st sched => (v.toRealBWith op st b sched).vec
  | .offset k addr st x sched => v.offset k addr st x sched
  | .offsetComplex k addr st x sched => v.offsetComplex k addr st x sched
  | .scale k addr st x sched => v.scale k addr st x sched
  | .scaleComplex k addr st x sched => v.scaleComplex k addr st x sched
  | .mathOp lib op st sched => v.mathOp lib op st sched
  | .sqrt lib k addr st sched => v.sqrt lib k addr st sched
  | .square k addr st sched => v.square k addr st sched
  | .abs lib k addr st sched => v.abs lib k addr st sched
  | .conj k addr st sched => v.conj k addr st sched
  | .mapInplace f st sched => v.mapInplace st f sched
  | .mapInplaceComplex f st sched => v.mapInplaceComplex st f sched
  | .applyWindow w st sched => v.applyWindow st w sched
  | .unapplyWindow w st sched => v.unapplyWindow st w sched
  | .ifft K k addr st b sched => (v.ifft K k addr st b sched).vec
  | .plainSifft tiny K st b sched => (v.plainSifft tiny K st b sched).vec
  | op => .ofOption (v.apply op)

/-- The outcome of a sequence of operations. -/
def DspVec.execAll [Zero T] [One T] [Add T] [Sub T] [Mul T] [Div T] [Neg T] [NatCast T] :
    DspVec T → List (VecOp T) → Outcome (DspVec T)
  | v, [] => .finished v
  | v, op :: ops => (v.exec op).andThen fun w => w.execAll ops

end Dsp
