import Verif.Model.Fft
import Verif.Model.Elementary
/-
Model of correlation.rs.
-/
namespace Dsp
namespace DspVec
variable {T : Type}

/-- `prepare_argument`, correlation.rs:96-103: `plain_fft`, then `conj` (register type `k`, address `addr`). -/
def prepareArgument [Add T] [Mul T] [Neg T] [One T] [Zero T] [NatCast T] (K : FftKernel T) (k : RegKind)
    (addr : Nat) (st : MultiCoreSettings) (v : DspVec T) (b : Buffer T) (sched : List Nat) :
    Outcome (DspVec T × Buffer T) :=
  match v.plainFft K b with
  | none => .panic
  | some (w, b') => (w.conj k addr st sched).andThen fun u => .finished (u, b')

/-- `prepare_argument_padded`, correlation.rs:105-117: `2 * points - 1` underflows without points, and the
    `expect` panics if `zero_pad_b` reports an error. -/
def prepareArgumentPadded [Add T] [Mul T] [Neg T] [One T] [Zero T] [NatCast T] (K : FftKernel T)
    (k : RegKind) (addr : Nat) (st : MultiCoreSettings) (v : DspVec T) (b : Buffer T) (sched : List Nat) :
    Outcome (DspVec T × Buffer T) :=
  if v.points = 0 then .panic
  else
    match v.zeroPadB b (2 * v.points - 1) .surround with
    | some (w, b', .ok ()) => w.prepareArgument K k addr st b' sched
    | _ => .panic

/-- The part of `correlate` which works on the data of `self` as a complex slice, correlation.rs:151-157:
    `plain_fft`, multiplication with the argument (a slice too, with the sampling distance of the spectrum) and
    `plain_ifft`. `NoTradeBuffer` (vector_types/mod.rs:600-689) lends memory from the borrowed buffer and does not
    exchange storages; as the slices are complex the transforms only borrow scratch memory, thus the buffer itself
    takes its place. -/
def correlateSlices [Add T] [Sub T] [Mul T] [Div T] [Zero T] [One T] [NatCast T] [LT T] [DecidableLT T] [DecidableEq T]
    [DeltaBounds T] (K : FftKernel T) (k : RegKind) (addr : Nat) (data other : List T) (b : Buffer T) :
    Option (List T × VoidResult) := do
  let (spectrum, _) ← (toStaticVec (.sliceMut data) true false).plainFft K b
  let (product, r) ← spectrum.mul k addr { toStaticVec (.slice other) true true with delta := spectrum.delta }
  match r with
  | .error e => some (product.data.cells, .error e)
  | .ok () => do
    let (result, _) ← product.plainIfft K b
    some (result.data.cells, .ok ())

/-- `correlate`, correlation.rs:131-163. `addr` is the address of the data for the multiplication and the
    scaling. The error of both checks is `InputMustBeInTimeDomain`. The `?` after the multiplication
    leaves the spectrum in the vector. -/
def correlate [Add T] [Sub T] [Mul T] [Div T] [Zero T] [One T] [NatCast T] [LT T] [DecidableLT T] [DecidableEq T]
    [DeltaBounds T] (K : FftKernel T) (k : RegKind) (addr : Nat) (st : MultiCoreSettings) (v o : DspVec T)
    (b : Buffer T) (sched : List Nat) : Outcome (DspVec T × Buffer T × VoidResult) :=
  if v.dom ≠ .time ∨ v.isComplex = false then
    .finished (v.transformError, b, .error .inputMustBeInTimeDomain)
  else if o.dom ≠ .frequency ∨ o.isComplex = false then
    .finished (v.transformError, b, .error .inputMustBeInTimeDomain)
  else
    match v.zeroPadB b o.points .surround with
    | none => .panic
    | some (w, b', .error e) => .finished (w, b', .error e)
    | some (w, b', .ok ()) =>
      match w.content, o.content with
      | some data, some other =>
        match correlateSlices K k addr data other b' with
        | none => .panic
        | some (cells, .error e) => .finished (w.withCells (splice w.data.cells 0 cells), b', .error e)
        | some (cells, .ok ()) =>
          ((w.withCells (splice w.data.cells 0 cells)).scale k addr st (1 / ((w.points : Nat) : T)) sched).andThen fun u =>
            match u.swapHalves with
            | none => .panic
            | some x => .finished (x, b', .ok ())
      | _, _ => .panic

end DspVec
end Dsp
