import Verif.Model.Conv
import Verif.Model.Interp
/-
Model of the convolution with a function: `convolve` in convolution.rs and `convolve_function_priv` in
time_freq/mod.rs. The numbers are exact: `T` is an ordered field with `floor`.
-/
namespace Dsp
variable {T α : Type}

section
variable [Zero α] [Add α] [Mul α] [Field T]

/-- The loop over the iterator, time_freq/mod.rs:202-207. The state is `(sum, j)`. -/
def convFunLoop (ratio : T) (fn : T → α) (s : α × T) : List α → α × T
  | [] => s
  | c :: rest => convFunLoop ratio fn (s.1 + c * fn (-s.2 * ratio), s.2 + 1) rest

/-- The value of cell `i` of the destination, time_freq/mod.rs:199-208; `convLen` is already limited. -/
def convFunAt (ratio : T) (convLen : Nat) (fn : T → α) (data : List α) (i : Nat) : Option α := do
  let it ← wrappingIter data ((i : Int) - convLen - 1) (2 * convLen + 1)
  some (convFunLoop ratio fn (0, -(convLen : T)) it).1

/-- The converted destination of `convolve_function_priv`, time_freq/mod.rs:196-209 (`α` is `T` or `Complex<T>`). -/
def convFunValues (ratio : T) (convLen : Nat) (fn : T → α) (data : List α) : Option (List α) :=
  (List.range data.length).mapM
    (convFunAt ratio (if convLen > data.length then data.length else convLen) fn data)

end

section
variable [Field T] [LinearOrder T] [FloorRing T]

/-- `would_benefit_from_simd`, convolution.rs:104-110. -/
def wouldBenefitFromSimd (vecLen impLen : Nat) (ratio : T) : Prop :=
  impLen ≤ 202 ∧ vecLen > 2000 ∧ |roundAway (1 / ratio) - 1 / ratio| < 1 / 1000000 ∧ ratio > 1 / 2

instance (vecLen impLen : Nat) (ratio : T) : Decidable (wouldBenefitFromSimd vecLen impLen ratio) := by
  unfold wouldBenefitFromSimd; infer_instance

/-- `calc_points`, convolution.rs:116-124 (a number of floats). -/
def calcPoints (impLen : Nat) (ratio : T) (isComplex : Bool) : Option Nat :=
  (toUsize (roundAway |ratio|)).map fun r => (if isComplex then 2 else 1) * (2 * impLen + 1) * r

/-- The loop which fills the impulse response, convolution.rs:165-172: `while i < imp_resp.len()`; `fuel` is at
    least the number of rounds. -/
def fillResponse (fn : T → T) (ratioInv : T) : Nat → Nat → T → List T → List T
  | 0, _, _, cells => cells
  | fuel + 1, i, j, cells =>
    if i < cells.length then fillResponse fn ratioInv fuel (i + 2) (j + 1) (cells.set i (fn (j * ratioInv)))
    else cells

/-- The loop which fills a complex impulse response, convolution.rs:233-240; `data_mut(i)` slices the storage with
    the valid length (vec_impl_and_indexers.rs:333-338) and panics if that is too long or `i` is not smaller. -/
def fillComplexResponse (fn : T → Cx T) (ratioInv : T) (validLen : Nat) : Nat → Nat → T → List T → Option (List T)
  | 0, _, _, cells => some cells
  | fuel + 1, i, j, cells =>
    if i < validLen then
      if cells.length < validLen ∨ validLen ≤ i + 2 then none
      else fillComplexResponse fn ratioInv validLen fuel (i + 3) (j + 1)
        ((cells.set i (fn (j * ratioInv)).re).set (i + 2) (fn (j * ratioInv)).im)
    else some cells

namespace DspVec

/-- `imp_resp`, convolution.rs:156-172, with the storage `InlineVector::of_size(T::zero(), points)`. -/
def impulseResponse (v : DspVec T) (fn : T → T) (ratio : T) (len points : Nat) : DspVec T :=
  { data := ⟨if points ≤ 64 then .inlineStack 64 else .inlineHeap points,
      fillResponse fn (1 / ratio) points 0 (-(len : T)) (List.replicate points 0)⟩
    delta := v.delta
    domain := v.domain
    numberSpace := v.numberSpace
    validLen := points }

/-- `convolve_function_priv` for complex or real vectors, time_freq/mod.rs:174-213. -/
def convolveFunction (v : DspVec T) (b : Buffer T) (ratio : T) (convLen : Nat) (fr : T → T) (fc : T → Cx T) :
    Option (DspVec T × Buffer T) := do
  let _ ← b.borrow v.len
  let data ← v.content
  let r ← (if v.isComplex then do
    let cs ← toComplex? data
    let ys ← convFunValues ratio convLen fc cs
    some (fromComplex ys)
  else convFunValues ratio convLen fr data)
  some ({ v with data := (b.trade r v.data).2 }, (b.trade r v.data).1)

/-- `convolve` with a `RealImpulseResponse`, convolution.rs:136-192. With the feature `std` the largest capacity of
    an `InlineVector` is `usize::MAX`, thus `can_use_simd` is always true. Code for GPUs is not modelled,
    see `convolveSignal`. -/
def convolveReal (K : FftKernel T) (junk : List (Cx T) → List (Cx T)) (k : RegKind) (addr : Nat)
    (st : MultiCoreSettings) (v : DspVec T) (b : Buffer T) (fn : T → T) (ratio : T) (len : Nat) (sched : List Nat) :
    Outcome (DspVec T × Buffer T) :=
  if v.dom ≠ .time then .finished (v.markInvalid, b)
  else
    match calcPoints len ratio v.isComplex with
    | none => .panic
    | some points =>
      if wouldBenefitFromSimd v.len len ratio then
        (v.convolveSignal K junk k addr st (v.impulseResponse fn ratio len points) b sched).andThen fun r =>
          match r with
          | (w, b', .ok ()) => .finished (w, b')
          | (_, _, .error _) => .panic
      else .ofOption (v.convolveFunction b ratio len fn fun x => ⟨fn x, 0⟩)

/-- `convolve` with a `ComplexImpulseResponse`, convolution.rs:205-254. The response has `2 * points` cells, but
    the valid length of `self`. -/
def convolveComplex (K : FftKernel T) (junk : List (Cx T) → List (Cx T)) (k : RegKind) (addr : Nat)
    (st : MultiCoreSettings) (v : DspVec T) (b : Buffer T) (fn : T → Cx T) (ratio : T) (len : Nat) (sched : List Nat) :
    Outcome (DspVec T × Buffer T) :=
  if v.isComplex = false then .finished (v.markInvalid, b)
  else if v.dom ≠ .time then .finished (v.markInvalid, b)
  else
    match calcPoints len ratio v.isComplex with
    | none => .panic
    | some points =>
      if wouldBenefitFromSimd v.len len ratio then
        match fillComplexResponse fn (1 / ratio) v.validLen v.validLen 0 (-(len : T)) (List.replicate (2 * points) 0) with
        | none => .panic
        | some cells =>
          (v.convolveSignal K junk k addr st
            { v with data := ⟨if 2 * points ≤ 64 then .inlineStack 64 else .inlineHeap (2 * points), cells⟩ } b
            sched).andThen fun r =>
            match r with
            | (w, b', .ok ()) => .finished (w, b')
            | (_, _, .error _) => .panic
      else .ofOption (v.convolveFunction b ratio len (fun _ => 0) fn)

end DspVec
end
end Dsp
