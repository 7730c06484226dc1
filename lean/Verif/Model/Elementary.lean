import Verif.Model.Vec
import Verif.Model.Registers
import Mathlib.Algebra.Field.Defs
import Mathlib.Order.Defs.LinearOrder
/-
Model of the elementary operations: vector_types/general/elementary.rs.
`addr` is the address of the storage in elements (see Model/Simd.lean), `k` the register type which
was selected at run time. All operations of this file have complexity `Small`: they are executed by
one worker (`determineNumberOfChunks`, C15).
-/
namespace Dsp
variable {T : Type}

/-- `delta_ratio > 1.1 || delta_ratio < 0.9` in `assert_meta_data!`, elementary.rs:370-381.
    `none` is `NaN`: comparisons with `NaN` are false. A division of a non-zero number by zero is
    infinite (rejected), `0 / 0` is `NaN`. -/
def deltaRatioBad [Zero T] [Div T] [LT T] [DecidableLT T] [DecidableEq T] (hi lo : T)
    (a b : Option T) : Bool :=
  match a, b with
  | some a, some b => if b = 0 then !decide (a = 0) else decide (a / b > hi) || decide (a / b < lo)
  | _, _ => false

/-- The limits `T::from(1.1)` and `T::from(0.9)` of the check of the sampling distances, elementary.rs:376-377. -/
class DeltaBounds (T : Type) where
  hi : T
  lo : T

/-- In exact arithmetic. -/
instance [Field T] : DeltaBounds T := ⟨11 / 10, 9 / 10⟩

namespace DspVec

section
variable [Add T] [Sub T] [Mul T] [Div T] [Zero T] [LT T] [DecidableLT T] [DecidableEq T] [DeltaBounds T]

/-- `assert_meta_data!` reports an error, elementary.rs:370-381. -/
def metaMismatch (v o : DspVec T) : Bool :=
  v.isComplex != o.isComplex || v.dom != o.dom || deltaRatioBad DeltaBounds.hi DeltaBounds.lo v.delta o.delta

/-- `impl_binary_vector_operation!`, elementary.rs:383-418. -/
def binaryReal (k : RegKind) (addr : Nat) (f : T → T → T) (v o : DspVec T) :
    Option (DspVec T × VoidResult) :=
  if v.len ≠ o.len then some (v, .error .inputMustHaveTheSameSize)
  else if v.metaMismatch o then some (v, .error .inputMetaDataMustAgree)
  else do
    let a ← v.content
    let b ← o.content
    let r ← simdBinaryReal addr k.len (regZip f) f a b
    some (v.withCells (splice v.data.cells 0 r), .ok ())

/-- `impl_binary_complex_vector_operation!`, elementary.rs:420-455. The edges of the vector are
    taken from its whole storage (`array_to_complex_mut(array)`, line 447), which panics if
    the storage has an odd number of elements. -/
def binaryComplex (k : RegKind) (addr : Nat) (simdOp : List T → List T → List T)
    (f : Cx T → Cx T → Cx T) (v o : DspVec T) : Option (DspVec T × VoidResult) :=
  if v.len ≠ o.len then some (v, .error .inputMustHaveTheSameSize)
  else if v.metaMismatch o then some (v, .error .inputMetaDataMustAgree)
  else do
    let a ← v.content
    let b ← o.content
    let _ ← toComplex? v.data.cells
    let r ← simdBinaryComplex addr k.len simdOp f a b
    some (v.withCells (splice v.data.cells 0 r), .ok ())

/-- `ElementaryOps::add`, elementary.rs:550-552. -/
def add (k : RegKind) (addr : Nat) (v o : DspVec T) := binaryReal k addr (· + ·) v o
/-- `ElementaryOps::sub`, elementary.rs:554-556. -/
def sub (k : RegKind) (addr : Nat) (v o : DspVec T) := binaryReal k addr (· - ·) v o
/-- `ElementaryOps::mul`, elementary.rs:558-572. -/
def mul (k : RegKind) (addr : Nat) (v o : DspVec T) : Option (DspVec T × VoidResult) :=
  if v.len ≠ o.len then some (v, .error .inputMustHaveTheSameSize)
  else if v.metaMismatch o then some (v, .error .inputMetaDataMustAgree)
  else if v.isComplex then binaryComplex k addr (regMulComplex k) Cx.mul v o
  else binaryReal k addr (· * ·) v o
/-- `ElementaryOps::div`, elementary.rs:574-588. -/
def div (k : RegKind) (addr : Nat) (v o : DspVec T) : Option (DspVec T × VoidResult) :=
  if v.len ≠ o.len then some (v, .error .inputMustHaveTheSameSize)
  else if v.metaMismatch o then some (v, .error .inputMetaDataMustAgree)
  else if v.isComplex then binaryComplex k addr (regDivComplex k) Cx.div v o
  else binaryReal k addr (· / ·) v o

/-- The loop `for n in target { *n = op(*n, operand[i % operand.len()]); i += 1; }`,
    elementary.rs:475-478 and 507-510; `% 0` panics. -/
def smallerLoop {α : Type} (f : α → α → α) (operand target : List α) : Option (List α) :=
  forRange 0 target.length (fun i t => do
    if operand.length = 0 then none
    else do
      let x ← get t i
      let y ← get operand (i % operand.length)
      put t i (f x y)) target

/-- `impl_binary_smaller_vector_operation!`, elementary.rs:457-485. -/
def smallerReal (f : T → T → T) (v o : DspVec T) : Option (DspVec T × VoidResult) :=
  if o.len = 0 then none
  else if v.len % o.len ≠ 0 then some (v, .error .invalidArgumentLength)
  else if v.metaMismatch o then some (v, .error .inputMetaDataMustAgree)
  else do
    let a ← v.content
    let b ← o.content
    let r ← smallerLoop f b a
    some (v.withCells (splice v.data.cells 0 r), .ok ())

/-- `impl_binary_smaller_complex_vector_ops!`, elementary.rs:487-517. -/
def smallerComplex (f : Cx T → Cx T → Cx T) (v o : DspVec T) : Option (DspVec T × VoidResult) :=
  if o.len = 0 then none
  else if v.len % o.len ≠ 0 then some (v, .error .invalidArgumentLength)
  else if v.metaMismatch o then some (v, .error .inputMetaDataMustAgree)
  else do
    let a ← v.content
    let b ← o.content
    let a ← toComplex? a
    let b ← toComplex? b
    let r ← smallerLoop f b a
    some (v.withCells (splice v.data.cells 0 (fromComplex r)), .ok ())

/-- `ElementaryWrapAroundOps::add_smaller`, elementary.rs:601-603. -/
def addSmaller (v o : DspVec T) := smallerReal (· + ·) v o
/-- `ElementaryWrapAroundOps::sub_smaller`, elementary.rs:605-607. -/
def subSmaller (v o : DspVec T) := smallerReal (· - ·) v o
/-- `ElementaryWrapAroundOps::mul_smaller`, elementary.rs:609-623. -/
def mulSmaller (v o : DspVec T) : Option (DspVec T × VoidResult) :=
  if o.len = 0 then none
  else if v.len % o.len ≠ 0 then some (v, .error .invalidArgumentLength)
  else if v.metaMismatch o then some (v, .error .inputMetaDataMustAgree)
  else if v.isComplex then smallerComplex Cx.mul v o
  else smallerReal (· * ·) v o
/-- `ElementaryWrapAroundOps::div_smaller`, elementary.rs:625-639. -/
def divSmaller (v o : DspVec T) : Option (DspVec T × VoidResult) :=
  if o.len = 0 then none
  else if v.len % o.len ≠ 0 then some (v, .error .invalidArgumentLength)
  else if v.metaMismatch o then some (v, .error .inputMetaDataMustAgree)
  else if v.isComplex then smallerComplex Cx.div v o
  else smallerReal (· / ·) v o

end

/-- Write back the result of an operation on the valid numbers. -/
def mapOutcome (v : DspVec T) (o : Outcome (List T)) : Outcome (DspVec T) :=
  match o with
  | .panic => .panic
  | .running => .running
  | .finished r => .finished (v.withCells (splice v.data.cells 0 r))

/-- `OffsetOps<Complex<T>>::offset`, elementary.rs:316-324 with `simd_complex_operationf`,
    vector_types/mod.rs:335-354. -/
def offsetComplex [Add T] (k : RegKind) (addr : Nat) (st : MultiCoreSettings) (x : Cx T)
    (v : DspVec T) (sched : List Nat) : Outcome (DspVec T) :=
  if v.isComplex = false then .finished v.markInvalid
  else match v.content with
  | none => .panic
  | some a => v.mapOutcome (simdComplexOperation addr k.len (regAddComplex k x) (fun a => a.add x)
      .small st sched a)

/-- `OffsetOps<T>::offset`, elementary.rs:290-306. -/
def offset [Add T] [Zero T] (k : RegKind) (addr : Nat) (st : MultiCoreSettings) (x : T) (v : DspVec T)
    (sched : List Nat) : Outcome (DspVec T) :=
  match v.content with
  | none => .panic
  | some a =>
    if v.isComplex then
      v.mapOutcome (simdComplexOperation addr k.len (regAddComplex k ⟨x, 0⟩) (fun a => a.add ⟨x, 0⟩)
        .small st sched a)
    else
      v.mapOutcome (simdRealOperation addr k.len (regAddReal k x) (· + x) .small st sched a)

/-- `ScaleOps<T>::scale`, elementary.rs:334-341. -/
def scale [Mul T] (k : RegKind) (addr : Nat) (st : MultiCoreSettings) (x : T) (v : DspVec T)
    (sched : List Nat) : Outcome (DspVec T) :=
  match v.content with
  | none => .panic
  | some a => v.mapOutcome (simdRealOperation addr k.len (regScaleReal k x) (· * x) .small st sched a)

/-- `ScaleOps<Complex<T>>::scale`, elementary.rs:351-359. -/
def scaleComplex [Add T] [Sub T] [Mul T] [Div T] (k : RegKind) (addr : Nat) (st : MultiCoreSettings)
    (x : Cx T) (v : DspVec T) (sched : List Nat) : Outcome (DspVec T) :=
  if v.isComplex = false then .finished v.markInvalid
  else match v.content with
  | none => .panic
  | some a => v.mapOutcome (simdComplexOperation addr k.len (regScaleComplex k x) (fun a => a.mul x)
      .small st sched a)

end DspVec
end Dsp
