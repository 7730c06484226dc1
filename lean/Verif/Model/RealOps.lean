import Verif.Model.Elementary
import Verif.Model.ComplexReal
import Mathlib.Algebra.Order.Floor.Defs
/-
Model of point wise functions (vector_types/mod.rs pure_real_operation, pure_complex_operation,
general/trigonometry_and_powers.rs) and of the operations on real numbers (real/real_ops.rs).
-/
namespace Dsp
variable {T : Type}

/-- The mathematical functions of the number type (`num_traits::Float`, `num_complex`) which the
    trigonometric and power operations use; they are parameters of the model.
    trigonometry_and_powers.rs:194-378. -/
inductive MathOp (T : Type)
  | sin | cos | tan | asin | acos | atan | sinh | cosh | tanh | asinh | acosh | atanh
  | ln | exp | powf (exponent : T) | log (base : T) | expf (base : T)
deriving DecidableEq, Repr

/-- The functions on real and on complex numbers. -/
structure MathLib (T : Type) where
  real : MathOp T → T → T
  cx : MathOp T → Cx T → Cx T
  sqrt : T → T
  sqrtCx : Cx T → Cx T
  abs : T → T

namespace DspVec

/-- `pure_real_operation`, vector_types/mod.rs:233-254. `&mut array[0..len]` panics if the storage is
    too short. -/
def pureReal (c : Complexity) (f : T → T) (st : MultiCoreSettings) (v : DspVec T) (sched : List Nat) :
    Outcome (DspVec T) :=
  match v.content with
  | none => .panic
  | some a => v.mapOutcome (executeWithRange c st a 1 (blockLoop 1 1 (fun _ b => b.map f)) sched)

/-- `pure_complex_operation`, vector_types/mod.rs:258-281. `array_to_complex_mut` panics in a worker
    whose chunk has an odd number of elements; chunks are even (step size 2) if the length
    is. -/
def pureComplex (c : Complexity) (f : Cx T → Cx T) (st : MultiCoreSettings) (v : DspVec T)
    (sched : List Nat) : Outcome (DspVec T) :=
  match v.content with
  | none => .panic
  | some a =>
    if a.length % 2 ≠ 0 then .panic
    else v.mapOutcome (executeWithRange c st a 2 (blockLoop 2 2 (fun _ b => mapPair f b)) sched)

/-- All methods of `TrigOps` and the methods `ln`, `exp`, `powf`, `log`, `expf` of `PowerOps`:
    trigonometry_and_powers.rs:204-298 and 338-376; all have complexity `Medium`. -/
def mathOp (lib : MathLib T) (op : MathOp T) (st : MultiCoreSettings) (v : DspVec T) (sched : List Nat) :
    Outcome (DspVec T) :=
  if v.isComplex then v.pureComplex .medium (lib.cx op) st sched
  else v.pureReal .medium (lib.real op) st sched

/-- `PowerOps::root`, trigonometry_and_powers.rs:334-336. -/
def root [One T] [Div T] (lib : MathLib T) (degree : T) (st : MultiCoreSettings) (v : DspVec T)
    (sched : List Nat) : Outcome (DspVec T) :=
  v.mathOp lib (.powf (1 / degree)) st sched

/-- `PowerOps::sqrt`, trigonometry_and_powers.rs:308-319. -/
def sqrt (lib : MathLib T) (k : RegKind) (addr : Nat) (st : MultiCoreSettings) (v : DspVec T)
    (sched : List Nat) : Outcome (DspVec T) :=
  if v.isComplex then v.pureComplex .small lib.sqrtCx st sched
  else match v.content with
  | none => .panic
  | some a =>
    v.mapOutcome (simdRealOperation addr k.len (fun r => r.map lib.sqrt) lib.sqrt .small st sched a)

/-- `PowerOps::square`, trigonometry_and_powers.rs:321-332. -/
def square [Add T] [Sub T] [Mul T] (k : RegKind) (addr : Nat) (st : MultiCoreSettings) (v : DspVec T)
    (sched : List Nat) : Outcome (DspVec T) :=
  if v.isComplex then v.pureComplex .small (fun x => x * x) st sched
  else match v.content with
  | none => .panic
  | some a =>
    v.mapOutcome (simdRealOperation addr k.len (fun r => r.map (fun x => x * x)) (fun x => x * x)
      .small st sched a)

/-- `RealOps::abs`, real_ops.rs:243-251: registers compute `sqrt(x * x)`. -/
def abs [Mul T] (lib : MathLib T) (k : RegKind) (addr : Nat) (st : MultiCoreSettings) (v : DspVec T)
    (sched : List Nat) : Outcome (DspVec T) :=
  if v.isComplex then .finished v.markInvalid
  else match v.content with
  | none => .panic
  | some a =>
    v.mapOutcome (simdRealOperation addr k.len (fun r => r.map (fun x => lib.sqrt (x * x))) lib.abs
      .small st sched a)

end DspVec

/-- The operator `%` on floating point numbers: remainder of the division which is rounded towards
    zero. -/
def remTrunc [Field T] [LinearOrder T] [FloorRing T] (x y : T) : T :=
  x - y * (if 0 ≤ x / y then ((⌊x / y⌋ : Int) : T) else ((⌈x / y⌉ : Int) : T))

namespace DspVec
section
variable [Field T] [LinearOrder T] [FloorRing T]

/-- `ModuloOps::wrap`, real_ops.rs:261-264. -/
def wrap (divisor : T) (st : MultiCoreSettings) (v : DspVec T) (sched : List Nat) : Outcome (DspVec T) :=
  if v.isComplex then .finished v.markInvalid
  else v.pureReal .small (fun x => remTrunc x divisor) st sched

/-- The corrected element `data[j]` for the already unwrapped element `data[i]`, `j = i + 1`,
    real_ops.rs:274-283. -/
def unwrapStep (divisor prev cur : T) : T :=
  let diff := cur - prev
  if diff > divisor / 2 then prev + (remTrunc diff divisor - divisor)
  else if diff < -(divisor / 2) then prev + (remTrunc diff divisor + divisor)
  else cur

/-- `ModuloOps::unwrap`, real_ops.rs:266-288. The loop reads and writes the storage by index. -/
def unwrap (divisor : T) (v : DspVec T) : Option (DspVec T) :=
  if v.isComplex then some v.markInvalid
  else do
    let cells ← forRange 1 (v.len - 1) (fun j data => do
      let cur ← get data j
      let prev ← get data (j - 1)
      put data j (unwrapStep divisor prev cur)) v.data.cells
    some (v.withCells cells)
end

end DspVec
end Dsp
