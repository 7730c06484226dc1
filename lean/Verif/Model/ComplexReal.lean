import Verif.Model.Elementary
import Verif.Model.Reorg
import Verif.Model.Stats
/-
Model of vector_types/complex/complex_to_real.rs, complex_ops.rs, real/real_to_complex.rs and of the
helpers in vector_types/mod.rs:394-511.
`norm` (`Complex::norm`, `sqrt` of the registers) and `arg` are parameters of the model.
-/
namespace Dsp
variable {T : Type}

/-- `complex_abs` of the registers: fallback.rs:223-231, 354-359; sse.rs:136-139, 250-255;
    avx.rs:150-153, 323-326: the square root of every lane of `complex_abs_squared` (the unused lanes
    of the fallback types are set to `0`, which is `sqrt 0`). -/
def regComplexAbs [Add T] [Mul T] [Zero T] (sqrt : T → T) (k : RegKind) (r : List T) : List T :=
  (regComplexAbsSquared k r).map sqrt

/-- The loop over the registers of the center: `result.store_half(target, j); j += LEN / 2`,
    vector_types/mod.rs:487-494, complex_to_real.rs:556-562. -/
def storeHalves (k : RegKind) (simdOp : List T → List T) (regs : List (List T)) (target : List T) :
    Option (List T) :=
  forRange 0 regs.length (fun i t => do
    let r ← get regs i
    copyFromSlice t (i * (k.len / 2)) (i * (k.len / 2) + k.len / 2) (regStoreHalf k (simdOp r))) target

/-- The SIMD conversion from complex to real: `simd_complex_to_real_operation`,
    vector_types/mod.rs:470-508, and `simd_complex_into_real_target_operation`,
    complex_to_real.rs:542-572. `src` is the complex data for which the partition is calculated and
    `temp` the target. The operations have complexity `Small`: one worker. -/
def simdComplexToReal (k : RegKind) (addr : Nat) (simdOp : List T → List T) (op : Cx T → T)
    (src temp : List T) : Option (List T) := do
  let p := calcDataAlignmentReqs addr k.len src.length
  let ctr ← p.center src
  let rc ← p.rcenter temp
  let regs ← arrayToRegs (addr + p.left) k.len ctr
  let rc ← storeHalves k simdOp regs rc
  let temp := if p.left = p.len then temp else splice temp (p.left / 2) rc
  let cs ← toComplex? src
  let edges ← p.cedgeIter cs
  let part ← slice temp 0 (p.len / 2)
  let part ← zipEdges (p.left / 2) (p.right / 2) (fun _ c => op c) part edges
  some (splice temp 0 part)

/-- The closure which converts the complex number at position `i` of the source,
    vector_types/mod.rs:419-425, complex_to_real.rs:513-522. -/
def convertPair (op : Cx T → T) (src : List T) (i : Nat) (t : List T) : List T :=
  match src[i]?, src[i + 1]? with
  | some re, some im => t.map fun _ => op ⟨re, im⟩
  | _, _ => t

namespace DspVec

/-- `number_space.to_real(); RealResult::rededicate_from_force(self)`:
    rededicate_and_relations.rs:95-117 (the result types), 206-261, 298-313. -/
def asReal (v : DspVec T) : DspVec T :=
  match v.numberSpace with
  | .realOrComplex _ => { v with numberSpace := .realOrComplex false }.rededicateForce .gen
  | _ => match v.dom with
    | .time => v.rededicateForce .realTime
    | .frequency => v.rededicateForce .realFreq

/-- `number_space.to_complex(); ComplexResult::rededicate_from_force(self)`, also
    `rededicate_with_runtime_data(self, true, self.domain())`:
    rededicate_and_relations.rs:119-141 (the result types), 252-324. -/
def asComplex (v : DspVec T) : DspVec T :=
  match v.numberSpace with
  | .realOrComplex _ => { v with numberSpace := .realOrComplex true }.rededicateForce .gen
  | _ => match v.dom with
    | .time => v.rededicateForce .complexTime
    | .frequency => v.rededicateForce .complexFreq

/-- The loop of `pure_complex_to_real_operation_inplace`, vector_types/mod.rs:443-448: position `i` is
    overwritten while positions `2 * i`, `2 * i + 1` are read. -/
def complexToRealLoop (op : Cx T → T) (n : Nat) (cells : List T) : Option (List T) :=
  forRange 0 n (fun i c => do
    let re ← get c (2 * i)
    let im ← get c (2 * i + 1)
    put c i (op ⟨re, im⟩)) cells

/-- `magnitude`, `magnitude_squared`, `to_real`, `to_imag`, `phase`, complex_to_real.rs:374-405, with
    `pure_complex_to_real_operation_inplace`, vector_types/mod.rs:436-452. `op` is the conversion of
    one complex number. -/
def toRealWith (op : Cx T → T) (v : DspVec T) : Option (DspVec T) :=
  if v.isComplex = false then some v.markInvalid.asReal
  else do
    let cells ← complexToRealLoop op (v.len / 2) v.data.cells
    some { v.withCells cells with validLen := v.validLen / 2 }.asReal

/-- `to_real_b`, `to_imag_b`, `phase_b`, complex_to_real.rs:449-477, with
    `pure_complex_to_real_operation`, vector_types/mod.rs:394-433. -/
def toRealBWith (op : Cx T → T) [Zero T] (st : MultiCoreSettings) (v : DspVec T) (b : Buffer T)
    (sched : List Nat) : Outcome (DspVec T × Buffer T) :=
  if v.isComplex = false then .finished (v.markInvalid.asReal, b)
  else
    match b.borrow (v.len / 2), v.content with
    | some temp, some src =>
      if src.length % 2 ≠ 0 then .panic
      else
        match fromSrcToDest .small st src.length 2 temp 1 (blockLoop 1 2 (convertPair op src)) sched with
        | .panic => .panic
        | .running => .running
        | .finished r =>
          let (b', d) := b.trade r v.data
          .finished ({ v with data := d, validLen := v.len / 2 }.asReal, b')
    | _, _ => .panic

/-- `magnitude_b`, `magnitude_squared_b`, complex_to_real.rs:417-447, with
    `simd_complex_to_real_operation`, vector_types/mod.rs:455-511. -/
def magnitudeBWith [Zero T] (k : RegKind) (addr : Nat) (simdOp : List T → List T) (op : Cx T → T)
    (v : DspVec T) (b : Buffer T) : Option (DspVec T × Buffer T) :=
  if v.isComplex = false then some (v.markInvalid.asReal, b)
  else do
    let temp ← b.borrow (v.len / 2)
    let src ← v.content
    let r ← simdComplexToReal k addr simdOp op src temp
    let (b', d) := b.trade r v.data
    some ({ v with data := d, validLen := v.validLen / 2 }.asReal, b')

/-- `assert_self_complex_and_target_real!`, complex_to_real.rs:576-583, followed by the two `resize`
    of the destination and `set_delta`: complex_to_real.rs:610-613, 500-504. Result: `inl` the destination
    if the check failed, `inr` the prepared destination. -/
def prepareTarget [Zero T] (v dest : DspVec T) : Option (DspVec T ⊕ DspVec T) :=
  if v.isComplex = false || dest.isComplex then
    match dest.resize 0 with
    | (d, .ok ()) => some (.inl d)
    | (_, .error _) => none
  else
    match dest.resize v.len with
    | (_, .error _) => none
    | (d, .ok ()) =>
      match d.resize (v.len / 2) with
      | (_, .error _) => none
      | (d, .ok ()) => some (.inr { d with delta := v.delta })

/-- `get_real`, `get_imag`, `get_phase`, complex_to_real.rs:609-633, 661-672, with
    `pure_complex_into_real_target_operation`, 488-525. -/
def getRealWith [Zero T] (op : Cx T → T) (st : MultiCoreSettings) (v dest : DspVec T)
    (sched : List Nat) : Outcome (DspVec T) :=
  match prepareTarget v dest with
  | none => .panic
  | some (.inl d) => .finished d
  | some (.inr d) =>
    match slice d.data.cells 0 (v.len / 2), v.content with
    | some temp, some src =>
      match fromSrcToDest .small st src.length 2 temp 1 (blockLoop 1 2 (convertPair op src)) sched with
      | .panic => .panic
      | .running => .running
      | .finished r => .finished (d.withCells (splice d.data.cells 0 r))
    | _, _ => .panic

/-- `get_magnitude`, `get_magnitude_squared`, complex_to_real.rs:635-659, with
    `simd_complex_into_real_target_operation`, 528-573: the partition is calculated for the whole
    storage (line 546). -/
def getMagnitudeWith [Zero T] (k : RegKind) (addr : Nat) (simdOp : List T → List T) (op : Cx T → T)
    (v dest : DspVec T) : Option (DspVec T) := do
  match ← prepareTarget v dest with
  | .inl d => some d
  | .inr d =>
    let temp ← slice d.data.cells 0 (v.len / 2)
    let r ← simdComplexToReal k addr simdOp op v.data.cells temp
    some (d.withCells (splice d.data.cells 0 r))

/-- One iteration of the loop of `get_real_imag`, complex_to_real.rs:683-690: number `x.1` at position
    `x.2` of the complex vector. -/
def deinterleaveStep (s : List T × List T) (x : T × Nat) : Option (List T × List T) :=
  if x.2 % 2 = 0 then do
    let re ← put s.1 (x.2 / 2) x.1
    some (re, s.2)
  else do
    let im ← put s.2 (x.2 / 2) x.1
    some (s.1, im)

/-- The loop of `get_real_imag`, complex_to_real.rs:683-690. -/
def deinterleave (data re im : List T) : Option (List T × List T) :=
  (data.zipIdx).foldlM deinterleaveStep (re, im)

/-- `get_real_imag`, complex_to_real.rs:674-691. -/
def getRealImag [Zero T] (v re im : DspVec T) : Option (DspVec T × DspVec T) :=
  if v.isComplex = false || re.isComplex || im.isComplex then
    match re.resize 0, im.resize 0 with
    | (r, .ok ()), (i, .ok ()) => some (r, i)
    | _, _ => none
  else
    match re.resize (v.len / 2), im.resize (v.len / 2) with
    | (re, .ok ()), (im, .ok ()) => do
      let r ← slice re.data.cells 0 (v.len / 2)
      let i ← slice im.data.cells 0 (v.len / 2)
      let data ← v.content
      let (r, i) ← deinterleave data r i
      some (re.withCells (splice re.data.cells 0 r), im.withCells (splice im.data.cells 0 i))
    | _, _ => none

/-- The loop of `set_real_imag`, complex_to_real.rs:737-744. -/
def interleaveInto (data re im : List T) : Option (List T) :=
  forRange 0 data.length (fun i d => do
    if i % 2 = 0 then do
      let x ← get re (i / 2)
      put d i x
    else do
      let x ← get im (i / 2)
      put d i x) data

/-- `set_real_imag`, complex_to_real.rs:726-747, for `Vec` storages (`Resize` is implemented for
    `Vec` only, support_std.rs:242-249). -/
def setRealImag [Zero T] (v re im : DspVec T) : Option (DspVec T × VoidResult) :=
  if re.len ≠ im.len then some (v, .error .invalidArgumentLength)
  else do
    let n := re.len + im.len
    let cells := resizeCells v.data.cells n
    let r ← re.content
    let i ← im.content
    let data ← slice cells 0 n
    let data ← interleaveInto data r i
    some ({ v.withCells data with validLen := n }, .ok ())

/-- The loop of `get_mag_phase`, complex_to_real.rs:705-711; `polar` is `Complex::to_polar`. -/
def polarLoop (polar : Cx T → T × T) (n : Nat) (data mag phase : List T) : Option (List T × List T) :=
  forRange 0 n (fun i (s : List T × List T) => do
    let re ← get data (2 * i)
    let im ← get data (2 * i + 1)
    let m ← put s.1 i (polar ⟨re, im⟩).1
    let p ← put s.2 i (polar ⟨re, im⟩).2
    some (m, p)) (mag, phase)

/-- `get_mag_phase`, complex_to_real.rs:693-712. The loop `while i < data_length` runs
    `⌈data_length / 2⌉` times. -/
def getMagPhase [Zero T] (polar : Cx T → T × T) (v mag phase : DspVec T) :
    Option (DspVec T × DspVec T) :=
  if v.isComplex = false || mag.isComplex || phase.isComplex then
    match mag.resize 0, phase.resize 0 with
    | (m, .ok ()), (p, .ok ()) => some (m, p)
    | _, _ => none
  else
    match mag.resize (v.len / 2), phase.resize (v.len / 2) with
    | (mag, .ok ()), (phase, .ok ()) => do
      let m ← slice mag.data.cells 0 (v.len / 2)
      let p ← slice phase.data.cells 0 (v.len / 2)
      let (m, p) ← polarLoop polar ((v.len + 1) / 2) v.data.cells m p
      some (mag.withCells (splice mag.data.cells 0 m), phase.withCells (splice phase.data.cells 0 p))
    | _, _ => none

/-- The loop of `set_mag_phase`, complex_to_real.rs:761-766; `cart` is `Complex::from_polar`. -/
def cartLoop (cart : T → T → Cx T) (n : Nat) (mag phase data : List T) : Option (List T) :=
  forRange 0 n (fun i d => do
    let m ← get mag i
    let p ← get phase i
    let d ← put d (2 * i) (cart m p).re
    put d (2 * i + 1) (cart m p).im) data

/-- `set_mag_phase`, complex_to_real.rs:749-770. -/
def setMagPhase [Zero T] (cart : T → T → Cx T) (v mag phase : DspVec T) :
    Option (DspVec T × VoidResult) :=
  if mag.len ≠ phase.len then some (v, .error .invalidArgumentLength)
  else do
    let n := mag.len + phase.len
    let cells := resizeCells v.data.cells n
    let m ← mag.content
    let p ← phase.content
    let data ← cartLoop cart ((n + 1) / 2) m p cells
    some ({ v.withCells data with validLen := n }, .ok ())

/-- `to_complex`, real_to_complex.rs:67-87; the vector in the error case is returned as well. -/
def toComplexVec [Zero T] (v : DspVec T) : Option (DspVec T × VoidResult) :=
  if v.isComplex then some (v.asComplex, .error .inputMustBeReal)
  else do
    let (v', r) ← v.zeroInterleave 2
    some (v'.asComplex, r)

/-- `to_complex_b`, real_to_complex.rs:99-111. -/
def toComplexVecB [Zero T] (v : DspVec T) (b : Buffer T) : Option (DspVec T × Buffer T) :=
  if v.isComplex then some (v.markInvalid.asComplex, b)
  else do
    let (v', b') ← v.zeroInterleaveB b 2
    some (v'.asComplex, b')

/-! ### complex_ops.rs -/

/-- `assert_complex!` of complex_ops.rs:65-72: no return, the operation goes on with an empty vector. -/
def assertComplex (v : DspVec T) : DspVec T :=
  if v.isComplex = false then { v.markInvalid with numberSpace := v.numberSpace.toReal } else v

/-- `conj`, complex_ops.rs:107-116. -/
def conj [Add T] [Mul T] [Neg T] [One T] (k : RegKind) (addr : Nat) (st : MultiCoreSettings)
    (v : DspVec T) (sched : List Nat) : Outcome (DspVec T) :=
  match v.assertComplex.content with
  | none => .panic
  | some a => v.assertComplex.mapOutcome (simdComplexOperation addr k.len
      (fun r => regZip (· * ·) r (regFromComplex k ⟨1, -1⟩)) Cx.conj .small st sched a)

/-- The loop of `multiply_complex_exponential`, complex_ops.rs:99-102. -/
def expLoop [Add T] [Sub T] [Mul T] (increment : Cx T) : Cx T → List (Cx T) → List (Cx T)
  | _, [] => []
  | e, c :: cs => c.mul e :: expLoop increment (e.mul increment) cs

/-- `multiply_complex_exponential`, complex_ops.rs:81-105; `cis x` is `Complex::from_polar(1, x)`. The
    complexity is `Small`, hence one worker with `range.start = 0`. For a vector in the real number
    space the sampling distance is `NaN` after `assert_complex!`, the length is zero. Simplification: for
    a non-empty vector with the sampling distance `NaN` the model has no result (the code fills the
    vector with `NaN`). -/
def multiplyComplexExponential [Add T] [Sub T] [Mul T] [Zero T] (cis : T → Cx T) (a b : T)
    (v : DspVec T) : Option (DspVec T) := do
  let v := v.assertComplex
  let data ← v.content
  let cs ← toComplex? data
  match v.delta with
  | none => if cs = [] then some v else none
  | some delta =>
    let a := a * delta
    let b := b * delta
    let e := (cis b).mul (cis (a * 0))
    some (v.withCells (splice v.data.cells 0 (fromComplex (expLoop (cis a) e cs))))

end DspVec
end Dsp
