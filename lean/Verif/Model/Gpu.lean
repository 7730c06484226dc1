import Verif.Model.Conv
/-
Model of the convolution on a GPU (feature `use_gpu`): gpu_support/ocl/mod.rs, the OpenCL kernels in
ocl_kernels32.rs and ocl_kernels64.rs, and the branch of `convolve_signal` which uses them.

The GPU executes a kernel once per work item; the order in which the work items are executed and the
contents of the result buffer before the first write are not known, both are parameters. Arithmetic
is the one of `T`: `mad(a, b, c)` is `a * b + c`. The text of the kernels is assumed to be compiled
(the code passes it to `src_file`, which expects the path of a file).
`is_f64` in the code is the comparison of `size_of::<T>()` with 8.
-/
namespace Dsp

/-- The number types with GPU support: `f32` and `f64`, gpu_support/ocl/mod.rs:148. -/
inductive GpuType | f32 | f64
deriving DecidableEq, Repr

/-- `vec_len`, gpu_support/ocl/mod.rs:149: numbers per vector register of the GPU. -/
def GpuType.vecLen : GpuType → Nat
  | .f32 => 4
  | .f64 => 2

/-- `n as f32` for an `n: usize`: rounded to 24 significant bits, ties to even. -/
def natToF32 (n : Nat) : Nat :=
  if n < 2 ^ 24 then n
  else
    let k := n.log2 - 23
    let q := n / 2 ^ k
    let r := n % 2 ^ k
    (if r > 2 ^ (k - 1) ∨ (r = 2 ^ (k - 1) ∧ q % 2 = 1) then q + 1 else q) * 2 ^ k

/-- `conv_size_padded`, gpu_support/ocl/mod.rs:153-154. The division by `vec_len` (a power of
    two) and `ceil` are exact in `f32`. -/
def convSizePadded (w m : Nat) : Nat := ceilDiv (natToF32 m) w * w + w

/-- `phase`, gpu_support/ocl/mod.rs:161-164. -/
def gpuPhase (w m : Nat) : Nat :=
  match m % (2 * w) with
  | 0 => 0
  | x => w - x / 2

/-- `prepare_impulse_response`, gpu_support/ocl/mod.rs:118-133. -/
def prepareImpulseResponse {α : Type} (impResp destination : List α) (vecLen : Nat) : Option (List α) :=
  (impResp.reverse.zipIdx).foldlM (init := destination) fun dest nj =>
    forRange 0 vecLen (fun i dest =>
      let p := nj.2 + i
      let tuplePos := p % vecLen
      let tuple := ((p - tuplePos) + i) * vecLen
      put dest (tuple + tuplePos) nj.1) dest

section
variable {T : Type} [Zero T] [Add T] [Sub T] [Mul T]

/-- The arithmetic of one kernel: the number of sums, the product of two vectors and the numbers of the
    result which are computed from one sum. -/
structure GpuKernel (T : Type) where
  sums : Nat
  mul : List T → List T → List T
  out : List T → List T

/-- `mulc32`, ocl_kernels32.rs:2. -/
def mulc32 : List T → List T → List T
  | [ax, ay, az, aw], [bx, byy, bz, bw] =>
    [ax * bx - ay * byy, ay * bx + ax * byy, aw * bw - az * bz, az * bw + aw * bz]
  | _, _ => []

/-- `mulc64`, ocl_kernels64.rs:3. -/
def mulc64 : List T → List T → List T
  | [ax, ay], [bx, byy] => [ax * bx - ay * byy, ay * bx + ax * byy]
  | _, _ => []

/-- `sum.x+sum.y+sum.z+sum.w` or `sum.x+sum.y`, ocl_kernels32.rs:32-35 and ocl_kernels64.rs:28-29. -/
def laneSum : List T → List T
  | [x, y] => [x + y]
  | [x, y, z, w] => [x + y + z + w]
  | _ => []

/-- `sum.x+sum.z, sum.y+sum.w`, ocl_kernels32.rs:61-64. -/
def laneSumC : List T → List T
  | [x, y, z, w] => [x + z, y + w]
  | _ => []

/-- The kernels `conv_vecs_r` and `conv_vecs_c`, ocl_kernels32.rs:4-65 and ocl_kernels64.rs:5-50. -/
def GpuType.kernel : GpuType → Bool → GpuKernel T
  | .f32, false => ⟨4, List.zipWith (· * ·), laneSum⟩
  | .f32, true => ⟨2, mulc32, laneSumC⟩
  | .f64, false => ⟨2, List.zipWith (· * ·), laneSum⟩
  | .f64, true => ⟨1, mulc64, id⟩

/-- One round of the loop of a kernel: `sum_t += current * conv[j]; j++` for all sums,
    ocl_kernels32.rs:20-29 and 52-57, ocl_kernels64.rs:19-24 and 44-47. A read outside of a buffer
    is `none`. -/
def kernelRound (k : GpuKernel T) (conv : List (List T)) (current : List T) (j : Nat)
    (sums : List (List T)) : Option (List (List T)) :=
  sums.zipIdx.mapM fun st =>
    (conv[j + st.2]?).map fun c => List.zipWith (· + ·) st.1 (k.mul current c)

/-- One work item, ocl_kernels32.rs:10-36 and 44-65, ocl_kernels64.rs:11-30 and 38-50:
    `idx` is `get_global_id(0)`, `filterLength` is `FILTER_LENGTH`; the result is the value of
    `res[idx]`. `idx - FILTER_LENGTH / 2` must not be negative. -/
def convVecs (w : Nat) (k : GpuKernel T) (filterLength : Nat) (src conv : List (List T)) (idx : Nat) :
    Option (List T) :=
  if idx < filterLength / 2 then none
  else
    let start := idx - filterLength / 2
    (forRange 0 filterLength (fun i (sj : List (List T) × Nat) =>
      (src[start + i]?).bind fun current =>
        (kernelRound k conv current sj.2 sj.1).map fun s => (s, sj.2 + k.sums))
      (List.replicate k.sums (List.replicate w 0), 0)).map fun r => (r.1.map k.out).flatten

/-- The ids of the work items which are started, gpu_support/ocl/mod.rs:235-249: launches of at most
    100000 items; at most `fuel` rounds. -/
def gpuLaunches (gwsTotal : Nat) : Nat → Nat → List Nat
  | 0, _ => []
  | fuel + 1, chunk =>
    if chunk < gwsTotal then
      List.range' chunk (min 100000 (gwsTotal - chunk)) ++ gpuLaunches gwsTotal fuel (chunk + 100000)
    else []

/-- `res[idx] = …` for all work items in the given order. -/
def gpuRun (item : Nat → Option (List T)) (res : List (List T)) (order : List Nat) :
    Option (List (List T)) :=
  order.foldlM (init := res) fun res idx => (item idx).bind fun y => put res idx y

/-- The impulse response in the layout of the kernels, gpu_support/ocl/mod.rs:190-198; `p` is
    `conv_size_padded`. -/
def gpuImpulse (g : GpuType) (isComplex : Bool) (impResp : List T) (p : Nat) : Option (List T) :=
  let w := g.vecLen
  let step := if isComplex then 2 else 1
  let padded := List.replicate (w * p / step) (0 : T)
  if isComplex then
    (toComplex? impResp).bind fun complex =>
      (toComplex? padded).bind fun dest =>
        (prepareImpulseResponse complex dest (w / 2)).map fromComplex
  else prepareImpulseResponse impResp padded w

/-- The buffers and the work items of `gpu_convolve_vector` for vectors of `w` numbers,
    gpu_support/ocl/mod.rs:166-257: `d` is `data_set_size`, `p` is `conv_size_padded`, `res` the
    contents of the new result buffer. `schedule` is the order in which the GPU executes the work
    items. -/
def gpuCompute (g : GpuType) (isComplex : Bool) (source impResp : List T) (d p phase : Nat)
    (res : List (List T)) (schedule : List Nat → List Nat) : Option (List (List T)) := do
  let w := g.vecLen
  let src ← slice source phase (d - w + phase)
  let src ← chunks w src
  let imp ← gpuImpulse g isComplex impResp p
  let conv ← chunks w imp
  gpuRun (convVecs w (g.kernel isComplex) (p / w) src conv) res
    (schedule (gpuLaunches ((d - p) / w) ((d - p) / w) (p / w)))

/-- `gpu_convolve_vector`, gpu_support/ocl/mod.rs:141-275. The result is the new target together with the
    returned range. The device is the one found by `has_gpu_support`. -/
def gpuConvolveVector (g : GpuType) (isComplex : Bool) (source target impResp : List T)
    (res : List (List T)) (schedule : List Nat → List Nat) :
    Option (List T × Option (Nat × Nat)) :=
  if target.length < source.length then none
  else
    let w := g.vecLen
    let d := source.length / w * w
    let p := convSizePadded w impResp.length
    if p ≥ d then some (target, none)
    else
      (gpuCompute g isComplex source impResp d p (gpuPhase w impResp.length) res schedule).bind
        fun r => (copyFromSlice target 0 (d - w) r.flatten).map fun t => (t, some (p, d - p))

end

/-- `convolve_vector_range`, time_freq/mod.rs:218-273, on converted slices: `count` is `range.start`
    for real and `range.start / 2` for complex vectors. -/
def convolveVectorRange {α : Type} [Zero α] [Add α] [Mul α] (data other dest : List α) (count : Nat) :
    Option (List α) :=
  match convRange data.length other.length with
  | (lo, hi, full, convLen) =>
    (slice other lo hi).bind fun o =>
      forRange 0 (min count dest.length) (fun (i : Nat) d =>
        (convolveIteration data o i convLen full).bind fun y => put d i y) dest

namespace DspVec
variable {T : Type}

/-- The branch of `convolve_signal` for GPUs, convolution.rs:505-525. `none` as second component: the
    GPU can't handle the lengths. -/
def convolveSignalGpuBranch [Zero T] [Add T] [Sub T] [Mul T] (g : GpuType) (v h : DspVec T)
    (b : Buffer T) (res : List (List T)) (schedule : List Nat → List Nat) :
    Option (Option (DspVec T × Buffer T)) :=
  match b.borrow v.len, v.content, h.content with
  | some temp, some x, some y =>
    (gpuConvolveVector g v.isComplex x temp y res schedule).bind fun tr =>
      match tr with
      | (_, none) => some none
      | (t, some (start, _)) =>
        let t' :=
          if v.isComplex then
            (toComplex? y).bind fun y => (toComplex? x).bind fun x => (toComplex? t).bind fun t =>
              (convolveVectorRange x y t (start / 2)).map fromComplex
          else convolveVectorRange x y t start
        t'.map fun r => some ({ v with data := (b.trade r v.data).2 }, (b.trade r v.data).1)
  | _, _, _ => none

/-- `ConvolutionOps::convolve_signal` with a GPU, convolution.rs:477-542. `overlapGpu` stands for
    `overlap_discard`, which would use the GPU as well. -/
def convolveSignalWithGpu [Zero T] [Add T] [Sub T] [Mul T] [Div T] [LT T] [DecidableLT T]
    [DecidableEq T] [DeltaBounds T] (g : GpuType)
    (overlapGpu : Outcome (DspVec T × Buffer T × VoidResult)) (res : List (List T))
    (schedule : List Nat → List Nat) (k : RegKind) (addr : Nat) (st : MultiCoreSettings)
    (v h : DspVec T) (b : Buffer T) (sched : List Nat) : Outcome (DspVec T × Buffer T × VoidResult) :=
  if v.metaMismatch h then .finished (v, b, .error .inputMetaDataMustAgree)
  else if v.dom ≠ .time then .finished (v, b, .error .inputMustBeInTimeDomain)
  else if v.points < h.points then .finished (v, b, .error .invalidArgumentLength)
  else if v.len > 1000 ∧ h.len ≤ 202 ∧ h.len > 11 then
    (v.convolveSignalSimd k addr st h b sched).andThen fun r => .finished (r.1, r.2, .ok ())
  else
    match if v.len > 10000 then v.convolveSignalGpuBranch g h b res schedule else some none with
    | none => .panic
    | some (some r) => .finished (r.1, r.2, .ok ())
    | some none =>
      if v.len > 10000 ∧ h.len > 15 ∧ v.len > 10 * h.len ∧ v.isComplex = true then overlapGpu
      else (v.convolveSignalScalar st h b sched).andThen fun r => .finished (r.1, r.2, .ok ())

end DspVec

/-- `is_supported_fft_len`, gpu_support/ocl/mod.rs:277-299. -/
def isSupportedFftLen (isComplex : Bool) (len : Nat) : Bool :=
  if h : isComplex = false ∨ len ≤ 1 then false
  else if len = 2 then true
  else if len % 2 = 0 then isSupportedFftLen isComplex (len / 2)
  else if len % 3 = 0 then isSupportedFftLen isComplex (len / 3)
  else if len % 5 = 0 then isSupportedFftLen isComplex (len / 5)
  else if len % 7 = 0 then isSupportedFftLen isComplex (len / 7)
  else if len % 11 = 0 then isSupportedFftLen isComplex (len / 11)
  else if len % 13 = 0 then isSupportedFftLen isComplex (len / 13)
  else false
termination_by len
decreasing_by all_goals omega

end Dsp
