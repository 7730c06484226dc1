import Verif.Model.Fft
/-
Model of the convolution in time domain: time_freq/mod.rs and time_freq/convolution.rs.
`isize` is modelled by `Int` (no overflow).
-/
namespace Dsp
variable {α : Type}

/-! ### Iterators which wrap around -/

/-- `while pos < 0 { pos += len; }`, time_freq/mod.rs:772-774 and 834-836; at most `fuel` rounds. -/
def wrapUp (len : Int) : Nat → Int → Int
  | 0, pos => pos
  | fuel + 1, pos => if pos < 0 then wrapUp len fuel (pos + len) else pos

/-- The start position of `WrappingIterator::new` and `ReverseWrappingIterator::new`,
    time_freq/mod.rs:769-774 and 831-836, relative to the first element of a slice with `len`
    elements. `%` is the remainder which has the sign of the dividend, it panics for an empty
    slice. -/
def wrapStart (len : Nat) (pos : Int) : Option Int :=
  if len = 0 then none
  else some (wrapUp len (pos.tmod len).natAbs (pos.tmod len))

/-- The new position in `WrappingIterator::next`, time_freq/mod.rs:748-753. -/
def wrapNext (len : Nat) (pos : Int) : Int := if pos < (len : Int) - 1 then pos + 1 else 0

/-- The new position in `ReverseWrappingIterator::next`, time_freq/mod.rs:810-815. -/
def revNext (len : Nat) (pos : Int) : Int := if pos > 0 then pos - 1 else (len : Int) - 1

/-- All elements produced by `next`, time_freq/mod.rs:742-759 and 804-821. A read outside of the
    slice would be undefined behaviour, it is modelled as `none`. -/
def iterate (step : Int → Int) (s : List α) : Nat → Int → Option (List α)
  | 0, _ => some []
  | count + 1, pos => do
    let n := step pos
    if n < 0 then none
    else do
      let x ← s[n.toNat]?
      let rest ← iterate step s count n
      some (x :: rest)

/-- The elements of `WrappingIterator::new(slice, pos, count)`, time_freq/mod.rs:726-786. -/
def wrappingIter (s : List α) (pos : Int) (count : Nat) : Option (List α) :=
  (wrapStart s.length pos).bind (iterate (wrapNext s.length) s count)

/-- The elements of `ReverseWrappingIterator::new(slice, pos, count)`, time_freq/mod.rs:788-848. -/
def revWrappingIter (s : List α) (pos : Int) (count : Nat) : Option (List α) :=
  (wrapStart s.length pos).bind (iterate (revNext s.length) s count)

/-! ### Convolution without SIMD -/

section
variable [Zero α] [Add α] [Mul α]

/-- `convolve_iteration`, time_freq/mod.rs:456-473. -/
def convolveIteration (data other : List α) (i convLen : Int) (full : Nat) : Option α := do
  let it ← revWrappingIter data (i + convLen) full
  some ((it.zip other).foldl (fun sum p => sum + p.1 * p.2) 0)

/-- `(other_start, other_end, full_conv_len, conv_len)`, time_freq/mod.rs:284-295. -/
def convRange (points otherPoints : Nat) : Nat × Nat × Nat × Nat :=
  if otherPoints > points then
    (otherPoints / 2 - points / 2, otherPoints / 2 + points / 2, points, points / 2)
  else (0, otherPoints, otherPoints, otherPoints - otherPoints / 2)

/-- The values which the closures of `convolve_signal_scalar` compute for the `n` cells of the
    destination, time_freq/mod.rs:314-324. -/
def convValues (data other : List α) (n : Nat) : Option (List α) :=
  match convRange data.length other.length with
  | (lo, hi, full, convLen) =>
    (slice other lo hi).bind fun o =>
      (List.range n).mapM fun (i : Nat) => convolveIteration data o i convLen full

/-- `convolve_signal_scalar` on converted slices (`α` is `T` or `Complex<T>`),
    time_freq/mod.rs:284-326 and 340-357. The destination is memory of the buffer, the closures only
    read `data` and `other`; therefore the values can be computed first. -/
def convolveScalar (st : MultiCoreSettings) (data other dest : List α) (sched : List Nat) :
    Outcome (List α) :=
  match convValues data other dest.length with
  | none => .panic
  | some ys =>
    executeWithRange .large st dest 1 (blockLoop 1 1 (fun i b => b.map (fun _ => ys.getD i 0))) sched

end

/-! ### Convolution with SIMD registers -/

section
variable {T : Type} [Zero T]

/-- The numbers which the loop of `create_shifted_copies` stores one after the other into
    registers, time_freq/mod.rs:113-158: `c` rounds are left, so `j = c * step` at the begin and
    `(c - 1) * step` after `j -= step`. `data` is the rest of the reversed iterator, `unwrap` on
    its end panics. -/
def shiftedLoop (step shift minLen : Nat) : Nat → List T → Option (List T)
  | 0, _ => some []
  | c + 1, data =>
    if c * step < shift ∨ c * step ≥ minLen then
      (shiftedLoop step shift minLen c data).map (List.replicate step 0 ++ ·)
    else if step > 1 then
      match data with
      | im :: re :: rest => (shiftedLoop step shift minLen c rest).map (fun l => re :: im :: l)
      | _ => none
    else
      match data with
      | x :: rest => (shiftedLoop step shift minLen c rest).map (fun l => x :: l)
      | [] => none

/-- One shifted copy, time_freq/mod.rs:93-163: `n` is `number_of_shifts`, `w` is `Reg::LEN`. -/
def shiftedCopy (w step n : Nat) (h : List T) (i : Nat) : Option (List (List T)) :=
  let shift := ((n - i) % n) * step
  let minLen := h.length + shift
  let len := ceilDiv minLen w
  (shiftedLoop step shift minLen (len * w / step) h.reverse).bind (chunks w)

/-- `create_shifted_copies`, time_freq/mod.rs:81-165, for the numbers `h` of the impulse response. -/
def createShiftedCopies (w step : Nat) (h : List T) : Option (List (List (List T))) :=
  (List.range (w / step)).mapM (shiftedCopy w step (w / step) h)

/-- The closure of `convolve_signal_simd_impl` for one value, time_freq/mod.rs:583-594. `mulR` is
    `simd_mul`, `sumR` is `simd_sum`. -/
def simdConvAt [Add T] (w : Nat) (mulR : List T → List T → List T) (sumR : List T → α)
    (simd : List (List T)) (shifts : List (List (List T))) (convLen leftPoints i : Nat) :
    Option α :=
  if i + convLen < leftPoints ∨ shifts.length = 0 then none
  else
    (shifts[(i + convLen - leftPoints) % shifts.length]?).bind fun shifted =>
      let e := (i + convLen - leftPoints + shifts.length - 1) / shifts.length
      if e < shifted.length then none
      else (slice simd (e - shifted.length) e).bind fun regs =>
        some (sumR ((regs.zip shifted).foldl (fun sum p => regZip (· + ·) sum (mulR p.1 p.2))
          (List.replicate w 0)))

/-- `for (i, num) in IndexedEdgeIteratorMut::new(dest, left, right) { *num = f(i); }`,
    time_freq/mod.rs:599-607; the index always equals the position (simd_partition.rs:64-114). -/
def setEdges (left right : Nat) (f : Nat → Option α) (dest : List α) : Option (List α) :=
  (edgePositions left right dest.length (dest.length + 1) 0).foldlM (init := dest) fun d p =>
    if p < 0 then none
    else do
      let y ← f p.toNat
      put d p.toNat y

/-- `convolve_signal_simd_impl`, time_freq/mod.rs:531-610. `step` is 1 for real and 2 for complex
    vectors; `a` and `hn` are the numbers, `x` and `h` the points of vector and impulse response. -/
def convolveSimd [Zero α] [Add α] [Mul α] [Add T] (addr w step : Nat)
    (mulR : List T → List T → List T) (sumR : List T → α) (st : MultiCoreSettings)
    (a hn : List T) (x h dest : List α) (sched : List Nat) : Outcome (List α) :=
  let points := x.length
  let full := h.length
  let convLen := full - full / 2
  let scalarLen := convLen + w
  let p := calcDataAlignmentReqs addr w a.length
  if ¬ full < points then .panic
  else if points < scalarLen ∨ points - scalarLen < scalarLen then .panic
  else
    match createShiftedCopies w step hn, (p.center a).bind (arrayToRegs (addr + p.left) w) with
    | some shifts, some simd =>
      match (List.range (points - scalarLen - scalarLen)).mapM (fun r =>
          simdConvAt w mulR sumR simd shifts convLen (p.left / step) (scalarLen + r)) with
      | none => .panic
      | some ys =>
        (executeWithRange .large st ((dest.drop scalarLen).take (points - scalarLen - scalarLen)) 1
          (blockLoop 1 1 (fun i b => b.map (fun _ => ys.getD i 0))) sched).andThen fun mid =>
            .ofOption (setEdges scalarLen scalarLen
              (fun i => convolveIteration x h i convLen full) (splice dest scalarLen mid))
    | _, _ => .panic

end

namespace DspVec
variable {T : Type}

/-- `temp.trade(&mut self.data)` with the result in `temp`. -/
def tradeOutcome (v : DspVec T) (b : Buffer T) (o : Outcome (List T)) :
    Outcome (DspVec T × Buffer T) :=
  o.andThen fun r => .finished ({ v with data := (b.trade r v.data).2 }, (b.trade r v.data).1)

/-- `convolve_signal_scalar`, time_freq/mod.rs:275-361. -/
def convolveSignalScalar [Zero T] [Add T] [Sub T] [Mul T] (st : MultiCoreSettings) (v h : DspVec T)
    (b : Buffer T) (sched : List Nat) : Outcome (DspVec T × Buffer T) :=
  match b.borrow v.len, v.content, h.content with
  | some temp, some x, some y =>
    if v.isComplex then
      match toComplex? y, toComplex? x, toComplex? temp with
      | some y, some x, some temp =>
        v.tradeOutcome b ((convolveScalar st x y temp sched).andThen fun r => .finished (fromComplex r))
      | _, _, _ => .panic
    else v.tradeOutcome b (convolveScalar st x y temp sched)
  | _, _, _ => .panic

/-- `convolve_signal_simd`, time_freq/mod.rs:498-526. -/
def convolveSignalSimd [Zero T] [Add T] [Sub T] [Mul T] [Div T] (k : RegKind) (addr : Nat)
    (st : MultiCoreSettings) (v h : DspVec T) (b : Buffer T) (sched : List Nat) :
    Outcome (DspVec T × Buffer T) :=
  match b.borrow v.len, v.content, h.content with
  | some temp, some x, some y =>
    if v.isComplex then
      match toComplex? y, toComplex? x, toComplex? temp with
      | some yc, some xc, some temp =>
        v.tradeOutcome b ((convolveSimd addr k.len 2 (regMulComplex k) regSumComplex st x y xc yc temp
          sched).andThen fun r => .finished (fromComplex r))
      | _, _, _ => .panic
    else v.tradeOutcome b (convolveSimd addr k.len 1 (regZip (· * ·)) regSumReal st x y x y temp sched)
  | _, _, _ => .panic

end DspVec

/-! ### Convolution in frequency domain -/

/-- The loop `while n != 0 { n >>= 1; count += 1; }`, convolution.rs:276-279; at most `fuel` rounds. -/
def countBits : Nat → Nat → Nat → Nat
  | 0, _, count => count
  | fuel + 1, n, count => if n ≠ 0 then countBits fuel (n >>> 1) (count + 1) else count

/-- `next_power_of_two`, convolution.rs:270-282. -/
def nextPowerOfTwo (value : Nat) : Nat :=
  if value ≠ 0 ∧ value &&& (value - 1) = 0 then value
  else 1 <<< countBits value value 0

section
variable {T : Type} [Zero T] [Add T] [Sub T] [Mul T] [Div T] [NatCast T]

/-- `n * v / scaling` for complex `n`, `v` and a real scaling, convolution.rs:428 and 445. -/
def scaledMul (scaling : T) (n v : Cx T) : Cx T := ⟨(n.mul v).re / scaling, (n.mul v).im / scaling⟩

/-- The transform of one block, the multiplication with the transformed impulse response and the
    transform back, convolution.rs:424-430 and 440-447. -/
def filterBlock (K : FftKernel T) (fftLen : Nat) (H block : List (Cx T)) : List (Cx T) :=
  K.inverse (List.zipWith (scaledMul (fftLen : T)) (K.forward block) H)

/-- The state of the loop of `overlap_discard`: the signal, `tmp`, `overlap_buffer`, `position`. -/
structure OverlapState (T : Type) where
  signal : List (Cx T)
  tmp : List (Cx T)
  overlap : List (Cx T)
  position : Nat

/-- `fft.process_outofplace_with_scratch(&mut signal[range], ..)` destroys its input: the block is
    overwritten with unknown values `junk block`. -/
def destroy (junk : List (Cx T) → List (Cx T)) (signal : List (Cx T)) (lo hi : Nat) :
    Option (List (Cx T)) := do
  let block ← slice signal lo hi
  copyFromSlice signal lo hi (junk block)

/-- The first block, convolution.rs:419-433; `scalarBegin` are the values which were computed
    for the begin of the signal. -/
def overlapFirst (K : FftKernel T) (junk : List (Cx T) → List (Cx T)) (fftLen impLen : Nat)
    (H signal tmp : List (Cx T)) : Option (OverlapState T) := do
  let step := fftLen - (impLen - 1)
  let ov ← slice signal step fftLen
  let block ← slice signal 0 fftLen
  let s1 ← destroy junk signal 0 fftLen
  let scalarBegin ← slice tmp 0 (impLen / 2)
  let s2 ← copyFromSlice s1 0 (impLen / 2) scalarBegin
  some ⟨s2, filterBlock K fftLen H block, ov, step⟩

/-- `(&mut signal_time[position - step_size + imp_len / 2..position + imp_len / 2])
    .copy_from_slice(&tmp[imp_len - 1..fft_len])`, convolution.rs:442-443 and 454-456. -/
def storeBlock (fftLen impLen : Nat) (s : OverlapState T) (signal : List (Cx T)) :
    Option (List (Cx T)) := do
  let step := fftLen - (impLen - 1)
  let res ← slice s.tmp (impLen - 1) fftLen
  copyFromSlice signal (s.position - step + impLen / 2) (s.position + impLen / 2) res

/-- The body of the loop, convolution.rs:435-449. -/
def overlapStep (K : FftKernel T) (junk : List (Cx T) → List (Cx T)) (fftLen impLen : Nat)
    (H : List (Cx T)) (s : OverlapState T) : Option (OverlapState T) := do
  let step := fftLen - (impLen - 1)
  let s1 ← copyFromSlice s.signal s.position (s.position + (impLen - 1)) s.overlap
  let ov ← slice s1 (s.position + step) (s.position + fftLen)
  let block ← slice s1 s.position (s.position + fftLen)
  let s2 ← destroy junk s1 s.position (s.position + fftLen)
  let s3 ← storeBlock fftLen impLen s s2
  some ⟨s3, filterBlock K fftLen H block, ov, s.position + step⟩

/-- `while position + fft_len < x_len`, convolution.rs:434-450; at most `fuel` rounds. -/
def overlapLoop (K : FftKernel T) (junk : List (Cx T) → List (Cx T)) (fftLen impLen xLen : Nat)
    (H : List (Cx T)) : Nat → OverlapState T → Option (OverlapState T)
  | 0, s => some s
  | fuel + 1, s =>
    if s.position + fftLen < xLen then
      (overlapStep K junk fftLen impLen H s).bind (overlapLoop K junk fftLen impLen xLen H fuel)
    else some s

/-- The values of a scalar convolution of the positions `from .. from + count`,
    convolution.rs:372-397. -/
def scalarPart (x h : List (Cx T)) (impLen from' count : Nat) : Option (List (Cx T)) :=
  (List.range count).mapM fun (i : Nat) =>
    convolveIteration x h ((from' + i : Nat) : Int) (((impLen + 1) / 2 : Nat) : Int) impLen

/-- `overlap_discard`, convolution.rs:326-461, on the points of the signal. `hs` are the points of the
    whole storage of the impulse response (of which `impLen` are valid), `tmp` the borrowed memory
    (stale contents) and `fftLen` the transform length after line 333. The zero padding of the
    impulse response (lines 352-359) is modelled by its result, see C07. GPU code is not
    modelled. -/
def overlapDiscard (K : FftKernel T) (junk : List (Cx T) → List (Cx T)) (fftLen impLen : Nat)
    (x hs tmp : List (Cx T)) : Option (List (Cx T)) := do
  let remainder := x.length - x.length % fftLen
  let h ← slice hs 0 impLen
  let H := K.forward (h ++ List.replicate (fftLen - impLen) 0)
  let begin' ← scalarPart x hs impLen 0 (impLen / 2)
  let tmp ← copyFromSlice tmp 0 (impLen / 2) begin'
  let tail ← scalarPart x hs impLen (x.length - remainder / 2) (remainder / 2)
  let s0 ← overlapFirst K junk fftLen impLen H x tmp
  let s ← overlapLoop K junk fftLen impLen x.length H x.length s0
  let sig ← storeBlock fftLen impLen s s.signal
  copyFromSlice sig (x.length - remainder / 2) x.length tail

end

namespace DspVec
variable {T : Type}

/-- `overlap_discard`, convolution.rs:304-461. The buffer is only used for temporary memory: the
    numbers borrowed for `tmp` are a part of it, its contents afterwards are not modelled. -/
def overlapDiscard [Zero T] [Add T] [Sub T] [Mul T] [Div T] [NatCast T] [LT T] [DecidableLT T]
    [DecidableEq T] [DeltaBounds T] (K : FftKernel T) (junk : List (Cx T) → List (Cx T))
    (v h : DspVec T) (b : Buffer T) (fftLen : Nat) : Option (DspVec T × Buffer T × VoidResult) :=
  if v.isComplex = false then some (v, b, .error .inputMustBeComplex)
  else if v.metaMismatch h then some (v, b, .error .inputMetaDataMustAgree)
  else if h.points = 0 then none
  else do
    let overlap := h.points - 1
    let minFftLen := nextPowerOfTwo (4 * overlap)
    let fftLen := if fftLen > minFftLen then fftLen else minFftLen
    let remainder := v.points - v.points % fftLen
    if remainder % 2 ≠ 0 then none
    let mem ← b.borrow (2 * fftLen + 2 * K.scratch fftLen + 2 * fftLen + 2 * fftLen + remainder)
    let tmp ← slice mem (2 * K.scratch fftLen + 2 * fftLen) (2 * K.scratch fftLen + 4 * fftLen)
    let tmp ← toComplex? tmp
    let hs ← toComplex? h.data.cells
    let sig ← slice v.data.cells 0 (2 * v.points)
    let x ← toComplex? sig
    let r ← Dsp.overlapDiscard K junk fftLen h.points x hs tmp
    some (v.withCells (splice v.data.cells 0 (fromComplex r)), b, .ok ())

/-- The implementations between which `convolve_signal` chooses. -/
inductive ConvPath | simd | frequency | scalar
deriving DecidableEq, Repr

/-- The choice, convolution.rs:499 and 528-533. -/
def convPath (v h : DspVec T) : ConvPath :=
  if v.len > 1000 ∧ h.len ≤ 202 ∧ h.len > 11 then .simd
  else if v.len > 10000 ∧ h.len > 15 ∧ v.len > 10 * h.len ∧ v.isComplex = true then .frequency
  else .scalar

/-- `ConvolutionOps::convolve_signal`, convolution.rs:477-542. Code for GPUs
    (convolution.rs:504-526) is not modelled: without the feature `use_gpu` it is never
    executed (`has_gpu_support` is false, gpu_support/fallback.rs:27-29). -/
def convolveSignal [Zero T] [Add T] [Sub T] [Mul T] [Div T] [NatCast T] [LT T] [DecidableLT T]
    [DecidableEq T] [DeltaBounds T] (K : FftKernel T) (junk : List (Cx T) → List (Cx T))
    (k : RegKind) (addr : Nat) (st : MultiCoreSettings) (v h : DspVec T) (b : Buffer T)
    (sched : List Nat) : Outcome (DspVec T × Buffer T × VoidResult) :=
  if v.metaMismatch h then .finished (v, b, .error .inputMetaDataMustAgree)
  else if v.dom ≠ .time then .finished (v, b, .error .inputMustBeInTimeDomain)
  else if v.points < h.points then .finished (v, b, .error .invalidArgumentLength)
  else
    match v.convPath h with
    | .simd => (v.convolveSignalSimd k addr st h b sched).andThen fun r => .finished (r.1, r.2, .ok ())
    | .frequency => .ofOption (v.overlapDiscard K junk h b (nextPowerOfTwo h.len))
    | .scalar => (v.convolveSignalScalar st h b sched).andThen fun r => .finished (r.1, r.2, .ok ())

end DspVec
end Dsp
