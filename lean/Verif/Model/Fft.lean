import Verif.Model.ComplexReal
import Verif.Model.SymPairs
/-
Model of the transforms: time_freq/mod.rs (fft), time_to_freq.rs, freq_to_time.rs, freq.rs.
The transform itself is done by the crate rustfft (or a GPU): it is a parameter of the model, see
`FftKernel`; Props/Dft.lean shows that the discrete Fourier transform meets the assumptions made
about it.
-/
namespace Dsp
variable {T : Type}

/-- The transform of a list of complex numbers by rustfft: `forward` and `inverse` are
    `FftPlanner::plan_fft(points, direction)` with `process_with_scratch`, `scratch n` is
    `get_inplace_scratch_len` for `n` points. `useRust len` tells whether rustfft and not a GPU is used for a vector
    with `len` numbers (time_freq/mod.rs:41-44). -/
structure FftKernel (T : Type) where
  forward : List (Cx T) → List (Cx T)
  inverse : List (Cx T) → List (Cx T)
  scratch : Nat → Nat
  useRust : Nat → Bool

/-- `FftDirection`. -/
inductive FftDirection | forward | inverse
deriving DecidableEq, Repr

/-- The transform in a direction. -/
def FftKernel.run (K : FftKernel T) : FftDirection → List (Cx T) → List (Cx T)
  | .forward => K.forward
  | .inverse => K.inverse

/-- A panic or a result. -/
def Outcome.ofOption {α : Type} : Option α → Outcome α
  | none => .panic
  | some a => .finished a

/-- Continue with the result. -/
def Outcome.andThen {α β : Type} (o : Outcome α) (f : α → Outcome β) : Outcome β :=
  match o with
  | .panic => .panic
  | .running => .running
  | .finished a => f a

namespace DspVec

/-- `fft`, time_freq/mod.rs:32-63: transforms the first `len` numbers as complex numbers and
    multiplies `delta` with the number of points (not on a GPU). The scratch memory is borrowed from the buffer, which
    panics if the buffer is too small; its contents afterwards are not modelled (C43: contents of
    a buffer never matter). -/
def fftRaw [Zero T] [Mul T] [NatCast T] (K : FftKernel T) (dir : FftDirection) (v : DspVec T)
    (b : Buffer T) : Option (DspVec T) :=
  if K.useRust v.len then do
    let _ ← b.borrow (2 * K.scratch (v.len / 2))
    let signal ← v.content
    let cs ← toComplex? signal
    some { v.withCells (splice v.data.cells 0 (fromComplex (K.run dir cs))) with
      delta := v.delta.map (fun d => ((v.len / 2 : Nat) : T) * d) }
  else do
    let signal ← v.content
    let cs ← toComplex? signal
    some (v.withCells (splice v.data.cells 0 (fromComplex (K.run dir cs))))

/-- `FreqResult`, rededicate_and_relations.rs:159-181: generic vectors stay generic. -/
def freqType (v : DspVec T) : VecType :=
  match v.numberSpace with
  | .realOrComplex _ => .gen
  | _ => .complexFreq

/-- `TimeResult`, rededicate_and_relations.rs:143-157. -/
def timeType (v : DspVec T) : VecType :=
  match v.numberSpace with
  | .realOrComplex _ => .gen
  | _ => .complexTime

/-- `RealTimeResult`, rededicate_and_relations.rs:183-197. -/
def realTimeType (v : DspVec T) : VecType :=
  match v.numberSpace with
  | .realOrComplex _ => .gen
  | _ => .realTime

/-- `mark_vector_as_invalid(); number_space.to_complex(); domain.to_freq();`, the error path of all
    transforms, e.g. time_to_freq.rs:141-144, freq_to_time.rs:143-146. -/
def transformError (v : DspVec T) : DspVec T :=
  { v.markInvalid with numberSpace := v.numberSpace.toComplex, domain := v.domain.toFreq }

/-- `if !self.is_complex() { self.zero_interleave_b(buffer, 2); self.number_space.to_complex(); }`,
    time_to_freq.rs:147-150, freq_to_time.rs:149-152. -/
def ensureComplex [Zero T] (v : DspVec T) (b : Buffer T) : Option (DspVec T × Buffer T) :=
  if v.isComplex then some (v, b)
  else do
    let (w, b') ← v.zeroInterleaveB b 2
    some ({ w with numberSpace := w.numberSpace.toComplex }, b')

section
variable [Zero T] [Mul T] [NatCast T]

/-- `plain_fft`, time_to_freq.rs:136-156. -/
def plainFft (K : FftKernel T) (v : DspVec T) (b : Buffer T) : Option (DspVec T × Buffer T) :=
  if v.dom ≠ .time then some (v.transformError.rededicateForce v.freqType, b)
  else do
    let (w, b') ← v.ensureComplex b
    let u ← w.fftRaw K .forward b'
    some ({ u with domain := u.domain.toFreq }.rededicateForce v.freqType, b')

/-- `fft`, time_to_freq.rs:158-165. -/
def fft (K : FftKernel T) (v : DspVec T) (b : Buffer T) : Option (DspVec T × Buffer T) := do
  let (w, b') ← v.plainFft K b
  let u ← w.fftShift
  some (u, b')

/-- `windowed_fft`, time_to_freq.rs:167-175. -/
def windowedFft [Add T] [Sub T] (K : FftKernel T) (st : MultiCoreSettings) (win : WindowFunction T)
    (v : DspVec T) (b : Buffer T) (sched : List Nat) : Outcome (DspVec T × Buffer T) :=
  (v.applyWindow st win sched).andThen (fun w => .ofOption (w.fft K b))

/-- `plain_ifft`, freq_to_time.rs:138-158 (note `domain.to_freq()` in line 156). -/
def plainIfft (K : FftKernel T) (v : DspVec T) (b : Buffer T) : Option (DspVec T × Buffer T) :=
  if v.dom ≠ .frequency then some (v.transformError.rededicateForce v.timeType, b)
  else do
    let (w, b') ← v.ensureComplex b
    let u ← w.fftRaw K .inverse b'
    some ({ u with domain := u.domain.toFreq }.rededicateForce v.timeType, b')

/-- `ifft`, freq_to_time.rs:160-168. `k`, `addr`: register type and address for `scale`. -/
def ifft [One T] [Div T] (K : FftKernel T) (k : RegKind) (addr : Nat) (st : MultiCoreSettings)
    (v : DspVec T) (b : Buffer T) (sched : List Nat) : Outcome (DspVec T × Buffer T) :=
  (v.scale k addr st (1 / ((v.points : Nat) : T)) sched).andThen (fun w =>
    .ofOption (do
      let u ← w.ifftShift
      u.plainIfft K b))

/-- `windowed_ifft`, freq_to_time.rs:170-177; the workers of `scale` and of the window have
    schedules of their own. -/
def windowedIfft [One T] [Add T] [Sub T] [Div T] (K : FftKernel T) (k : RegKind) (addr : Nat)
    (st : MultiCoreSettings) (win : WindowFunction T) (v : DspVec T) (b : Buffer T)
    (sched sched2 : List Nat) : Outcome (DspVec T × Buffer T) :=
  (v.ifft K k addr st b sched).andThen (fun r =>
    (r.1.unapplyWindow st win sched2).andThen (fun u => .finished (u, r.2)))

/-- The checks of `plain_sfft`, `sfft` and `windowed_sfft`, time_to_freq.rs:202-221. -/
def sfftCheck (v : DspVec T) : Option ErrorReason :=
  if v.dom ≠ .time ∨ v.isComplex = true then some .inputMustBeInTimeDomain
  else if v.points % 2 = 0 then some .inputMustHaveAnOddLength
  else none

/-- `unmirror!`, time_to_freq.rs:178-186: `resize(points / 2 + 1)`, the `expect` panics if the resize
    fails. The argument of `resize` is a number of values, not of points. -/
def unmirror (v : DspVec T) (points : Nat) : Option (DspVec T) :=
  match v.resize (points / 2 + 1) with
  | (w, .ok ()) => some w
  | (_, .error _) => none

/-- `plain_sfft`, time_to_freq.rs:198-228. -/
def plainSfft (K : FftKernel T) (v : DspVec T) (b : Buffer T) :
    Option (DspVec T × Buffer T × VoidResult) :=
  match v.sfftCheck with
  | some e => some (v.transformError.rededicateForce v.freqType, b, .error e)
  | none => do
    let (w, b1) ← v.zeroInterleaveB b 2
    let w := { w with numberSpace := w.numberSpace.toComplex }
    let (u, b2) ← w.plainFft K b1
    let r ← u.unmirror w.points
    some (r, b2, .ok ())

/-- `sfft`, time_to_freq.rs:230-260. -/
def sfft (K : FftKernel T) (v : DspVec T) (b : Buffer T) :
    Option (DspVec T × Buffer T × VoidResult) :=
  match v.sfftCheck with
  | some e => some (v.transformError.rededicateForce v.freqType, b, .error e)
  | none => do
    let (w, b1) ← v.zeroInterleaveB b 2
    let w := { w with numberSpace := w.numberSpace.toComplex }
    let (u, b2) ← w.fft K b1
    let r ← u.unmirror w.points
    some (r, b2, .ok ())

/-- `windowed_sfft`, time_to_freq.rs:262-298: the window is applied to the interleaved numbers. -/
def windowedSfft [Add T] [Sub T] (K : FftKernel T) (st : MultiCoreSettings) (win : WindowFunction T)
    (v : DspVec T) (b : Buffer T) (sched : List Nat) : Outcome (DspVec T × Buffer T × VoidResult) :=
  match v.sfftCheck with
  | some e => .finished (v.transformError.rededicateForce v.freqType, b, .error e)
  | none =>
    (Outcome.ofOption (v.zeroInterleaveB b 2)).andThen fun r =>
      (applyWindow st win { r.1 with numberSpace := r.1.numberSpace.toComplex } sched).andThen fun w =>
        .ofOption (do
          let (u, b2) ← w.fft K r.2
          let x ← u.unmirror w.points
          some (x, b2, .ok ()))
end

/-- The loop of `mirror`, freq.rs:71-78: `i` counts down, `j` up, both by two; `fuel` bounds the
    number of rounds. -/
def mirrorLoop [Neg T] (len : Nat) (data : List T) : Nat → Nat → Nat → List T → Option (List T)
  | 0, _, _, temp => some temp
  | fuel + 1, i, j, temp =>
    if i ≥ len then do
      let x ← get data j
      let temp ← put temp i (-x)
      let y ← get data (j - 1)
      let temp ← put temp (i - 1) y
      mirrorLoop len data fuel (i - 2) (j + 2) temp
    else some temp

/-- `mirror`, freq.rs:52-83 (note the `&&` in the check). `2 * len - step` underflows for an empty
    vector, which is a panic. -/
def mirror [Zero T] [Neg T] (v : DspVec T) (b : Buffer T) : Option (DspVec T × Buffer T) :=
  if v.dom ≠ .frequency ∧ v.isComplex = false then some (v.markInvalid, b)
  else if 2 * v.len < 2 then none
  else do
    let tempLen := 2 * v.len - 2
    let temp ← b.borrow tempLen
    let src ← slice v.data.cells 2 v.len
    let temp ← copyFromSlice temp 2 v.len src
    let src ← slice v.data.cells 0 2
    let temp ← copyFromSlice temp 0 2 src
    let temp ← mirrorLoop v.len v.data.cells v.len (tempLen - 1) 3 temp
    let (b', d) := b.trade temp v.data
    some ({ v with data := d, validLen := tempLen }, b')

/-- `pure_complex_to_real_operation`, vector_types/mod.rs:396-433, without a change of the meta
    data. -/
def complexToRealB [Zero T] (op : Cx T → T) (st : MultiCoreSettings) (v : DspVec T) (b : Buffer T)
    (sched : List Nat) : Outcome (DspVec T × Buffer T) :=
  match b.borrow (v.len / 2), v.content with
  | some temp, some src =>
    if src.length % 2 ≠ 0 then .panic
    else
      match fromSrcToDest .small st src.length 2 temp 1 (blockLoop 1 2 (convertPair op src)) sched with
      | .panic => .panic
      | .running => .running
      | .finished r =>
        let (b', d) := b.trade r v.data
        .finished ({ v with data := d, validLen := v.len / 2 }, b')
  | _, _ => .panic

section
variable [Zero T] [Mul T] [NatCast T] [Neg T]

/-- The mirrored and transformed vector of `plain_sifft`, freq_to_time.rs:214-218: `domain.to_freq()`
    is called although the result is in time domain. -/
def plainSifftData (K : FftKernel T) (v : DspVec T) (b : Buffer T) : Option (DspVec T × Buffer T) := do
  let (m, b1) ← v.mirror b
  let u ← m.fftRaw K .inverse b1
  some ({ u with domain := u.domain.toFreq }, b1)

/-- The check `self.points() > 0 && self.data(1).abs() > 1e-10`, freq_to_time.rs:205; `tiny x` stands
    for `|x| ≤ 1e-10`. -/
def notConj (tiny : T → Bool) (v : DspVec T) : Option Bool :=
  if v.points > 0 then do
    let c ← v.content
    let x ← get c 1
    some (!tiny x)
  else some false

/-- `plain_sifft`, freq_to_time.rs:190-221. The result keeps number space and domain of the generic
    vector: `rededicate_from_force` only replaces static markers. -/
def plainSifft (tiny : T → Bool) (K : FftKernel T) (st : MultiCoreSettings)
    (v : DspVec T) (b : Buffer T) (sched : List Nat) : Outcome (DspVec T × Buffer T × VoidResult) :=
  if v.dom ≠ .frequency ∨ v.isComplex = false then
    .finished (v.transformError.rededicateForce v.realTimeType, b, .error .inputMustBeInFrequencyDomain)
  else
    (Outcome.ofOption (v.notConj tiny)).andThen fun bad =>
      if bad then
        .finished (v.transformError.rededicateForce v.realTimeType, b, .error .inputMustBeConjSymmetric)
      else
        (Outcome.ofOption (v.plainSifftData K b)).andThen fun r =>
          (r.1.complexToRealB Cx.re st r.2 sched).andThen fun s =>
            .finished (s.1.rededicateForce v.realTimeType, s.2, .ok ())

/-- `sifft`, freq_to_time.rs:223-234: the half spectrum is scaled by its own number of points and
    rotated before it is mirrored. `scale` and the conversion have schedules of their own. -/
def sifft [Add T] [Sub T] [Div T] [One T] (tiny : T → Bool) (K : FftKernel T) (k : RegKind) (addr : Nat)
    (st : MultiCoreSettings) (v : DspVec T) (b : Buffer T) (sched sched2 : List Nat) :
    Outcome (DspVec T × Buffer T × VoidResult) :=
  (v.scaleComplex k addr st ⟨1 / ((v.points : Nat) : T), 0⟩ sched).andThen fun w =>
    (Outcome.ofOption w.ifftShift).andThen fun u => u.plainSifft tiny K st b sched2

/-- `windowed_sifft`, freq_to_time.rs:236-247; `?` returns the error. -/
def windowedSifft [Add T] [Sub T] [Div T] [One T] (tiny : T → Bool) (K : FftKernel T) (k : RegKind) (addr : Nat)
    (st : MultiCoreSettings) (win : WindowFunction T) (v : DspVec T) (b : Buffer T) (sched sched2 sched3 : List Nat) :
    Outcome (DspVec T × Buffer T × VoidResult) :=
  (v.sifft tiny K k addr st b sched sched2).andThen fun r =>
    match r with
    | (w, b', .ok ()) => (w.unapplyWindow st win sched3).andThen fun u => .finished (u, b', .ok ())
    | (w, b', .error e) => .finished (w, b', .error e)

end
end DspVec
end Dsp
