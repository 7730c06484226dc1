import Verif.Model.Interop
import Verif.Model.Program
import Verif.Model.LookupTable
/-
The library behind the C facade: every method which facade32.rs calls is the modelled function of that name, called with
the buffer and the multicore settings of the vector. What the C program can not influence (registers, addresses, schedules, what is
left in the buffers) is the environment of a call.
-/
namespace Dsp
variable {T : Type}

/-- The mathematical functions and constants which the library gets from the standard library and from rustfft, and the windows of
    window_functions.rs (their formulas: Spec/Windows.lean). -/
structure LibConsts (T : Type) where
  math : MathLib T
  kernel : FftKernel T
  /-- `exp (j x)` -/
  cis : T → Cx T
  pi : T
  sin : T → T
  cos : T → T
  /-- `Complex::from_polar` -/
  cart : T → T → Cx T
  /-- `Complex::to_polar` -/
  polar : Cx T → T × T
  /-- `Complex::norm` -/
  magnitude : Cx T → T
  /-- `Complex::norm_sqr` -/
  magnitudeSquared : Cx T → T
  /-- `Complex::arg` -/
  phase : Cx T → T
  triangular : WindowFunction T
  hamming : WindowFunction T
  blackmanHarris : WindowFunction T

/-- What a call finds: the registers of the machine, the address of the storage, what the registers compute for magnitudes, the contents
    of scratch memory, and what is left in the buffer after the call (a `SingleBuffer` may hold anything, its contents are
    never read). -/
structure CallEnv (T : Type) where
  k : RegKind
  addr : Nat
  simdMagnitude : List T → List T
  simdMagnitudeSquared : List T → List T
  junk : List (Cx T) → List (Cx T)
  leftover : List T

/-- The window which an argument of the facade stands for, window_functions.rs:24-133 and interop/src/lib.rs:243-275. -/
def WindowArg.function [One T] (c : LibConsts T) : WindowArg T → WindowFunction T
  | .triangular => c.triangular
  | .hamming => c.hamming
  | .blackmanHarris => c.blackmanHarris
  | .rectangular => ⟨true, fun _ _ => 1⟩
  | .foreign sym w => ⟨sym, w⟩

section
variable [Field T] [LinearOrder T]

/-- The impulse response which an argument of the facade stands for, conv_types.rs:398-506 and interop/src/lib.rs:278-325. -/
def ResponseArg.impulse (c : LibConsts T) : ResponseArg T → T → T
  | .sinc => (sincTime c.pi c.sin).eval
  | .raisedCosine rolloff => (raisedCosineTime c.pi c.sin c.cos rolloff).eval
  | .foreign _ f => f

/-- The frequency response which an argument of the facade stands for, conv_types.rs:398-506 and interop/src/lib.rs:278-325. -/
def ResponseArg.frequency (c : LibConsts T) : ResponseArg T → FrequencyResponse T T
  | .sinc => ⟨true, (sincFreq : ConvFunction T T).eval⟩
  | .raisedCosine rolloff => ⟨true, (raisedCosineFreq c.pi c.cos rolloff).eval⟩
  | .foreign sym f => ⟨sym, f⟩

end

/-- The variables of a call: 0 is the vector itself, 1, 2, .. are the other vectors. -/
def localMachine (v : DspVec T) (ops : List (DspVec T)) : Machine T := ⟨fun i => ((v :: ops)[i]?).getD v, []⟩

section
variable [Field T] [LinearOrder T] [FloorRing T]

/-- The call of the library for a method, with the variables of `localMachine`; `n` is the number of other vectors (for `merge`). Lines in
    facade32.rs as for `VecFun`; lines in the library as for the modelled functions. Not modelled here: the symmetric transforms
    (they report errors, see C49 for them) and the approximated functions (C79); `zero_pad_b` is called directly, see `modelLib`. -/
def LibMethod.stmt (c : LibConsts T) (e : CallEnv T) (st : MultiCoreSettings) (b : Buffer T) (n : Nat) : LibMethod T → Option (Stmt T)
  | .add => some (.binary 0 1 (.elem .add e.k e.addr))
  | .addSmaller => some (.binary 0 1 (.elemSmaller .add))
  | .sub => some (.binary 0 1 (.elem .sub e.k e.addr))
  | .subSmaller => some (.binary 0 1 (.elemSmaller .sub))
  | .div => some (.binary 0 1 (.elem .div e.k e.addr))
  | .divSmaller => some (.binary 0 1 (.elemSmaller .div))
  | .mul => some (.binary 0 1 (.elem .mul e.k e.addr))
  | .mulSmaller => some (.binary 0 1 (.elemSmaller .mul))
  | .zeroPadB _ _ => none
  | .zeroInterleaveB f => some (.single 0 (.zeroInterleaveB b f))
  | .diff => some (.single 0 .diff)
  | .diffWithStart => some (.single 0 .diffWithStart)
  | .cumSum => some (.single 0 .cumSum)
  | .abs => some (.single 0 (.abs c.math e.k e.addr st []))
  | .sqrt => some (.single 0 (.sqrt c.math e.k e.addr st []))
  | .square => some (.single 0 (.square e.k e.addr st []))
  | .ln => some (.single 0 (.mathOp c.math .ln st []))
  | .exp => some (.single 0 (.mathOp c.math .exp st []))
  | .toComplexB => some (.single 0 (.toComplexB b))
  | .sin => some (.single 0 (.mathOp c.math .sin st []))
  | .cos => some (.single 0 (.mathOp c.math .cos st []))
  | .tan => some (.single 0 (.mathOp c.math .tan st []))
  | .asin => some (.single 0 (.mathOp c.math .asin st []))
  | .acos => some (.single 0 (.mathOp c.math .acos st []))
  | .atan => some (.single 0 (.mathOp c.math .atan st []))
  | .sinh => some (.single 0 (.mathOp c.math .sinh st []))
  | .cosh => some (.single 0 (.mathOp c.math .cosh st []))
  | .tanh => some (.single 0 (.mathOp c.math .tanh st []))
  | .asinh => some (.single 0 (.mathOp c.math .asinh st []))
  | .acosh => some (.single 0 (.mathOp c.math .acosh st []))
  | .atanh => some (.single 0 (.mathOp c.math .atanh st []))
  | .lnApprox => none
  | .expApprox => none
  | .sinApprox => none
  | .cosApprox => none
  | .swapHalves => some (.single 0 .swapHalves)
  | .magnitudeB => some (.single 0 (.magnitudeB e.k e.addr e.simdMagnitude c.magnitude b))
  | .magnitudeSquaredB => some (.single 0 (.magnitudeB e.k e.addr e.simdMagnitudeSquared c.magnitudeSquared b))
  | .conj => some (.single 0 (.conj e.k e.addr st []))
  | .toRealB => some (.single 0 (.complexToRealB Cx.re b st []))
  | .toImagB => some (.single 0 (.complexToRealB Cx.im b st []))
  | .phaseB => some (.single 0 (.complexToRealB c.phase b st []))
  | .plainFft => some (.single 0 (.plainFft c.kernel b))
  | .plainSfft => none
  | .plainIfft => some (.single 0 (.plainIfft c.kernel b))
  | .fft => some (.single 0 (.fft c.kernel b))
  | .sfft => none
  | .ifft => some (.single 0 (.ifft c.kernel e.k e.addr st b []))
  | .plainSifft => none
  | .sifft => none
  | .mirror => some (.single 0 (.mirror b))
  | .fftShift => some (.single 0 .fftShift)
  | .ifftShift => some (.single 0 .ifftShift)
  | .reverse => some (.single 0 .reverse)
  | .prepareArgument => some (.unary 0 (.prepareArgument c.kernel e.k e.addr st b))
  | .prepareArgumentPadded => some (.unary 0 (.prepareArgumentPadded c.kernel e.k e.addr st b))
  | .correlate => some (.binary 0 1 (.correlate c.kernel e.k e.addr st b))
  | .convolveSignal => some (.binary 0 1 (.convolveSignal c.kernel e.junk e.k e.addr st b))
  | .setRealImag => some (.setRealImag 0 1 2)
  | .setMagPhase => some (.setMagPhase c.cart 0 1 2)
  | .merge => some (.merge 0 (List.range' 1 n))
  | .offset x => some (.single 0 (.offset e.k e.addr st x []))
  | .scale x => some (.single 0 (.scale e.k e.addr st x []))
  | .root x => some (.single 0 (.mathOp c.math (.powf (1 / x)) st []))
  | .powf x => some (.single 0 (.mathOp c.math (.powf x) st []))
  | .log x => some (.single 0 (.mathOp c.math (.log x) st []))
  | .expf x => some (.single 0 (.mathOp c.math (.expf x) st []))
  | .logApprox _ => none
  | .expfApprox _ => none
  | .powfApprox _ => none
  | .wrap x => some (.unary 0 (.wrap x st))
  | .unwrap x => some (.unary 0 (.unwrap x))
  | .offsetComplex x => some (.single 0 (.offsetComplex e.k e.addr st x []))
  | .scaleComplex x => some (.single 0 (.scaleComplex e.k e.addr st x []))
  | .mapInplace f => some (.single 0 (.mapInplace f st []))
  | .mapInplaceComplex f => some (.single 0 (.mapInplaceComplex f st []))
  | .multiplyComplexExponential x y => some (.unary 0 (.exponential c.cis x y))
  | .applyWindow w => some (.single 0 (.applyWindow (w.function c) st []))
  | .unapplyWindow w => some (.single 0 (.unapplyWindow (w.function c) st []))
  | .windowedFft w => some (.unary 0 (.windowedFft c.kernel st b (w.function c)))
  | .windowedSfft _ => none
  | .windowedIfft w => some (.unary 0 (.windowedIfft c.kernel e.k e.addr st b (w.function c)))
  | .windowedSifft _ => none
  | .decimatei f d => some (.single 0 (.decimatei f d))
  | .convolve f ratio len => some (.unary 0 (.convolveReal c.kernel e.junk e.k e.addr st b (f.impulse c) ratio len))
  | .convolveComplex f ratio len => some (.unary 0 (.convolveComplex c.kernel e.junk e.k e.addr st b f.f ratio len))
  | .multiplyFrequencyResponse f ratio => some (.unary 0 (.realResponse st (f.frequency c) ratio))
  | .multiplyFrequencyResponseComplex f ratio => some (.unary 0 (.complexResponse st ⟨f.isSymmetric, f.f⟩ ratio))
  | .interpolatef f factor delay len => some (.unary 0 (.interpolatef e.k e.addr st b (f.impulse c) factor delay len))
  | .interpolate f points delay =>
    some (.unary 0 (.interpolate c.kernel e.k e.addr c.cis c.pi st b (some (f.frequency c)) points delay))
  | .interpft points => some (.unary 0 (.interpft c.kernel e.k e.addr c.cis c.pi st b points))
  | .interpolatei f factor => some (.unary 0 (.interpolatei c.kernel e.k e.addr st b (f.frequency c) factor))
  | .interpolateLin factor delay => some (.unary 0 (.interpolateLin b factor delay))
  | .interpolateHermite factor delay => some (.unary 0 (.interpolateHermite b factor delay))

/-- The functions which write to other vectors, complex_to_real.rs:609-712. -/
def FillFun.stmt (c : LibConsts T) (e : CallEnv T) (st : MultiCoreSettings) : FillFun → Stmt T
  | .getMagnitude => .get 0 1 (.magnitude e.k e.addr e.simdMagnitude c.magnitude)
  | .getMagnitudeSquared => .get 0 1 (.magnitude e.k e.addr e.simdMagnitudeSquared c.magnitudeSquared)
  | .getReal => .get 0 1 (.part Cx.re st)
  | .getImag => .get 0 1 (.part Cx.im st)
  | .getPhase => .get 0 1 (.part c.phase st)
  | .getRealImag => .getTwo 0 1 2 .realImag
  | .getMagPhase => .getTwo 0 1 2 (.magPhase c.polar)

/-- The dot products, dot_products.rs, and `map_aggregate`, mapping.rs. -/
def ScalarFun.stmt (e : CallEnv T) (st : MultiCoreSettings) : ScalarFun T → Option (Stmt T)
  | .realDotProduct => some (.dot 0 1 (.real false e.k e.addr st))
  | .complexDotProduct => some (.dot 0 1 (.complex false e.k e.addr st))
  | .realDotProductPrec => some (.dot 0 1 (.real true e.k e.addr st))
  | .complexDotProductPrec => some (.dot 0 1 (.complex true e.k e.addr st))
  | .mapAggregateReal map agg => some (.stats 0 (.aggregatePtr map agg st))
  | .mapAggregateComplex map agg => some (.stats 0 (.aggregatePtrComplex map agg st))

/-- The sums and the statistics, statistics.rs and precise_stats.rs. -/
def ValueFun.stmt (c : LibConsts T) (e : CallEnv T) (st : MultiCoreSettings) : ValueFun → Option (Stmt T)
  | .realStatistics => some (.stats 0 (.real false c.math.sqrt st))
  | .complexStatistics => some (.stats 0 (.complex false c.magnitude c.math.sqrtCx st))
  | .realSum => some (.sum 0 (.sum e.k e.addr st))
  | .realSumSq => some (.sum 0 (.sumSq e.k e.addr st))
  | .complexSum => some (.sum 0 (.sumComplex e.k e.addr st))
  | .complexSumSq => some (.sum 0 (.sumSqComplex e.k e.addr st))
  | .realStatisticsPrec => some (.stats 0 (.real true c.math.sqrt st))
  | .complexStatisticsPrec => some (.stats 0 (.complex true c.magnitude c.math.sqrtCx st))
  | .realSumPrec => some (.sum 0 (.sumPrec st))
  | .realSumSqPrec => some (.sum 0 (.sumSqPrec st))
  | .complexSumPrec => some (.sum 0 (.sumPrecComplex st))
  | .complexSumSqPrec => some (.sum 0 (.sumSqPrecComplex st))

/-- The functions `statistics_split` and `statistics_split_prec`, statistics.rs and precise_stats.rs. -/
def SplitFun.stmt (c : LibConsts T) (st : MultiCoreSettings) (k : Nat) : SplitFun → Stmt T
  | .real => .stats 0 (.splitReal false c.math.sqrt st k)
  | .complex => .stats 0 (.splitComplex false c.magnitude c.math.sqrtCx st k)
  | .realPrec => .stats 0 (.splitReal true c.math.sqrt st k)
  | .complexPrec => .stats 0 (.splitComplex true c.magnitude c.math.sqrtCx st k)

/-- The result which a method of the library returned, if it returns one. -/
def returnedResult : List (Out T) → VoidResult
  | [.result r] => r
  | _ => .ok ()

/-- The number which a function of the library returned. -/
def returnedNumber : List (Out T) → Except ErrorReason (Value T)
  | [.real (.ok x)] => .ok (.real x)
  | [.real (.error x)] => .error x
  | [.complex (.ok x)] => .ok (.complex x)
  | [.complex (.error x)] => .error x
  | [.pointer (.ok x)] => .ok (.ptr x)
  | [.pointer (.error x)] => .error x
  | [.stats s] => .ok (.statistics s)
  | [.statsComplex s] => .ok (.statisticsComplex s)
  | _ => .ok .nan

/-- The statistics which a function of the library returned. -/
def returnedStatistics : List (Out T) → Except ErrorReason (List (Value T))
  | [.statsSplit r] => r.map (List.map .statistics)
  | [.statsSplitComplex r] => r.map (List.map .statisticsComplex)
  | _ => .ok []

/-- The number of a sum, which has no error. -/
def sumNumber : Except ErrorReason (Value T) → Outcome (Value T)
  | .ok x => .finished x
  | .error _ => .panic

/-- The library behind the facade in an environment; `s1`, `s2` are the schedules of the workers. `other` stands for the methods which are not
    modelled here. -/
def modelLib (c : LibConsts T) (e : CallEnv T) (other : Lib T) (s1 s2 : List Nat) : Lib T where
  method m st v b ops :=
    match m with
    | .zeroPadB points option => .ofOption (v.zeroPadB b points option)
    | m =>
      match m.stmt c e st b ops.length with
      | some s => (s.exec s1 s2 (localMachine v ops)).andThen fun r => .finished (r.vec 0, .single e.leftover, returnedResult r.out)
      | none => other.method m st v b ops
  fill f st v ops :=
    ((f.stmt c e st).exec s1 s2 (localMachine v ops)).andThen fun r => .finished ((List.range' 1 ops.length).map r.vec)
  split v ops :=
    ((Stmt.split 0 (List.range' 1 ops.length)).exec s1 s2 (localMachine v ops)).andThen fun r =>
      .finished ((List.range' 1 ops.length).map r.vec, returnedResult r.out)
  scalar f st v ops :=
    match f.stmt e st with
    | some s => (s.exec s1 s2 (localMachine v ops)).andThen fun r => .finished (returnedNumber r.out)
    | none => other.scalar f st v ops
  value f st v :=
    match f.stmt c e st with
    | some s => (s.exec s1 s2 (localMachine v [])).andThen fun r => sumNumber (returnedNumber r.out)
    | none => other.value f st v
  statistics f st v n :=
    ((f.stmt c st n).exec s1 s2 (localMachine v [])).andThen fun r => .finished (returnedStatistics r.out)

/-- A program on the real memory where every call finds its own environment: `libs i` is the library as the statement `i` meets it. -/
def CState.runEach (libs : Nat → Lib T) (cal : Calibration) (alloc : Allocator T) :
    Nat → CState T → List (CStmt T) → Option (Outcome (CState T × List (COut T)))
  | _, σ, [] => some (.finished (σ, []))
  | i, σ, s :: rest =>
    match σ.step (libs i) cal alloc s with
    | none => none
    | some .panic => some .panic
    | some .running => some .running
    | some (.finished (σ', o)) =>
      (CState.runEach libs cal alloc (i + 1) σ' rest).map fun r => r.andThen fun q => .finished (q.1, o :: q.2)

end
end Dsp
