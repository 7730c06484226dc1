import Verif.Model.Facade
import Verif.Spec.Interop
import Verif.Spec.ProgramSafe
import Verif.Model.Extract
/-
The meaning of C programs in terms of signals: what a C program sees if its variables held signals. Nothing before the last section mentions
memory, handles, boxes, buffers, workers, schedules, registers or addresses.
-/
namespace Dsp
variable {T : Type}

/-- What a C program works with: the signal in every variable which holds one. -/
abbrev CWorld (T : Type) := Nat → Option (Signal T)

/-- What a function does with signals: the signal which it was given first, the other signals, and what it returns. -/
structure SReply (T : Type) where
  self : Signal T
  operands : List (Signal T)
  out : COut T

/-- The variables of a call: 0 is the signal itself, 1, 2, .. are the other signals. -/
def localWorld (s : Signal T) (ops : List (Signal T)) : World T := ⟨fun i => ((s :: ops)[i]?).getD s, []⟩

open Classical in
/-- The code of a result: 0 for success, -1 if the signal was marked as invalid (it is empty and has no sampling distance), otherwise the
    documented number of the error. -/
noncomputable def codeOf (s : Signal T) : VoidResult → Int
  | .ok () => if s.numbers.count = 0 ∧ s.delta = none then -1 else 0
  | .error e => ((documentedErrors.find? fun p => p.2 = e).map Prod.fst).getD (if e = .inputMustHaveAnEvenLength then 13 else 14)

/-- The result which a call returned, success if it returned none. -/
def worldResult : List (Out T) → VoidResult
  | [.result r] => r
  | _ => .ok ()

section
variable [Field T] [LinearOrder T] [FloorRing T]

/-- What the methods of the library mean, for a signal 0 and the operands 1, 2, .., without the environment of the call. -/
def LibMethod.call (c : LibConsts T) (n : Nat) : LibMethod T → Option (StmtCall T)
  | .add => some (.binary 0 1 (.elem .add))
  | .addSmaller => some (.binary 0 1 (.elemSmaller .add))
  | .sub => some (.binary 0 1 (.elem .sub))
  | .subSmaller => some (.binary 0 1 (.elemSmaller .sub))
  | .div => some (.binary 0 1 (.elem .div))
  | .divSmaller => some (.binary 0 1 (.elemSmaller .div))
  | .mul => some (.binary 0 1 (.elem .mul))
  | .mulSmaller => some (.binary 0 1 (.elemSmaller .mul))
  | .zeroPadB _ _ => none
  | .zeroInterleaveB f => some (.single 0 (.zeroInterleave f))
  | .diff => some (.single 0 .diff)
  | .diffWithStart => some (.single 0 .diffWithStart)
  | .cumSum => some (.single 0 .cumSum)
  | .abs => some (.single 0 (.abs c.math))
  | .sqrt => some (.single 0 (.sqrt c.math))
  | .square => some (.single 0 .square)
  | .ln => some (.single 0 (.mathOp c.math .ln))
  | .exp => some (.single 0 (.mathOp c.math .exp))
  | .toComplexB => some (.single 0 .toComplex)
  | .sin => some (.single 0 (.mathOp c.math .sin))
  | .cos => some (.single 0 (.mathOp c.math .cos))
  | .tan => some (.single 0 (.mathOp c.math .tan))
  | .asin => some (.single 0 (.mathOp c.math .asin))
  | .acos => some (.single 0 (.mathOp c.math .acos))
  | .atan => some (.single 0 (.mathOp c.math .atan))
  | .sinh => some (.single 0 (.mathOp c.math .sinh))
  | .cosh => some (.single 0 (.mathOp c.math .cosh))
  | .tanh => some (.single 0 (.mathOp c.math .tanh))
  | .asinh => some (.single 0 (.mathOp c.math .asinh))
  | .acosh => some (.single 0 (.mathOp c.math .acosh))
  | .atanh => some (.single 0 (.mathOp c.math .atanh))
  | .lnApprox | .expApprox | .sinApprox | .cosApprox => none
  | .swapHalves => some (.single 0 .swapHalves)
  | .magnitudeB => some (.single 0 (.complexToReal c.magnitude))
  | .magnitudeSquaredB => some (.single 0 (.complexToReal c.magnitudeSquared))
  | .conj => some (.single 0 .conj)
  | .toRealB => some (.single 0 (.complexToReal Cx.re))
  | .toImagB => some (.single 0 (.complexToReal Cx.im))
  | .phaseB => some (.single 0 (.complexToReal c.phase))
  | .plainFft => some (.single 0 (.plainFft c.kernel))
  | .plainIfft => some (.single 0 (.plainIfft c.kernel))
  | .fft => some (.single 0 (.fft c.kernel))
  | .ifft => some (.single 0 (.ifft c.kernel))
  | .plainSfft | .sfft | .plainSifft | .sifft | .windowedSfft _ | .windowedSifft _ => none
  | .mirror => some (.single 0 .mirror)
  | .fftShift => some (.single 0 .swapHalves)
  | .ifftShift => some (.single 0 .swapHalvesBack)
  | .reverse => some (.single 0 .reverse)
  | .prepareArgument => some (.unary 0 (.prepareArgument c.kernel))
  | .prepareArgumentPadded => some (.unary 0 (.prepareArgumentPadded c.kernel))
  | .correlate => some (.binary 0 1 (.correlate c.kernel))
  | .convolveSignal => some (.binary 0 1 .convolveSignal)
  | .setRealImag => some (.setComplex Cx.mk 0 1 2)
  | .setMagPhase => some (.setComplex c.cart 0 1 2)
  | .merge => some (.merge 0 (List.range' 1 n))
  | .offset x => some (.single 0 (.offset x))
  | .scale x => some (.single 0 (.scale x))
  | .root x => some (.single 0 (.mathOp c.math (.powf (1 / x))))
  | .powf x => some (.single 0 (.mathOp c.math (.powf x)))
  | .log x => some (.single 0 (.mathOp c.math (.log x)))
  | .expf x => some (.single 0 (.mathOp c.math (.expf x)))
  | .logApprox _ | .expfApprox _ | .powfApprox _ => none
  | .wrap x => some (.unary 0 (.wrap x))
  | .unwrap x => some (.unary 0 (.unwrap x))
  | .offsetComplex x => some (.single 0 (.offsetComplex x))
  | .scaleComplex x => some (.single 0 (.scaleComplex x))
  | .mapInplace f => some (.single 0 (.mapReal f))
  | .mapInplaceComplex f => some (.single 0 (.mapComplex f))
  | .multiplyComplexExponential x y => some (.unary 0 (.exponential c.cis x y))
  | .applyWindow w => some (.single 0 (.applyWindow (w.function c)))
  | .unapplyWindow w => some (.single 0 (.unapplyWindow (w.function c)))
  | .windowedFft w => some (.unary 0 (.windowedFft c.kernel (w.function c)))
  | .windowedIfft w => some (.unary 0 (.windowedIfft c.kernel (w.function c)))
  | .decimatei f d => some (.single 0 (.decimate f d))
  | .convolve f ratio len => some (.unary 0 (.convolveReal (f.impulse c) ratio len))
  | .convolveComplex f ratio len => some (.unary 0 (.convolveComplex f.f ratio len))
  | .multiplyFrequencyResponse f ratio => some (.unary 0 (.realResponse (f.frequency c).value ratio))
  | .multiplyFrequencyResponseComplex f ratio => some (.unary 0 (.complexResponse f.f ratio))
  | .interpolatef f factor delay len => some (.unary 0 (.interpolatef (f.impulse c) factor delay len))
  | .interpolate f points delay => some (.unary 0 (.interpolate c.kernel c.cis c.pi (some (f.frequency c).value) points delay))
  | .interpft points => some (.unary 0 (.interpft c.kernel points))
  | .interpolatei f factor => some (.unary 0 (.interpolatei c.kernel (f.frequency c).value factor))
  | .interpolateLin factor delay => some (.unary 0 (.interpolateLin factor delay))
  | .interpolateHermite factor delay => some (.unary 0 (.interpolateHermite factor delay))

/-- What a method of the library does with signals and the code which is reported for it. Methods which are not described here leave
    everything as it is (they are excluded below). -/
noncomputable def LibMethod.meaning (c : LibConsts T) (s : Signal T) (ops : List (Signal T)) : LibMethod T → SReply T
  | .zeroPadB p o =>
    if p ≤ s.numbers.count then ⟨s, ops, ⟨some 7, []⟩⟩
    else
      let s' := { s with numbers := s.numbers.rearrange fun z l => padSpec z l p (surroundRight l.length p) o }
      ⟨s', ops, ⟨some (codeOf s' (.ok ())), []⟩⟩
  | m =>
    match m.call c ops.length with
    | some call =>
      let w := call.meaning (localWorld s ops)
      ⟨w.sig 0, ops, ⟨some (codeOf (w.sig 0) (worldResult w.out)), []⟩⟩
    | none => ⟨s, ops, ⟨none, []⟩⟩

/-- The functions which write to other vectors: the numbers in the targets. -/
def FillFun.call (c : LibConsts T) : FillFun → StmtCall T
  | .getMagnitude => .get 0 1 c.magnitude
  | .getMagnitudeSquared => .get 0 1 c.magnitudeSquared
  | .getReal => .get 0 1 Cx.re
  | .getImag => .get 0 1 Cx.im
  | .getPhase => .get 0 1 c.phase
  | .getRealImag => .getTwo 0 1 2 Cx.re Cx.im
  | .getMagPhase => .getTwo 0 1 2 (fun z => (c.polar z).1) (fun z => (c.polar z).2)

/-- The numbers of a signal as they are after its first ones were overwritten. -/
def Numbers.overwrite (xs : List T) : Numbers T → Numbers T
  | .real l => .real (xs ++ l.drop xs.length)
  | .complex l => .complex (completePairs (xs ++ (fromComplex l).drop xs.length))

/-- The numbers of a signal after one of them (real and imaginary parts count separately) was changed. -/
def Numbers.setFlat (i : Nat) (x : T) : Numbers T → Numbers T
  | .real l => .real (l.set i x)
  | .complex l => .complex (completePairs ((fromComplex l).set i x))

omit [Field T] [LinearOrder T] [FloorRing T] in
/-- A value or an error with the null pointer. -/
noncomputable def pointerAnswer (s : Signal T) : Except ErrorReason Nat → COut T
  | .error e => ⟨some (codeOf s (.error e)), [.ptr 0]⟩
  | .ok x => ⟨some (codeOf s (.ok ())), [.ptr x]⟩

/-- The dot products and `map_aggregate`: the value or the error with a zero. -/
noncomputable def ScalarFun.answer (s o : Signal T) : ScalarFun T → COut T
  | .realDotProduct | .realDotProductPrec =>
    match dotMeaning false s o with
    | .real (.error e) => ⟨some (codeOf s (.error e)), [.real 0]⟩
    | .real (.ok x) => ⟨some (codeOf s (.ok ())), [.real x]⟩
    | _ => ⟨none, []⟩
  | .complexDotProduct | .complexDotProductPrec =>
    match dotMeaning true s o with
    | .complex (.error e) => ⟨some (codeOf s (.error e)), [.complex ⟨0, 0⟩]⟩
    | .complex (.ok x) => ⟨some (codeOf s (.ok ())), [.complex x]⟩
    | _ => ⟨none, []⟩
  | .mapAggregateReal map agg => pointerAnswer s (s.numbers.aggregateReal fun l => leftFold agg (l.mapIdx fun i x => map x i))
  | .mapAggregateComplex map agg => pointerAnswer s (s.numbers.aggregateComplex fun l => leftFold agg (l.mapIdx fun i x => map x i))

/-- The sums and the statistics. -/
def ValueFun.answer (c : LibConsts T) (s : Signal T) : ValueFun → List (Value T)
  | .realSum | .realSumPrec => [.real s.numbers.flat.sum]
  | .realSumSq | .realSumSqPrec => [.real (s.numbers.flat.map fun x => x * x).sum]
  | .complexSum | .complexSumPrec => [.complex s.numbers.asCx.sum]
  | .complexSumSq | .complexSumSqPrec => [.complex (s.numbers.asCx.map fun x => x * x).sum]
  | .realStatistics | .realStatisticsPrec => [.statistics (realSummary c.math.sqrt s.numbers.flat)]
  | .complexStatistics | .complexStatisticsPrec => [.statisticsComplex (complexSummary c.magnitude c.math.sqrtCx s.numbers.asCx)]

/-- The statistics of the parts of the numbers, at most 16. -/
def SplitFun.answer (c : LibConsts T) (s : Signal T) (k : Nat) : SplitFun → Except ErrorReason (List (Value T))
  | .real | .realPrec => splitInParts k (fun l => .statistics (realSummary c.math.sqrt l)) s.numbers.flat
  | .complex | .complexPrec => splitInParts k (fun l => .statisticsComplex (complexSummary c.magnitude c.math.sqrtCx l)) s.numbers.asCx

omit [Field T] [LinearOrder T] [FloorRing T] in
/-- The array of the C program after it was filled, with the code 0, or the array as it was and the code of the error. -/
noncomputable def filledArray (s : Signal T) (data : List (Value T)) : Except ErrorReason (List (Value T)) → COut T
  | .ok l => ⟨some 0, l ++ data.drop l.length⟩
  | .error e => ⟨some (codeOf s (.error e)), data⟩

/-- What an exported function does with signals. The functions which write to other vectors report 9 for success
    (C68_getters_violated). -/
noncomputable def CFun.meaning (c : LibConsts T) (s : Signal T) (ops : List (Signal T)) : CFun T → SReply T
  | .vec f => f.method.meaning c s ops
  | .overwriteData xs =>
    if xs.length < s.numbers.flat.length then ⟨{ s with numbers := s.numbers.overwrite xs }, [], ⟨some 0, []⟩⟩
    else ⟨s, [], ⟨some 7, []⟩⟩
  | .clone => ⟨s, ops, ⟨none, []⟩⟩
  | .fill f =>
    let w := (f.call c).meaning (localWorld s ops)
    ⟨s, (List.range' 1 ops.length).map w.sig, ⟨some 9, []⟩⟩
  | .splitInto =>
    let w := (StmtCall.split 0 (List.range' 1 ops.length)).meaning (localWorld s ops)
    ⟨s, (List.range' 1 ops.length).map w.sig, ⟨some (if ops ≠ [] ∧ ops.length ∣ s.numbers.flat.length then 9 else 7), []⟩⟩
  | .scalar f => ⟨s, ops, f.answer s ((localWorld s ops).sig 1)⟩
  | .value f => ⟨s, ops, ⟨none, f.answer c s⟩⟩
  | .statisticsSplit f d => ⟨s, [], filledArray s d (f.answer c s d.length)⟩
  | .getValue i => ⟨s, ops, ⟨none, (s.numbers.flat[i]?).toList.map .real⟩⟩
  | .setValue i x => ⟨{ s with numbers := s.numbers.setFlat i x }, ops, ⟨none, []⟩⟩
  | .isComplex => ⟨s, ops, ⟨none, [.int (if s.numbers.isComplex then 1 else 0)]⟩⟩
  | .getDomain => ⟨s, ops, ⟨none, [.int (if s.dom = .time then 0 else 1)]⟩⟩
  | .getLen => ⟨s, ops, ⟨none, [.usize s.numbers.flat.length]⟩⟩
  | .setLen n => ⟨Call.meaning s (.resize n), ops, ⟨none, []⟩⟩
  | .getPoints => ⟨s, ops, ⟨none, [.usize s.numbers.count]⟩⟩
  | .getDelta => ⟨s, ops, ⟨none, [s.delta.elim .nan .real]⟩⟩
  | .data => ⟨s, ops, ⟨none, [.numbers s.numbers.flat]⟩⟩
  | .complexData => ⟨s, ops, ⟨none, [.complexNumbers s.numbers.asCx]⟩⟩
  | .getAllocatedLen => ⟨s, ops, ⟨none, []⟩⟩

/-- The signal of a new vector: `n` times the same number; two of them are a complex number. -/
def newSignal (isComplex domain : Int) (x : T) (n : Nat) (delta : T) : Signal T where
  numbers := if isComplex = 0 then .real (List.replicate n x) else .complex (List.replicate (if n % 2 = 0 then n / 2 else 0) ⟨x, x⟩)
  dom := if domain = 0 then .time else .frequency
  generic := true
  delta := some delta

omit [Field T] [LinearOrder T] [FloorRing T] in
/-- Variables set one after the other. -/
def CWorld.writeAll (w : CWorld T) : List (Nat × Signal T) → CWorld T
  | [] => w
  | p :: l => CWorld.writeAll (assign w p.1 (some p.2)) l

omit [Field T] [LinearOrder T] [FloorRing T] in
/-- The variables after a call: which variables a call empties and fills is the same as for vectors (`Store.after`). -/
def CWorld.after (w : CWorld T) (f : CFun T) (y x : Nat) (xs : List Nat) (r : SReply T) : CWorld T :=
  let w' := if f.operands.mutable then w.writeAll (xs.zip r.operands) else w
  match f.gives, f.takes with
  | .nothing, .box => assign w' x none
  | .nothing, .refMut => assign w' x (some r.self)
  | .nothing, _ => w'
  | _, _ => assign (assign w' x none) y (some r.self)

/-- A statement of a C program with signals instead of handles: the variables afterwards and what is given back to the program. -/
noncomputable def CWorld.step (c : LibConsts T) (w : CWorld T) : CStmt T → CWorld T × COut T
  | .create x isComplex d v n δ _ => (assign w x (some (newSignal isComplex d v n δ)), ⟨none, []⟩)
  | .delete x => (assign w x none, ⟨none, []⟩)
  | .call y x f args =>
    match w x, (args.map CArg.var).mapM w with
    | some s, some ops => (w.after f y x (args.map CArg.var) (f.meaning c s ops), (f.meaning c s ops).out)
    | _, _ => (w, ⟨none, []⟩)

/-- A C program with signals instead of handles. -/
noncomputable def CWorld.run (c : LibConsts T) : CWorld T → List (CStmt T) → CWorld T × List (COut T)
  | w, [] => (w, [])
  | w, s :: rest => ((CWorld.run c (w.step c s).1 rest).1, (w.step c s).2 :: (CWorld.run c (w.step c s).1 rest).2)

omit [Field T] [LinearOrder T] [FloorRing T] in
/-- A statement without the options which only concern the performance. -/
def CStmt.plain : CStmt T → CStmt T
  | .create x isComplex d v n δ _ => .create x isComplex d v n δ .standard
  | s => s

/-! ### Vectors which show signals, and environments -/

omit [Field T] [LinearOrder T] [FloorRing T] in
/-- The vectors in the variables show the signals. -/
def Store.Shows (s : Store T) (w : CWorld T) : Prop :=
  ∀ x, match s x, w x with
    | some iv, some sg => iv.vec.Shows sg
    | none, none => True
    | _, _ => False

/-- A method of the library finds vectors and an environment which it accepts: the conditions of C53 and C72. -/
def LibMethod.Safe (c : LibConsts T) (e : CallEnv T) (st : MultiCoreSettings) (b : Buffer T) (v : DspVec T) (ops : List (DspVec T)) :
    LibMethod T → Prop
  | .zeroPadB p o => v.Safe (.zeroPadB b p o)
  | m => ∃ s, m.stmt c e st b ops.length = some s ∧ s.Safe (localMachine v ops)

/-- An exported function finds vectors and an environment which it accepts: the conditions of C53 and C72 for the functions of the
    library, valid indices, complex numbers where they are asked for. The size of the memory is not described. -/
def CFun.Safe (c : LibConsts T) (e : CallEnv T) (iv : InteropVec T) (ops : List (InteropVec T)) : CFun T → Prop
  | .vec f => f.method.Safe c e iv.settings iv.buffer iv.vec (ops.map (·.vec))
  | .fill f => ops.length = f.targets ∧ (f.stmt c e iv.settings).Safe (localMachine iv.vec (ops.map (·.vec)))
  | .splitInto => (Stmt.split 0 (List.range' 1 ops.length)).Safe (localMachine iv.vec (ops.map (·.vec)))
  | .scalar f => ∃ s, f.stmt e iv.settings = some s ∧ s.Safe (localMachine iv.vec (ops.map (·.vec)))
  | .value f => ∃ s, f.stmt c e iv.settings = some s ∧ s.Safe (localMachine iv.vec [])
  | .getValue i => i < iv.vec.len
  | .setValue i _ => i < iv.vec.len
  | .setLen n => iv.vec.Safe (.resize n)
  | .complexData => iv.vec.isComplex = true
  | .statisticsSplit f d => (f.stmt c iv.settings d.length).Safe (localMachine iv.vec [])
  | .getAllocatedLen => False
  | .overwriteData _ | .clone | .isComplex | .getDomain | .getLen | .getPoints | .getDelta | .data => True

/-- A statement finds vectors and an environment which it accepts. -/
def CStmt.Safe (c : LibConsts T) (e : CallEnv T) (s : Store T) : CStmt T → Prop
  | .create _ _ _ _ _ _ _ => True
  | .delete _ => True
  | .call _ x f args => ∀ iv ops, s x = some iv → (args.map CArg.var).mapM s = some ops → f.Safe c e iv ops

/-- Every statement which a C program reaches obeys the rules for handles and finds an environment which it accepts, whatever the schedules
    are. -/
def SafeProgram (c : LibConsts T) (env : Nat → CallEnv T) (other : Lib T) (cal : Calibration) : Nat → Store T → List (CStmt T) → Prop
  | _, _, [] => True
  | i, s, st :: rest => Legal s st ∧ st.Safe c (env i) s ∧
      ∀ s1 s2 s' o, s.step (modelLib c (env i) other s1 s2) cal st = .finished (s', o) → SafeProgram c env other cal (i + 1) s' rest

omit [Field T] [LinearOrder T] [FloorRing T] in
/-- Two C programs hold the same signals: the same variables hold vectors, and these have the same numbers, number space, domain and sampling
    distance. -/
def Store.SameSignals (a b : Store T) : Prop :=
  ∀ x, match a x, b x with
    | some u, some v => u.vec.content = v.vec.content ∧ u.vec.isComplex = v.vec.isComplex ∧ u.vec.dom = v.vec.dom ∧ u.vec.delta = v.vec.delta
    | none, none => True
    | _, _ => False

end
end Dsp
