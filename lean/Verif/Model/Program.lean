import Verif.Model.History
import Verif.Model.Sums
import Verif.Model.Stats
import Verif.Model.Conv
import Verif.Model.Correlation
import Verif.Model.ConvFunction
import Verif.Model.FreqResponse
import Verif.Model.Interpolate
import Verif.Model.Interpolatef
import Verif.Spec.Elementary
import Mathlib.Logic.Function.Basic
/-
Programs which use several vectors: every statement is a call of one of the modelled functions, see there for the lines
in the source. The operands of a statement are variables; what a statement reads is read before anything is written (the
borrow rules of the language exclude that an operand is written during the call).
-/
namespace Dsp
variable {T : Type}

/-- What a call returns beside the vector: the result of the function, or a number. -/
inductive Out (T : Type)
  | result (r : VoidResult)
  | real (r : Except ErrorReason T)
  | complex (r : Except ErrorReason (Cx T))
  /-- A value of a type of the user, of which the program only keeps track, like the pointers of the C interface. -/
  | pointer (r : Except ErrorReason Nat)
  | stats (s : Statistics T)
  | statsComplex (s : Statistics (Cx T))
  | statsSplit (r : Except ErrorReason (List (Statistics T)))
  | statsSplitComplex (r : Except ErrorReason (List (Statistics (Cx T))))

/-- The variables of a program and everything which the calls returned, in the order of the calls. -/
structure Machine (T : Type) where
  vec : Nat → DspVec T
  out : List (Out T)

/-- Assignment of a variable, with the values which the call returned. -/
def Machine.put (m : Machine T) (x : Nat) (w : DspVec T) (o : List (Out T)) : Machine T :=
  ⟨Function.update m.vec x w, m.out ++ o⟩

/-- Assignment of several variables. -/
def Machine.putAll (m : Machine T) (xs : List Nat) (ws : List (DspVec T)) (o : List (Out T)) : Machine T :=
  ⟨fun x => ((xs.zip ws).find? fun p => p.1 == x).elim (m.vec x) Prod.snd, m.out ++ o⟩

/-- Operations on one vector which are not part of `VecOp`, with all their arguments. Source: `multiply_complex_exponential`
    (complex_ops.rs:81-105), `interpolate_lin`, `interpolate_hermite`, `interpft`, `interpolate`, `interpolatei`, `interpolatef`
    (interpolation.rs), `prepare_argument(_padded)` (correlation.rs:96-117), `convolve` (convolution.rs:136-254), `multiply_frequency_response`
    (convolution.rs:553-609), `windowed_fft` (time_to_freq.rs:167-175), `windowed_ifft` (freq_to_time.rs:170-177), `wrap`, `unwrap`
    (real_ops.rs:261-288); line by line in the modelled functions. -/
inductive UnOp (T : Type)
  | exponential (cis : T → Cx T) (a b : T)
  | interpolateLin (buf : Buffer T) (factor delay : T)
  | interpolateHermite (buf : Buffer T) (factor delay : T)
  | prepareArgument (K : FftKernel T) (k : RegKind) (addr : Nat) (st : MultiCoreSettings) (buf : Buffer T)
  | prepareArgumentPadded (K : FftKernel T) (k : RegKind) (addr : Nat) (st : MultiCoreSettings) (buf : Buffer T)
  | convolveReal (K : FftKernel T) (junk : List (Cx T) → List (Cx T)) (k : RegKind) (addr : Nat) (st : MultiCoreSettings)
      (buf : Buffer T) (fn : T → T) (ratio : T) (len : Nat)
  | convolveComplex (K : FftKernel T) (junk : List (Cx T) → List (Cx T)) (k : RegKind) (addr : Nat) (st : MultiCoreSettings)
      (buf : Buffer T) (fn : T → Cx T) (ratio : T) (len : Nat)
  | realResponse (st : MultiCoreSettings) (f : FrequencyResponse T T) (ratio : T)
  | complexResponse (st : MultiCoreSettings) (f : FrequencyResponse T (Cx T)) (ratio : T)
  | interpft (K : FftKernel T) (k : RegKind) (addr : Nat) (cis : T → Cx T) (pi : T) (st : MultiCoreSettings) (buf : Buffer T) (N : Nat)
  | interpolate (K : FftKernel T) (k : RegKind) (addr : Nat) (cis : T → Cx T) (pi : T) (st : MultiCoreSettings) (buf : Buffer T)
      (function : Option (FrequencyResponse T T)) (N : Nat) (delay : T)
  | interpolatei (K : FftKernel T) (k : RegKind) (addr : Nat) (st : MultiCoreSettings) (buf : Buffer T)
      (F : FrequencyResponse T T) (m : Nat)
  | interpolatef (k : RegKind) (addr : Nat) (st : MultiCoreSettings) (buf : Buffer T) (fn : T → T) (factor delay : T) (L : Nat)
  | windowedFft (K : FftKernel T) (st : MultiCoreSettings) (buf : Buffer T) (win : WindowFunction T)
  | windowedIfft (K : FftKernel T) (k : RegKind) (addr : Nat) (st : MultiCoreSettings) (buf : Buffer T) (win : WindowFunction T)
  | wrap (divisor : T) (st : MultiCoreSettings)
  | unwrap (divisor : T)

/-- Operations which change a vector and read another one: the elementary operations (elementary.rs:550-639), `convolve_signal`
    (convolution.rs:477-542) and `correlate` (correlation.rs:131-163). -/
inductive BinOp (T : Type)
  | elem (op : ElemOp) (k : RegKind) (addr : Nat)
  | elemSmaller (op : ElemOp)
  | convolveSignal (K : FftKernel T) (junk : List (Cx T) → List (Cx T)) (k : RegKind) (addr : Nat) (st : MultiCoreSettings) (buf : Buffer T)
  | correlate (K : FftKernel T) (k : RegKind) (addr : Nat) (st : MultiCoreSettings) (buf : Buffer T)

/-- Operations which write the parts of complex numbers to other vectors: `get_real`, `get_imag`, `get_phase`, `get_magnitude`,
    `get_magnitude_squared` (one target), `get_real_imag`, `get_mag_phase` (two targets), complex_to_real.rs:609-712. -/
inductive GetOp (T : Type)
  | part (op : Cx T → T) (st : MultiCoreSettings)
  | magnitude (k : RegKind) (addr : Nat) (simdOp : List T → List T) (op : Cx T → T)

/-- The two functions with two targets. -/
inductive GetTwo (T : Type)
  | realImag
  | magPhase (polar : Cx T → T × T)

/-- Numbers which are computed from the vectors: `sum`, `sum_sq` (statistics.rs:571-670), `dot_product` (dot_products.rs:281-334) and their
    precise versions (precise_stats.rs, dot_products.rs). `order` is the order in which the workers of the call finish. -/
inductive SumOp
  | sum (k : RegKind) (addr : Nat) (st : MultiCoreSettings)
  | sumSq (k : RegKind) (addr : Nat) (st : MultiCoreSettings)
  | sumPrec (st : MultiCoreSettings)
  | sumSqPrec (st : MultiCoreSettings)
  | sumComplex (k : RegKind) (addr : Nat) (st : MultiCoreSettings)
  | sumSqComplex (k : RegKind) (addr : Nat) (st : MultiCoreSettings)
  | sumPrecComplex (st : MultiCoreSettings)
  | sumSqPrecComplex (st : MultiCoreSettings)

/-- `dot_product`, `dot_product_prec` for real and for complex numbers, dot_products.rs. -/
inductive DotOp
  | real (prec : Bool) (k : RegKind) (addr : Nat) (st : MultiCoreSettings)
  | complex (prec : Bool) (k : RegKind) (addr : Nat) (st : MultiCoreSettings)

/-- `statistics`, `statistics_split` (statistics.rs:365-429, 589-655), their precise versions (precise_stats.rs:208-275, 451-525) and
    `map_aggregate` (mapping.rs:92-153, 203-265) for real and for complex numbers. `norm` is `Complex::norm`. The result of `map_aggregate`
    can have any type: here it is a number or a pointer. -/
inductive StatOp (T : Type)
  | real (prec : Bool) (sqrt : T → T) (st : MultiCoreSettings)
  | complex (prec : Bool) (norm : Cx T → T) (sqrt : Cx T → Cx T) (st : MultiCoreSettings)
  | splitReal (prec : Bool) (sqrt : T → T) (st : MultiCoreSettings) (k : Nat)
  | splitComplex (prec : Bool) (norm : Cx T → T) (sqrt : Cx T → Cx T) (st : MultiCoreSettings) (k : Nat)
  | aggregate (map : T → Nat → T) (agg : T → T → T) (st : MultiCoreSettings)
  | aggregateComplex (map : Cx T → Nat → Cx T) (agg : Cx T → Cx T → Cx T) (st : MultiCoreSettings)
  | aggregatePtr (map : T → Nat → Nat) (agg : Nat → Nat → Nat) (st : MultiCoreSettings)
  | aggregatePtrComplex (map : Cx T → Nat → Nat) (agg : Nat → Nat → Nat) (st : MultiCoreSettings)

/-- A statement: the variables and the operation. -/
inductive Stmt (T : Type)
  | single (x : Nat) (op : VecOp T)
  | unary (x : Nat) (op : UnOp T)
  | binary (x y : Nat) (op : BinOp T)
  | setRealImag (x re im : Nat)
  | setMagPhase (cart : T → T → Cx T) (x mag phase : Nat)
  | merge (x : Nat) (ys : List Nat)
  | split (x : Nat) (ys : List Nat)
  | get (x dest : Nat) (op : GetOp T)
  | getTwo (x first second : Nat) (op : GetTwo T)
  | sum (x : Nat) (op : SumOp)
  | dot (x y : Nat) (op : DotOp)
  | stats (x : Nat) (op : StatOp T)
  /-- `clone`, to_from_vec_conversions.rs:305-321 -/
  | clone (x dest : Nat)

section
variable [Field T] [LinearOrder T] [FloorRing T]

/-- The call of an operation on one vector. `s1`, `s2`: the schedules of the parallel sections. -/
def UnOp.run (v : DspVec T) (s1 s2 : List Nat) : UnOp T → Outcome (DspVec T × List (Out T))
  | .exponential cis a b => (Outcome.ofOption (v.multiplyComplexExponential cis a b)).andThen fun w => .finished (w, [])
  | .interpolateLin buf f d => (Outcome.ofOption (v.interpolateLin buf f d)).andThen fun r => .finished (r.1, [])
  | .interpolateHermite buf f d => (Outcome.ofOption (v.interpolateHermite buf f d)).andThen fun r => .finished (r.1, [])
  | .prepareArgument K k addr st buf => (v.prepareArgument K k addr st buf s1).andThen fun r => .finished (r.1, [])
  | .prepareArgumentPadded K k addr st buf => (v.prepareArgumentPadded K k addr st buf s1).andThen fun r => .finished (r.1, [])
  | .convolveReal K junk k addr st buf fn ratio len =>
    (v.convolveReal K junk k addr st buf fn ratio len s1).andThen fun r => .finished (r.1, [])
  | .convolveComplex K junk k addr st buf fn ratio len =>
    (v.convolveComplex K junk k addr st buf fn ratio len s1).andThen fun r => .finished (r.1, [])
  | .realResponse st f ratio => (v.multiplyRealResponse st f ratio s1).andThen fun w => .finished (w, [])
  | .complexResponse st f ratio => (v.multiplyComplexResponse st f ratio s1).andThen fun w => .finished (w, [])
  | .interpft K k addr cis pi st buf N => (v.interpft K k addr cis pi st N buf s1 s2).andThen fun r => .finished (r.1, [])
  | .interpolate K k addr cis pi st buf function N delay =>
    (v.interpolate K k addr cis pi st function N delay buf s1 s2).andThen fun r => .finished (r.1, [.result r.2.2])
  | .interpolatei K k addr st buf F m => (v.interpolatei K k addr st F m buf s1 s2).andThen fun r => .finished (r.1, [.result r.2.2])
  | .interpolatef k addr st buf fn factor delay L =>
    (v.interpolatef k addr st fn factor delay L buf s1).andThen fun r => .finished (r.1, [])
  | .windowedFft K st buf win => (v.windowedFft K st win buf s1).andThen fun r => .finished (r.1, [])
  | .windowedIfft K k addr st buf win => (v.windowedIfft K k addr st win buf s1 s2).andThen fun r => .finished (r.1, [])
  | .wrap d st => (v.wrap d st s1).andThen fun w => .finished (w, [])
  | .unwrap d => (Outcome.ofOption (v.unwrap d)).andThen fun w => .finished (w, [])

/-- The call of an operation with an operand `o`. -/
def BinOp.run (v o : DspVec T) (s1 : List Nat) : BinOp T → Outcome (DspVec T × List (Out T))
  | .elem op k addr => (Outcome.ofOption (op.run k addr v o)).andThen fun r => .finished (r.1, [.result r.2])
  | .elemSmaller op => (Outcome.ofOption (op.runSmaller v o)).andThen fun r => .finished (r.1, [.result r.2])
  | .convolveSignal K junk k addr st buf =>
    (v.convolveSignal K junk k addr st o buf s1).andThen fun r => .finished (r.1, [.result r.2.2])
  | .correlate K k addr st buf => (v.correlate K k addr st o buf s1).andThen fun r => .finished (r.1, [.result r.2.2])

/-- The call of an operation with one target. -/
def GetOp.run (v dest : DspVec T) (s1 : List Nat) : GetOp T → Outcome (DspVec T)
  | .part op st => v.getRealWith op st dest s1
  | .magnitude k addr simdOp op => .ofOption (v.getMagnitudeWith k addr simdOp op dest)

/-- The call of an operation with two targets. -/
def GetTwo.run (v d1 d2 : DspVec T) : GetTwo T → Option (DspVec T × DspVec T)
  | .realImag => v.getRealImag d1 d2
  | .magPhase polar => v.getMagPhase polar d1 d2

/-- The call of a sum. -/
def SumOp.run (v : DspVec T) (order : List Nat) : SumOp → Option (Out T)
  | .sum k addr st => (v.sum k addr st order).map fun x => .real (.ok x)
  | .sumSq k addr st => (v.sumSq k addr st order).map fun x => .real (.ok x)
  | .sumPrec st => (v.sumPrec st order).map fun x => .real (.ok x)
  | .sumSqPrec st => (v.sumSqPrec st order).map fun x => .real (.ok x)
  | .sumComplex k addr st => (v.sumComplex k addr st order).map fun x => .complex (.ok x)
  | .sumSqComplex k addr st => (v.sumSqComplex k addr st order).map fun x => .complex (.ok x)
  | .sumPrecComplex st => (v.sumPrecComplex st order).map fun x => .complex (.ok x)
  | .sumSqPrecComplex st => (v.sumSqPrecComplex st order).map fun x => .complex (.ok x)

/-- The call of a dot product. -/
def DotOp.run (v o : DspVec T) (order : List Nat) : DotOp → Option (Out T)
  | .real prec k addr st => (v.dotProduct prec k addr st o order).map .real
  | .complex prec k addr st => (v.dotProductComplex prec k addr st o order).map .complex

/-- The call of the statistics or of `map_aggregate`. -/
def StatOp.run (v : DspVec T) (order : List Nat) : StatOp T → Option (Out T)
  | .real prec sqrt st =>
    (if prec then v.statisticsPrec (realStatOps sqrt) st order else v.statistics (realStatOps sqrt) st order).map .stats
  | .complex prec norm sqrt st =>
    (if prec then v.statisticsPrecComplex (complexStatOps norm sqrt) st order
      else v.statisticsComplex (complexStatOps norm sqrt) st order).map .statsComplex
  | .splitReal prec sqrt st k =>
    (if prec then v.statisticsSplitPrec (realStatOps sqrt) st k order
      else v.statisticsSplit (realStatOps sqrt) st k order).map .statsSplit
  | .splitComplex prec norm sqrt st k =>
    (if prec then v.statisticsSplitPrecComplex (complexStatOps norm sqrt) st k order
      else v.statisticsSplitComplex (complexStatOps norm sqrt) st k order).map .statsSplitComplex
  | .aggregate map agg st => (v.mapAggregate st map agg order).map .real
  | .aggregateComplex map agg st => (v.mapAggregateComplex st map agg order).map .complex
  | .aggregatePtr map agg st => (v.mapAggregate st map agg order).map .pointer
  | .aggregatePtrComplex map agg st => (v.mapAggregateComplex st map agg order).map .pointer

/-- The execution of a statement. `s1`, `s2`: the schedules of the parallel sections of the call. -/
def Stmt.exec (s1 s2 : List Nat) (m : Machine T) : Stmt T → Outcome (Machine T)
  | .single x op => ((m.vec x).exec (op.withSchedule s1)).andThen fun w => .finished (m.put x w [])
  | .unary x op => (op.run (m.vec x) s1 s2).andThen fun r => .finished (m.put x r.1 r.2)
  | .binary x y op => (op.run (m.vec x) (m.vec y) s1).andThen fun r => .finished (m.put x r.1 r.2)
  | .setRealImag x re im =>
    (Outcome.ofOption ((m.vec x).setRealImag (m.vec re) (m.vec im))).andThen fun r => .finished (m.put x r.1 [.result r.2])
  | .setMagPhase cart x mag phase =>
    (Outcome.ofOption ((m.vec x).setMagPhase cart (m.vec mag) (m.vec phase))).andThen fun r =>
      .finished (m.put x r.1 [.result r.2])
  | .merge x ys => (Outcome.ofOption ((m.vec x).merge (ys.map m.vec))).andThen fun r => .finished (m.put x r.1 [.result r.2])
  | .split x ys =>
    (Outcome.ofOption ((m.vec x).splitInto (ys.map m.vec))).andThen fun r => .finished (m.putAll ys r.1 [.result r.2])
  | .get x dest op => (op.run (m.vec x) (m.vec dest) s1).andThen fun w => .finished (m.put dest w [])
  | .getTwo x first second op =>
    (Outcome.ofOption (op.run (m.vec x) (m.vec first) (m.vec second))).andThen fun r =>
      .finished (m.putAll [first, second] [r.1, r.2] [])
  | .sum x op => (Outcome.ofOption (op.run (m.vec x) s1)).andThen fun o => .finished ⟨m.vec, m.out ++ [o]⟩
  | .dot x y op => (Outcome.ofOption (op.run (m.vec x) (m.vec y) s1)).andThen fun o => .finished ⟨m.vec, m.out ++ [o]⟩
  | .stats x op => (Outcome.ofOption (op.run (m.vec x) s1)).andThen fun o => .finished ⟨m.vec, m.out ++ [o]⟩
  | .clone x dest => .finished (m.put dest (m.vec x) [])

/-- A program: its statements one after the other. `oracle i` are the schedules of statement `i`. -/
def runProgram (oracle : Nat → List Nat × List Nat) : Nat → Machine T → List (Stmt T) → Outcome (Machine T)
  | _, m, [] => .finished m
  | i, m, s :: p => (s.exec (oracle i).1 (oracle i).2 m).andThen fun m' => runProgram oracle (i + 1) m' p

end
end Dsp
