import Verif.Model.Program
import Verif.Spec.Signal
import Verif.Spec.ConvFunction
import Verif.Spec.Interp
import Verif.Spec.Interpolate
import Verif.Spec.Interpolatef
import Verif.Spec.Correlation
import Verif.Spec.FreqResponse
import Verif.Spec.Wrap
import Verif.Spec.Stats
/-
The meaning of programs with several vectors in terms of signals. Nothing in this file mentions storages, buffers, workers,
schedules, registers or addresses, apart from the functions `call`, which forget them.
-/
namespace Dsp
variable {T : Type}

/-- What a user sees of a program: the signal in every variable and everything which the calls returned. -/
structure World (T : Type) where
  sig : Nat → Signal T
  out : List (Out T)

/-- Another signal in a variable. -/
def World.put (m : World T) (x : Nat) (s : Signal T) (o : List (Out T)) : World T :=
  ⟨Function.update m.sig x s, m.out ++ o⟩

/-- The variables of the machine show the signals, and the returned values are the same. -/
def Machine.Shows (m : Machine T) (w : World T) : Prop := (∀ x, (m.vec x).Shows (w.sig x)) ∧ m.out = w.out

/-! ### The calls -/

/-- `UnOp` without the environment. -/
inductive UnCall (T : Type)
  | exponential (cis : T → Cx T) (a b : T)
  | interpolateLin (factor delay : T)
  | interpolateHermite (factor delay : T)
  | prepareArgument (K : FftKernel T)
  | prepareArgumentPadded (K : FftKernel T)
  | convolveReal (fn : T → T) (ratio : T) (len : Nat)
  | convolveComplex (fn : T → Cx T) (ratio : T) (len : Nat)
  | realResponse (f : T → T) (ratio : T)
  | complexResponse (f : T → Cx T) (ratio : T)
  | interpft (K : FftKernel T) (N : Nat)
  | interpolate (K : FftKernel T) (cis : T → Cx T) (pi : T) (function : Option (T → T)) (N : Nat) (delay : T)
  | interpolatei (K : FftKernel T) (f : T → T) (m : Nat)
  | interpolatef (fn : T → T) (factor delay : T) (L : Nat)
  | windowedFft (K : FftKernel T) (win : WindowFunction T)
  | windowedIfft (K : FftKernel T) (win : WindowFunction T)
  | wrap (divisor : T)
  | unwrap (divisor : T)

/-- Forget the environment. -/
def UnOp.call : UnOp T → UnCall T
  | .exponential cis a b => .exponential cis a b
  | .interpolateLin _ f d => .interpolateLin f d
  | .interpolateHermite _ f d => .interpolateHermite f d
  | .prepareArgument K _ _ _ _ => .prepareArgument K
  | .prepareArgumentPadded K _ _ _ _ => .prepareArgumentPadded K
  | .convolveReal _ _ _ _ _ _ fn ratio len => .convolveReal fn ratio len
  | .convolveComplex _ _ _ _ _ _ fn ratio len => .convolveComplex fn ratio len
  | .realResponse _ f ratio => .realResponse f.value ratio
  | .complexResponse _ f ratio => .complexResponse f.value ratio
  | .interpft K _ _ _ _ _ _ N => .interpft K N
  | .interpolate K _ _ cis pi _ _ function N delay => .interpolate K cis pi (function.map FrequencyResponse.value) N delay
  | .interpolatei K _ _ _ _ F m => .interpolatei K F.value m
  | .interpolatef _ _ _ _ fn factor delay L => .interpolatef fn factor delay L
  | .windowedFft K _ _ win => .windowedFft K win
  | .windowedIfft K _ _ _ _ win => .windowedIfft K win
  | .wrap d _ => .wrap d
  | .unwrap d => .unwrap d

/-- `BinOp` without the environment. -/
inductive BinCall (T : Type)
  | elem (op : ElemOp)
  | elemSmaller (op : ElemOp)
  | convolveSignal
  | correlate (K : FftKernel T)

/-- Forget the environment. -/
def BinOp.call : BinOp T → BinCall T
  | .elem op _ _ => .elem op
  | .elemSmaller op => .elemSmaller op
  | .convolveSignal _ _ _ _ _ _ => .convolveSignal
  | .correlate K _ _ _ _ => .correlate K

/-- `StatOp` without the environment. The precise versions mean the same. -/
inductive StatCall (T : Type)
  | real (sqrt : T → T)
  | complex (norm : Cx T → T) (sqrt : Cx T → Cx T)
  | splitReal (sqrt : T → T) (k : Nat)
  | splitComplex (norm : Cx T → T) (sqrt : Cx T → Cx T) (k : Nat)
  | aggregate (map : T → Nat → T) (agg : T → T → T)
  | aggregateComplex (map : Cx T → Nat → Cx T) (agg : Cx T → Cx T → Cx T)
  | aggregatePtr (map : T → Nat → Nat) (agg : Nat → Nat → Nat)
  | aggregatePtrComplex (map : Cx T → Nat → Nat) (agg : Nat → Nat → Nat)

/-- Forget the environment. -/
def StatOp.call : StatOp T → StatCall T
  | .real _ sqrt _ => .real sqrt
  | .complex _ norm sqrt _ => .complex norm sqrt
  | .splitReal _ sqrt _ k => .splitReal sqrt k
  | .splitComplex _ norm sqrt _ k => .splitComplex norm sqrt k
  | .aggregate map agg _ => .aggregate map agg
  | .aggregateComplex map agg _ => .aggregateComplex map agg
  | .aggregatePtr map agg _ => .aggregatePtr map agg
  | .aggregatePtrComplex map agg _ => .aggregatePtrComplex map agg

/-- `Stmt` without the environment. -/
inductive StmtCall (T : Type)
  | single (x : Nat) (c : Call T)
  | unary (x : Nat) (c : UnCall T)
  | binary (x y : Nat) (c : BinCall T)
  | setComplex (make : T → T → Cx T) (x a b : Nat)
  | merge (x : Nat) (ys : List Nat)
  | split (x : Nat) (ys : List Nat)
  | get (x dest : Nat) (op : Cx T → T)
  | getTwo (x first second : Nat) (op1 op2 : Cx T → T)
  | sum (square complex : Bool) (x : Nat)
  | dot (complex : Bool) (x y : Nat)
  | stats (x : Nat) (c : StatCall T)
  | clone (x dest : Nat)

/-- Which sum? -/
def SumOp.square : SumOp → Bool
  | .sum _ _ _ | .sumPrec _ | .sumComplex _ _ _ | .sumPrecComplex _ => false
  | .sumSq _ _ _ | .sumSqPrec _ | .sumSqComplex _ _ _ | .sumSqPrecComplex _ => true

/-- A sum of complex numbers? -/
def SumOp.complex : SumOp → Bool
  | .sum _ _ _ | .sumPrec _ | .sumSq _ _ _ | .sumSqPrec _ => false
  | .sumComplex _ _ _ | .sumPrecComplex _ | .sumSqComplex _ _ _ | .sumSqPrecComplex _ => true

/-- A dot product of complex numbers? -/
def DotOp.isComplex : DotOp → Bool
  | .real _ _ _ _ => false
  | .complex _ _ _ _ => true

/-- The function of one complex number. -/
def GetOp.part' : GetOp T → Cx T → T
  | .part op _ => op
  | .magnitude _ _ _ op => op

/-- The functions of one complex number for the first and the second target. -/
def GetTwo.parts : GetTwo T → (Cx T → T) × (Cx T → T)
  | .realImag => (Cx.re, Cx.im)
  | .magPhase polar => (fun c => (polar c).1, fun c => (polar c).2)

/-- Forget the environment. -/
def Stmt.call : Stmt T → StmtCall T
  | .single x op => .single x op.call
  | .unary x op => .unary x op.call
  | .binary x y op => .binary x y op.call
  | .setRealImag x re im => .setComplex Cx.mk x re im
  | .setMagPhase cart x mag phase => .setComplex cart x mag phase
  | .merge x ys => .merge x ys
  | .split x ys => .split x ys
  | .get x dest op => .get x dest op.part'
  | .getTwo x first second op => .getTwo x first second op.parts.1 op.parts.2
  | .sum x op => .sum op.square op.complex x
  | .dot x y op => .dot op.isComplex x y
  | .stats x op => .stats x op.call
  | .clone x dest => .clone x dest

/-! ### Their meaning -/

/-- A function of real numbers only. -/
def Numbers.aggregateReal {R : Type} (f : List T → Except ErrorReason R) : Numbers T → Except ErrorReason R
  | .real l => f l
  | .complex _ => .error .inputMustBeReal

/-- A function of complex numbers only. -/
def Numbers.aggregateComplex {R : Type} (f : List (Cx T) → Except ErrorReason R) : Numbers T → Except ErrorReason R
  | .real _ => .error .inputMustBeComplex
  | .complex l => f l

section
variable [Field T] [LinearOrder T] [FloorRing T]

/-- The linear interpolation of `data` with the factor `f` and a delay (in steps of the input), as `LinInterpolation` describes it:
    the values at the positions `i / f + delay` of the lines through the points, and the last number. -/
def linInterpolated (data : List T) (f delay : T) : List T :=
  let R := ⌊((data.length - 1 : Nat) : T) * f + 1 / 2⌋.toNat
  ((List.range R).map fun (i : Nat) =>
    let x := (i : T) / f + delay
    let k := ⌊x⌋.toNat
    data.getD k 0 + (data.getD (k + 1) 0 - data.getD k 0) * (x - (k : T))) ++ [data.getD (data.length - 1) 0]

/-- The piecewise cubic Hermite interpolation with a whole factor `m`: number `k m + r` is the value at `k + r / m + delay` of the
    cubic which belongs to the points `k` and `k + 1`. -/
def hermiteInterpolated (data : List T) (m : Nat) (delay : T) : List T :=
  (List.range ((data.length - 1) * m + 1)).map fun i => hermiteAt data (i / m) (((i % m : Nat) : T) / (m : T) + delay)

/-- The meaning of an operation on one signal: the signal afterwards and what the call returns. Cases which the library rejects or marks
    as invalid leave the signal as it is (they are excluded below). -/
def UnCall.meaning (s : Signal T) : UnCall T → Signal T × List (Out T)
  | .exponential cis a b =>
    match s.numbers, s.delta with
    | .complex cs, some d => ({ s with numbers := .complex (cs.mapIdx fun i c => c * cis (a * i * d + b * d)) }, [])
    | _, _ => (s, [])
  | .interpolateLin f d => ({ s with numbers := s.numbers.mapLists (fun l => linInterpolated l f d) id }, [])
  | .interpolateHermite f d => ({ s with numbers := s.numbers.mapLists (fun l => hermiteInterpolated l ⌊f⌋.toNat d) id }, [])
  | .prepareArgument K => (s.transform K .frequency fun a => (K.forward a).map Cx.conj, [])
  | .prepareArgumentPadded K =>
    let N := 2 * s.numbers.count - 1
    let p := { s with numbers := s.numbers.rearrange fun z l => padSpec z l N (surroundRightB l.length N) .surround }
    (p.transform K .frequency fun a => (K.forward a).map Cx.conj, [])
  | .convolveReal fn ratio len =>
    let L := min len s.numbers.count
    ({ s with numbers := s.numbers.mapLists (convolveWith fn ratio L) (convolveWith (fun t => (⟨fn t, 0⟩ : Cx T)) ratio L) }, [])
  | .convolveComplex fn ratio len =>
    ({ s with numbers := s.numbers.mapLists id (convolveWith fn ratio (min len s.numbers.count)) }, [])
  | .realResponse f ratio => ({ s with numbers := s.numbers.filteredReal f ratio }, [])
  | .complexResponse f ratio => ({ s with numbers := s.numbers.mapLists id (filtered f ratio ⟨ratio, 0⟩) }, [])
  | .interpft K N =>
    let gain := (N : T) / (s.numbers.count : T)
    ({ s with
      numbers := s.numbers.receive
        ((K.inverse ((resampledSpectrum N (K.forward s.numbers.asCx)).map (Cx.scaleBy gain))).map (Cx.scaleBy (1 / (N : T))))
      delta := s.delta.map (· / gain) }, [])
  | .interpolate K cis pi function N delay =>
    let d := if delay = 0 then 0 else s.delta.elim 0 (delay / ·)
    ({ s with
      numbers := s.numbers.receive (interpolated K cis pi function N d s.numbers.asCx)
      delta := s.delta.map (· / ((N : T) / (s.numbers.count : T))) }, [.result (.ok ())])
  | .interpolatei K f m => ({ s with numbers := s.numbers.receive (interpolatedBy K f m s.numbers.asCx) }, [.result (.ok ())])
  | .interpolatef fn factor delay L =>
    let n := interpolatedPoints s.numbers.isComplex s.numbers.count factor
    ({ s with numbers := s.numbers.interpolateWith fn factor (s.delta.elim 0 (delay / ·)) (min L (s.numbers.count / 2)) n }, [])
  | .windowedFft K win => (Call.meaning (Call.meaning s (.applyWindow win)) (.fft K), [])
  | .windowedIfft K win => (Call.meaning (Call.meaning s (.ifft K)) (.unapplyWindow win), [])
  | .wrap d => ({ s with numbers := s.numbers.mapLists (List.map (wrapped d)) id }, [])
  | .unwrap d => ({ s with numbers := s.numbers.mapLists (unwrapped d) id }, [])

omit [FloorRing T] in
/-- The signals agree: same number space, same domain and sampling distances which differ by at most ten percent. -/
def Signal.Agrees (s o : Signal T) : Prop :=
  s.numbers.isComplex = o.numbers.isComplex ∧ s.dom = o.dom ∧
    ∀ d e, s.delta = some d → o.delta = some e → 9 / 10 * e ≤ d ∧ d ≤ 11 / 10 * e

/-- Point `i` of `a` is combined with point `i mod m` of `b`, where `m` is the number of points of `b`. -/
def cycledWith {α : Type} (f : α → α → α) (a b : List α) : List α :=
  a.mapIdx fun i x => (b[i % b.length]?).elim x (f x)

omit [LinearOrder T] [FloorRing T] in
/-- Two lists of numbers of the same number space. -/
def Numbers.combine (f : List T → List T → List T) (g : List (Cx T) → List (Cx T) → List (Cx T)) : Numbers T → Numbers T → Numbers T
  | .real a, .real b => .real (f a b)
  | .complex a, .complex b => .complex (g a b)
  | a, _ => a

open Classical in
/-- The meaning of an operation with an operand. Operands which are rejected have no effect but the returned error. -/
noncomputable def BinCall.meaning (s o : Signal T) : BinCall T → Signal T × List (Out T)
  | .elem op =>
    if s.numbers.flat.length ≠ o.numbers.flat.length then (s, [.result (.error .inputMustHaveTheSameSize)])
    else if ¬ s.Agrees o then (s, [.result (.error .inputMetaDataMustAgree)])
    else ({ s with numbers := s.numbers.combine (List.zipWith op.real) (List.zipWith op.cx) o.numbers }, [.result (.ok ())])
  | .elemSmaller op =>
    if ¬ o.numbers.flat.length ∣ s.numbers.flat.length then (s, [.result (.error .invalidArgumentLength)])
    else if ¬ s.Agrees o then (s, [.result (.error .inputMetaDataMustAgree)])
    else ({ s with numbers := s.numbers.combine (cycledWith op.real) (cycledWith op.cx) o.numbers }, [.result (.ok ())])
  | .convolveSignal =>
    if ¬ s.Agrees o then (s, [.result (.error .inputMetaDataMustAgree)])
    else if s.dom ≠ .time then (s, [.result (.error .inputMustBeInTimeDomain)])
    else if s.numbers.count < o.numbers.count then (s, [.result (.error .invalidArgumentLength)])
    else ({ s with numbers := s.numbers.combine circularConv circularConv o.numbers }, [.result (.ok ())])
  | .correlate K =>
    let N := o.numbers.count
    if N ≤ s.numbers.count then (s, [.result (.error .invalidArgumentLength)])
    else
      let p := padSpec 0 s.numbers.asCx N (surroundRightB s.numbers.count N) .surround
      let r := (K.inverse (List.zipWith (· * ·) (K.forward p) o.numbers.asCx)).map (Cx.scaleBy (1 / (N : T)))
      ({ s with numbers := .complex (rotateRight r (N / 2)) }, [.result (.ok ())])

omit [LinearOrder T] [FloorRing T] in
/-- The value of a sum. -/
def sumMeaning (square complex : Bool) (s : Signal T) : Out T :=
  if complex then .complex (.ok ((s.numbers.asCx.map fun x => if square then x * x else x).sum))
  else .real (.ok ((s.numbers.flat.map fun x => if square then x * x else x).sum))

omit [LinearOrder T] [FloorRing T] in
/-- The value of a dot product. -/
def dotMeaning (complex : Bool) (s o : Signal T) : Out T :=
  if complex then
    if s.numbers.isComplex = false then .complex (.error .inputMustBeComplex)
    else if o.numbers.isComplex = false ∨ s.dom ≠ o.dom then .complex (.error .inputMetaDataMustAgree)
    else .complex (.ok (List.zipWith (· * ·) s.numbers.asCx o.numbers.asCx).sum)
  else if s.numbers.isComplex then .real (.error .inputMustBeReal)
  else .real (.ok (List.zipWith (· * ·) s.numbers.flat o.numbers.flat).sum)

omit [FloorRing T] in
/-- The statistics of real numbers. -/
def realSummary (sqrt : T → T) (l : List T) : Statistics T := summary (fun x => x) (fun x n => x / (n : T)) sqrt l

omit [FloorRing T] in
/-- The statistics of complex numbers, which are compared by their norm. -/
def complexSummary (norm : Cx T → T) (sqrt : Cx T → Cx T) (l : List (Cx T)) : Statistics (Cx T) :=
  summary norm (fun x n => ⟨x.re / (n : T), x.im / (n : T)⟩) sqrt l

/-- At most 16 parts: the numbers `i`, `i + k`, `i + 2k`, .. are part `i`. -/
def splitInParts {E S : Type} (k : Nat) (f : List E → S) (l : List E) : Except ErrorReason (List S) :=
  if k ≤ 16 then .ok ((List.range k).map fun i => f (everyNth k i l)) else .error .invalidArgumentLength

omit [FloorRing T] in
/-- The values of the statistics and of `map_aggregate`. -/
def StatCall.meaning (s : Signal T) : StatCall T → Out T
  | .real sqrt => .stats (realSummary sqrt s.numbers.flat)
  | .complex norm sqrt => .statsComplex (complexSummary norm sqrt s.numbers.asCx)
  | .splitReal sqrt k => .statsSplit (splitInParts k (realSummary sqrt) s.numbers.flat)
  | .splitComplex norm sqrt k => .statsSplitComplex (splitInParts k (complexSummary norm sqrt) s.numbers.asCx)
  | .aggregate map agg => .real (s.numbers.aggregateReal fun l => leftFold agg (l.mapIdx fun i x => map x i))
  | .aggregateComplex map agg => .complex (s.numbers.aggregateComplex fun l => leftFold agg (l.mapIdx fun i x => map x i))
  | .aggregatePtr map agg => .pointer (s.numbers.aggregateReal fun l => leftFold agg (l.mapIdx fun i x => map x i))
  | .aggregatePtrComplex map agg => .pointer (s.numbers.aggregateComplex fun l => leftFold agg (l.mapIdx fun i x => map x i))

open Classical in
/-- The meaning of a statement. -/
noncomputable def StmtCall.meaning (w : World T) : StmtCall T → World T
  | .single x c => w.put x (c.meaning (w.sig x)) []
  | .unary x c => w.put x (c.meaning (w.sig x)).1 (c.meaning (w.sig x)).2
  | .binary x y c => w.put x (c.meaning (w.sig x) (w.sig y)).1 (c.meaning (w.sig x) (w.sig y)).2
  | .setComplex make x a b =>
    if (w.sig a).numbers.flat.length ≠ (w.sig b).numbers.flat.length then
      w.put x (w.sig x) [.result (.error .invalidArgumentLength)]
    else w.put x { w.sig x with numbers := .complex (List.zipWith make (w.sig a).numbers.flat (w.sig b).numbers.flat) }
      [.result (.ok ())]
  | .merge x ys =>
    if ys ≠ [] ∧ (∃ n, ∀ y ∈ ys, (w.sig y).numbers.flat.length = n) then
      let merged : Numbers T := match (w.sig x).numbers with
        | .real _ => .real (mergeLists (ys.map fun y => (w.sig y).numbers.flat))
        | .complex _ => .complex (mergeLists (ys.map fun y => (w.sig y).numbers.asCx))
      w.put x { w.sig x with numbers := merged } [.result (.ok ())]
    else w.put x (w.sig x) [.result (.error .invalidArgumentLength)]
  | .split x ys =>
    if ys ≠ [] ∧ ys.length ∣ (w.sig x).numbers.flat.length then
      let part (y : Nat) : Signal T :=
        { w.sig y with numbers := (w.sig x).numbers.rearrange fun _ l => everyNth ys.length (ys.idxOf y) l }
      ⟨fun y => if y ∈ ys then part y else w.sig y, w.out ++ [.result (.ok ())]⟩
    else ⟨w.sig, w.out ++ [.result (.error .invalidArgumentLength)]⟩
  | .get x dest op =>
    w.put dest { w.sig dest with numbers := .real ((w.sig x).numbers.asCx.map op), delta := (w.sig x).delta } []
  | .getTwo x first second op1 op2 =>
    (w.put first { w.sig first with numbers := .real ((w.sig x).numbers.asCx.map op1) } []).put second
      { w.sig second with numbers := .real ((w.sig x).numbers.asCx.map op2) } []
  | .sum square complex x => ⟨w.sig, w.out ++ [sumMeaning square complex (w.sig x)]⟩
  | .dot complex x y => ⟨w.sig, w.out ++ [dotMeaning complex (w.sig x) (w.sig y)]⟩
  | .stats x c => ⟨w.sig, w.out ++ [c.meaning (w.sig x)]⟩
  | .clone x dest => w.put dest (w.sig x) []

/-- The meaning of a program. -/
noncomputable def World.after (w : World T) (calls : List (StmtCall T)) : World T := calls.foldl (fun w c => c.meaning w) w

end
end Dsp
