import Verif.Spec.Program
import Verif.Spec.Safe
import Verif.Props.ConvVec
import Verif.Props.ConvFunction
import Verif.Props.FreqResponse
import Verif.Props.Interpolate
import Verif.Props.Interpft
import Verif.Props.Interpolatef
/-
The environments in which the statements of a program work as intended. The conditions are those of the theorems about the
single functions (C10, C21 - C23, C30, C31, C37, C42, C46, C50, C54 - C59), which also show what happens otherwise.
-/
namespace Dsp
open DspVec
variable {T : Type} [Field T] [LinearOrder T] [FloorRing T]

/-- `exp (j x)`: what the functions which need it require of it. -/
def IsCis (cis : T → Cx T) : Prop := cis 0 = 1 ∧ ∀ x y, cis (x + y) = cis x * cis y

/-- An operation on one vector finds an environment which it accepts. -/
def UnOp.Safe (v : DspVec T) : UnOp T → Prop
  | .exponential cis _ _ => IsCis cis ∧ v.isComplex = true ∧ v.delta ≠ none
  | .interpolateLin buf f d => v.isComplex = false ∧ v.len ≠ 0 ∧ 0 < f ∧ 0 ≤ d ∧ d * f < 1 / 2 ∧
      ∀ R, Rounded (((v.len - 1 : Nat) : T) * f) R → BufferOk buf v.data (R + 1)
  | .interpolateHermite buf f d => v.isComplex = false ∧ 3 ≤ v.len ∧ 0 ≤ d ∧ d * f < 1 ∧ ∃ m : Nat, 1 ≤ m ∧ f = (m : T) ∧
      BufferOk buf v.data ((v.len - 1) * m + 1)
  | .prepareArgument K k addr _ buf => v.dom = .time ∧ FftSafe K buf v ∧ ComplexAlignmentAccepted addr k.len (2 * v.points)
  | .prepareArgumentPadded K k addr _ buf => v.isComplex = true ∧ v.dom = .time ∧ K.KeepsLength ∧ 2 ≤ v.points ∧
      BufferOk buf v.data (2 * (2 * v.points - 1)) ∧ ScratchOk K buf (2 * v.points - 1) ∧
      ComplexAlignmentAccepted addr k.len (2 * (2 * v.points - 1))
  | .convolveReal K junk k addr _ buf _ ratio len => v.dom = .time ∧ BufferOk buf v.data v.len ∧
      if v.isComplex then
        K.Convolves ∧ (∀ l, (junk l).length = l.length) ∧ (ratio = 1 ∨ ¬ wouldBenefitFromSimd v.len len ratio) ∧
        ConvAligned k addr ∧ (50 < len → 5000 < v.points → 10 * (2 * len + 1) < v.points →
          NoGap v.points (2 * len + 1) (freqLen (2 * len + 1)) ∧ FreqBufferOk K buf v.points (2 * len + 1))
      else ¬ wouldBenefitFromSimd v.len len ratio
  | .convolveComplex _ _ _ _ _ buf _ ratio len => v.dom = .time ∧ v.isComplex = true ∧ BufferOk buf v.data v.len ∧
      ¬ wouldBenefitFromSimd v.len len ratio
  | .realResponse st f _ => v.dom = .frequency ∧ 2 ≤ v.points ∧ (f.isSymmetric = true → EvenFunction f.value ∧ FullPairs v.points st)
  | .complexResponse st f _ => v.dom = .frequency ∧ v.isComplex = true ∧ 2 ≤ v.points ∧
      (f.isSymmetric = true → EvenFunction f.value ∧ FullPairs v.points st)
  | .interpft K k addr cis _ _ buf N => K.KeepsLength ∧ IsCis cis ∧ 1 ≤ v.points ∧ 1 ≤ N ∧ InterpolationEnv K k addr v buf v.points N
  | .interpolate K k addr cis pi _ buf function N delay => K.KeepsLength ∧ IsCis cis ∧ 1 ≤ v.points ∧ 1 ≤ N ∧
      (delay = 0 ∨ ∃ x, v.delta = some x ∧ DelayFits cis pi (delay / x) v.points) ∧
      (v.isComplex = false → ∀ f, function = some f → f.isSymmetric = true) ∧ (v.points < N → ResponseFits function N) ∧
      InterpolationEnv K k addr v buf v.points N
  | .interpolatei K k addr _ buf F m => K.KeepsLength ∧ 2 ≤ m ∧ 1 ≤ v.points ∧ (v.isComplex = false → F.isSymmetric = true) ∧
      ResponseFits (some F) (m * v.points) ∧ BufferOk buf v.data (2 * (m * v.points)) ∧ ScratchOk K buf (m * v.points) ∧
      AlignmentAccepted addr k.len (2 * (m * v.points))
  | .interpolatef _ _ _ buf fn factor _ L => (∀ t, fn (-t) = fn t) ∧ v.delta ≠ none ∧ 0 ≤ factor ∧ 1 ≤ v.points ∧
      1 ≤ interpolatedPoints v.isComplex v.points factor ∧
      ¬ interpUsesSimd (min L (v.points / 2)) (v.stride * interpolatedPoints v.isComplex v.points factor) factor ∧
      BufferOk buf v.data (v.stride * interpolatedPoints v.isComplex v.points factor)
  | .windowedFft K st buf win => v.dom = .time ∧ FftSafe K buf v ∧ WindowSafe v st win
  | .windowedIfft K k addr st buf win => v.isComplex = true ∧ v.dom = .frequency ∧ (∀ c, v.numberSpace ≠ .realOrComplex c) ∧
      2 ≤ v.points ∧ K.KeepsLength ∧ ScratchOk K buf v.points ∧ AlignmentAccepted addr k.len v.len ∧ WindowSafe v st win
  | .wrap _ _ => v.isComplex = false
  | .unwrap _ => v.isComplex = false

/-- An operation with an operand finds an environment which it accepts; operands of a wrong length or type are allowed where the
    library reports them. -/
def BinOp.Safe (v o : DspVec T) : BinOp T → Prop
  | .elem op k addr => PosDelta o ∧ (v.len = o.len → MetaAgree v o → AlignmentAccepted addr k.len v.len ∧
      (v.isComplex = true → op = .mul ∨ op = .div → addr % 2 = 0 ∧ v.allocLen % 2 = 0))
  | .elemSmaller _ => PosDelta o ∧ o.len ≠ 0
  | .convolveSignal K junk k addr _ buf => PosDelta o ∧ (MetaAgree v o → v.dom = .time → o.points ≤ v.points →
      K.Convolves ∧ (∀ l, (junk l).length = l.length) ∧ v.points ≠ 0 ∧ BufferOk buf v.data v.len ∧
      (v.convPath o = .simd → ConvAligned k addr) ∧
      (v.convPath o = .frequency → NoGap v.points o.points (freqLen o.points) ∧ o.data.cells.length % 2 = 0 ∧
        FreqBufferOk K buf v.points o.points))
  | .correlate K k addr _ buf => v.isComplex = true ∧ v.dom = .time ∧ o.isComplex = true ∧ o.dom = .frequency ∧
      (v.points < o.points → K.KeepsLength ∧ BufferOk buf v.data (2 * o.points) ∧ ScratchOk K buf o.points ∧
        ComplexAlignmentAccepted addr k.len (2 * o.points))

/-- The target can hold `n` numbers. -/
def TargetSafe (dest : DspVec T) (n : Nat) : Prop := NotInline dest.data.kind ∧ dest.isComplex = false ∧ CanHold dest.data n

/-- An operation with a target finds an environment which it accepts. -/
def GetOp.Safe (v dest : DspVec T) : GetOp T → Prop
  | .part _ _ => v.isComplex = true ∧ TargetSafe dest v.len
  | .magnitude k addr simdOp op => v.isComplex = true ∧ TargetSafe dest v.len ∧ v.allocLen = v.len ∧
      AlignmentAccepted addr k.len v.len ∧ addr % 2 = 0 ∧
      ∀ ds : List (Cx T), 2 * ds.length = k.len → regStoreHalf k (simdOp (fromComplex ds)) = ds.map op

/-- A sum finds an environment which it accepts. -/
def SumOp.Safe (v : DspVec T) : SumOp → Prop
  | .sum k addr _ | .sumSq k addr _ => AlignmentAccepted addr k.len v.len
  | .sumPrec _ | .sumSqPrec _ => True
  | .sumComplex k addr _ | .sumSqComplex k addr _ => v.isComplex = true ∧ v.allocLen % 2 = 0 ∧ ComplexAlignmentAccepted addr k.len v.len
  | .sumPrecComplex _ | .sumSqPrecComplex _ => v.isComplex = true

/-- A dot product finds an environment which it accepts. -/
def DotOp.Safe (v o : DspVec T) : DotOp → Prop
  | .real _ k addr _ => v.isComplex = false → v.len = o.len ∧ AlignmentAccepted addr k.len v.len
  | .complex _ k addr _ => v.isComplex = true → o.isComplex = true → v.dom = o.dom →
      v.len = o.len ∧ v.allocLen % 2 = 0 ∧ ComplexAlignmentAccepted addr k.len v.len

/-- The norm vanishes only at zero. -/
def IsNorm (norm : Cx T → T) : Prop := ∀ x, norm 0 ≤ norm x ∧ (norm x = norm 0 → x = 0)

/-- The statistics and `map_aggregate` find an environment which they accept: no part of the data is empty, and `map_aggregate`, which also
    reads the unused cells of a storage (C27), finds none. -/
def StatOp.Safe (v : DspVec T) : StatOp T → Prop
  | .real _ _ _ => True
  | .complex _ norm _ _ => v.isComplex = true ∧ IsNorm norm
  | .splitReal _ _ _ k => k ≤ 16 → k ≤ v.len
  | .splitComplex _ norm _ _ k => v.isComplex = true ∧ IsNorm norm ∧ (k ≤ 16 → k ≤ v.points)
  | .aggregate _ _ _ | .aggregatePtr _ _ _ => v.isComplex = false → v.allocLen = v.len
  | .aggregateComplex _ _ _ | .aggregatePtrComplex _ _ _ => v.isComplex = true → v.allocLen = v.len

/-- A statement finds an environment which it accepts. -/
def Stmt.Safe (m : Machine T) : Stmt T → Prop
  | .single x op => (m.vec x).Safe op
  | .unary x op => op.Safe (m.vec x)
  | .binary x y op => op.Safe (m.vec x) (m.vec y)
  | .setRealImag x re im => (m.vec re).len = (m.vec im).len → (m.vec x).isComplex = true
  | .setMagPhase _ x mag phase => (m.vec mag).len = (m.vec phase).len → (m.vec x).isComplex = true
  | .merge x ys => ys ≠ [] → (∃ n, ∀ y ∈ ys, (m.vec y).len = n) → (m.vec x).Safe (.merge (ys.map m.vec))
  | .split x ys => ys.Nodup ∧ (ys ≠ [] → ys.length ∣ (m.vec x).len →
      ((m.vec x).isComplex = false → (m.vec x).allocLen = (m.vec x).len) ∧
      ∃ r, (m.vec x).points = r * ys.length ∧ ∀ y ∈ ys, NotInline (m.vec y).data.kind ∧
        (m.vec y).isComplex = (m.vec x).isComplex ∧ CanHold (m.vec y).data (r * (m.vec x).stride))
  | .get x dest op => op.Safe (m.vec x) (m.vec dest)
  | .getTwo x first second _ => first ≠ second ∧ (m.vec x).isComplex = true ∧ TargetSafe (m.vec first) (m.vec x).points ∧
      TargetSafe (m.vec second) (m.vec x).points
  | .sum x op => op.Safe (m.vec x)
  | .dot x y op => op.Safe (m.vec x) (m.vec y)
  | .stats x op => op.Safe (m.vec x)
  | .clone _ _ => True

/-- Every statement of a program finds an environment which it accepts, whatever the schedules were before. -/
def Machine.SafeAll : Machine T → List (Stmt T) → Prop
  | _, [] => True
  | m, s :: p => s.Safe m ∧ ∀ s1 s2 m', s.exec s1 s2 m = .finished m' → m'.SafeAll p

end Dsp
