import Verif.Spec.Signal
/-
The environments in which the operations work as intended. Every condition which concerns the
environment is necessary: the theorems `C08_*`, `C16_*`, `C19_*`, `C43_*`, `C51_*` and `C52_*` whose names end in
`_violated` show what happens otherwise.
-/
namespace Dsp
variable {T : Type}

/-- The workers for a window: for a window which is declared symmetric (and is symmetric) at least two
    points, and one worker or a number of points which is a multiple of twice their number. -/
def WindowSafe (v : DspVec T) (st : MultiCoreSettings) (w : WindowFunction T) : Prop :=
  (w.isSymmetric = false ∧ 1 ≤ v.points) ∨
  (w.isSymmetric = true ∧ SymmetricAt w v.points ∧ 2 ≤ v.points ∧
    (determineNumberOfChunks v.points .medium st = 1 ∨
      (1 < determineNumberOfChunks v.points .medium st ∧
        v.points % (2 * determineNumberOfChunks v.points .medium st) = 0)))

/-- The registers work on an address which the splitting accepts. -/
def AddrSafe (v : DspVec T) (k : RegKind) (addr : Nat) : Prop :=
  if v.isComplex then ComplexAlignmentAccepted addr k.len v.len else AlignmentAccepted addr k.len v.len

/-- A buffer which serves for the transform of `v`: it can hold the interleaved numbers if `v` is
    real (and not empty), and the scratch memory. -/
def FftSafe (K : FftKernel T) (b : Buffer T) (v : DspVec T) : Prop :=
  K.KeepsLength ∧ (v.isComplex = false → v.len ≠ 0 ∧ BufferOk b v.data (2 * v.len)) ∧ ScratchOk K b v.points

/-- The operation finds number space, domain, sizes, buffer, storage and addresses which it accepts. -/
def DspVec.Safe [Field T] (v : DspVec T) : VecOp T → Prop
  | .resize n => NotInline v.data.kind ∧
      ((v.isComplex = true ∧ n % 2 = 1) ∨ n ≤ v.len ∨ (v.allocLen = v.len ∧ CanHold v.data n))
  | .resizeB _ n => (v.isComplex = true ∧ n % 2 = 1) ∨ n ≤ v.len
  | .zeroPad p _ => NotInline v.data.kind ∧ (p ≤ v.points ∨ CanHold v.data (p * v.stride))
  | .zeroPadB b p o => p ≤ v.points ∨ (BufferOk b v.data (p * v.stride) ∧
      (o = .end ∨ (o = .surround ∧ (p - v.points) % 2 = 1)))
  | .zeroInterleave f => NotInline v.data.kind ∧ 1 ≤ f ∧ (v.isComplex = true → v.allocLen % 2 = 0) ∧
      CanHold v.data (f * v.len)
  | .zeroInterleaveB b f => 1 ≤ f ∧ v.len ≠ 0 ∧ BufferOk b v.data (f * v.len)
  | .reverse => True
  | .swapHalves => True
  | .fftShift => True
  | .ifftShift => v.points ≠ 1
  | .diff => v.len ≠ 0 ∧ (v.isComplex = true → v.allocLen % 2 = 0)
  | .diffWithStart => v.isComplex = true → v.allocLen % 2 = 0
  | .cumSum => True
  | .decimatei k _ => 1 ≤ k
  | .rededicate ty => ty = .gen ∨ (v.rededicateForce ty).isComplex = v.isComplex ∧
      (v.rededicateForce ty).dom = v.dom
  | .toComplex => NotInline v.data.kind ∧ v.isComplex = false ∧ CanHold v.data (2 * v.len)
  | .toComplexB b => v.isComplex = false ∧ v.len ≠ 0 ∧ BufferOk b v.data (2 * v.len)
  | .complexToReal _ => v.isComplex = true
  | .complexToRealB _ b _ _ => v.isComplex = true ∧ BufferOk b v.data v.points
  | .magnitudeB k addr simdOp op b => v.isComplex = true ∧ BufferOk b v.data v.points ∧
      ComplexAlignmentAccepted addr k.len v.len ∧
      ∀ ds : List (Cx T), 2 * ds.length = k.len → regStoreHalf k (simdOp (fromComplex ds)) = ds.map op
  | .setRealImag re im => v.isComplex = true ∧ re.WF ∧ im.WF ∧ re.len = im.len
  | .setMagPhase _ m p => v.isComplex = true ∧ m.WF ∧ p.WF ∧ m.len = p.len
  | .merge sources => NotInline v.data.kind ∧ sources ≠ [] ∧ ∃ r,
      (∀ s ∈ sources, s.WF ∧ s.isComplex = v.isComplex ∧ s.points = r) ∧
      CanHold v.data (r * sources.length * v.stride) ∧
      (v.isComplex = false → v.allocLen ≤ r * sources.length)
  | .offset k addr _ _ _ => AddrSafe v k addr
  | .offsetComplex k addr _ _ _ => v.isComplex = true ∧ AddrSafe v k addr
  | .scale k addr _ _ _ => AddrSafe v k addr
  | .scaleComplex k addr _ _ _ => v.isComplex = true ∧ AddrSafe v k addr
  | .mathOp _ _ st _ => v.len ≠ 0 ∨ determineNumberOfChunks 0 .medium st ≤ 1
  | .sqrt _ k addr _ _ => AddrSafe v k addr
  | .square k addr _ _ => AddrSafe v k addr
  | .abs lib k addr _ _ => (∀ x, lib.sqrt (x * x) = lib.abs x) ∧ v.isComplex = false ∧ AddrSafe v k addr
  | .conj k addr _ _ => v.isComplex = true ∧ AddrSafe v k addr
  | .mapInplace _ _ _ => v.isComplex = false
  | .mapInplaceComplex _ _ _ => v.isComplex = true ∧ v.allocLen % 2 = 0
  | .applyWindow w st _ => WindowSafe v st w
  | .unapplyWindow w st _ => WindowSafe v st w
  | .plainFft K b => v.dom = .time ∧ FftSafe K b v
  | .fft K b => v.dom = .time ∧ FftSafe K b v
  | .plainIfft K b => v.dom = .frequency ∧ (∀ c, v.numberSpace ≠ .realOrComplex c) ∧ FftSafe K b v
  | .ifft K k addr _ b _ => v.isComplex = true ∧ v.dom = .frequency ∧
      (∀ c, v.numberSpace ≠ .realOrComplex c) ∧ v.points ≠ 1 ∧ FftSafe K b v ∧
      AlignmentAccepted addr k.len v.len
  | .mirror b => v.isComplex = true ∧ v.len ≠ 0 ∧ BufferOk b v.data (2 * v.len - 2)
  | .plainSfft _ _ => False
  | .sfft _ _ => False
  | .plainSifft _ _ _ _ _ => False

/-- Every operation of a history is safe in the state in which it is executed. -/
def DspVec.SafeAll [Field T] : DspVec T → List (VecOp T) → Prop
  | _, [] => True
  | v, op :: ops => v.Safe op ∧ ∀ w, v.exec op = .finished w → w.SafeAll ops

/-- The meaning of a sequence of operations. -/
def Signal.after [Field T] (s : Signal T) (calls : List (Call T)) : Signal T :=
  calls.foldl (fun s c => c.meaning s) s

end Dsp
