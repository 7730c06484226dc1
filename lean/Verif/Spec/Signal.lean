import Verif.Spec.Fft
import Verif.Spec.Storage
import Verif.Spec.Reorg
import Verif.Spec.Windows
import Verif.Model.History
import Mathlib.Algebra.Field.Defs
/-
The signal which a vector shows to its user, and the meaning of the operations in terms of signals.
Nothing in this file mentions storages, buffers, workers, schedules, registers or addresses, apart from
`VecOp.call`, which forgets them.
-/
namespace Dsp
variable {T : Type}

/-- The numbers of a signal. -/
inductive Numbers (T : Type)
  | real (xs : List T)
  | complex (cs : List (Cx T))

namespace Numbers

/-- Number of points. -/
def count : Numbers T → Nat
  | .real xs => xs.length
  | .complex cs => cs.length

/-- Are the numbers complex? -/
def isComplex : Numbers T → Bool
  | .real _ => false
  | .complex _ => true

/-- The numbers one after the other, complex numbers as real part, imaginary part. -/
def flat : Numbers T → List T
  | .real xs => xs
  | .complex cs => fromComplex cs

/-- The numbers as complex numbers. -/
def asCx [Zero T] : Numbers T → List (Cx T)
  | .real xs => xs.map Cx.ofReal
  | .complex cs => cs

/-- Rearrange the points: `f` gets the zero point and the list of points. -/
def rearrange [Zero T] (f : ∀ {α : Type}, α → List α → List α) : Numbers T → Numbers T
  | .real xs => .real (f 0 xs)
  | .complex cs => .complex (f ⟨0, 0⟩ cs)

/-- Apply one of two functions to the list of points. -/
def mapLists (f : List T → List T) (g : List (Cx T) → List (Cx T)) : Numbers T → Numbers T
  | .real xs => .real (f xs)
  | .complex cs => .complex (g cs)

end Numbers

/-- A signal: what a user sees of a vector. `generic`: number space and domain are tracked at run time. -/
structure Signal (T : Type) where
  numbers : Numbers T
  dom : DataDomain
  generic : Bool
  delta : Option T

/-- `v` shows the signal `s`. Nothing is said about the kind of the storage, its size and what it holds
    beyond the valid numbers. -/
structure DspVec.Shows (v : DspVec T) (s : Signal T) : Prop where
  content : v.content = some s.numbers.flat
  space : v.numberSpace = if s.generic then .realOrComplex s.numbers.isComplex
    else if s.numbers.isComplex then .complex else .real
  domain : v.domain = if s.generic then .timeOrFreq s.dom
    else match s.dom with | .time => .time | .frequency => .freq
  delta : v.delta = s.delta

/-- The points `d, d + k, d + 2 k, ...`. -/
def everyNth {α : Type} (k d : Nat) (l : List α) : List α :=
  (List.range l.length).filterMap fun t => l[d + t * k]?

/-- Successive differences. -/
def differences {α : Type} (sub : α → α → α) (l : List α) : List α := List.zipWith sub l.tail l

/-- The first point and the successive differences. -/
def differencesWithStart {α : Type} (sub : α → α → α) : List α → List α
  | [] => []
  | x :: l => x :: differences sub (x :: l)

/-- The sums of the first `1, 2, ..., n` points. -/
def prefixSums [AddMonoid T] (l : List T) : List T :=
  (List.range l.length).map fun i => (l.take (i + 1)).sum

/-- The sums of the first `1, 2, ..., n` complex numbers. -/
def prefixSumsCx [AddMonoid T] (l : List (Cx T)) : List (Cx T) :=
  List.zipWith Cx.mk (prefixSums (l.map Cx.re)) (prefixSums (l.map Cx.im))

/-- The points of a signal, point `i` multiplied by `w i`. -/
def Numbers.weight [Mul T] (w : Nat → T) : Numbers T → Numbers T
  | .real xs => .real (xs.mapIdx fun i x => x * w i)
  | .complex cs => .complex (cs.mapIdx fun i c => ⟨c.re * w i, c.im * w i⟩)

/-- What the user asks for: an operation without the environment in which it is executed. -/
inductive Call (T : Type)
  | resize (n : Nat)
  | zeroPad (points : Nat) (o : PaddingOption)
  | zeroInterleave (f : Nat)
  | reverse
  | swapHalves
  | swapHalvesBack
  | diff
  | diffWithStart
  | cumSum
  | decimate (f delay : Nat)
  | rededicate (ty : DspVec.VecType)
  | toComplex
  | complexToReal (op : Cx T → T)
  | setComplex (cs : List (Cx T))
  | merge (sources : List (Option (List T)))
  | offset (x : T)
  | offsetComplex (x : Cx T)
  | scale (x : T)
  | scaleComplex (x : Cx T)
  | mathOp (lib : MathLib T) (op : MathOp T)
  | sqrt (lib : MathLib T)
  | square
  | abs (lib : MathLib T)
  | conj
  | mapReal (f : T → Nat → T)
  | mapComplex (f : Cx T → Nat → Cx T)
  | applyWindow (w : WindowFunction T)
  | unapplyWindow (w : WindowFunction T)
  | plainFft (K : FftKernel T)
  | fft (K : FftKernel T)
  | plainIfft (K : FftKernel T)
  | ifft (K : FftKernel T)
  | mirror
  /-- `sfft`, `plain_sfft`, `plain_sifft`: not described here, see C49 -/
  | symmetricTransform (K : FftKernel T)

/-- Forget the environment of an operation: buffers, settings of the workers, register types, addresses
    and schedules, and of operands everything but their numbers. -/
def VecOp.call : VecOp T → Call T
  | .resize n => .resize n
  | .resizeB _ n => .resize n
  | .zeroPad p o => .zeroPad p o
  | .zeroPadB _ p o => .zeroPad p o
  | .zeroInterleave f => .zeroInterleave f
  | .zeroInterleaveB _ f => .zeroInterleave f
  | .reverse => .reverse
  | .swapHalves => .swapHalves
  | .fftShift => .swapHalves
  | .ifftShift => .swapHalvesBack
  | .diff => .diff
  | .diffWithStart => .diffWithStart
  | .cumSum => .cumSum
  | .decimatei f d => .decimate f d
  | .rededicate ty => .rededicate ty
  | .toComplex => .toComplex
  | .toComplexB _ => .toComplex
  | .complexToReal op => .complexToReal op
  | .complexToRealB op _ _ _ => .complexToReal op
  | .magnitudeB _ _ _ op _ => .complexToReal op
  | .setRealImag re im => .setComplex (List.zipWith Cx.mk (re.content.getD []) (im.content.getD []))
  | .setMagPhase cart m p => .setComplex (List.zipWith cart (m.content.getD []) (p.content.getD []))
  | .merge sources => .merge (sources.map DspVec.content)
  | .offset _ _ _ x _ => .offset x
  | .offsetComplex _ _ _ x _ => .offsetComplex x
  | .scale _ _ _ x _ => .scale x
  | .scaleComplex _ _ _ x _ => .scaleComplex x
  | .mathOp lib op _ _ => .mathOp lib op
  | .sqrt lib _ _ _ _ => .sqrt lib
  | .square _ _ _ _ => .square
  | .abs lib _ _ _ _ => .abs lib
  | .conj _ _ _ _ => .conj
  | .mapInplace f _ _ => .mapReal f
  | .mapInplaceComplex f _ _ => .mapComplex f
  | .applyWindow w _ _ => .applyWindow w
  | .unapplyWindow w _ _ => .unapplyWindow w
  | .plainFft K _ => .plainFft K
  | .fft K _ => .fft K
  | .plainIfft K _ => .plainIfft K
  | .ifft K _ _ _ _ _ => .ifft K
  | .plainSfft K _ => .symmetricTransform K
  | .sfft K _ => .symmetricTransform K
  | .mirror _ => .mirror
  | .plainSifft _ K _ _ _ => .symmetricTransform K

/-- `n` numbers: a prefix of the given ones, filled up with zeros. -/
def takeFill {α : Type} (z : α) (n : Nat) (l : List α) : List α := l.take n ++ List.replicate (n - l.length) z

/-- The transform of a signal: complex numbers, and the sampling distance which the library sets. -/
def Signal.transform [Zero T] [Mul T] [NatCast T] (K : FftKernel T) (s : Signal T) (dom : DataDomain)
    (f : List (Cx T) → List (Cx T)) : Signal T :=
  { s with
    numbers := .complex (f s.numbers.asCx)
    dom := dom
    delta := if K.useRust (2 * s.numbers.count) then s.delta.map (fun d => (s.numbers.count : T) * d)
      else s.delta }

/-- Merge `k` lists of the same length: point `q` of list `j` becomes point `q * k + j` of the result. -/
def mergeLists {α : Type} (lists : List (List α)) : List α :=
  (List.range (lists.map List.length).sum).filterMap fun i =>
    (lists[i % lists.length]?).bind fun l => l[i / lists.length]?

/-- The meaning of an operation: the signal afterwards. Cases which the library rejects or marks as
    invalid are the subject of other properties (C02, C07, C32); here they leave the signal as it is. -/
def Call.meaning [Field T] (s : Signal T) : Call T → Signal T
  | .resize n =>
    match s.numbers with
    | .real xs => { s with numbers := .real (takeFill 0 n xs) }
    | .complex cs => if n % 2 = 1 then s else { s with numbers := .complex (takeFill ⟨0, 0⟩ (n / 2) cs) }
  | .zeroPad p o =>
    if p ≤ s.numbers.count then s
    else { s with numbers := s.numbers.rearrange fun z l => padSpec z l p (surroundRight l.length p) o }
  | .zeroInterleave f => { s with numbers := s.numbers.rearrange fun z l => interleaveSpec z f l }
  | .reverse => { s with numbers := s.numbers.rearrange fun _ l => l.reverse }
  | .swapHalves => { s with numbers := s.numbers.rearrange fun _ l => rotateRight l (l.length / 2) }
  | .swapHalvesBack => { s with numbers := s.numbers.rearrange fun _ l => rotateLeft l (l.length / 2) }
  | .diff => { s with numbers := s.numbers.mapLists (differences (· - ·)) (differences Cx.sub) }
  | .diffWithStart =>
    { s with numbers := s.numbers.mapLists (differencesWithStart (· - ·)) (differencesWithStart Cx.sub) }
  | .cumSum =>
    { s with numbers := s.numbers.mapLists prefixSums prefixSumsCx }
  | .decimate k d => { s with numbers := s.numbers.rearrange fun _ l => everyNth k d l }
  | .rededicate ty =>
    match ty with
    | .gen => { s with generic := true }
    | _ => { s with generic := false }
  | .toComplex => { s with numbers := .complex s.numbers.asCx }
  | .complexToReal op =>
    match s.numbers with
    | .real _ => s
    | .complex cs => { s with numbers := .real (cs.map op) }
  | .setComplex cs => { s with numbers := .complex cs }
  | .merge sources =>
    match s.numbers with
    | .real _ => { s with numbers := .real (mergeLists (sources.map (Option.getD · []))) }
    | .complex _ =>
      { s with numbers := .complex (mergeLists (sources.map fun c => (c.bind toComplex?).getD [])) }
  | .offset x =>
    { s with numbers := s.numbers.mapLists (List.map (· + x)) (List.map fun c => ⟨c.re + x, c.im⟩) }
  | .offsetComplex x => { s with numbers := s.numbers.mapLists id (List.map (Cx.add · x)) }
  | .scale x =>
    { s with numbers := s.numbers.mapLists (List.map (· * x)) (List.map fun c => ⟨c.re * x, c.im * x⟩) }
  | .scaleComplex x => { s with numbers := s.numbers.mapLists id (List.map (Cx.mul · x)) }
  | .mathOp lib op => { s with numbers := s.numbers.mapLists (List.map (lib.real op)) (List.map (lib.cx op)) }
  | .sqrt lib => { s with numbers := s.numbers.mapLists (List.map lib.sqrt) (List.map lib.sqrtCx) }
  | .square => { s with numbers := s.numbers.mapLists (List.map fun x => x * x) (List.map fun x => x * x) }
  | .abs lib => { s with numbers := s.numbers.mapLists (List.map lib.abs) id }
  | .conj => { s with numbers := s.numbers.mapLists id (List.map fun c => ⟨c.re, -c.im⟩) }
  | .mapReal f => { s with numbers := s.numbers.mapLists (List.mapIdx fun i x => f x i) id }
  | .mapComplex f => { s with numbers := s.numbers.mapLists id (List.mapIdx fun i x => f x i) }
  | .applyWindow w => { s with numbers := s.numbers.weight fun i => w.window i s.numbers.count }
  | .unapplyWindow w => { s with numbers := s.numbers.weight fun i => 1 / w.window i s.numbers.count }
  | .plainFft K => s.transform K .frequency K.forward
  | .fft K => s.transform K .frequency fun cs => rotateRight (K.forward cs) (cs.length / 2)
  | .plainIfft K => s.transform K .time K.inverse
  | .ifft K => s.transform K .time fun cs =>
      K.inverse (rotateLeft (cs.map (Cx.scaleBy (1 / (cs.length : T)))) (cs.length / 2))
  | .mirror =>
    match s.numbers with
    | .real _ => s
    | .complex cs => { s with numbers := .complex (cs ++ (cs.tail.map Cx.conj).reverse) }
  | .symmetricTransform _ => s

end Dsp
