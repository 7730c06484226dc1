import Verif.Model.Fft
import Verif.Model.Interp
import Verif.Model.ComplexReal
import Mathlib.Algebra.Module.Defs
/-
Model of vector/src/conv_types.rs: lookup tables for impulse and frequency responses, and the two functions which the
library offers as such responses.
-/
namespace Dsp
variable {T α : Type}

/-- The four types of lookup tables, conv_types.rs:66-123: a table of real (`α = T`) or complex (`α = Cx T`) values. -/
structure LookupTable (T α : Type) where
  table : List α
  delta : T
  isSymmetric : Bool
deriving Repr, DecidableEq

/-- A convolution function: the traits `RealImpulseResponse`, `RealFrequencyResponse`, `ComplexImpulseResponse`,
    `ComplexFrequencyResponse`, conv_types.rs:14-64. -/
structure ConvFunction (T α : Type) where
  isSymmetric : Bool
  /-- `calc`, conv_types.rs:24, 37, 50, 63. -/
  eval : T → α

/-- `Complex<T> * T`, num_complex. -/
instance [Mul T] : SMul T (Cx T) := ⟨fun t c => ⟨c.re * t, c.im * t⟩⟩

section
variable [Field T] [LinearOrder T] [FloorRing T] [Zero α] [Add α] [Sub α] [SMul T α]

/-- `linear_interpolation_between_bins`, conv_types.rs:126-152; `y * t` for a value `y` and a number `t` is `t • y`. -/
def linearBetweenBins (x : T) (round : Nat) (table : List α) : Option α :=
  if x > (round : T) then
    if round + 1 ≥ table.length then get table round
    else do
      let y0 ← get table round
      let y1 ← get table (round + 1)
      some (y0 + (x - round) • (y1 - y0))
  else if round = 0 then get table round
  else do
    let y0 ← get table round
    let y1 ← get table (round - 1)
    some (y0 + ((round : T) - x) • (y1 - y0))

/-- `round_float as usize`: truncation, negative numbers become 0. (Numbers which do not fit into `usize` are not modelled.) -/
def asUsize (x : T) : Nat := ⌊x⌋.toNat

namespace LookupTable

/-- `calc`, conv_types.rs:163-182. -/
def eval (L : LookupTable T α) (x : T) : Option α :=
  let x := x / L.delta + (L.table.length / 2 : Nat)
  let round := asUsize (roundAway x)
  if round ≥ L.table.length then some 0
  else if |x - roundAway x| < 1 / 1000000 then get L.table round
  else linearBetweenBins x round L.table

end LookupTable
end

namespace LookupTable

/-- `from_raw_parts`, conv_types.rs:185-194. -/
def fromRawParts (table : List α) (delta : T) (isSymmetric : Bool) : LookupTable T α := ⟨table, delta, isSymmetric⟩

/-- The loop of `from_conv_function`, conv_types.rs:206-209: entries `n`, starting with the counter `i`. -/
def fill [Mul T] [IntCast T] (f : T → α) (delta : T) : Nat → Int → List α
  | 0, _ => []
  | n + 1, i => f ((i : T) * delta) :: fill f delta n (i + 1)

/-- `from_conv_function`, conv_types.rs:196-211. The memory is an `InlineVector` of the size `2 * len + 1`, which never
    panics (C44). -/
def fromConvFunction [Mul T] [IntCast T] (other : ConvFunction T α) (delta : T) (len : Nat) : LookupTable T α :=
  ⟨fill other.eval delta (2 * len + 1) (-(len : Int)), delta, other.isSymmetric⟩

/-- The function which the table stands for: it implements the same trait, conv_types.rs:158-183. -/
def toConvFunction [Field T] [LinearOrder T] [FloorRing T] [Zero α] [Add α] [Sub α] [SMul T α] (L : LookupTable T α) :
    ConvFunction T (Option α) := ⟨L.isSymmetric, L.eval⟩

end LookupTable

/-! ### Conversions -/

/-- The storage of an `InlineVector` with these numbers, inline_vector/dynamic.rs:24-48 (for the heap variant the capacity is at least
    their number, it is never needed here). -/
def inlineStorage (cells : List T) : Storage T :=
  ⟨if cells.length ≤ 64 then .inlineStack 64 else .inlineHeap cells.length, cells⟩

/-- `to_real_time_vec`, `to_complex_time_vec`, `to_complex_freq_vec` of an `InlineVector`, support_core.rs:456-516, followed by `set_delta`. -/
def inlineVector (cells : List T) (delta : T) (isComplex isFreq : Bool) : DspVec T :=
  { data := inlineStorage cells, delta := some delta, domain := if isFreq then .freq else .time,
    numberSpace := if isComplex then .complex else .real, validLen := validLenFor isComplex cells.length }

/-- `let vector = InlineVector::of_size(0, 2 * len).to_real_time_vec(); vector.resize(len); vector.data_mut(0..len)
    .copy_from_slice(&self.table); vector.set_delta(..)`, conv_types.rs:230-235 and 329-334. -/
def tableVector [Zero T] (table : List T) (delta : T) : Option (DspVec T) :=
  match (inlineVector (List.replicate (2 * table.length) 0) delta false false).resize table.length with
  | (v, .ok ()) => do
    let c ← copyFromSlice v.data.cells 0 table.length table
    some (v.withCells c)
  | (_, .error _) => none

/-- `for n in complex { interleaved.push(n.re); interleaved.push(n.im); }`, `to_complex_time_vec` or `to_complex_freq_vec`,
    `set_delta`, conv_types.rs:262-269, 295-302, 362-369. -/
def complexTableVector (table : List (Cx T)) (delta : T) (isFreq : Bool) : DspVec T :=
  inlineVector (fromComplex table) delta true isFreq

/-- `FixedLenBuffer::new(InlineVector::of_size(0, len))`. -/
def zeroBuffer [Zero T] (len : Nat) : Buffer T := .fixedLen (List.replicate len 0)

namespace LookupTable

/-- `to_complex` of the real tables, conv_types.rs:229-246. -/
def toComplex [Zero T] (L : LookupTable T T) : Option (LookupTable T (Cx T)) := do
  let v ← tableVector L.table L.delta
  let (w, _) ← v.toComplexVecB (zeroBuffer (2 * v.len))
  let c ← w.content
  let t ← toComplex? c
  some ⟨t, L.delta, L.isSymmetric⟩

/-- `to_real` of the complex tables, conv_types.rs:261-280. -/
def toReal [Zero T] (st : MultiCoreSettings) (L : LookupTable T (Cx T)) (sched : List Nat) : Outcome (LookupTable T T) :=
  ((complexTableVector L.table L.delta false).toRealBWith Cx.re st (zeroBuffer L.table.length) sched).andThen fun r =>
    Outcome.ofOption do
      let c ← r.1.content
      some ⟨c, L.delta, L.isSymmetric⟩

/-- The table of a vector after a transform: `datac(..)` and `delta()`, conv_types.rs:305-314, 372-381. `delta` is always defined
    here. -/
def ofComplexVector (v : DspVec T) (isSymmetric : Bool) : Option (LookupTable T (Cx T)) := do
  let c ← v.content
  let t ← toComplex? c
  let d ← v.delta
  some ⟨t, d, isSymmetric⟩

/-- `fft` of a complex table in time domain, conv_types.rs:294-315. -/
def fft [Zero T] [Mul T] [NatCast T] (K : FftKernel T) (L : LookupTable T (Cx T)) : Option (LookupTable T (Cx T)) := do
  let v := complexTableVector L.table L.delta false
  let (w, _) ← v.fft K (zeroBuffer v.len)
  ofComplexVector w L.isSymmetric

/-- `fft` of a real table in time domain: a magnitude spectrum, conv_types.rs:328-350. `norm` is the absolute value. -/
def magnitudeSpectrum [Zero T] [Mul T] [NatCast T] (K : FftKernel T) (norm : Cx T → T) (L : LookupTable T T) :
    Option (LookupTable T T) := do
  let v ← tableVector L.table L.delta
  let (w, _) ← v.fft K (zeroBuffer (2 * L.table.length))
  let u ← w.toRealWith norm
  let c ← u.content
  let d ← u.delta
  some ⟨c, d, L.isSymmetric⟩

/-- `ifft` of a complex table in frequency domain, conv_types.rs:361-382. -/
def ifft [Zero T] [One T] [Add T] [Sub T] [Mul T] [Div T] [NatCast T] (K : FftKernel T) (k : RegKind) (addr : Nat) (st : MultiCoreSettings)
    (L : LookupTable T (Cx T)) (sched : List Nat) : Outcome (LookupTable T (Cx T)) :=
  ((complexTableVector L.table L.delta true).ifft K k addr st (zeroBuffer (complexTableVector L.table L.delta true).len) sched).andThen
    fun r => Outcome.ofOption (ofComplexVector r.1 L.isSymmetric)

end LookupTable

/-! ### Functions -/

section
variable [Field T] [LinearOrder T]

/-- `SincFunction` as impulse response, conv_types.rs:471-488, for a sine and a number pi. -/
def sincTime (pi : T) (sin : T → T) : ConvFunction T T :=
  ⟨true, fun x => if x = 0 then 1 else sin (pi * x) / (pi * x)⟩

/-- `SincFunction` as frequency response, conv_types.rs:490-506. -/
def sincFreq : ConvFunction T T := ⟨true, fun x => if |x| ≤ 1 then 1 else 0⟩

/-- `RaisedCosineFunction` as impulse response, conv_types.rs:398-424. -/
def raisedCosineTime (pi : T) (sin cos : T → T) (rolloff : T) : ConvFunction T T :=
  ⟨true, fun x =>
    if x = 0 then 1
    else if |x| = 1 / (2 * rolloff) then
      sin (pi / 2 / rolloff) / (pi / 2 / rolloff) * pi / (2 * 2)
    else sin (pi * x) * cos (pi * x * rolloff) / (pi * x) / (1 - (2 * rolloff * x) * (2 * rolloff * x))⟩

/-- `RaisedCosineFunction` as frequency response, conv_types.rs:426-450. -/
def raisedCosineFreq (pi : T) (cos : T → T) (rolloff : T) : ConvFunction T T :=
  ⟨true, fun x =>
    if |x| ≤ 1 - rolloff then 1
    else if 1 - rolloff < |x| ∧ |x| ≤ 1 + rolloff then
      1 / 2 * (1 + cos (pi / rolloff * (|x| - (1 - rolloff)) / 2))
    else 0⟩

end
end Dsp
