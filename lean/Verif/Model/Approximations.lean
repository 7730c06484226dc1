import Verif.Model.RealOps
import Verif.Model.Registers
import Mathlib.Data.Real.Basic
import Mathlib.Data.Int.Log
import Mathlib.Analysis.SpecialFunctions.Log.Basic
import Mathlib.Analysis.SpecialFunctions.Trigonometric.Basic
/-
Model of the approximated functions, simd_extensions/approximations.rs and vector_types/real/real_ops.rs:288-376.
Integer registers are bit vectors, bit patterns of floating point numbers are natural numbers; the arithmetic of floating point numbers is exact
(real numbers). One lane of a register is modelled, all operations are lane by lane.
-/
namespace Dsp

/-- `f32` or `f64`: the instances of the macro, approximations.rs:349-361. -/
inductive FloatFormat
  | f32 | f64
deriving DecidableEq, Repr

namespace FloatFormat
/-- `$bit_len`, approximations.rs:349-361. -/
def bitLen : FloatFormat → Nat
  | f32 => 32
  | f64 => 64
/-- `mant_len`, approximations.rs:48-69. -/
def mantLen : FloatFormat → Nat
  | f32 => 23
  | f64 => 52
/-- `hex7fi`, approximations.rs:48-69, 154-158. -/
def bias : FloatFormat → Nat
  | f32 => 0x7f
  | f64 => 0x3ff
/-- `inv_mant_mask`, approximations.rs:52, 63. -/
def invMantMask : FloatFormat → Nat
  | f32 => 0xffffffff - 0x7f800000
  | f64 => 0xffffffffffffffff - 0x7ff0000000000000
/-- The bits of `half`, approximations.rs:74, 95. -/
def halfBits : FloatFormat → Nat
  | f32 => 0x3f000000
  | f64 => 0x3fe0000000000000
/-- The bits of `sqrthf = 2.0.sqrt()`, approximations.rs:75, 102. -/
def sqrthfBits : FloatFormat → Nat
  | f32 => 0x3fb504f3
  | f64 => 0x3ff6a09e667f3bcd
end FloatFormat

noncomputable section

/-- The number with the bit pattern `bits` (positive, normal), IEEE 754; `mem::transmute` in approximations.rs. -/
def decode (fmt : FloatFormat) (bits : Nat) : ℝ :=
  (1 + ((bits % 2 ^ fmt.mantLen : Nat) : ℝ) / 2 ^ fmt.mantLen) * 2 ^ ((bits / 2 ^ fmt.mantLen : Nat) - (fmt.bias : ℤ))

/-- The bit pattern of a positive normal number, IEEE 754; `mem::transmute` in approximations.rs. -/
def encode (fmt : FloatFormat) (x : ℝ) : Nat :=
  (Int.log 2 x + fmt.bias).toNat * 2 ^ fmt.mantLen + ⌊(x / 2 ^ Int.log 2 x - 1) * 2 ^ fmt.mantLen⌋.toNat

/-- The polynomial of `ln_approx`, approximations.rs:114-136 (up to `y * z`). -/
def lnPoly (x : ℝ) : ℝ :=
  (((((((((7.0376836292E-2 * x + -1.1514610310E-1) * x + 1.1676998740E-1) * x + -1.2420140846E-1) * x + 1.4249322787E-1) * x +
    -1.6668057665E-1) * x + 2.0000714765E-1) * x + -2.4999993993E-1) * x + 3.3333331174E-1) * x) * (x * x)

/-- `ln_approx` after the exponent `e` and the number `x` have been determined, approximations.rs:112-146. -/
def lnTail (e x : ℝ) : ℝ :=
  (x + (lnPoly x + e * -2.12194440e-4 - x * x * 0.5)) + e * 0.693359375

/-- `ln_approx` of a bit pattern, approximations.rs:89-146. -/
def lnBits (fmt : FloatFormat) (bits : Nat) : ℝ :=
  let emm0 : ℤ := ((bits >>> fmt.mantLen : Nat) : ℤ) - fmt.bias
  let frac := (bits &&& fmt.invMantMask) ||| fmt.halfBits
  let e : ℝ := (emm0 : ℝ) + 1
  let mask : Bool := frac < fmt.sqrthfBits
  let x := decode fmt frac
  let tmp := if mask then x else 0
  lnTail (e - (if mask then 1 else 0)) (x - 1 + tmp)

/-- `ln_approx`, approximations.rs:44-147; `none`: not a number. -/
def lnApprox (fmt : FloatFormat) (x : ℝ) : Option ℝ :=
  if x ≤ 0 then none else some (lnBits fmt (encode fmt (max x (decode fmt (1 <<< fmt.mantLen)))))

/-- The conversion to integers (`from_cast`), sse.rs:294-318, avx.rs:369-393: towards zero. -/
def castInt (x : ℝ) : ℤ := if x < 0 then ⌈x⌉ else ⌊x⌋

/-- The polynomial of `exp_approx`, approximations.rs:194-208. -/
def expPoly (x : ℝ) : ℝ :=
  (((((1.9875691500E-4 * x + 1.3981999507E-3) * x + 8.3334519073E-3) * x + 4.1665795894E-2) * x + 1.6666665459E-1) * x +
    5.0000001201E-1) * (x * x) + x + 1

/-- `exp_approx`, approximations.rs:150-218. -/
def expApprox (fmt : FloatFormat) (x : ℝ) : ℝ :=
  let x := max (min x 88.3762626647949) (-88.3762626647949)
  let fx := x * 1.44269504088896341 + 0.5
  let tmp : ℝ := castInt fx
  let fx := tmp - (if tmp > fx then 1 else 0)
  let x := x - fx * 0.693359375 - fx * -2.12194440e-4
  let emm0 : BitVec fmt.bitLen := BitVec.ofInt fmt.bitLen (castInt fx + fmt.bias)
  expPoly x * decode fmt (emm0 <<< fmt.mantLen).toNat

/-- The polynomial for the cosine, approximations.rs:301-312. -/
def cosPoly (x : ℝ) : ℝ :=
  let z := x * x
  ((2.443315711809948E-005 * z + -1.388731625493765E-003) * z + 4.166664568298827E-002) * z * z - z * 0.5 + 1

/-- The polynomial for the sine, approximations.rs:315-321. -/
def sinPoly (x : ℝ) : ℝ :=
  let z := x * x
  ((-1.9515295891E-4 * z + 8.3321608736E-3) * z + -1.6666654611E-1) * z * x + x

/-- The octant, `emm2` in approximations.rs:262-268. -/
def octant (fmt : FloatFormat) (x : ℝ) : BitVec fmt.bitLen :=
  (BitVec.ofInt fmt.bitLen (castInt (|x| * 1.27323954473516)) + 1) &&& ~~~1

/-- The swapped sign and the selection of the polynomial, approximations.rs:269-290. -/
def octantChoice (w : Nat) (isSin : Bool) (emm2 : BitVec w) : Bool × Bool :=
  let emm2 := if isSin then emm2 else emm2 - 2
  let emm0 := if isSin then emm2 &&& 4 else ~~~emm2 &&& 4
  ((emm0 <<< (w - 3)).msb, emm2 &&& 2 == 0)

/-- `sin_cos_approx`, approximations.rs:233-343. Taking and changing signs by bit operations is written as such, the selection by masks as
    `if`. -/
def sinCosApprox (fmt : FloatFormat) (isSin : Bool) (x : ℝ) : ℝ :=
  let emm2 := octant fmt x
  let y : ℝ := emm2.toInt
  let c := octantChoice fmt.bitLen isSin emm2
  let signBit := if isSin then Bool.xor (x < 0) c.1 else c.1
  let r := |x| + y * -0.78515625 + y * -2.4187564849853515625e-4 + y * -3.77489497744594108e-8
  let y := if c.2 then sinPoly r else cosPoly r
  if signBit then -y else y

/-- The methods of `ApproximatedOps`, real_ops.rs:86-228. -/
inductive ApproxOp
  | ln | exp | sin | cos | log (base : ℝ) | expf (base : ℝ) | powf (exponent : ℝ)

/-- What a lane of a register computes, real_ops.rs:302-376; `nan` stands for not-a-number (the exponential function of it is it again). -/
def ApproxOp.lane (op : ApproxOp) (fmt : FloatFormat) (nan : ℝ) (x : ℝ) : ℝ :=
  match op with
  | .ln => (lnApprox fmt x).getD nan
  | .exp => expApprox fmt x
  | .sin => sinCosApprox fmt true x
  | .cos => sinCosApprox fmt false x
  | .log b => ((lnApprox fmt x).map (· / Real.log b)).getD nan
  | .expf b => expApprox fmt (Real.log b * x)
  | .powf y => ((lnApprox fmt x).map fun l => expApprox fmt (l * y)).getD nan

/-- What is computed outside of registers, and without SIMD support (approx_fallback.rs), real_ops.rs:302-376. The logarithm of numbers which
    are not positive is not a number (of zero: minus infinity). -/
def ApproxOp.scalar (op : ApproxOp) (nan : ℝ) (x : ℝ) : ℝ :=
  match op with
  | .ln => if 0 < x then Real.log x else nan
  | .exp => Real.exp x
  | .sin => Real.sin x
  | .cos => Real.cos x
  | .log b => if 0 < x then Real.log x / Real.log b else nan
  | .expf b => Real.exp (Real.log b * x)
  | .powf y => if 0 < x then Real.exp (Real.log x * y) else nan

/-- The number type of a register, simd_extensions/mod.rs:311-336. -/
def RegKind.format : RegKind → FloatFormat
  | .fallbackF32x4 | .sseF32x4 | .avxF32x8 => .f32
  | .fallbackF64x2 | .sseF64x2 | .avxF64x4 => .f64

/-- Registers without SIMD support use the standard functions, approx_fallback.rs:1-45. -/
def RegKind.isFallback : RegKind → Bool
  | .fallbackF32x4 | .fallbackF64x2 => true
  | _ => false

/-- What a register computes, real_ops.rs:302-376. -/
def ApproxOp.register (op : ApproxOp) (k : RegKind) (nan : ℝ) (x : ℝ) : ℝ :=
  if k.isFallback then op.scalar nan x else op.lane k.format nan x

/-- `ln_approx` to `powf_approx`, real_ops.rs:302-376. -/
def DspVec.approx (op : ApproxOp) (nan : ℝ) (k : RegKind) (addr : Nat) (st : MultiCoreSettings) (v : DspVec ℝ)
    (sched : List Nat) : Outcome (DspVec ℝ) :=
  if v.isComplex then .finished v.markInvalid
  else match v.content with
  | none => .panic
  | some a => v.mapOutcome (simdRealOperation addr k.len (fun r => r.map (op.register k nan)) (op.scalar nan) .small st sched a)

end
end Dsp
