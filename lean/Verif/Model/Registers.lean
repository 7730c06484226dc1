import Verif.Model.Simd
import Verif.Model.Complex
/-
Model of the SIMD register types: simd_extensions/fallback.rs, sse.rs, avx.rs.
A register is a list of its lanes (lane 0 first). Numbers are elements of an arbitrary type with
the operations of the source; the intrinsics are modelled by their documented lane semantics:
* `_mm_addsub_ps`, `_mm256_addsub_ps/pd`: even lanes are subtracted, odd lanes added,
* `_mm_hadd_ps`, `_mm256_hadd_ps`, `_mm256_hadd_pd`: sums of neighbours within each 128 bit half,
* `_mm_permute_ps` etc. with `SWAP_IQ_*`: exchange of neighbouring lanes.
The AVX-512 types are not modelled: `sel_reg!` (x86.rs) never selects them.
-/
namespace Dsp
variable {T : Type}

/-- The register types which `sel_reg!` selects, simd_extensions/x86.rs:3-26. -/
inductive RegKind | fallbackF32x4 | fallbackF64x2 | sseF32x4 | sseF64x2 | avxF32x8 | avxF64x4
deriving DecidableEq, Repr

/-- `Simd::LEN`: fallback.rs:160, 297; sse.rs:25, 193; avx.rs:25, 216. -/
def RegKind.len : RegKind → Nat
  | .fallbackF32x4 => 4 | .fallbackF64x2 => 2 | .sseF32x4 => 4 | .sseF64x2 => 2
  | .avxF32x8 => 8 | .avxF64x4 => 4

/-- The lane wise operators `+ - * /` of registers, fallback.rs:83-145 (packed_simd for SSE and
    AVX). -/
def regZip (f : T → T → T) (r o : List T) : List T := List.zipWith f r o

/-- `splat`, fallback.rs:22-24, 58-60. -/
def regSplat (k : RegKind) (x : T) : List T := List.replicate k.len x

/-- `from_complex`: fallback.rs:163-165, 300-302; sse.rs:28-30, 196-198; avx.rs:28-32, 219-221 -/
def regFromComplex (k : RegKind) (x : Cx T) : List T :=
  match k with
  | .fallbackF32x4 | .sseF32x4 | .avxF64x4 => [x.re, x.im, x.re, x.im]
  | .fallbackF64x2 | .sseF64x2 => [x.re, x.im]
  | .avxF32x8 => [x.re, x.im, x.re, x.im, x.re, x.im, x.re, x.im]

/-- `add_real`: fallback.rs:168-171, 305-308; sse.rs:33-36, 201-204; avx.rs:35-38, 224-227 -/
def regAddReal [Add T] (k : RegKind) (x : T) (r : List T) : List T :=
  regZip (· + ·) r (regSplat k x)

/-- `add_complex`: fallback.rs:174-177, 311-314; sse.rs:39-42, 207-210; avx.rs:41-44, 230-233 -/
def regAddComplex [Add T] (k : RegKind) (x : Cx T) (r : List T) : List T :=
  regZip (· + ·) r (regFromComplex k x)

/-- `scale_real`: fallback.rs:180-183, 317-320; sse.rs:45-48, 213-216; avx.rs:47-50, 236-239 -/
def regScaleReal [Mul T] (k : RegKind) (x : T) (r : List T) : List T :=
  regZip (· * ·) r (regSplat k x)

/-- `swap_iq`: fallback.rs:275-282, 392-394; sse.rs:176-178, 288-290; avx.rs:199-201, 363-365 -/
def regSwapIq : List T → List T
  | a :: b :: rest => b :: a :: regSwapIq rest
  | r => r

/-- `_mm_addsub_ps`, `_mm256_addsub_ps`, `_mm256_addsub_pd`. (Registers have an even number of
    lanes, the last equation is never used for them.) -/
def addsub [Add T] [Sub T] : List T → List T → List T
  | a :: b :: r, c :: d :: s => (a - c) :: (b + d) :: addsub r s
  | r, _ => r

/-- Repeats the even lanes: `new(v.extract(0), v.extract(0), v.extract(2), ..)`. -/
def dupEven : List T → List T
  | a :: _ :: rest => a :: a :: dupEven rest
  | r => r

/-- Repeats the odd lanes: `new(v.extract(1), v.extract(1), v.extract(3), ..)`. -/
def dupOdd : List T → List T
  | _ :: b :: rest => b :: b :: dupOdd rest
  | r => r

section arith
variable [Add T] [Sub T] [Mul T] [Div T]

/-- Complex operations which unpack the lanes into `Complex` values:
    fallback.rs:186-214, 323-343 and sse.rs:219-239. -/
def lanesMap (f : Cx T → Cx T) : List T → List T
  | a :: b :: rest => (f ⟨a, b⟩).re :: (f ⟨a, b⟩).im :: lanesMap f rest
  | r => r

/-- As `lanesMap` for two registers. -/
def lanesZip (f : Cx T → Cx T → Cx T) : List T → List T → List T
  | a :: b :: r, c :: d :: s => (f ⟨a, b⟩ ⟨c, d⟩).re :: (f ⟨a, b⟩ ⟨c, d⟩).im :: lanesZip f r s
  | r, _ => r

/-- `scale_complex`: fallback.rs:186-192, 323-327; sse.rs:51-63, 219-223; avx.rs:53-65, 242-254 -/
def regScaleComplex (k : RegKind) (x : Cx T) (r : List T) : List T :=
  match k with
  | .fallbackF32x4 | .fallbackF64x2 | .sseF64x2 => lanesMap (fun a => a.mul x) r
  | .sseF32x4 | .avxF32x8 | .avxF64x4 =>
    addsub (regZip (· * ·) (regSplat k x.re) r) (regZip (· * ·) (regSplat k x.im) (regSwapIq r))

/-- `mul_complex`: fallback.rs:195-203, 330-335; sse.rs:66-90, 226-231; avx.rs:68-98, 257-279 -/
def regMulComplex (k : RegKind) (r v : List T) : List T :=
  match k with
  | .fallbackF32x4 | .fallbackF64x2 | .sseF64x2 => lanesZip Cx.mul r v
  | .sseF32x4 | .avxF32x8 | .avxF64x4 =>
    addsub (regZip (· * ·) (dupEven v) r) (regZip (· * ·) (dupOdd v) (regSwapIq r))

/-- `div_complex`: fallback.rs:206-214, 338-343; sse.rs:93-122, 234-239; avx.rs:101-136, 282-309 -/
def regDivComplex (k : RegKind) (r v : List T) : List T :=
  match k with
  | .fallbackF32x4 | .fallbackF64x2 | .sseF64x2 => lanesZip Cx.div r v
  | .sseF32x4 | .avxF32x8 | .avxF64x4 =>
    let shuffled := regSwapIq v
    let mul := addsub (regZip (· * ·) (dupOdd r) v) (regZip (· * ·) (dupEven r) shuffled)
    let square := regZip (· * ·) shuffled shuffled
    let sum := regZip (· + ·) square (regSwapIq square)
    regSwapIq (regZip (· / ·) mul sum)

/-- `_mm_hadd_ps(s, s)`, `_mm256_hadd_ps(s, s)`. -/
def haddPs : List T → List T
  | a :: b :: c :: d :: rest => (a + b) :: (c + d) :: (a + b) :: (c + d) :: haddPs rest
  | r => r

/-- `_mm256_hadd_pd(s, s)`. -/
def haddPd : List T → List T
  | a :: b :: rest => (a + b) :: (a + b) :: haddPd rest
  | r => r

/-- `complex_abs_squared`: fallback.rs:217-220, 346-351; sse.rs:125-133, 242-247; avx.rs:139-147, 312-320 -/
def regComplexAbsSquared [Zero T] (k : RegKind) (r : List T) : List T :=
  let squared := regZip (· * ·) r r
  match k with
  | .fallbackF32x4 =>
    match squared with
    | [a, b, c, d] => [a + b, c + d, 0, 0]
    | s => s
  | .fallbackF64x2 | .sseF64x2 =>
    match squared with
    | [a, b] => [a + b, 0]
    | s => s
  | .sseF32x4 | .avxF32x8 => haddPs squared
  | .avxF64x4 => haddPd squared

/-- The numbers which `store_half` writes to `target[index..]`: fallback.rs:239-242, 367-369; sse.rs:147-150, 263-265; avx.rs:161-166, 334-337. -/
def regStoreHalf (k : RegKind) (r : List T) : List T :=
  match k, r with
  | .avxF32x8, [a, b, _, _, e, f, _, _] => [a, b, e, f]
  | .fallbackF32x4, a :: b :: _ => [a, b]
  | .sseF32x4, a :: b :: _ => [a, b]
  | .avxF64x4, a :: b :: _ => [a, b]
  | .fallbackF64x2, a :: _ => [a]
  | .sseF64x2, a :: _ => [a]
  | _, _ => []

/-- `sum_real`: fallback.rs:245-247, 372-374; sse.rs:153-155, 268-270; avx.rs:169-178, 340-342:
    the lanes are added from left to right. -/
def regSumReal [Zero T] : List T → T
  | [] => 0
  | a :: rest => rest.foldl (· + ·) a

/-- The even lanes. -/
def evens : List T → List T
  | a :: _ :: rest => a :: evens rest
  | r => r

/-- The odd lanes. -/
def odds : List T → List T
  | _ :: b :: rest => b :: odds rest
  | _ => []

/-- `sum_complex`: fallback.rs:250-252, 377-379; sse.rs:158-163, 273-275; avx.rs:181-186, 345-350 -/
def regSumComplex [Zero T] (r : List T) : Cx T := ⟨regSumReal (evens r), regSumReal (odds r)⟩

end arith
end Dsp
