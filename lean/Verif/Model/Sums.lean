import Verif.Model.Vec
import Verif.Model.Registers
/-
Model of the sums and dot products: vector_types/general/statistics.rs:432-562,
dot_products.rs, precise_stats.rs (sums) and the compensated summation, general/mod.rs:23-55.
`addr` is the address of the storage in elements, `order` the order in which workers deliver their
results.
-/
namespace Dsp
variable {T : Type}

/-- One round of the loop of `kahan_sum`: state (sum, c). general/mod.rs:31-34. -/
def kahanStep {E : Type} (add sub : E → E → E) (s : E × E) (n : E) : E × E :=
  let y := sub n s.2
  let t := add s.1 y
  (t, sub (sub t s.1) y)

/-- `kahan_sum` and `kahan_sumb`, general/mod.rs:23-55. The operations are parameters since the
    function is applied to numbers, complex numbers and registers. -/
def kahanSum {E : Type} (add sub : E → E → E) (zero : E) (l : List E) : E :=
  (l.foldl (kahanStep add sub) (zero, zero)).1

/-- Accumulation of registers: `let mut sum = Reg::splat(T::zero()); for reg in array { sum = sum +
    f(reg) }`, statistics.rs:452-456, 483-487, 514-518, 545-549; dot_products.rs:91-97, 144-150. -/
def plainRegSum [Add T] [Zero T] (k : RegKind) (regs : List (List T)) : List T :=
  regs.foldl (regZip (· + ·)) (regSplat k 0)

/-- `kahan_sum` over registers, dot_products.rs:192-197, 244-249. -/
def kahanRegSum [Add T] [Sub T] [Zero T] (k : RegKind) (regs : List (List T)) : List T :=
  kahanSum (regZip (· + ·)) (regZip (· - ·)) (regSplat k 0) regs

/-- The closure of `sum_real` etc. on one chunk of the center part: `addr` is the address of the
    chunk. statistics.rs:450-458. -/
def sumChunk [Add T] [Zero T] (k : RegKind) (addr : Nat) (f : List T → List T) (ch : List T) :
    Option (List T) := do
  let regs ← arrayToRegs addr k.len ch
  some (plainRegSum k (regs.map f))

/-- Common part of `sum_real` and `sum_sq_real`, statistics.rs:439-499: `f` is applied to the
    registers, `g` to the edges. `array` is the whole storage, `len` the length of the vector. -/
def sumRealWith [Add T] [Zero T] (k : RegKind) (addr : Nat) (st : MultiCoreSettings)
    (f : List T → List T) (g : T → T) (array : List T) (len : Nat) (order : List Nat) :
    Option T := do
  let valid ← slice array 0 len
  let p := calcDataAlignmentReqs addr k.len valid.length
  let ctr ← p.center array
  let chunks ← chunkedResults true .small st ctr k.len
    (fun ch r => sumChunk k (addr + p.left + r.1) f ch) order
  let regs ← chunks.mapM id
  let sum := (regs.map regSumReal).foldl (· + ·) 0
  let edges ← p.edgeIter array
  some (sum + edges.foldl (fun s x => s + g x) 0)

/-- Common part of `sum_complex` and `sum_sq_complex`, statistics.rs:501-561. The edges are taken
    from the whole storage: `array_to_complex(array)` panics for an odd storage. -/
def sumComplexWith [Add T] [Zero T] (k : RegKind) (addr : Nat) (st : MultiCoreSettings)
    (f : List T → List T) (g : Cx T → Cx T) (array : List T) (len : Nat) (order : List Nat) :
    Option (Cx T) := do
  let valid ← slice array 0 len
  let p := calcDataAlignmentReqs addr k.len valid.length
  let ctr ← p.center array
  let chunks ← chunkedResults true .small st ctr k.len
    (fun ch r => sumChunk k (addr + p.left + r.1) f ch) order
  let regs ← chunks.mapM id
  let sum := (regs.map regSumComplex).foldl (· + ·) 0
  let carray ← toComplex? array
  let edges ← p.cedgeIter carray
  some (sum + edges.foldl (fun s x => s + g x) 0)

/-- The products of the registers of the vector with the registers loaded from the operand:
    dot_products.rs:92-97, 145-150, 190-197, 242-249. -/
def dotRegs (w addr : Nat) (mul : List T → List T → List T) (original : List T) (start : Nat)
    (target : List T) : Option (List (List T)) := do
  let regs ← arrayToRegs addr w target
  (regs.zipIdx).mapM fun (r, i) => do
    let o ← slice original (start + i * w) (start + i * w + w)
    some (mul r o)

/-- Common part of `dot_product_real` and `dot_product_prec_real`, dot_products.rs:67-112, 166-210:
    `acc` accumulates the registers. -/
def dotRealWith [Add T] [Mul T] [Zero T] (k : RegKind) (addr : Nat) (st : MultiCoreSettings)
    (acc : List (List T) → List T) (array : List T) (len : Nat) (other : List T)
    (order : List Nat) : Option T := do
  let valid ← slice array 0 len
  let p := calcDataAlignmentReqs addr k.len valid.length
  let octr ← p.center other
  let ctr ← p.center array
  let chunks ← getZipped .small st octr k.len ctr k.len
    (fun original r target => do
      let regs ← dotRegs k.len (addr + p.left + r.1) (regZip (· * ·)) original r.1 target
      some (regSumReal (acc regs))) order
  let chunks ← chunks.mapM id
  let e1 ← p.edgeIter array
  let e2 ← p.edgeIter other
  let sum := (e1.zip e2).foldl (fun s x => s + x.1 * x.2) 0
  some (chunks.foldl (· + ·) 0 + sum)

/-- Common part of `dot_product_complex` and `dot_product_prec_complex`, dot_products.rs:114-164,
    212-262. -/
def dotComplexWith [Add T] [Sub T] [Mul T] [Div T] [Zero T] (k : RegKind) (addr : Nat)
    (st : MultiCoreSettings) (acc : List (List T) → List T) (array : List T) (len : Nat)
    (other : List T) (order : List Nat) : Option (Cx T) := do
  let valid ← slice array 0 len
  let p := calcDataAlignmentReqs addr k.len valid.length
  let octr ← p.center other
  let ctr ← p.center array
  let chunks ← getZipped .small st octr k.len ctr k.len
    (fun original r target => do
      let regs ← dotRegs k.len (addr + p.left + r.1) (regMulComplex k) original r.1 target
      some (regSumComplex (acc regs))) order
  let chunks ← chunks.mapM id
  let ca ← toComplex? array
  let co ← toComplex? other
  let e1 ← p.cedgeIter ca
  let e2 ← p.cedgeIter co
  let sum := (e1.zip e2).foldl (fun s x => s + x.1 * x.2) 0
  some (chunks.foldl (· + ·) 0 + sum)

/-- `sum_prec` and `sum_sq_prec`, precise_stats.rs:284-359: the valid data is handed to `f`, the
    results of the chunks are added. `f` is the closure: for `f64` `kahan_sumb`/`kahan_sum` (of the
    squares), for `f32` a plain sum after the conversion to `f64`. -/
def sumPrecWith {U : Type} [Add U] [Zero U] (st : MultiCoreSettings) (f : List T → U)
    (array : List T) (len : Nat) (order : List Nat) : Option U := do
  let valid ← slice array 0 len
  let chunks ← chunkedResults true .small st valid 1 (fun ch _ => f ch) order
  some (chunks.foldl (· + ·) 0)

/-- The complex versions of `sum_prec` and `sum_sq_prec`, precise_stats.rs:532-614. -/
def sumPrecComplexWith {U : Type} [Add U] [Zero U] (st : MultiCoreSettings)
    (f : List (Cx T) → U) (array : List T) (len : Nat) (order : List Nat) : Option U := do
  let valid ← slice array 0 len
  let chunks ← chunkedResults true .small st valid 2 (fun ch _ => (toComplex? ch).map f) order
  let chunks ← chunks.mapM id
  some (chunks.foldl (· + ·) 0)

/-- The plain loop `for n in array { sum += conv(n) }`, precise_stats.rs:294-298. -/
def plainSum {E U : Type} [Add U] [Zero U] (conv : E → U) (l : List E) : U :=
  l.foldl (fun s x => s + conv x) 0

namespace DspVec

/-- `SumOps<T>::sum`, statistics.rs:571-573. -/
def sum [Add T] [Zero T] (k : RegKind) (addr : Nat) (st : MultiCoreSettings) (v : DspVec T)
    (order : List Nat) : Option T :=
  sumRealWith k addr st (fun r => r) (fun x => x) v.data.cells v.validLen order
/-- `SumOps<T>::sum_sq`, statistics.rs:575-577. -/
def sumSq [Add T] [Mul T] [Zero T] (k : RegKind) (addr : Nat) (st : MultiCoreSettings)
    (v : DspVec T) (order : List Nat) : Option T :=
  sumRealWith k addr st (fun r => regZip (· * ·) r r) (fun x => x * x) v.data.cells v.validLen order
/-- `SumOps<Complex<T>>::sum`, statistics.rs:664-666. -/
def sumComplex [Add T] [Zero T] (k : RegKind) (addr : Nat) (st : MultiCoreSettings) (v : DspVec T)
    (order : List Nat) : Option (Cx T) :=
  sumComplexWith k addr st (fun r => r) (fun x => x) v.data.cells v.validLen order
/-- `SumOps<Complex<T>>::sum_sq`, statistics.rs:668-670. -/
def sumSqComplex [Add T] [Sub T] [Mul T] [Div T] [Zero T] (k : RegKind) (addr : Nat)
    (st : MultiCoreSettings) (v : DspVec T) (order : List Nat) : Option (Cx T) :=
  sumComplexWith k addr st (fun r => regMulComplex k r r) (fun x => x * x) v.data.cells v.validLen
    order

/-- `dot_product` on real vectors, dot_products.rs:67-112, 281-283; `prec` selects
    `dot_product_prec`, 166-210, 315-317. There is no check of the length or of the meta data of the
    operand. -/
def dotProduct [Add T] [Sub T] [Mul T] [Zero T] (prec : Bool) (k : RegKind) (addr : Nat)
    (st : MultiCoreSettings) (v o : DspVec T) (order : List Nat) :
    Option (Except ErrorReason T) :=
  if v.isComplex then some (.error .inputMustBeReal)
  else do
    let other ← o.content
    let r ← dotRealWith k addr st (if prec then kahanRegSum k else plainRegSum k)
      v.data.cells v.validLen other order
    some (.ok r)

/-- `dot_product` on complex vectors, dot_products.rs:114-164, 298-300; `prec` selects
    `dot_product_prec`, 212-262, 332-334. -/
def dotProductComplex [Add T] [Sub T] [Mul T] [Div T] [Zero T] (prec : Bool) (k : RegKind)
    (addr : Nat) (st : MultiCoreSettings) (v o : DspVec T) (order : List Nat) :
    Option (Except ErrorReason (Cx T)) :=
  if v.isComplex = false then some (.error .inputMustBeComplex)
  else if o.isComplex = false ∨ v.dom ≠ o.dom then some (.error .inputMetaDataMustAgree)
  else do
    let other ← o.content
    let r ← dotComplexWith k addr st (if prec then kahanRegSum k else plainRegSum k)
      v.data.cells v.validLen other order
    some (.ok r)

/-- `sum_prec` of `f64` vectors, precise_stats.rs:332-344. -/
def sumPrec [Add T] [Sub T] [Zero T] (st : MultiCoreSettings) (v : DspVec T) (order : List Nat) :
    Option T := sumPrecWith st (kahanSum (· + ·) (· - ·) 0) v.data.cells v.validLen order
/-- `sum_sq_prec` of `f64` vectors, precise_stats.rs:346-358. -/
def sumSqPrec [Add T] [Sub T] [Mul T] [Zero T] (st : MultiCoreSettings) (v : DspVec T)
    (order : List Nat) : Option T :=
  sumPrecWith st (fun l => kahanSum (· + ·) (· - ·) 0 (l.map fun x => x * x)) v.data.cells v.validLen
    order
/-- `sum_prec` of complex `f64` vectors, precise_stats.rs:582-597. -/
def sumPrecComplex [Add T] [Sub T] [Zero T] (st : MultiCoreSettings) (v : DspVec T)
    (order : List Nat) : Option (Cx T) :=
  sumPrecComplexWith st (kahanSum (· + ·) (· - ·) 0) v.data.cells v.validLen order
/-- `sum_sq_prec` of complex `f64` vectors, precise_stats.rs:599-614. -/
def sumSqPrecComplex [Add T] [Sub T] [Mul T] [Zero T] (st : MultiCoreSettings) (v : DspVec T)
    (order : List Nat) : Option (Cx T) :=
  sumPrecComplexWith st (fun l => kahanSum (· + ·) (· - ·) 0 (l.map fun x => x * x)) v.data.cells
    v.validLen order
/-- `sum_prec` of `f32` vectors with the conversion `conv` to `f64`, precise_stats.rs:284-302. -/
def sumPrecF32 {U : Type} [Add U] [Zero U] (conv : T → U) (st : MultiCoreSettings) (v : DspVec T)
    (order : List Nat) : Option U := sumPrecWith st (plainSum conv) v.data.cells v.validLen order
/-- `sum_sq_prec` of `f32` vectors, precise_stats.rs:304-323. -/
def sumSqPrecF32 {U : Type} [Add U] [Mul U] [Zero U] (conv : T → U) (st : MultiCoreSettings)
    (v : DspVec T) (order : List Nat) : Option U :=
  sumPrecWith st (plainSum fun x => conv x * conv x) v.data.cells v.validLen order

end DspVec
end Dsp
