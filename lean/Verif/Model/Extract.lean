import Verif.Model.Complex
import Verif.Model.Vec
/-
Model of the methods which take a vector apart: `getf`, `get` and `into`, and of the constructors for
`Vec<Complex<T>>`, `&[Complex<T>]` and `&mut [Complex<T>]` which have to undo them.

A `Vec` is given by its elements and its spare capacity. Since `complex_vec_to_interleaved_vec` and
`interleaved_vec_to_complex_vec` build a new `Vec` from raw parts, the model also records how many real
numbers the allocator handed out for the memory and how many the `Vec` will give back.
-/
namespace Dsp
variable {T α : Type}

/-- A `Vec<α>`: its elements and its spare capacity. `allocated` is the size of the memory block in real numbers as requested from the
    allocator, `released` the size (capacity times element size) with which the `Vec` will release it; Rust requires both to be equal. -/
structure RustVec (α : Type) where
  elems : List α
  spare : Nat
  allocated : Nat
  released : Nat
deriving DecidableEq, Repr

/-- The complete pairs of an interleaved list: `Vec::<Complex<T>>::from_raw_parts(.., len / 2, len / 2)`, support_std.rs:662-667. -/
def completePairs : List T → List (Cx T)
  | [] => []
  | [_] => []
  | re :: im :: rest => ⟨re, im⟩ :: completePairs rest

/-- `complex_vec_to_interleaved_vec`, support_std.rs:642-655. `trans[0]` panics if there are no elements. -/
def complexVecToInterleavedVec [Zero T] (elems : List (Cx T)) (spare : Nat) : Option (RustVec T) :=
  let boxed := expandToFullCapacity elems spare
  if boxed.isEmpty then none else some ⟨fromComplex boxed, 0, 2 * boxed.length, 2 * boxed.length⟩

/-- `interleaved_vec_to_complex_vec`, support_std.rs:657-671. `trans[0]` panics if there are no elements. -/
def interleavedVecToComplexVec [Zero T] (elems : List T) (spare : Nat) : Option (RustVec (Cx T)) :=
  let boxed := expandToFullCapacity elems spare
  if boxed.isEmpty then none else some ⟨completePairs boxed, 0, boxed.length, 2 * (boxed.length / 2)⟩

/-- `to_complex_time_vec`, `to_complex_freq_vec` for `Vec<Complex<T>>`, support_std.rs:388-417. -/
def vecOfComplexVec [Zero T] [One T] (elems : List (Cx T)) (spare : Nat) (isFreq : Bool) : Option (DspVec T) := do
  let vec ← complexVecToInterleavedVec elems spare
  return { data := ⟨.vec, vec.elems⟩, delta := some 1, domain := if isFreq then .freq else .time, numberSpace := .complex,
           validLen := 2 * elems.length }

/-- `to_complex_time_vec`, `to_complex_freq_vec` for `&[Complex<T>]` and `&mut [Complex<T>]`, support_core.rs:612-641, 744-773. -/
def vecOfComplexSlice [One T] (elems : List (Cx T)) (isFreq : Bool) : DspVec T :=
  { data := ⟨.fixed, fromComplex elems⟩, delta := some 1, domain := if isFreq then .freq else .time, numberSpace := .complex,
    validLen := (fromComplex elems).length }

namespace DspVec

/-- `getf`, to_from_vec_conversions.rs:202-205: the storage and the number of valid real numbers. -/
def getf (v : DspVec T) : List T × Nat := (v.data.cells, v.validLen)

/-- `get` of real vectors, to_from_vec_conversions.rs:216-219. -/
def getReal (v : DspVec T) : List T × Nat := (v.data.cells, v.validLen)

/-- `get` of complex vectors with `&[T]` or `&mut [T]` storage, support_core.rs:782-785, 795-798. -/
def getComplexSlice (v : DspVec T) : Option (List (Cx T) × Nat) :=
  (toComplex? v.data.cells).map (fun cs => (cs, v.validLen / 2))

/-- `get` of complex vectors with `Vec` storage, support_std.rs:601-604; `spare` is the spare capacity of the storage. -/
def getComplexVec [Zero T] (v : DspVec T) (spare : Nat) : Option (RustVec (Cx T) × Nat) :=
  (interleavedVecToComplexVec v.data.cells spare).map (fun cs => (cs, v.validLen / 2))

/-- `Vec<T>::from(vector)` (`into()`) of real vectors, support_std.rs:613-617: the truncated storage. -/
def intoReal (v : DspVec T) : List T := v.data.cells.take v.validLen

/-- `Vec<Complex<T>>::from(vector)` (`into()`) of complex vectors, support_std.rs:626-630: `truncate` keeps the capacity, so what it
    removes becomes spare capacity. -/
def intoComplex [Zero T] (v : DspVec T) (spare : Nat) : Option (RustVec (Cx T)) :=
  interleavedVecToComplexVec (v.data.cells.take v.validLen) (v.data.cells.length - v.validLen + spare)

/-- `clone_from`, to_from_vec_conversions.rs:323-330: every field is taken from the source. -/
def cloneFrom (_self source : DspVec T) : DspVec T :=
  { data := source.data, delta := source.delta, domain := source.domain, numberSpace := source.numberSpace,
    validLen := source.validLen }

end DspVec
end Dsp
