import Verif.Model.Slice
/-
Model of the vector type `DspVec`, its storages, its constructors, `resize`, `resize_b`, the
buffers and the re-dedication between vector types.
-/
namespace Dsp

/-- `DataDomain`. -/
inductive DataDomain | time | frequency
deriving DecidableEq, Repr

/-- Number space markers, vector/src/meta.rs:3-46: `Real` and `Complex` are compile time
    constants, `RealOrComplex` is tracked at run time. -/
inductive NumberSpace
  | real
  | complex
  | realOrComplex (isComplexCurrent : Bool)
deriving DecidableEq, Repr

/-- `NumberSpace::is_complex`, vector/src/meta.rs:7,19,33. -/
def NumberSpace.isComplex : NumberSpace → Bool
  | .real => false
  | .complex => true
  | .realOrComplex b => b

/-- `NumberSpace::to_complex`, vector/src/meta.rs:10,22,37: no effect on the static markers. -/
def NumberSpace.toComplex : NumberSpace → NumberSpace
  | .realOrComplex _ => .realOrComplex true
  | n => n

/-- `NumberSpace::to_real`, vector/src/meta.rs:11,23,41: no effect on the static markers. -/
def NumberSpace.toReal : NumberSpace → NumberSpace
  | .realOrComplex _ => .realOrComplex false
  | n => n

/-- Domain markers, vector/src/meta.rs:48-92. -/
inductive Domain
  | time
  | freq
  | timeOrFreq (domainCurrent : DataDomain)
deriving DecidableEq, Repr

/-- `Domain::domain`, vector/src/meta.rs:52,64,78. -/
def Domain.domain : Domain → DataDomain
  | .time => .time
  | .freq => .frequency
  | .timeOrFreq d => d

/-- `Domain::to_freq`, vector/src/meta.rs:55,68,82: no effect on the static markers. -/
def Domain.toFreq : Domain → Domain
  | .timeOrFreq _ => .timeOrFreq .frequency
  | d => d

/-- `Domain::to_time`, vector/src/meta.rs:56,67,86: no effect on the static markers. -/
def Domain.toTime : Domain → Domain
  | .timeOrFreq _ => .timeOrFreq .time
  | d => d

/-- Storage kinds and their ability to grow.
    * `vec`: `Vec<T>` (support_std.rs:207-231),
    * `fixed`: `Box<[T]>`, `&[T]`, `&mut [T]`, `[T]` (support_std.rs:251-275,
      support_core.rs:138-220),
    * `arrayVec cap`: `ArrayVec<T, cap>` (support_core.rs:228-263),
    * `inlineStack cap`: `InlineVector::Inline` (inline_vector/dynamic.rs:145-153,
      inline_vector/fixed_size.rs:133-143),
    * `inlineHeap cap`: `InlineVector::Dynamic` (inline_vector/dynamic.rs:154-163). -/
inductive StorageKind
  | vec
  | fixed
  | arrayVec (cap : Nat)
  | inlineStack (cap : Nat)
  | inlineHeap (cap : Nat)
deriving DecidableEq, Repr

/-- A storage: its kind and the initialised cells (`ToSlice::to_slice`; `ToSlice::len` is the
    number of cells). The spare capacity of a `Vec` is not modelled: it is not observable through
    `resize`, see `expandToFullCapacity` below for the one place where it matters. -/
structure Storage (T : Type) where
  kind : StorageKind
  cells : List T
deriving Repr

/-- `Vec::resize(len, zero)`: truncate or append zeros. -/
def resizeCells {T : Type} [Zero T] (cells : List T) (len : Nat) : List T :=
  cells.take len ++ List.replicate (len - cells.length) 0

/-- `ToSlice::try_resize`; `Except.error TypeCanNotResize` if the storage cannot grow.
    Note that `InlineVector::Inline` reports success without growing
    (inline_vector/dynamic.rs:147-153). Sources as listed at `StorageKind`. -/
def Storage.tryResize {T : Type} [Zero T] (s : Storage T) (len : Nat) :
    Except ErrorReason (Storage T) :=
  match s.kind with
  | .vec => .ok { s with cells := resizeCells s.cells len }
  | .fixed => if len > s.cells.length then .error .typeCanNotResize else .ok s
  | .arrayVec cap =>
    if len > cap then .error .typeCanNotResize
    else .ok { s with cells := resizeCells s.cells len }
  | .inlineStack cap => if cap ≥ len then .ok s else .error .typeCanNotResize
  | .inlineHeap cap =>
    if cap ≥ len then .ok { s with cells := resizeCells s.cells len }
    else .error .typeCanNotResize

/-- `DspVec`, vector/src/vector_types/mod.rs:125-140. `delta = none` stands for `NaN`.
    `multicore_settings` is modelled separately (Model/Chunk.lean) since it never influences the
    state of a vector. -/
structure DspVec (T : Type) where
  data : Storage T
  delta : Option T
  domain : Domain
  numberSpace : NumberSpace
  validLen : Nat
deriving Repr

namespace DspVec
variable {T : Type}

/-- `Vector::len`, vec_impl_and_indexers.rs:267. -/
def len (v : DspVec T) : Nat := v.validLen
/-- `Vector::alloc_len`, vec_impl_and_indexers.rs:287. -/
def allocLen (v : DspVec T) : Nat := v.data.cells.length
/-- `MetaData::is_complex`, vec_impl_and_indexers.rs:181. -/
def isComplex (v : DspVec T) : Bool := v.numberSpace.isComplex
/-- `MetaData::domain`, vec_impl_and_indexers.rs:177. -/
def dom (v : DspVec T) : DataDomain := v.domain.domain
/-- `Vector::points`, vec_impl_and_indexers.rs:275. -/
def points (v : DspVec T) : Nat := v.validLen / (if v.isComplex then 2 else 1)
/-- `v.data(..)`, vec_impl_and_indexers.rs:309-360: the valid numbers; panics if
    `valid_len > data.len()`. -/
def content (v : DspVec T) : Option (List T) := slice v.data.cells 0 v.validLen
/-- `is_erroneous`, vector/src/vector_types/mod.rs:213-215. -/
def isErroneous (v : DspVec T) : Bool := v.validLen == 0 && v.delta.isNone
/-- `mark_vector_as_invalid`, vector/src/vector_types/mod.rs:226-229. -/
def markInvalid (v : DspVec T) : DspVec T := { v with validLen := 0, delta := none }
/-- Replace the cells of the storage (write back after mutation through `to_slice_mut`). -/
def withCells (v : DspVec T) (cells : List T) : DspVec T :=
  { v with data := { v.data with cells := cells } }

/-- `ResizeOps::resize`, vec_impl_and_indexers.rs:208-220. -/
def resize [Zero T] (v : DspVec T) (len : Nat) : DspVec T × VoidResult :=
  if v.isComplex && len % 2 != 0 then (v, .error .inputMustHaveAnEvenLength)
  else if len > v.allocLen then
    match v.data.tryResize len with
    | .error e => (v, .error e)
    | .ok d => ({ v with data := d, validLen := len }, .ok ())
  else ({ v with validLen := len }, .ok ())

end DspVec

/-- The buffers which implement `Buffer`:
    * `single temp`: `SingleBuffer`, support_std.rs:85-124 (for `Vec` storages),
    * `noBuffer`: `NoBuffer`, support_std.rs:127-183 (for `Vec` storages),
    * `fixedLen mem`: `FixedLenBuffer`, support_core.rs:58-103 (for any storage). -/
inductive Buffer (T : Type)
  | single (temp : List T)
  | noBuffer
  | fixedLen (mem : List T)
deriving Repr

/-- `Buffer::borrow(len)`: the cells of the borrowed slice (`none`: panic).
    support_std.rs:116-119 (stale contents of `temp` survive), 174-178, support_core.rs:90-98. -/
def Buffer.borrow {T : Type} [Zero T] (b : Buffer T) (len : Nat) : Option (List T) :=
  match b with
  | .single temp => some (resizeCells temp len)
  | .noBuffer => some (List.replicate len 0)
  | .fixedLen mem => if mem.length < len then none else some (mem.take len)

/-- `BufferBorrow::trade(storage)` with `res` the (meanwhile mutated) borrowed slice; returns the
    buffer and the storage after the trade. support_std.rs:78-82 and 162-166 (swap),
    support_core.rs:48-56 (copy of the common length). -/
def Buffer.trade {T : Type} (b : Buffer T) (res : List T) (s : Storage T) :
    Buffer T × Storage T :=
  match b with
  | .single _ => (.single s.cells, { s with cells := res })
  | .noBuffer => (.noBuffer, { s with cells := res })
  | .fixedLen mem =>
    let n := min s.cells.length res.length
    (.fixedLen (splice mem 0 res), { s with cells := splice s.cells 0 (res.take n) })

namespace DspVec
variable {T : Type}

/-- `ResizeBufferedOps::resize_b`, vec_impl_and_indexers.rs:230-249. -/
def resizeB [Zero T] (v : DspVec T) (b : Buffer T) (len : Nat) :
    Option (DspVec T × Buffer T × VoidResult) :=
  if v.isComplex && len % 2 != 0 then some (v, b, .error .inputMustHaveAnEvenLength)
  else
    match v.resize len with
    | (v', .ok ()) => some (v', b, .ok ())
    | (_, .error _) => do
      let temp ← b.borrow len
      let src ← v.content
      let temp ← copyFromSlice temp 0 v.len src
      let (b', d) := b.trade temp v.data
      some ({ v with data := d, validLen := len }, b', .ok ())

/-- The type to which a vector is re-dedicated: the five vector types of support_core.rs:106-114. -/
inductive VecType | realTime | realFreq | complexTime | complexFreq | gen
deriving DecidableEq, Repr

/-- `rededicate_from_force`, rededicate_and_relations.rs:206-215, 229-238, 252-261, 275-284,
    298-313: only the type level meta data is exchanged. -/
def rededicateForce (v : DspVec T) : VecType → DspVec T
  | .realTime => { v with domain := .time, numberSpace := .real }
  | .realFreq => { v with domain := .freq, numberSpace := .real }
  | .complexTime => { v with domain := .time, numberSpace := .complex }
  | .complexFreq => { v with domain := .freq, numberSpace := .complex }
  | .gen => { v with domain := .timeOrFreq v.dom, numberSpace := .realOrComplex v.isComplex }

/-- `rededicate_from` / `rededicate`, rededicate_and_relations.rs:336-359 (note the `&&`). -/
def rededicate [Zero T] (v : DspVec T) (ty : VecType) : DspVec T :=
  let r := v.rededicateForce ty
  if r.isComplex != v.isComplex && r.dom != v.dom then (r.resize 0).1 else r

end DspVec

/-- `expand_to_full_capacity`, support_std.rs:633-640: `spare` is the spare capacity of the `Vec`. -/
def expandToFullCapacity {T : Type} [Zero T] (cells : List T) (spare : Nat) : List T :=
  cells ++ List.replicate spare 0

/-- The parity rule applied by (most) constructors: `if len % 2 != 0 && is_complex { 0 }`. -/
def validLenFor (isComplex : Bool) (len : Nat) : Nat :=
  if len % 2 != 0 && isComplex then 0 else len

/-- Containers from which vectors are built. `spare` is the spare capacity of a `Vec`. -/
inductive Container (T : Type)
  | vec (cells : List T) (spare : Nat)
  | boxed (cells : List T)
  | slice (cells : List T)
  | sliceMut (cells : List T)
  | arrayVec (cap : Nat) (cells : List T)
  /-- `InlineVector`: `heap` tells the variants `Inline` and `Dynamic` apart (inline_vector/dynamic.rs:14-17) -/
  | inline (heap : Bool) (cap : Nat) (cells : List T)
deriving Repr

/-- The numbers held by the container. -/
def Container.cells {T : Type} : Container T → List T
  | .vec c _ => c | .boxed c => c | .slice c => c | .sliceMut c => c | .arrayVec _ c => c
  | .inline _ _ c => c

/-- The storage obtained by moving the container into the vector without expansion. -/
def Container.storage {T : Type} : Container T → Storage T
  | .vec c _ => ⟨.vec, c⟩ | .boxed c => ⟨.fixed, c⟩ | .slice c => ⟨.fixed, c⟩
  | .sliceMut c => ⟨.fixed, c⟩ | .arrayVec cap c => ⟨.arrayVec cap, c⟩
  | .inline false cap c => ⟨.inlineStack cap, c⟩ | .inline true cap c => ⟨.inlineHeap cap, c⟩

/-- `to_gen_dsp_vec`: support_std.rs:287-304 (Vec), 423-440 (Box), support_core.rs:313-330
    (ArrayVec), 417-434 (InlineVector), 518-532 (`&[T]`, which misses the parity check), 647-664 (`&mut [T]`). -/
def toGenDspVec {T : Type} [One T] (c : Container T) (isComplex : Bool) (d : DataDomain) :
    DspVec T :=
  let n := c.cells.length
  { data := c.storage, delta := some 1, domain := .timeOrFreq d,
    numberSpace := .realOrComplex isComplex,
    validLen := match c with
      | .slice _ => n
      | _ => validLenFor isComplex n }

/-- `to_dsp_vec`: the vector gets the meta data of another vector. support_std.rs:306-323 (Vec), 442-459 (Box), support_core.rs:332-352
    (ArrayVec), 436-451 (InlineVector), 534-551 (`&[T]`), 666-683 (`&mut [T]`). -/
def toDspVec {T : Type} (c : Container T) (delta : Option T) (ns : NumberSpace) (d : Domain) : DspVec T :=
  { data := c.storage, delta := delta, domain := d, numberSpace := ns, validLen := validLenFor ns.isComplex c.cells.length }

/-- `to_real_time_vec`, `to_real_freq_vec`, `to_complex_time_vec`, `to_complex_freq_vec`:
    support_std.rs:326-386 (Vec, expands the storage to the full capacity), 462-524 (Box),
    support_core.rs:355-411 (ArrayVec), 454-512 (InlineVector), 554-610 (`&[T]`), 686-742 (`&mut [T]`). -/
def toStaticVec {T : Type} [One T] [Zero T] (c : Container T) (isComplex isFreq : Bool) :
    DspVec T :=
  { data := match c with
      | .vec cells spare => ⟨.vec, expandToFullCapacity cells spare⟩
      | c => c.storage,
    delta := some 1,
    domain := if isFreq then .freq else .time,
    numberSpace := if isComplex then .complex else .real,
    validLen := validLenFor isComplex c.cells.length }

/-- `From<S>` for the four static vector types, to_from_vec_conversions.rs:222-303: no parity
    check. `try_resize(alloc_len)` expands a `Vec`, an `ArrayVec` and an `InlineVector` on the heap to
    the capacity. -/
def fromStorage {T : Type} [One T] [Zero T] (c : Container T) (isComplex isFreq : Bool) :
    DspVec T :=
  { data := match c with
      | .vec cells spare => ⟨.vec, expandToFullCapacity cells spare⟩
      | .arrayVec cap cells => ⟨.arrayVec cap, expandToFullCapacity cells (cap - cells.length)⟩
      | .inline true cap cells => ⟨.inlineHeap cap, expandToFullCapacity cells (cap - cells.length)⟩
      | c => c.storage,
    delta := some 1,
    domain := if isFreq then .freq else .time,
    numberSpace := if isComplex then .complex else .real,
    validLen := c.cells.length }

/-- `interleave_to_complex_{time,freq}_vec`, support_std.rs:531-591. -/
def interleaveToComplex {T : Type} [One T] (re im : List T) (isFreq : Bool) :
    Except ErrorReason (DspVec T) :=
  if re.length != im.length then .error .inputMustHaveTheSameSize
  else
    let cells := fromComplex (List.zipWith Cx.mk re im)
    .ok { data := ⟨.vec, cells⟩, delta := some 1,
          domain := if isFreq then .freq else .time, numberSpace := .complex,
          validLen := cells.length }

end Dsp
