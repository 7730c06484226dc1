import Verif.Model.Chunk
/-
Model of the SIMD splitting (simd_extensions/mod.rs, simd_partition.rs) and of the helpers which
run an operation on registers and scalars (vector_types/mod.rs:279-393, general/elementary.rs).

* A register with `w` lanes is a list of `w` numbers.
* `addr` is the address of the first element of the array divided by the element size. Rust
  guarantees that slices are aligned to their element size, hence the assertion
  `left % size_of::<T>() == 0` (simd_extensions/mod.rs:198) always holds.
-/
namespace Dsp
variable {T : Type}

/-- `SimdPartition`, simd_partition.rs:6-13. -/
structure SimdPartition where
  left : Nat
  right : Nat
  len : Nat
deriving DecidableEq, Repr

/-- `calc_data_alignment_reqs`, simd_extensions/mod.rs:194-206 with `get_alignment_offset`
    (182-184), `new_all_scalar` and `new_simd` (simd_partition.rs:117-133).
    `(addr_bytes % reg_bytes) / elem_size = addr % w` for element aligned addresses. -/
def calcDataAlignmentReqs (addr w len : Nat) : SimdPartition :=
  let left := addr % w
  if left + w > len then ⟨len, 0, len⟩ else ⟨left, (len - left) % w, len⟩

namespace SimdPartition

/-- `SimdPartition::center` and `center_mut`, simd_partition.rs:173-189. -/
def center (p : SimdPartition) (a : List T) : Option (List T) :=
  if p.left = p.len then some [] else slice a p.left (p.len - p.right)

/-- `SimdPartition::rcenter_mut`, simd_partition.rs:192-198. -/
def rcenter (p : SimdPartition) (a : List T) : Option (List T) :=
  if p.left = p.len then some [] else slice a (p.left / 2) (p.len / 2 - p.right / 2)

/-- `SimdPartition::edge_iter`, simd_partition.rs:136-140. -/
def edgeIter (p : SimdPartition) (a : List T) : Option (List T) := do
  let l ← slice a 0 p.left
  let r ← slice a (p.len - p.right) p.len
  some (l ++ r)

/-- `SimdPartition::cedge_iter`, simd_partition.rs:143-147 (on a slice of complex numbers). -/
def cedgeIter {α : Type} (p : SimdPartition) (a : List α) : Option (List α) := do
  let l ← slice a 0 (p.left / 2)
  let r ← slice a (p.len / 2 - p.right / 2) (p.len / 2)
  some (l ++ r)

end SimdPartition

/-- `EdgeIteratorMut::next`, simd_partition.rs:45-61, with positions relative to the start of the
    slice (they are signed: `left - 1` and `len - 1` may be negative). Returns the visited position
    and the new position. -/
def edgeNext (left right len : Nat) (pos : Int) : Option (Int × Int) :=
  let l : Int := left - 1
  let r : Int := len - right
  let e : Int := len - 1
  let pos := if pos > l ∧ pos < r then r else pos
  if pos > e then none else some (pos, pos + 1)

/-- All positions visited by an `EdgeIteratorMut` (at most `fuel`). -/
def edgePositions (left right len : Nat) : Nat → Int → List Int
  | 0, _ => []
  | fuel + 1, pos =>
    match edgeNext left right len pos with
    | none => []
    | some (p, pos') => p :: edgePositions left right len fuel pos'

/-- `for num in EdgeIteratorMut { *num = f(*num) }`. Positions are converted back to indices;
    an access outside of the slice would be undefined behaviour and is modelled as panic. -/
def mapEdges (left right : Nat) (f : T → T) (a : List T) : Option (List T) :=
  (edgePositions left right a.length (a.length + 1) 0).foldlM (init := a) fun a p =>
    if p < 0 then none
    else do
      let x ← get a p.toNat
      put a p.toNat (f x)

/-- The registers of a slice: `array_to_regs`, `array_to_regs_mut`,
    simd_extensions/mod.rs:246-270 with `transmute_slice`, lib.rs:236-268: panics if the slice is
    not aligned to the register size or not a whole number of registers. -/
def arrayToRegs (addr w : Nat) (a : List T) : Option (List (List T)) :=
  if a = [] then some []
  else if addr % w ≠ 0 then none
  else if a.length % w ≠ 0 then none
  else chunks w a

/-- The loop over the registers of the center part on all workers:
    `Chunk::execute_partial(.., partition.center_mut(array), Reg::LEN, ..)`,
    vector_types/mod.rs:314-328 and 373-387. The alignment assertion is evaluated by each worker for
    its chunk; as chunks begin at multiples of `w` (C12) it is the same for all of them. -/
def simdCenter (addr w : Nat) (simdOp : List T → List T) (c : Complexity) (st : MultiCoreSettings)
    (sched : List Nat) (p : SimdPartition) (a : List T) : Outcome (List T) :=
  match p.center a with
  | none => .panic
  | some ctr =>
    match arrayToRegs (addr + p.left) w ctr with
    | none => .panic
    | some _ =>
      match executeWithRange c st ctr w (blockLoop w w (fun _ r => simdOp r)) sched with
      | .panic => .panic
      | .running => .running
      | .finished ctr' => .finished (if p.left = p.len then a else splice a p.left ctr')

/-- `simd_real_operation`, vector_types/mod.rs:296-333, on the valid numbers `a` of the vector. -/
def simdRealOperation (addr w : Nat) (simdOp : List T → List T) (scalarOp : T → T)
    (c : Complexity) (st : MultiCoreSettings) (sched : List Nat) (a : List T) :
    Outcome (List T) :=
  let p := calcDataAlignmentReqs addr w a.length
  match simdCenter addr w simdOp c st sched p a with
  | .panic => .panic
  | .running => .running
  | .finished a1 =>
    match mapEdges p.left p.right scalarOp a1 with
    | none => .panic
    | some r => .finished r

/-- `simd_complex_operation`, vector_types/mod.rs:357-393, on the valid numbers `a`. -/
def simdComplexOperation (addr w : Nat) (simdOp : List T → List T) (scalarOp : Cx T → Cx T)
    (c : Complexity) (st : MultiCoreSettings) (sched : List Nat) (a : List T) :
    Outcome (List T) :=
  let p := calcDataAlignmentReqs addr w a.length
  match simdCenter addr w simdOp c st sched p a with
  | .panic => .panic
  | .running => .running
  | .finished a1 =>
    match toComplex? a1 with
    | none => .panic
    | some cs =>
      match mapEdges (p.left / 2) (p.right / 2) scalarOp cs with
      | none => .panic
      | some r => .finished (fromComplex r)

/-- `for (n, o) in edges.zip(other_edges) { *n = f(*n, *o) }`: elementary.rs:412-414, 447-449. -/
def zipEdges {α β : Type} (left right : Nat) (f : α → β → α) (a : List α) (bs : List β) : Option (List α) :=
  ((edgePositions left right a.length (a.length + 1) 0).zip bs).foldlM (init := a) fun a pb =>
    if pb.1 < 0 then none
    else do
      let x ← get a pb.1.toNat
      put a pb.1.toNat (f x pb.2)

/-- The register loop of the binary operations, elementary.rs:395-410: register `i` of the center of
    the vector is combined with the numbers loaded from the center of the operand. The complexity
    is `Small`, hence a single worker executes the loop. -/
def simdBinaryCenter (addr w : Nat) (simdOp : List T → List T → List T) (p : SimdPartition)
    (a b : List T) : Option (List T) := do
  let ctr ← p.center a
  let other ← p.center b
  let regs ← arrayToRegs (addr + p.left) w ctr
  let regs' ← (regs.zipIdx).mapM fun (r, i) => do
    let o ← slice other (i * w) (i * w + w)
    some (simdOp r o)
  some (if p.left = p.len then a else splice a p.left regs'.flatten)

/-- The computational part of `impl_binary_vector_operation`, elementary.rs:389-416: `a` are the
    valid numbers of the vector and `b` those of the operand (of equal length). -/
def simdBinaryReal (addr w : Nat) (simdOp : List T → List T → List T) (scalarOp : T → T → T)
    (a b : List T) : Option (List T) := do
  let p := calcDataAlignmentReqs addr w a.length
  let a1 ← simdBinaryCenter addr w simdOp p a b
  let edges ← p.edgeIter b
  zipEdges p.left p.right scalarOp a1 edges

/-- The computational part of `impl_binary_complex_vector_operation`, elementary.rs:426-453.
    (The conversion of the whole storage to complex numbers, which panics for storages of odd length,
    is modelled at the level of vectors, Model/Elementary.lean.) -/
def simdBinaryComplex (addr w : Nat) (simdOp : List T → List T → List T)
    (scalarOp : Cx T → Cx T → Cx T) (a b : List T) : Option (List T) := do
  let p := calcDataAlignmentReqs addr w a.length
  let a1 ← simdBinaryCenter addr w simdOp p a b
  let cs ← toComplex? a1
  let bs ← toComplex? b
  let edges ← p.cedgeIter bs
  let r ← zipEdges (p.left / 2) (p.right / 2) scalarOp cs edges
  some (fromComplex r)

end Dsp
