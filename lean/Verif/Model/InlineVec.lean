import Verif.Model.Vec
/-
Model of `InlineVector`: inline_vector/dynamic.rs (feature `std`) and inline_vector/fixed_size.rs
(without `std`: only the variant `Inline` exists, the functions on it are the same).
-/
namespace Dsp
variable {α : Type}

/-- `enum InlineVector<T>`, dynamic.rs:14-17 and fixed_size.rs:15-17. `ArrayVec<T, 64>` is a list with
    at most 64 elements; a `Vec` is its capacity and its elements. -/
inductive InlineVec (α : Type) where
  | inline (l : List α)
  | dynamic (cap : Nat) (l : List α)
deriving Repr, DecidableEq

/-- What the allocator decides: the capacity of `Vec::with_capacity(n)` (at least `n`), and the
    capacity of a `Vec` with `n` elements after `n` elements did not fit any more (more than `n`). -/
structure Alloc where
  init : Nat → Nat
  grow : Nat → Nat
  init_le : ∀ n, n ≤ init n
  lt_grow : ∀ n, n < grow n

namespace InlineVec

/-- The elements: `v[..]`, `iter()`, dynamic.rs:113-119, 189-198 and fixed_size.rs:103-108, 164-172. -/
def elems : InlineVec α → List α
  | inline l => l
  | dynamic _ l => l

/-- `len`, dynamic.rs:94-99 and fixed_size.rs:87-91. -/
def len (v : InlineVec α) : Nat := v.elems.length

/-- `capacity`, dynamic.rs:105-110 and fixed_size.rs:93-97. -/
def capacity : InlineVec α → Nat
  | inline _ => 64
  | dynamic cap _ => cap

/-- `with_capacity`, dynamic.rs:42-48. -/
def withCapacity (al : Alloc) (n : Nat) : InlineVec α :=
  if n ≤ 64 then .inline [] else .dynamic (al.init n) []

/-- `with_capacity` without `std`, fixed_size.rs:42-44. -/
def withCapacityFixed (_ : Nat) : InlineVec α := .inline []

/-- `push`, dynamic.rs:71-78 and fixed_size.rs:67-73. `ArrayVec::push` panics if the array is full. -/
def push (al : Alloc) : InlineVec α → α → Option (InlineVec α)
  | inline l, x => if l.length < 64 then some (.inline (l ++ [x])) else none
  | dynamic cap l, x => some (.dynamic (if l.length < cap then cap else al.grow l.length) (l ++ [x]))

/-- `pop`, dynamic.rs:80-85 and fixed_size.rs:81-85. -/
def pop : InlineVec α → InlineVec α × Option α
  | inline l => (.inline l.dropLast, l.getLast?)
  | dynamic cap l => (.dynamic cap l.dropLast, l.getLast?)

/-- `remove`, dynamic.rs:87-92 and fixed_size.rs:75-79; panics if the index is out of bounds. -/
def remove (v : InlineVec α) (i : Nat) : Option (InlineVec α × α) :=
  match v with
  | inline l => (l[i]?).map fun x => (.inline (l.eraseIdx i), x)
  | dynamic cap l => (l[i]?).map fun x => (.dynamic cap (l.eraseIdx i), x)

/-- `insert`, dynamic.rs:134-141 and fixed_size.rs:123-129; panics if the index is behind the end, or if
    an `ArrayVec` is full. -/
def insert (al : Alloc) (v : InlineVec α) (i : Nat) (x : α) : Option (InlineVec α) :=
  match v with
  | inline l => if l.length < i then none else if l.length < 64 then some (.inline (l.insertIdx i x)) else none
  | dynamic cap l => if l.length < i then none
    else some (.dynamic (if l.length < cap then cap else al.grow l.length) (l.insertIdx i x))

/-- `append`, dynamic.rs:128-132 and fixed_size.rs:117-121: `while !other.is_empty() {
    self.push(other.remove(0)) }`. The recursion is over the elements of `other`. -/
def appendLoop (al : Alloc) : InlineVec α → InlineVec α → List α → Option (InlineVec α × InlineVec α)
  | v, other, [] => some (v, other)
  | v, other, _ :: rest => do
    let (other, y) ← other.remove 0
    let v ← v.push al y
    appendLoop al v other rest

/-- `append`, dynamic.rs:128-132 and fixed_size.rs:117-121. -/
def append (al : Alloc) (v other : InlineVec α) : Option (InlineVec α × InlineVec α) :=
  appendLoop al v other other.elems

/-- `index_mut` with a number, dynamic.rs:180-187 and fixed_size.rs:156-162; panics out of bounds. -/
def set (v : InlineVec α) (i : Nat) (x : α) : Option (InlineVec α) :=
  match v with
  | inline l => if i < l.length then some (.inline (l.set i x)) else none
  | dynamic cap l => if i < l.length then some (.dynamic cap (l.set i x)) else none

/-- `index` with a number, dynamic.rs:169-178 and fixed_size.rs:146-154; panics out of bounds. -/
def index (v : InlineVec α) (i : Nat) : Option α := v.elems[i]?

/-- `try_resize`, dynamic.rs:145-166 and fixed_size.rs:133-143. On the variant `Inline` the array is
    not changed. -/
def tryResize [Zero α] (v : InlineVec α) (n : Nat) : InlineVec α × VoidResult :=
  match v with
  | inline l => if 64 ≥ n then (.inline l, .ok ()) else (.inline l, .error .typeCanNotResize)
  | dynamic cap l =>
    if cap ≥ n then (.dynamic cap (l.take n ++ List.replicate (n - l.length) 0), .ok ())
    else (.dynamic cap l, .error .typeCanNotResize)

/-- The loop of `of_size` and `from_iter`: push all elements. -/
def pushAll (al : Alloc) : InlineVec α → List α → Option (InlineVec α)
  | v, [] => some v
  | v, x :: xs => (v.push al x).bind fun v => pushAll al v xs

/-- `of_size`, dynamic.rs:24-31. -/
def ofSize (al : Alloc) (x : α) (n : Nat) : Option (InlineVec α) :=
  pushAll al (withCapacity al n) (List.replicate n x)

/-- `of_size` without `std`, fixed_size.rs:24-31. -/
def ofSizeFixed (al : Alloc) (x : α) (n : Nat) : Option (InlineVec α) :=
  pushAll al (withCapacityFixed n) (List.replicate n x)

/-- `with_elem`, dynamic.rs:60-64. -/
def withElem (al : Alloc) (x : α) : Option (InlineVec α) := (withCapacity al 1).push al x

/-- `from_iter`, dynamic.rs:258-268. -/
def fromIter (al : Alloc) (l : List α) : Option (InlineVec α) := pushAll al (withCapacity al 64) l

end InlineVec

/-- The calls a user can make on an `InlineVector`. -/
inductive InlineOp (α : Type) where
  | push (x : α)
  | pop
  | remove (i : Nat)
  | insert (i : Nat) (x : α)
  | append (other : InlineVec α)
  | set (i : Nat) (x : α)
  | index (i : Nat)
  | tryResize (n : Nat)

/-- What a call returns. -/
inductive InlineOut (α : Type) where
  | unit
  | elem (x : α)
  | opt (x : Option α)
  | rest (other : List α)
  | result (r : VoidResult)

/-- One call. `none`: it panicked. -/
def InlineVec.step [Zero α] (al : Alloc) (v : InlineVec α) : InlineOp α → Option (InlineVec α × InlineOut α)
  | .push x => (v.push al x).map fun v => (v, .unit)
  | .pop => some (v.pop.1, .opt v.pop.2)
  | .remove i => (v.remove i).map fun r => (r.1, .elem r.2)
  | .insert i x => (v.insert al i x).map fun v => (v, .unit)
  | .append o => (v.append al o).map fun r => (r.1, .rest r.2.elems)
  | .set i x => (v.set i x).map fun v => (v, .unit)
  | .index i => (v.index i).map fun x => (v, .elem x)
  | .tryResize n => some ((v.tryResize n).1, .result (v.tryResize n).2)

/-- A history of calls; all outputs, or `none` if a call panicked. -/
def InlineVec.run [Zero α] (al : Alloc) : InlineVec α → List (InlineOp α) → Option (InlineVec α × List (InlineOut α))
  | v, [] => some (v, [])
  | v, op :: ops => do
    let (v, out) ← v.step al op
    let (v, outs) ← InlineVec.run al v ops
    some (v, out :: outs)

end Dsp
