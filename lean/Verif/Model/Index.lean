import Verif.Model.Vec
/-
Model of the access to the numbers of a vector: vector_types/vec_impl_and_indexers.rs:309-870. The methods of `Index` and `IndexMut`
(627-870) call `data`, `data_mut` for real and `datac`, `datac_mut` for complex vectors and are not repeated.
A mutable slice is given to the caller, who may replace its numbers but not its length: a caller is a function `f` on lists, and the
methods with `mut` are modelled together with what the caller does.
-/
namespace Dsp
variable {T : Type}

/-- The ranges of Rust: `..`, `a..`, `..b`, `a..b` (`RangeFull`, `RangeFrom`, `RangeTo`, `Range`). -/
inductive Idx
  | full
  | starting (a : Nat)
  | upTo (b : Nat)
  | range (a b : Nat)
deriving DecidableEq, Repr

/-- The bounds of a range in a slice of `n` elements. -/
def Idx.bounds (n : Nat) : Idx → Nat × Nat
  | .full => (0, n)
  | .starting a => (a, n)
  | .upTo b => (0, b)
  | .range a b => (a, b)

/-- `&slice[index]`: panics if the start is behind the end or the end is out of bounds. -/
def readRange {α : Type} (a : List α) (r : Idx) : Option (List α) :=
  slice a (r.bounds a.length).1 (r.bounds a.length).2

/-- `&mut slice[index]`, and then the caller replaces the elements `old` by `f old`. -/
def writeRange {α : Type} (a : List α) (r : Idx) (f : List α → List α) : Option (List α) := do
  let old ← readRange a r
  some (splice a (r.bounds a.length).1 (f old))

namespace DspVec

/-- `FloatIndex<usize>::data`, vec_impl_and_indexers.rs:318-323. -/
def data1 (v : DspVec T) (i : Nat) : Option T := do
  let s ← slice v.data.cells 0 v.validLen
  get s i

/-- `FloatIndexMut<usize>::data_mut`, vec_impl_and_indexers.rs:333-338, followed by a write of `x`. -/
def setData1 (v : DspVec T) (i : Nat) (x : T) : Option (DspVec T) := do
  let s ← slice v.data.cells 0 v.validLen
  let s ← put s i x
  some (v.withCells (splice v.data.cells 0 s))

/-- `FloatIndex::data` with a range, vec_impl_and_indexers.rs:350-354, 380-385, 412-417, 444-449. -/
def dataRange (v : DspVec T) (r : Idx) : Option (List T) := do
  let s ← slice v.data.cells 0 v.validLen
  readRange s r

/-- `FloatIndexMut::data_mut` with a range, vec_impl_and_indexers.rs:364-368, 395-400, 427-432, 459-464, and what the caller does. -/
def setDataRange (v : DspVec T) (r : Idx) (f : List T → List T) : Option (DspVec T) := do
  let s ← slice v.data.cells 0 v.validLen
  let s ← writeRange s r f
  some (v.withCells (splice v.data.cells 0 s))

/-- `ComplexIndex<usize>::datac`, vec_impl_and_indexers.rs:476-481. -/
def datac1 (v : DspVec T) (i : Nat) : Option (Cx T) := do
  let s ← slice v.data.cells 0 v.validLen
  let s ← toComplex? s
  get s i

/-- `ComplexIndexMut<usize>::datac_mut`, vec_impl_and_indexers.rs:491-496, followed by a write of `x`. -/
def setDatac1 (v : DspVec T) (i : Nat) (x : Cx T) : Option (DspVec T) := do
  let s ← slice v.data.cells 0 v.validLen
  let s ← toComplex? s
  let s ← put s i x
  some (v.withCells (splice v.data.cells 0 (fromComplex s)))

/-- `ComplexIndex::datac` with a range, vec_impl_and_indexers.rs:508-512, 538-543, 570-575, 602-607. -/
def datacRange (v : DspVec T) (r : Idx) : Option (List (Cx T)) := do
  let s ← slice v.data.cells 0 v.validLen
  let s ← toComplex? s
  readRange s r

/-- `ComplexIndexMut::datac_mut` with a range, vec_impl_and_indexers.rs:522-526, 553-558, 585-590, 617-622, and what the caller does. -/
def setDatacRange (v : DspVec T) (r : Idx) (f : List (Cx T) → List (Cx T)) : Option (DspVec T) := do
  let s ← slice v.data.cells 0 v.validLen
  let s ← toComplex? s
  let s ← writeRange s r f
  some (v.withCells (splice v.data.cells 0 (fromComplex s)))

end DspVec
end Dsp
