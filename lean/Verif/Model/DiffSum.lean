import Verif.Model.Complex
import Verif.Model.Reorg
/-
Model of vector/src/vector_types/general/diff_sum.rs.
-/
namespace Dsp

/-- The loop of `diff`: `for j in 0..m { data[j] = data[j + 1] - data[j] }`,
    diff_sum.rs:75-77 and 79-81. -/
def diffLoop {α : Type} (sub : α → α → α) (m : Nat) (data : List α) : Option (List α) :=
  forRange 0 m (fun j d => do
    let a ← get d (j + 1)
    let b ← get d j
    put d j (sub a b)) data

/-- The loop of `diff_with_start` over `&mut data[1..]`, diff_sum.rs:97-101 and 104-108. -/
def diffScan {α : Type} (sub : α → α → α) : α → List α → List α
  | _, [] => []
  | temp, n :: rest => sub n temp :: diffScan sub n rest

/-- `diff_with_start` on the points `0..m`, diff_sum.rs:96-101 and 103-108. -/
def diffWithStartCells {α : Type} (sub : α → α → α) (m : Nat) (data : List α) : Option (List α) := do
  let temp ← get data 0
  let s ← slice data 1 m
  some (splice data 1 (diffScan sub temp s))

namespace DspVec
variable {T : Type}

/-- `DiffSumOps::diff`, diff_sum.rs:65-83. `self.valid_len -= step` underflows for an empty vector
    (panic in debug builds). The complex branch reinterprets the whole storage. -/
def diff [Sub T] (v : DspVec T) : Option (DspVec T) :=
  let step := if v.isComplex then 2 else 1
  let len := v.len
  if len < step then none
  else
    let v' := { v with validLen := v.validLen - step }
    if v.isComplex then do
      let data ← toComplex? v.data.cells
      let data ← diffLoop Cx.sub (len / 2 - 1) data
      some (v'.withCells (fromComplex data))
    else do
      let data ← diffLoop (· - ·) (len - 1) v.data.cells
      some (v'.withCells data)

/-- `DiffSumOps::diff_with_start`, diff_sum.rs:85-110. -/
def diffWithStart [Sub T] (v : DspVec T) : Option (DspVec T) :=
  let len := v.len
  if len == 0 then some v
  else if v.isComplex then do
    let data ← toComplex? v.data.cells
    let data ← diffWithStartCells Cx.sub (len / 2) data
    some (v.withCells (fromComplex data))
  else do
    let data ← diffWithStartCells (· - ·) len v.data.cells
    some (v.withCells data)

/-- `DiffSumOps::cum_sum`, diff_sum.rs:112-124: `while j < len { data[j] = data[j] + data[i]; ... }`
    with `i = j - step`. -/
def cumSum [Add T] (v : DspVec T) : Option (DspVec T) := do
  let step := if v.isComplex then 2 else 1
  let data ← forRange step (v.len - step) (fun j d => do
    let a ← get d j
    let b ← get d (j - step)
    put d j (a + b)) v.data.cells
  some (v.withCells data)

end DspVec
end Dsp
