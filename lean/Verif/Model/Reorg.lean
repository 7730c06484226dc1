import Verif.Model.Vec
/-
Model of vector/src/vector_types/general/data_reorganization.rs and of `swap_array_halves` in
vector/src/vector_types/mod.rs.
-/
namespace Dsp

/-- Element-wise `mem::swap` over the zip of two slices; surplus elements stay. -/
def swapZip {α : Type} : List α → List α → List α × List α
  | x :: xs, y :: ys => let r := swapZip xs ys; (y :: r.1, x :: r.2)
  | xs, ys => (xs, ys)

/-- `reverse_array`, data_reorganization.rs:217-228. -/
def reverseArray {α : Type} (data : List α) : List α :=
  let mid := (data.length + 1) / 2
  let r := swapZip (data.take mid) (data.drop mid).reverse
  r.1 ++ r.2.reverse

/-- The loop of the odd branch of `swap_array_halves`, vector_types/mod.rs:185-189;
    the first argument is the number of remaining iterations. -/
def swapHalvesLoop {α : Type} (step : Nat) : Nat → Nat → α → List α → Option (List α)
  | 0, _, _, data => some data
  | n + 1, pos, temp, data => do
    let posNew := (pos + step) % data.length
    let x ← get data pos
    let data' ← put data pos temp
    swapHalvesLoop step n posNew x data'

/-- `swap_array_halves`, vector_types/mod.rs:171-191. -/
def swapArrayHalves {α : Type} (data : List α) (forward : Bool) : Option (List α) :=
  let len := data.length
  if len % 2 == 0 then
    let r := swapZip (data.take (len / 2)) (data.drop (len / 2))
    some (r.1 ++ r.2)
  else do
    let step := if forward then len / 2 else len / 2 + 1
    let temp ← get data 0
    swapHalvesLoop step len step temp data

/-- `PaddingOption`, data_reorganization.rs:45-54. -/
inductive PaddingOption | «end» | surround | center
deriving DecidableEq, Repr

namespace DspVec
variable {T : Type}

/-- Apply an in-place operation to the valid points of a vector: on `&mut data[0..len]` for real
    vectors, on `array_to_complex_mut(&mut data[0..len])` for complex ones. This is the common
    shape of e.g. `reverse` (data_reorganization.rs:237-247) and `swap_halves_priv`
    (vector_types/mod.rs:510-524). -/
def onPoints (v : DspVec T) (f : List T → Option (List T))
    (g : List (Cx T) → Option (List (Cx T))) : Option (DspVec T) := do
  let valid ← slice v.data.cells 0 v.validLen
  if v.isComplex then
    let c ← toComplex? valid
    let c' ← g c
    some (v.withCells (splice v.data.cells 0 (fromComplex c')))
  else
    let r ← f valid
    some (v.withCells (splice v.data.cells 0 r))

/-- `ReorganizeDataOps::reverse`, data_reorganization.rs:237-247. -/
def reverse (v : DspVec T) : Option (DspVec T) :=
  v.onPoints (fun l => some (reverseArray l)) (fun l => some (reverseArray l))

/-- `swap_halves_priv`, vector_types/mod.rs:510-524. -/
def swapHalvesPriv (v : DspVec T) (forward : Bool) : Option (DspVec T) :=
  if v.len == 0 then some v
  else v.onPoints (fun l => swapArrayHalves l forward) (fun l => swapArrayHalves l forward)

/-- `ReorganizeDataOps::swap_halves`, data_reorganization.rs:249-251. -/
def swapHalves (v : DspVec T) : Option (DspVec T) := v.swapHalvesPriv true

/-- `FrequencyDomainOperations::fft_shift`, time_freq/freq.rs:85-87. -/
def fftShift (v : DspVec T) : Option (DspVec T) := v.swapHalvesPriv true

/-- `FrequencyDomainOperations::ifft_shift`, time_freq/freq.rs:89-91. -/
def ifftShift (v : DspVec T) : Option (DspVec T) := v.swapHalvesPriv false

/-- The three padding variants of `zero_pad`, data_reorganization.rs:322-357: `data` are the cells
    after the resize. -/
def zeroPadInPlace [Zero T] (data : List T) (lenBefore len step : Nat) :
    PaddingOption → Option (List T)
  | .end => memzero data lenBefore len
  | .surround => do
    let diff := (len - lenBefore) / step
    let right := (diff - 1) / 2
    let left := diff - right
    let right := right * step
    let left := left * step
    let data ← memcpy data 0 lenBefore left
    let data ← (if right > 0 then memzero data (len - right) len else some data)
    memzero data 0 left
  | .center => do
    let pointsBefore := lenBefore / step
    let right := pointsBefore / 2
    let left := pointsBefore - right
    let right := right * step
    let left := left * step
    let data ← (if right > 0 then memcpy data left (left + right) (len - right) else some data)
    memzero data left (len - right)

/-- `InsertZerosOps::zero_pad`, data_reorganization.rs:310-360. -/
def zeroPad [Zero T] (v : DspVec T) (points : Nat) (option : PaddingOption) :
    Option (DspVec T × VoidResult) :=
  let lenBefore := v.len
  let step := if v.isComplex then 2 else 1
  let len := points * step
  if len ≤ lenBefore then some (v, .error .invalidArgumentLength)
  else
    match v.resize len with
    | (v', .error e) => some (v', .error e)
    | (v', .ok ()) =>
      (zeroPadInPlace v'.data.cells lenBefore len step option).map
        (fun data => (v'.withCells data, .ok ()))

/-- The body of the in-place loop of `zero_interleave`: position `i`,
    data_reorganization.rs:376-383 / 386-393. -/
def zeroInterleaveStep {α : Type} (zero : α) (factor len : Nat) (j : Nat) (data : List α) :
    Option (List α) := do
  let i := len - 1 - j
  if i % factor == 0 then
    let x ← get data (i / factor)
    put data i x
  else put data i zero

/-- `InsertZerosOps::zero_interleave`, data_reorganization.rs:362-397. In the complex case the
    whole storage is reinterpreted as complex numbers (line 375), hence the panic for a storage
    with an odd number of cells. -/
def zeroInterleave [Zero T] (v : DspVec T) (factor : Nat) : Option (DspVec T × VoidResult) :=
  let lenBefore := v.len
  let len := lenBefore * factor
  if len < lenBefore then some (v, .ok ())
  else
    match v.resize len with
    | (v', .error e) => some (v', .error e)
    | (v', .ok ()) =>
      if v.isComplex then do
        let data ← toComplex? v'.data.cells
        let data ← forRange 0 (len / 2) (zeroInterleaveStep ⟨0, 0⟩ factor (len / 2)) data
        some (v'.withCells (fromComplex data), .ok ())
      else do
        let data ← forRange 0 len (zeroInterleaveStep 0 factor len) v'.data.cells
        some (v'.withCells data, .ok ())

/-- The three padding variants of `zero_pad_b`, data_reorganization.rs:421-455: `target` is the
    borrowed buffer, `data` the cells of the vector. -/
def zeroPadTarget [Zero T] (target data : List T) (lenBefore len step : Nat) :
    PaddingOption → Option (List T)
  | .end => do
    let src ← slice data 0 lenBefore
    let target ← copyFromSlice target 0 lenBefore src
    memzero target lenBefore len
  | .surround => do
    let diff := (len - lenBefore) / step
    let right := diff / 2
    let left := diff - right
    let right := right * step
    let left := left * step
    let src ← slice data 0 lenBefore
    let target ← copyFromSlice target left (left + lenBefore) src
    let target ← (if right > 0 then memzero target (len - right) len else some target)
    memzero target 0 left
  | .center => do
    let pointsBefore := lenBefore / step
    let right := pointsBefore / 2
    let left := pointsBefore - right
    let right := right * step
    let left := left * step
    let src ← slice data (lenBefore - right) lenBefore
    let target ← copyFromSlice target (len - right) len src
    let src ← slice data 0 left
    let target ← copyFromSlice target 0 left src
    memzero target left (len - lenBefore)

/-- `InsertZerosOpsBuffered::zero_pad_b`, data_reorganization.rs:407-463. -/
def zeroPadB [Zero T] (v : DspVec T) (b : Buffer T) (points : Nat) (option : PaddingOption) :
    Option (DspVec T × Buffer T × VoidResult) :=
  let lenBefore := v.len
  let step := if v.isComplex then 2 else 1
  let len := step * points
  if len ≤ lenBefore then some (v, b, .error .invalidArgumentLength)
  else do
    let target ← b.borrow len
    let target ← zeroPadTarget target v.data.cells lenBefore len step option
    let (b', d) := b.trade target v.data
    some ({ v with data := d, validLen := len }, b', .ok ())

/-- The copy loop of the `zero_interleave!` macro, data_reorganization.rs:285-294. The first
    argument bounds the number of iterations (the loop runs `⌈target.len() / skip⌉` times). -/
def interleaveCopy {α : Type} (tuple skip : Nat) (original : List α) :
    Nat → Nat → Nat → List α → Option (List α)
  | 0, _, _, target => some target
  | fuel + 1, i, j, target =>
    if i < target.length then do
      let src ← slice original j (j + tuple)
      let target ← copyFromSlice target i (i + tuple) src
      interleaveCopy tuple skip original fuel (i + skip) (j + tuple) target
    else some target

/-- `zero_interleave_b` with the `zero_interleave!` macro, data_reorganization.rs:254-301 and
    465-474. `Complexity::Small` always runs on a single chunk
    (multicore_support/threading.rs:321-327), so the closure runs once on the whole data.
    Out of range raw pointer accesses (undefined behaviour) are modelled as panics. -/
def zeroInterleaveB [Zero T] (v : DspVec T) (b : Buffer T) (factor : Nat) :
    Option (DspVec T × Buffer T) :=
  let tuple := if v.isComplex then 2 else 1
  if factor ≤ 1 then some (v, b)
  else do
    let oldLen := v.len
    let newLen := factor * oldLen
    let target ← b.borrow newLen
    let original ← slice v.data.cells 0 oldLen
    let _ ← get target 0
    let target ← memzero target 0 newLen
    let target ← interleaveCopy tuple (factor * tuple) original target.length 0 0 target
    let (b', d) := b.trade target v.data
    some ({ v with data := d, validLen := newLen }, b')

/-- Resize all targets (`t.resize(..)?` in a loop), data_reorganization.rs:491-493. Stops at the
    first error; the targets before it have been resized. -/
def resizeAll [Zero T] (n : Nat) : List (DspVec T) → List (DspVec T) × VoidResult
  | [] => ([], .ok ())
  | t :: ts =>
    match t.resize n with
    | (t', .error e) => (t' :: ts, .error e)
    | (t', .ok ()) => let r := resizeAll n ts; (t' :: r.1, r.2)

/-- Write `x` at cell `pos` of target `k`. -/
def putTarget (targets : List (DspVec T)) (k pos : Nat) (x : T) : Option (List (DspVec T)) := do
  let t ← get targets k
  let cells ← put t.data.cells pos x
  put targets k (t.withCells cells)

/-- `SplitOps::split_into`, data_reorganization.rs:484-512. In the real case the loop runs over all
    cells of the storage (line 504), not only over the valid ones. -/
def splitInto [Zero T] (v : DspVec T) (targets : List (DspVec T)) :
    Option (List (DspVec T) × VoidResult) :=
  let k := targets.length
  let n := v.len
  if k == 0 || n % k != 0 then some (targets, .error .invalidArgumentLength)
  else
    match resizeAll (n / k) targets with
    | (ts, .error e) => some (ts, .error e)
    | (ts, .ok ()) =>
      let data := v.data.cells
      if v.isComplex then do
        let ts ← forRange 0 (n / 2) (fun i ts => do
          let pos := i / k
          let x ← get data (2 * i)
          let ts ← putTarget ts (i % k) (2 * pos) x
          let y ← get data (2 * i + 1)
          putTarget ts (i % k) (2 * pos + 1) y) ts
        some (ts, .ok ())
      else do
        let ts ← forRange 0 data.length (fun i ts => do
          let x ← get data i
          putTarget ts (i % k) (i / k) x) ts
        some (ts, .ok ())

/-- `MergeOps::merge`, data_reorganization.rs:522-557. In the real case the loop runs over all
    cells of the storage (line 548). -/
def merge [Zero T] (v : DspVec T) (sources : List (DspVec T)) : Option (DspVec T × VoidResult) :=
  let k := sources.length
  match sources with
  | [] => some (v, .error .invalidArgumentLength)
  | s0 :: rest =>
    if rest.any (fun s => s0.len != s.len) then some (v, .error .invalidArgumentLength)
    else
      match v.resize (s0.len * k) with
      | (v', .error e) => some (v', .error e)
      | (v', .ok ()) =>
        let n := v'.len
        if v'.isComplex then do
          let cells ← forRange 0 (n / 2) (fun i cells => do
            let s ← get sources (i % k)
            let pos := i / k
            let x ← get s.data.cells (2 * pos)
            let cells ← put cells (2 * i) x
            let y ← get s.data.cells (2 * pos + 1)
            put cells (2 * i + 1) y) v'.data.cells
          some (v'.withCells cells, .ok ())
        else do
          let cells ← forRange 0 v'.data.cells.length (fun i cells => do
            let s ← get sources (i % k)
            let x ← get s.data.cells (i / k)
            put cells i x) v'.data.cells
          some (v'.withCells cells, .ok ())

end DspVec
end Dsp
