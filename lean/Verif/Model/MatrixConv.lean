import Verif.Model.Matrix
import Verif.Model.Conv
import Verif.Model.InlineVec
/-
Model of the convolution of a matrix with a matrix of impulse responses: vector/src/vector_types/time_freq/mod.rs and
matrix/src/time_freq.rs.
-/
namespace Dsp
variable {T α : Type}

/-- `.collect()` into an `InlineVector`, inline_vector/dynamic.rs:258-268. -/
def collectInline (al : Alloc) (l : List α) : Option (List α) := (InlineVec.fromIter al l).map InlineVec.elems

/-- `convolve_mat_iteration`, time_freq/mod.rs:476-496. -/
def convolveMatIteration [Zero α] [Add α] [Mul α] (matrix impResp : List (List α)) (i convLen : Int) (full : Nat) : Option α :=
  (matrix.zip impResp).foldlM (init := 0) fun sum p => do
    let it ← revWrappingIter p.1 (i + convLen) full
    some ((it.zip p.2).foldl (fun sum q => sum + q.1 * q.2) sum)

/-- `for (num, i) in dest.iter_mut().zip(0..) { *num = .. }`, time_freq/mod.rs:422-430 and 441-449: `dest` is only written. -/
def convolveMatValues [Zero α] [Add α] [Mul α] (matrix impResp : List (List α)) (convLen : Int) (full n : Nat) :
    Option (List α) :=
  (List.range n).mapM fun (i : Nat) => convolveMatIteration matrix impResp i convLen full

/-- `convolve_mat`, time_freq/mod.rs:365-453. Result: `target` afterwards. Note that in the complex case all slices are cut at the
    length of the first impulse response (lines 412, 418). -/
def convolveMat [Zero T] [Add T] [Sub T] [Mul T] (al : Alloc) (matrix impResp : List (DspVec T)) (target : List T) :
    Option (List T × VoidResult) :=
  match matrix, impResp with
  | m0 :: _, h0 :: _ =>
    if impResp.length ≠ matrix.length then some (target, .error .invalidArgumentLength)
    else if matrix.any (fun v => v.len ≠ m0.len) then some (target, .error .invalidArgumentLength)
    else if impResp.any (fun v => v.len ≠ h0.len) then some (target, .error .invalidArgumentLength)
    else
      match convRange m0.points h0.points with
      | (lo, hi, full, convLen) =>
        if m0.isComplex then do
          let others ← collectInline al (impResp.map fun v => v.data.cells)
          let datas ← collectInline al (matrix.map fun v => v.data.cells)
          let others ← others.mapM fun o => ((slice o 0 h0.len).bind toComplex?).bind fun c => slice c lo hi
          let others ← collectInline al others
          let datas ← datas.mapM fun o => (slice o 0 h0.len).bind toComplex?
          let datas ← collectInline al datas
          let dest ← slice target 0 m0.len
          let dest ← toComplex? dest
          let r ← convolveMatValues datas others convLen full dest.length
          some (splice target 0 (fromComplex r), .ok ())
        else do
          let others ← collectInline al (impResp.map fun v => v.data.cells)
          let datas ← collectInline al (matrix.map fun v => v.data.cells)
          let others ← others.mapM fun o => slice o lo hi
          let others ← collectInline al others
          let datas ← datas.mapM fun o => slice o 0 m0.len
          let datas ← collectInline al datas
          let dest ← slice target 0 m0.len
          let r ← convolveMatValues datas others convLen full dest.length
          some (splice target 0 r, .ok ())
  | _, _ => some (target, .error .invalidArgumentLength)

namespace Mat

/-- The first loop of the macro `convolve_signal`, matrix/src/time_freq.rs:446-456: response `n` writes part `n` of the borrowed
    memory; the first error ends it. -/
def convolveLoop [Zero T] [Add T] [Sub T] [Mul T] (al : Alloc) (rows : List (DspVec T)) (rowLen : Nat) :
    List (List (DspVec T) × Nat) → List T → Option (List T × VoidResult)
  | [], target => some (target, .ok ())
  | (h, n) :: rest, target => do
    let part ← slice target (n * rowLen) ((n + 1) * rowLen)
    let r ← convolveMat al rows h part
    match r.2 with
    | .error e => some (splice target (n * rowLen) r.1, .error e)
    | .ok () => convolveLoop al rows rowLen rest (splice target (n * rowLen) r.1)

/-- The second loop, matrix/src/time_freq.rs:459-463. `clone_from_slice` panics if the lengths differ. -/
def copyBack (rowLen : Nat) (target : List T) (row : DspVec T × Nat) : Option (DspVec T) := do
  let part ← slice target (row.2 * rowLen) ((row.2 + 1) * rowLen)
  let c ← row.1.content
  if c.length ≠ part.length then none
  else some (row.1.withCells (splice row.1.data.cells 0 part))

/-- The macro `convolve_signal`, matrix/src/time_freq.rs:439-467, thus `ConvolutionOps::convolve_signal` of all types of matrices,
    time_freq.rs:469-531. The buffer afterwards is not modelled. -/
def convolveSignal [Zero T] [Add T] [Sub T] [Mul T] (al : Alloc) (m : Mat T) (b : Buffer T) (impResp : List (List (DspVec T))) :
    Option (Mat T × VoidResult) := do
  let target ← b.borrow (m.rowLen * m.colLen)
  let r ← convolveLoop al m.rows m.rowLen (impResp.zip (List.range m.colLen)) target
  match r.2 with
  | .error e => some (m, .error e)
  | .ok () => do
    let rows ← m.rows.zipIdx.mapM (copyBack m.rowLen r.1)
    some (⟨m.kind, rows⟩, .ok ())

end Mat
end Dsp
