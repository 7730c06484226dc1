import Verif.Model.History
import Verif.Model.Sums
import Verif.Model.Elementary
import Verif.Model.Stats
/-
Model of the crate `basic_dsp_matrix`: matrices as collections of vectors (matrix/src). The bodies of all
methods are loops over the rows which call the method of the vector with the same name (with a few
exceptions, see below).
-/
namespace Dsp
variable {T : Type}

/-- `MatrixMxN` (rows in a `Vec`) and `Matrix2xN`, `Matrix3xN`, `Matrix4xN` (rows in an array of that
    length), matrix/src/lib.rs:31-75. -/
inductive MatKind
  | mxn
  | fixed (n : Nat)
deriving DecidableEq, Repr

/-- A matrix, matrix/src/lib.rs:31-75. The two `PhantomData` fields are left out. -/
structure Mat (T : Type) where
  kind : MatKind
  rows : List (DspVec T)

/-! ### Loops over rows

`f` is the operation on one row; its state is the buffer (and everything else) which the closure
borrows mutably: `FnMut`. -/

/-- `for v in self.rows_mut() { v.op(..) }`, e.g. general/elementary.rs:8-12, and
    `[conversion(row0), conversion(row1), ...]`, `transform` for arrays, lib.rs:232-242, 266-278, 304-317. -/
def forRows {σ α β : Type} (f : σ → α → Outcome (β × σ)) : σ → List α → Outcome (List β × σ)
  | s, [] => .finished ([], s)
  | s, v :: rest => (f s v).andThen fun r =>
      (forRows f r.2 rest).andThen fun q => .finished (r.1 :: q.1, q.2)

/-- `for _ in 0..self.len() { let v = self.pop().unwrap(); rows.push(conversion(v)); }`, lib.rs:201-205:
    the conversions run from the last row to the first. -/
def popRows {σ α β : Type} (f : σ → α → Outcome (β × σ)) : Nat → σ → List α → List β → Outcome (List β × σ)
  | 0, s, _, out => .finished (out, s)
  | n + 1, s, rows, out =>
    match rows.getLast? with
    | none => .panic
    | some v => (f s v).andThen fun r => popRows f n r.2 rows.dropLast (out ++ [r.1])

/-- `TransformContent::transform`: for `Vec` lib.rs:197-208, for arrays lib.rs:232-242, 266-278, 304-317. -/
def transformRows {σ α β : Type} (k : MatKind) (f : σ → α → Outcome (β × σ)) (s : σ) (rows : List α) :
    Outcome (List β × σ) :=
  match k with
  | .mxn => (popRows f rows.length s rows []).andThen fun r => .finished (r.1.reverse, r.2)
  | .fixed _ => forRows f s rows

/-! ### Operations which can not fail -/

/-- What differs from row to row when the same operation runs on all rows: the address of the numbers of
    the row, its multicore settings, and how its workers are scheduled. -/
structure RowEnv where
  addr : Nat
  st : MultiCoreSettings
  sched : List Nat

/-- The operation on a certain row. -/
def VecOp.inEnv (op : VecOp T) (e : RowEnv) : VecOp T :=
  match op with
  | .complexToRealB f b _ _ => .complexToRealB f b e.st e.sched
  | .magnitudeB k _ simdOp f b => .magnitudeB k e.addr simdOp f b
  | .offset k _ _ x _ => .offset k e.addr e.st x e.sched
  | .offsetComplex k _ _ x _ => .offsetComplex k e.addr e.st x e.sched
  | .scale k _ _ x _ => .scale k e.addr e.st x e.sched
  | .scaleComplex k _ _ x _ => .scaleComplex k e.addr e.st x e.sched
  | .mathOp lib f _ _ => .mathOp lib f e.st e.sched
  | .sqrt lib k _ _ _ => .sqrt lib k e.addr e.st e.sched
  | .square k _ _ _ => .square k e.addr e.st e.sched
  | .abs lib k _ _ _ => .abs lib k e.addr e.st e.sched
  | .conj k _ _ _ => .conj k e.addr e.st e.sched
  | .mapInplace f _ _ => .mapInplace f e.st e.sched
  | .mapInplaceComplex f _ _ => .mapInplaceComplex f e.st e.sched
  | .applyWindow w _ _ => .applyWindow w e.st e.sched
  | .unapplyWindow w _ _ => .unapplyWindow w e.st e.sched
  | .ifft K k _ _ b _ => .ifft K k e.addr e.st b e.sched
  | .plainSifft tiny K _ b _ => .plainSifft tiny K e.st b e.sched
  | op => op

/-- How a method of a matrix visits the rows: by `for v in self.rows_mut()` or by `self.rows.transform(..)`. -/
inductive RowLoop | inPlace | transform
deriving DecidableEq, Repr

/-- The method of a matrix with the given name and arguments: how it visits the rows and which method of the
    vectors it calls; `none`: matrices have no such method, or one which returns a result (see
    below). Note `diff_with_start` and `cum_sum`. -/
def VecOp.matrixMethod : VecOp T → Option (RowLoop × VecOp T)
  -- general/elementary.rs:8-12, 18-22, 28-32, 38-42
  | .scale k addr st x sched => some (.inPlace, .scale k addr st x sched)
  | .offset k addr st x sched => some (.inPlace, .offset k addr st x sched)
  | .scaleComplex k addr st x sched => some (.inPlace, .scaleComplex k addr st x sched)
  | .offsetComplex k addr st x sched => some (.inPlace, .offsetComplex k addr st x sched)
  -- general/elementary.rs:193-203
  | .reverse => some (.inPlace, .reverse)
  | .swapHalves => some (.inPlace, .swapHalves)
  -- general/elementary.rs:208-212, 214-218, 220-224: all three call `v.diff()`
  | .diff => some (.inPlace, .diff)
  | .diffWithStart => some (.inPlace, .diff)
  | .cumSum => some (.inPlace, .diff)
  -- general/elementary.rs:229-299, 316-350, real.rs:87-127
  | .mathOp lib op st sched => some (.inPlace, .mathOp lib op st sched)
  -- general/elementary.rs:304-314
  | .sqrt lib k addr st sched => some (.inPlace, .sqrt lib k addr st sched)
  | .square k addr st sched => some (.inPlace, .square k addr st sched)
  -- general/elementary.rs:355-374
  | .mapInplace f st sched => some (.inPlace, .mapInplace f st sched)
  | .mapInplaceComplex f st sched => some (.inPlace, .mapInplaceComplex f st sched)
  -- real.rs:62-66, 48-56
  | .abs lib k addr st sched => some (.inPlace, .abs lib k addr st sched)
  | .toComplexB b => some (.transform, .toComplexB b)
  -- complex.rs:18-62 (`magnitude`, `magnitude_squared`, `to_real`, `to_imag`, `phase`)
  | .complexToReal op => some (.transform, .complexToReal op)
  -- complex.rs:88-117 (`to_real_b`, `to_imag_b`, `phase_b`), 68-87 (`magnitude_b`, `magnitude_squared_b`)
  | .complexToRealB op b st sched => some (.transform, .complexToRealB op b st sched)
  | .magnitudeB k addr simdOp op b => some (.transform, .magnitudeB k addr simdOp op b)
  -- complex.rs:212-216
  | .conj k addr st sched => some (.inPlace, .conj k addr st sched)
  -- time_freq.rs:52-70, 113-131
  | .plainFft K b => some (.transform, .plainFft K b)
  | .fft K b => some (.transform, .fft K b)
  | .plainIfft K b => some (.transform, .plainIfft K b)
  | .ifft K k addr st b sched => some (.transform, .ifft K k addr st b sched)
  -- time_freq.rs:173-189
  | .mirror b => some (.inPlace, .mirror b)
  | .fftShift => some (.inPlace, .fftShift)
  | .ifftShift => some (.inPlace, .ifftShift)
  -- time_freq.rs:195-205
  | .applyWindow w st sched => some (.inPlace, .applyWindow w st sched)
  | .unapplyWindow w st sched => some (.inPlace, .unapplyWindow w st sched)
  -- time_freq.rs:319-326
  | .decimatei f d => some (.inPlace, .decimatei f d)
  | _ => none

section
variable [Zero T] [One T] [Add T] [Sub T] [Mul T] [Div T] [Neg T] [NatCast T]

/-- The operation on one vector, as `DspVec.exec`, together with the operation with its buffer as it is
    afterwards: the next row gets this buffer. -/
def DspVec.execNext (v : DspVec T) (op : VecOp T) : Outcome (DspVec T × VecOp T) :=
  match op with
  | .toComplexB b => (Outcome.ofOption (v.toComplexVecB b)).andThen fun r => .finished (r.1, .toComplexB r.2)
  | .complexToRealB f b st sched =>
    (v.toRealBWith f st b sched).andThen fun r => .finished (r.1, .complexToRealB f r.2 st sched)
  | .magnitudeB k addr simdOp f b =>
    (Outcome.ofOption (v.magnitudeBWith k addr simdOp f b)).andThen fun r =>
      .finished (r.1, .magnitudeB k addr simdOp f r.2)
  | .plainFft K b => (Outcome.ofOption (v.plainFft K b)).andThen fun r => .finished (r.1, .plainFft K r.2)
  | .fft K b => (Outcome.ofOption (v.fft K b)).andThen fun r => .finished (r.1, .fft K r.2)
  | .plainIfft K b => (Outcome.ofOption (v.plainIfft K b)).andThen fun r => .finished (r.1, .plainIfft K r.2)
  | .ifft K k addr st b sched =>
    (v.ifft K k addr st b sched).andThen fun r => .finished (r.1, .ifft K k addr st r.2 sched)
  | .mirror b => (Outcome.ofOption (v.mirror b)).andThen fun r => .finished (r.1, .mirror r.2)
  | op => (v.exec op).andThen fun w => .finished (w, op)

/-- One row: `row.2` is its number. -/
def execRow (env : Nat → RowEnv) (op : VecOp T) (row : DspVec T × Nat) : Outcome (DspVec T × VecOp T) :=
  row.1.execNext (op.inEnv (env row.2))

/-- A method of a matrix which returns no result. A method which does not exist is modelled as a panic. -/
def Mat.exec (m : Mat T) (op : VecOp T) (env : Nat → RowEnv) : Outcome (Mat T) :=
  match op.matrixMethod with
  | none => .panic
  | some (.inPlace, rowOp) =>
    (forRows (execRow env) rowOp m.rows.zipIdx).andThen fun r => .finished ⟨m.kind, r.1⟩
  | some (.transform, rowOp) =>
    (transformRows m.kind (execRow env) rowOp m.rows.zipIdx).andThen fun r => .finished ⟨m.kind, r.1⟩

/-- A sequence of calls of methods of a matrix. -/
def Mat.execAll : Mat T → List (VecOp T × (Nat → RowEnv)) → Outcome (Mat T)
  | m, [] => .finished m
  | m, c :: cs => (m.exec c.1 c.2).andThen fun m' => m'.execAll cs

end

/-! ### Meta data -/

namespace Mat

/-- `MetaData::domain`, mat_impl.rs:47-53: the domain of the first row, time domain without rows. -/
def domain (m : Mat T) : DataDomain :=
  match m.rows with
  | [] => .time
  | v :: _ => v.dom

/-- `MetaData::is_complex`, mat_impl.rs:55-61. -/
def isComplex (m : Mat T) : Bool :=
  match m.rows with
  | [] => false
  | v :: _ => v.isComplex

/-- `Matrix::delta`, mat_impl.rs:81-87. -/
def delta [Zero T] (m : Mat T) : Option T :=
  match m.rows with
  | [] => some 0
  | v :: _ => v.delta

/-- `Matrix::set_delta`, mat_impl.rs:89-93, with `set_delta` of vectors, vec_impl_and_indexers.rs:263-265. -/
def setDelta (m : Mat T) (d : Option T) : Mat T := { m with rows := m.rows.map fun v => { v with delta := d } }

/-- `Matrix::row_len`, mat_impl.rs:95-101: the length of the first row. -/
def rowLen (m : Mat T) : Nat :=
  match m.rows with
  | [] => 0
  | v :: _ => v.len

/-- `Matrix::row_points`, mat_impl.rs:103-109. -/
def rowPoints (m : Mat T) : Nat :=
  match m.rows with
  | [] => 0
  | v :: _ => v.points

/-- `GetMetaData::get_meta_data`, mat_impl.rs:130-132, with that of vectors, vec_impl_and_indexers.rs:299-306: delta, number space
    and domain of the first row; panics without rows. -/
def getMetaData (m : Mat T) : Option (Option T × NumberSpace × Domain) :=
  match m.rows with
  | [] => none
  | v :: _ => some (v.delta, v.numberSpace, v.domain)

/-- `Matrix::col_len`, mat_impl.rs:111-113: the number of rows. -/
def colLen (m : Mat T) : Nat := m.rows.length

end Mat

/-! ### Operations which return a result -/

/-- `for (v, o) in rows { v.op(o)?; } Ok(())`: `?` returns the first error; the rows before it have been changed,
    the rows behind it not. E.g. mat_impl.rs:68-74, general/elementary.rs:48-54, 84-90. The second component of an
    entry is the operand of the row. -/
def tryRows {σ ρ ι : Type} (f : σ → ρ → ι → Outcome (ρ × σ × VoidResult)) :
    σ → List (ρ × ι) → Outcome (List ρ × σ × VoidResult)
  | s, [] => .finished ([], s, .ok ())
  | s, r :: rest => (f s r.1 r.2).andThen fun q =>
    match q.2.2 with
    | .ok () => (tryRows f q.2.1 rest).andThen fun t => .finished (q.1 :: t.1, t.2)
    | .error e => .finished (q.1 :: rest.map Prod.fst, q.2.1, .error e)

/-- `try_conv!`, lib.rs:181-192: an error replaces the error which is remembered. -/
def rememberError (err : Option ErrorReason) : VoidResult → Option ErrorReason
  | .ok () => err
  | .error e => some e

/-- The conversions of `transform_res` of arrays, lib.rs:245-261, 281-299, 320-338. -/
def forRowsRes {σ α β : Type} (f : σ → α → Outcome (β × σ × VoidResult)) :
    σ → Option ErrorReason → List α → Outcome (List β × σ × Option ErrorReason)
  | s, err, [] => .finished ([], s, err)
  | s, err, v :: rest => (f s v).andThen fun r =>
      (forRowsRes f r.2.1 (rememberError err r.2.2) rest).andThen fun q => .finished (r.1 :: q.1, q.2)

/-- The loop of `transform_res` of `Vec`, lib.rs:216-219. -/
def popRowsRes {σ α β : Type} (f : σ → α → Outcome (β × σ × VoidResult)) :
    Nat → σ → Option ErrorReason → List α → List β → Outcome (List β × σ × Option ErrorReason)
  | 0, s, err, _, out => .finished (out, s, err)
  | n + 1, s, err, rows, out =>
    match rows.getLast? with
    | none => .panic
    | some v => (f s v).andThen fun r =>
        popRowsRes f n r.2.1 (rememberError err r.2.2) rows.dropLast (out ++ [r.1])

/-- `match error { None => Ok(rows), Some(err) => Err((err, rows)) }`, lib.rs:222-225. -/
def errorResult : Option ErrorReason → VoidResult
  | none => .ok ()
  | some e => .error e

/-- `TransformContent::transform_res`: for `Vec` lib.rs:210-226, for arrays lib.rs:245-261, 281-299, 320-338. -/
def transformRowsRes {σ α β : Type} (k : MatKind) (f : σ → α → Outcome (β × σ × VoidResult)) (s : σ) (rows : List α) :
    Outcome (List β × σ × VoidResult) :=
  match k with
  | .mxn => (popRowsRes f rows.length s none rows []).andThen fun r =>
      .finished (r.1.reverse, r.2.1, errorResult r.2.2)
  | .fixed _ => (forRowsRes f s none rows).andThen fun r => .finished (r.1, r.2.1, errorResult r.2.2)

/-- `for v in self.rows() { let res = v.op()?; result.push(res); } Ok(result)`, e.g. general/mod.rs:16-24, 88-96,
    232-240, general/statistics.rs:10-18, 27-35. -/
def collectRows {α R : Type} (f : α → Option (Except ErrorReason R)) :
    List α → Option (Except ErrorReason (List R))
  | [] => some (.ok [])
  | v :: rest =>
    match f v with
    | none => none
    | some (.error e) => some (.error e)
    | some (.ok x) =>
      match collectRows f rest with
      | none => none
      | some (.error e) => some (.error e)
      | some (.ok xs) => some (.ok (x :: xs))

/-- `IntoFixedLength::into_fixed_length`, lib.rs:342-366: pops `n` elements; `unwrap` panics if there are less. -/
def intoFixedLength {R : Type} : Nat → List R → List R → Option (List R)
  | 0, _, out => some out
  | n + 1, l, out =>
    match l.getLast? with
    | none => none
    | some x => intoFixedLength n l.dropLast (x :: out)

/-- The methods of vectors with one operand which return a result. -/
inductive BinaryMethod
  | add | sub | mul | div | addSmaller | subSmaller | mulSmaller | divSmaller
deriving DecidableEq, Repr

/-- The methods of the vectors, see Model/Elementary.lean. -/
def BinaryMethod.row [Field T] [LinearOrder T] (op : BinaryMethod) (k : RegKind) (addr : Nat) (v o : DspVec T) :
    Option (DspVec T × VoidResult) :=
  match op with
  | .add => v.add k addr o
  | .sub => v.sub k addr o
  | .mul => v.mul k addr o
  | .div => v.div k addr o
  | .addSmaller => v.addSmaller o
  | .subSmaller => v.subSmaller o
  | .mulSmaller => v.mulSmaller o
  | .divSmaller => v.divSmaller o

/-- The method of the vectors which the method of a matrix calls, general/elementary.rs:48-78 and 84-114
    (operand: a matrix or a vector), 121-151 and 157-187 (`*_smaller`). -/
def BinaryMethod.matrixMethod : BinaryMethod → BinaryMethod
  | .add => .add
  | .sub => .sub
  | .mul => .mul
  | .div => .div
  | .addSmaller => .addSmaller
  | .subSmaller => .subSmaller
  | .mulSmaller => .mulSmaller
  | .divSmaller => .divSmaller

/-- The vector and the result of a method without a buffer. -/
def noBuffer {α : Type} (o : Option (α × VoidResult)) : Outcome (α × Unit × VoidResult) :=
  match o with
  | none => .panic
  | some r => .finished (r.1, (), r.2)

namespace Mat

/-- `ResizeOps::resize`, mat_impl.rs:68-74. -/
def resize [Zero T] (m : Mat T) (n : Nat) : Outcome (Mat T × VoidResult) :=
  (tryRows (fun (_ : Unit) (v : DspVec T) (_ : Nat) => noBuffer (some (v.resize n))) () m.rows.zipIdx).andThen
    fun r => .finished (⟨m.kind, r.1⟩, r.2.2)

/-- An operation with the rows of a matrix as operands: `self.rows_mut().iter_mut().zip(summand.rows())` ends with the
    shorter one; the other rows of `self` are left alone. general/elementary.rs:48-78, 121-151. `addr i` is the address
    of row `i`. -/
def binary [Field T] [LinearOrder T] (op : BinaryMethod) (k : RegKind) (addr : Nat → Nat) (m o : Mat T) :
    Outcome (Mat T × VoidResult) :=
  (tryRows (fun (_ : Unit) (v : DspVec T) (x : DspVec T × Nat) => noBuffer (op.matrixMethod.row k (addr x.2) v x.1)) ()
    (m.rows.zip o.rows.zipIdx)).andThen fun r => .finished (⟨m.kind, r.1 ++ m.rows.drop o.rows.length⟩, r.2.2)

/-- An operation with one vector as operand of all rows, general/elementary.rs:84-114, 157-187. -/
def binaryVec [Field T] [LinearOrder T] (op : BinaryMethod) (k : RegKind) (addr : Nat → Nat) (m : Mat T) (o : DspVec T) :
    Outcome (Mat T × VoidResult) :=
  (tryRows (fun (_ : Unit) (v : DspVec T) (i : Nat) => noBuffer (op.matrixMethod.row k (addr i) v o)) ()
    m.rows.zipIdx).andThen fun r => .finished (⟨m.kind, r.1⟩, r.2.2)

/-- `to_complex`, real.rs:38-41. -/
def toComplex [Zero T] (m : Mat T) : Outcome (Mat T × VoidResult) :=
  (transformRowsRes m.kind (fun (_ : Unit) (v : DspVec T) => noBuffer v.toComplexVec) () m.rows).andThen fun r =>
    .finished (⟨m.kind, r.1⟩, r.2.2)

/-- The vector, the buffer and the result of a symmetric transform. -/
def _root_.Dsp.symResult (o : Option (DspVec T × Buffer T × VoidResult)) : Outcome (DspVec T × Buffer T × VoidResult) :=
  Outcome.ofOption o

/-- `plain_sfft`, time_freq.rs:87-91. -/
def plainSfft [Zero T] [Mul T] [NatCast T] (K : FftKernel T) (m : Mat T) (b : Buffer T) :
    Outcome (Mat T × Buffer T × VoidResult) :=
  (transformRowsRes m.kind (fun (b : Buffer T) (v : DspVec T) => symResult (v.plainSfft K b)) b m.rows).andThen fun r =>
    .finished (⟨m.kind, r.1⟩, r.2)

/-- `sfft`, time_freq.rs:93-97. -/
def sfft [Zero T] [Mul T] [NatCast T] (K : FftKernel T) (m : Mat T) (b : Buffer T) :
    Outcome (Mat T × Buffer T × VoidResult) :=
  (transformRowsRes m.kind (fun (b : Buffer T) (v : DspVec T) => symResult (v.sfft K b)) b m.rows).andThen fun r =>
    .finished (⟨m.kind, r.1⟩, r.2)

/-- What differs from row to row in a reduction: address, multicore settings, order in which workers finish. -/
structure _root_.Dsp.SumEnv where
  addr : Nat
  st : MultiCoreSettings
  order : List Nat

/-- A result which is not an error. -/
def _root_.Dsp.okResult {R : Type} (o : Option R) : Option (Except ErrorReason R) := o.map .ok

/-- The loop of `sum`, general/statistics.rs:144-152, and of the other result types, 169-177, 194-202, 219-227; `sum_sq`:
    154-162, 179-187, 204-212, 229-237. -/
def sumLoop [Add T] [Mul T] [Zero T] (sq : Bool) (k : RegKind) (env : Nat → SumEnv) (m : Mat T) :
    Option (Except ErrorReason (List T)) :=
  collectRows (fun (r : DspVec T × Nat) => okResult
    (if sq then r.1.sumSq k (env r.2).addr (env r.2).st (env r.2).order
     else r.1.sum k (env r.2).addr (env r.2).st (env r.2).order)) m.rows.zipIdx

/-- `SumOps<Vec<T>>::sum`, `sum_sq` of `MatrixMxN`, general/statistics.rs:140-163. -/
def sums [Add T] [Mul T] [Zero T] (sq : Bool) (k : RegKind) (env : Nat → SumEnv) (m : Mat T) : Option (List T) :=
  match m.sumLoop sq k env with
  | some (.ok xs) => some xs
  | _ => none

/-- `SumOps<[T; n]>::sum`, `sum_sq` of `Matrix2xN`, general/statistics.rs:165-188 (`n = 2`), 190-213 (`n = 3`), 215-238
    (`n = 4`). All three are implementations for `Matrix2xN`. -/
def sumsArray [Add T] [Mul T] [Zero T] (n : Nat) (sq : Bool) (k : RegKind) (env : Nat → SumEnv) (m : Mat T) :
    Option (List T) := do
  let xs ← m.sums sq k env
  intoFixedLength n xs []

/-- `dot_product` and `dot_product_prec` with a matrix, general/mod.rs:9-79, 153-223 (the fixed sizes return a `Vec`, too). -/
def dotProduct [Add T] [Sub T] [Mul T] [Zero T] (prec : Bool) (k : RegKind) (env : Nat → SumEnv) (m o : Mat T) :
    Option (Except ErrorReason (List T)) :=
  collectRows (fun (r : DspVec T × DspVec T × Nat) =>
    r.1.dotProduct prec k (env r.2.2).addr (env r.2.2).st r.2.1 (env r.2.2).order) (m.rows.zip o.rows.zipIdx)

/-- `dot_product` and `dot_product_prec` with a vector, general/mod.rs:81-151, 225-295, for `MatrixMxN`; for the other types the
    result goes through `into_fixed_length`. -/
def dotProductVec [Add T] [Sub T] [Mul T] [Zero T] (prec : Bool) (k : RegKind) (env : Nat → SumEnv) (m : Mat T)
    (o : DspVec T) : Option (Except ErrorReason (List T)) :=
  collectRows (fun (r : DspVec T × Nat) =>
    r.1.dotProduct prec k (env r.2).addr (env r.2).st o (env r.2).order) m.rows.zipIdx

/-- `statistics`, `statistics_prec`, general/statistics.rs:10-18, 246-254; for the other matrix types the same vector goes through
    `into_fixed_length`, 44-52, 78-86, 112-120, 280-288, 314-322, 348-356. -/
def statistics [Add T] [Sub T] [Mul T] [Zero T] {K : Type} [LT K] [DecidableLT K] (prec : Bool) (ops : StatOps T K)
    (env : Nat → SumEnv) (m : Mat T) : Option (List (Statistics T)) := do
  let xs ← match collectRows (fun (r : DspVec T × Nat) => okResult
      (if prec then r.1.statisticsPrec ops (env r.2).st (env r.2).order
       else r.1.statistics ops (env r.2).st (env r.2).order)) m.rows.zipIdx with
    | some (.ok xs) => some xs
    | _ => none
  match m.kind with
  | .mxn => some xs
  | .fixed n => intoFixedLength n xs []

/-- `statistics_split`, `statistics_split_prec`, general/statistics.rs:27-35, 263-271 (and 61-69, 95-103, 129-137, 297-305, 331-339,
    365-373 for the other matrix types). -/
def statisticsSplit [Add T] [Sub T] [Mul T] [Zero T] {K : Type} [LT K] [DecidableLT K] (prec : Bool) (ops : StatOps T K)
    (len : Nat) (env : Nat → SumEnv) (m : Mat T) : Option (Except ErrorReason (List (List (Statistics T)))) :=
  match collectRows (fun (r : DspVec T × Nat) =>
      if prec then r.1.statisticsSplitPrec ops (env r.2).st len (env r.2).order
      else r.1.statisticsSplit ops (env r.2).st len (env r.2).order) m.rows.zipIdx with
  | some (.ok xs) =>
    match m.kind with
    | .mxn => some (.ok xs)
    | .fixed n => okResult (intoFixedLength n xs [])
  | o => o

/-- `map_aggregate`, general/mod.rs:304-325 (`MatrixMxN`), 334-354, 363-383, 392-412 (the other matrix types, through
    `into_fixed_length`). The `argument` is part of the closure `map`. -/
def mapAggregate {R : Type} (map : T → Nat → R) (agg : R → R → R) (env : Nat → SumEnv) (m : Mat T) :
    Option (Except ErrorReason (List R)) :=
  match collectRows (fun (r : DspVec T × Nat) => r.1.mapAggregate (env r.2).st map agg (env r.2).order) m.rows.zipIdx with
  | some (.ok xs) =>
    match m.kind with
    | .mxn => some (.ok xs)
    | .fixed n => okResult (intoFixedLength n xs [])
  | o => o

end Mat

/-! ### Getters -/

/-- The getters of complex matrices. -/
inductive GetterMethod | real | imag | magnitude | magnitudeSquared | phase
deriving DecidableEq, Repr

/-- The functions of complex numbers which the getters of vectors apply, complex_to_real.rs:609-672; `lib` are the
    absolute value, its square and the argument. -/
def GetterMethod.function (norm normSq arg : Cx T → T) : GetterMethod → Cx T → T
  | .real => Cx.re
  | .imag => Cx.im
  | .magnitude => norm
  | .magnitudeSquared => normSq
  | .phase => arg

/-- The getter of the vectors which the getter of a matrix calls, complex.rs:123-151: the last three call
    `v.get_imag(o)`. -/
def GetterMethod.matrixMethod : GetterMethod → GetterMethod
  | .real => .real
  | .imag => .imag
  | .magnitude => .imag
  | .magnitudeSquared => .imag
  | .phase => .imag

namespace Mat

/-- The getters of a matrix, complex.rs:123-151: `destination.rows_mut().iter_mut().zip(self.rows())`. Result: the
    destination. Only the getters `get_real`, `get_imag` of vectors are ever called. -/
def get [Zero T] (norm normSq arg : Cx T → T) (g : GetterMethod) (env : Nat → RowEnv) (m dest : Mat T) : Outcome (Mat T) :=
  (forRows (fun (_ : Unit) (r : DspVec T × DspVec T × Nat) =>
      (r.2.1.getRealWith (g.matrixMethod.function norm normSq arg) (env r.2.2).st r.1 (env r.2.2).sched).andThen fun d =>
        .finished (d, ())) () (dest.rows.zip m.rows.zipIdx)).andThen fun r =>
    .finished ⟨dest.kind, r.1 ++ dest.rows.drop m.rows.length⟩

/-- `get_real_imag`, complex.rs:153-161, and `get_mag_phase`, 163-171, for the vector method `f`: three zipped lists of rows.
    Result: the two destinations. -/
def getPair (f : DspVec T → DspVec T → DspVec T → Option (DspVec T × DspVec T)) (m d1 d2 : Mat T) : Outcome (Mat T × Mat T) :=
  (forRows (fun (_ : Unit) (r : (DspVec T × DspVec T) × DspVec T) =>
      match f r.2 r.1.1 r.1.2 with
      | none => .panic
      | some q => .finished (q, ())) () ((d1.rows.zip d2.rows).zip m.rows)).andThen fun r =>
    .finished (⟨d1.kind, r.1.map Prod.fst ++ d1.rows.drop r.1.length⟩, ⟨d2.kind, r.1.map Prod.snd ++ d2.rows.drop r.1.length⟩)

/-- `set_real_imag`, complex.rs:178-188, and `set_mag_phase`, 190-200, for the vector method `f`. -/
def setPair (f : DspVec T → DspVec T → DspVec T → Option (DspVec T × VoidResult)) (m a b : Mat T) : Outcome (Mat T × VoidResult) :=
  (tryRows (fun (_ : Unit) (v : DspVec T) (x : DspVec T × DspVec T) => noBuffer (f v x.1 x.2)) ()
    (m.rows.zip (a.rows.zip b.rows))).andThen fun r =>
    .finished (⟨m.kind, r.1 ++ m.rows.drop (a.rows.zip b.rows).length⟩, r.2.2)

/-! ### Construction -/

/-- `to_mat`, to_from_mat_conversions.rs:165-235: the vectors are taken as they are. -/
def ofVectors (k : MatKind) (rows : List (DspVec T)) : Mat T := ⟨k, rows⟩

/-- `to_gen_dsp_mat`, `to_real_time_mat`, `to_real_freq_mat`, `to_complex_time_mat`: `to_mat_mxn`, `to_mat_2xn`, `to_mat_3xn`,
    `to_mat_4xn` with the conversion of vectors, to_from_mat_conversions.rs:105-163, 237-427; also `rededicate_from_force`,
    `rededicate_with_runtime_data`, rededicate.rs:15-38. `none`: panic. -/
def create {α : Type} (k : MatKind) (conversion : α → DspVec T) (source : List α) : Option (Mat T) :=
  match transformRows k (fun (_ : Unit) (a : α) => .finished (conversion a, ())) () source with
  | .finished r => some ⟨k, r.1⟩
  | _ => none

/-- `FromMatrix::get`, to_from_mat_conversions.rs:429-483. -/
def getRows (m : Mat T) : List (DspVec T) × Nat := (m.rows, m.rowLen)

end Mat
end Dsp
