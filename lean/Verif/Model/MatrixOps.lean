import Verif.Model.Matrix
import Verif.Model.Program
/-
Model of the methods of matrices which belong to the operations `UnOp` and `BinOp` of vectors (Model/Program.lean), and of the
remaining symmetric transforms: matrix/src/time_freq.rs, matrix/src/complex.rs, matrix/src/general/elementary.rs.
-/
namespace Dsp
variable {T : Type}

/-- What differs from row to row: as `RowEnv`, for two parallel sections in one call. -/
structure RowEnv2 extends RowEnv where
  sched2 : List Nat

/-- The operation on a certain row. -/
def UnOp.inEnv (op : UnOp T) (e : RowEnv) : UnOp T :=
  match op with
  | .exponential cis a b => .exponential cis a b
  | .interpolateLin b f d => .interpolateLin b f d
  | .interpolateHermite b f d => .interpolateHermite b f d
  | .prepareArgument K k _ _ b => .prepareArgument K k e.addr e.st b
  | .prepareArgumentPadded K k _ _ b => .prepareArgumentPadded K k e.addr e.st b
  | .convolveReal K junk k _ _ b fn ratio len => .convolveReal K junk k e.addr e.st b fn ratio len
  | .convolveComplex K junk k _ _ b fn ratio len => .convolveComplex K junk k e.addr e.st b fn ratio len
  | .realResponse _ f ratio => .realResponse e.st f ratio
  | .complexResponse _ f ratio => .complexResponse e.st f ratio
  | .interpft K k _ cis pi _ b N => .interpft K k e.addr cis pi e.st b N
  | .interpolate K k _ cis pi _ b f N d => .interpolate K k e.addr cis pi e.st b f N d
  | .interpolatei K k _ _ b F m => .interpolatei K k e.addr e.st b F m
  | .interpolatef k _ _ b fn factor delay L => .interpolatef k e.addr e.st b fn factor delay L
  | .windowedFft K _ b win => .windowedFft K e.st b win
  | .windowedIfft K k _ _ b win => .windowedIfft K k e.addr e.st b win
  | .wrap d _ => .wrap d e.st
  | .unwrap d => .unwrap d

/-- The operation with an operand, on a certain row. -/
def BinOp.inEnv (op : BinOp T) (e : RowEnv) : BinOp T :=
  match op with
  | .elem op k _ => .elem op k e.addr
  | .elemSmaller op => .elemSmaller op
  | .convolveSignal K junk k _ _ b => .convolveSignal K junk k e.addr e.st b
  | .correlate K k _ _ b => .correlate K k e.addr e.st b

/-- How a method of a matrix visits the rows: by `for v in self.rows_mut() { v.op(..) }`, by `self.rows.transform(..)` or by
    `for v in self.rows_mut() { v.op(..)?; } Ok(())`. -/
inductive MatLoop | inPlace | transform | tryEach
deriving DecidableEq, Repr

/-- The method of a matrix: how it visits the rows and which method of the vectors it calls. -/
def UnOp.matrixMethod : UnOp T → MatLoop × UnOp T
  -- complex.rs:206-210
  | .exponential cis a b => (.inPlace, .exponential cis a b)
  -- time_freq.rs:343-351, 332-341
  | .interpolateLin b f d => (.inPlace, .interpolateLin b f d)
  | .interpolateHermite b f d => (.inPlace, .interpolateHermite b f d)
  -- time_freq.rs:212-220, 222-230
  | .prepareArgument K k addr st b => (.transform, .prepareArgument K k addr st b)
  | .prepareArgumentPadded K k addr st b => (.transform, .prepareArgumentPadded K k addr st b)
  -- time_freq.rs:359-368, 376-385
  | .convolveReal K junk k addr st b fn ratio len => (.inPlace, .convolveReal K junk k addr st b fn ratio len)
  | .convolveComplex K junk k addr st b fn ratio len => (.inPlace, .convolveComplex K junk k addr st b fn ratio len)
  -- time_freq.rs:393-399, 407-413
  | .realResponse st f ratio => (.inPlace, .realResponse st f ratio)
  | .complexResponse st f ratio => (.inPlace, .complexResponse st f ratio)
  -- time_freq.rs:309-317, 295-307, 282-293, 269-280
  | .interpft K k addr cis pi st b N => (.inPlace, .interpft K k addr cis pi st b N)
  | .interpolate K k addr cis pi st b f N d => (.tryEach, .interpolate K k addr cis pi st b f N d)
  | .interpolatei K k addr st b F m => (.tryEach, .interpolatei K k addr st b F m)
  | .interpolatef k addr st b fn factor delay L => (.inPlace, .interpolatef k addr st b fn factor delay L)
  -- time_freq.rs:72-80, 133-141
  | .windowedFft K st b win => (.transform, .windowedFft K st b win)
  | .windowedIfft K k addr st b win => (.transform, .windowedIfft K k addr st b win)
  -- real.rs:72-76, 78-82
  | .wrap d st => (.inPlace, .wrap d st)
  | .unwrap d => (.inPlace, .unwrap d)

/-- The operand of a method of a matrix. -/
inductive OperandKind | matrix | vector
deriving DecidableEq, Repr

/-- The method of a matrix with an operand: which method of the vectors it calls; `none`: there is no such method
    (the convolution with a matrix is a different operation, see Model/MatrixConv.lean). -/
def BinOp.matrixMethod : OperandKind → BinOp T → Option (BinOp T)
  -- general/elementary.rs:48-78, 121-151; 84-114, 157-187
  | _, .elem op k addr => some (.elem op k addr)
  | _, .elemSmaller op => some (.elemSmaller op)
  -- time_freq.rs:421-431
  | .vector, .convolveSignal K junk k addr st b => some (.convolveSignal K junk k addr st b)
  | .matrix, .convolveSignal .. => none
  -- time_freq.rs:252-263
  | .matrix, .correlate K k addr st b => some (.correlate K k addr st b)
  | .vector, .correlate .. => none

section
variable [Field T] [LinearOrder T] [FloorRing T]

/-- The call of an operation on one vector as `UnOp.run`, together with the operation with its buffer as it is afterwards: the
    next row gets this buffer. Calls which return nothing have the result `Ok(())` here. -/
def UnOp.runNext (v : DspVec T) (s1 s2 : List Nat) : UnOp T → Outcome (DspVec T × UnOp T × VoidResult)
  | .exponential cis a b =>
    (Outcome.ofOption (v.multiplyComplexExponential cis a b)).andThen fun w => .finished (w, .exponential cis a b, .ok ())
  | .interpolateLin buf f d => (Outcome.ofOption (v.interpolateLin buf f d)).andThen fun r => .finished (r.1, .interpolateLin r.2 f d, .ok ())
  | .interpolateHermite buf f d =>
    (Outcome.ofOption (v.interpolateHermite buf f d)).andThen fun r => .finished (r.1, .interpolateHermite r.2 f d, .ok ())
  | .prepareArgument K k addr st buf =>
    (v.prepareArgument K k addr st buf s1).andThen fun r => .finished (r.1, .prepareArgument K k addr st r.2, .ok ())
  | .prepareArgumentPadded K k addr st buf =>
    (v.prepareArgumentPadded K k addr st buf s1).andThen fun r => .finished (r.1, .prepareArgumentPadded K k addr st r.2, .ok ())
  | .convolveReal K junk k addr st buf fn ratio len =>
    (v.convolveReal K junk k addr st buf fn ratio len s1).andThen fun r =>
      .finished (r.1, .convolveReal K junk k addr st r.2 fn ratio len, .ok ())
  | .convolveComplex K junk k addr st buf fn ratio len =>
    (v.convolveComplex K junk k addr st buf fn ratio len s1).andThen fun r =>
      .finished (r.1, .convolveComplex K junk k addr st r.2 fn ratio len, .ok ())
  | .realResponse st f ratio => (v.multiplyRealResponse st f ratio s1).andThen fun w => .finished (w, .realResponse st f ratio, .ok ())
  | .complexResponse st f ratio =>
    (v.multiplyComplexResponse st f ratio s1).andThen fun w => .finished (w, .complexResponse st f ratio, .ok ())
  | .interpft K k addr cis pi st buf N =>
    (v.interpft K k addr cis pi st N buf s1 s2).andThen fun r => .finished (r.1, .interpft K k addr cis pi st r.2 N, .ok ())
  | .interpolate K k addr cis pi st buf function N delay =>
    (v.interpolate K k addr cis pi st function N delay buf s1 s2).andThen fun r =>
      .finished (r.1, .interpolate K k addr cis pi st r.2.1 function N delay, r.2.2)
  | .interpolatei K k addr st buf F m =>
    (v.interpolatei K k addr st F m buf s1 s2).andThen fun r => .finished (r.1, .interpolatei K k addr st r.2.1 F m, r.2.2)
  | .interpolatef k addr st buf fn factor delay L =>
    (v.interpolatef k addr st fn factor delay L buf s1).andThen fun r => .finished (r.1, .interpolatef k addr st r.2 fn factor delay L, .ok ())
  | .windowedFft K st buf win => (v.windowedFft K st win buf s1).andThen fun r => .finished (r.1, .windowedFft K st r.2 win, .ok ())
  | .windowedIfft K k addr st buf win =>
    (v.windowedIfft K k addr st win buf s1 s2).andThen fun r => .finished (r.1, .windowedIfft K k addr st r.2 win, .ok ())
  | .wrap d st => (v.wrap d st s1).andThen fun w => .finished (w, .wrap d st, .ok ())
  | .unwrap d => (Outcome.ofOption (v.unwrap d)).andThen fun w => .finished (w, .unwrap d, .ok ())

/-- The call of an operation with an operand as `BinOp.run`, together with the operation for the next row. -/
def BinOp.runNext (v o : DspVec T) (s1 : List Nat) : BinOp T → Outcome (DspVec T × BinOp T × VoidResult)
  | .elem op k addr => (Outcome.ofOption (op.run k addr v o)).andThen fun r => .finished (r.1, .elem op k addr, r.2)
  | .elemSmaller op => (Outcome.ofOption (op.runSmaller v o)).andThen fun r => .finished (r.1, .elemSmaller op, r.2)
  | .convolveSignal K junk k addr st buf =>
    (v.convolveSignal K junk k addr st o buf s1).andThen fun r => .finished (r.1, .convolveSignal K junk k addr st r.2.1, r.2.2)
  | .correlate K k addr st buf =>
    (v.correlate K k addr st o buf s1).andThen fun r => .finished (r.1, .correlate K k addr st r.2.1, r.2.2)

/-- One row; `i` is its number. -/
def UnOp.onRow (env : Nat → RowEnv2) (op : UnOp T) (v : DspVec T) (i : Nat) : Outcome (DspVec T × UnOp T × VoidResult) :=
  (op.inEnv (env i).toRowEnv).runNext v (env i).sched (env i).sched2

/-- One row; `o.2` is its number and `o.1` its operand. -/
def BinOp.onRow (env : Nat → RowEnv2) (op : BinOp T) (v : DspVec T) (o : DspVec T × Nat) : Outcome (DspVec T × BinOp T × VoidResult) :=
  (op.inEnv (env o.2).toRowEnv).runNext v o.1 (env o.2).sched

/-- The result of a call which is a statement of its own. -/
def ignoreResult {ρ σ ι : Type} (f : σ → ρ → ι → Outcome (ρ × σ × VoidResult)) (s : σ) (r : ρ × ι) : Outcome (ρ × σ) :=
  (f s r.1 r.2).andThen fun q => .finished (q.1, q.2.1)

namespace Mat

/-- A method of a matrix without an operand. -/
def execUn (m : Mat T) (op : UnOp T) (env : Nat → RowEnv2) : Outcome (Mat T × VoidResult) :=
  match op.matrixMethod with
  | (.inPlace, rowOp) =>
    (forRows (ignoreResult (UnOp.onRow env)) rowOp m.rows.zipIdx).andThen fun r => .finished (⟨m.kind, r.1⟩, .ok ())
  | (.transform, rowOp) =>
    (transformRows m.kind (ignoreResult (UnOp.onRow env)) rowOp m.rows.zipIdx).andThen fun r => .finished (⟨m.kind, r.1⟩, .ok ())
  | (.tryEach, rowOp) =>
    (tryRows (UnOp.onRow env) rowOp m.rows.zipIdx).andThen fun r => .finished (⟨m.kind, r.1⟩, r.2.2)

/-- A method of a matrix whose operand is a matrix: `self.rows_mut().iter_mut().zip(other.rows())` ends with the shorter one. A method which
    does not exist is modelled as a panic. -/
def execBin (m o : Mat T) (op : BinOp T) (env : Nat → RowEnv2) : Outcome (Mat T × VoidResult) :=
  match op.matrixMethod .matrix with
  | none => .panic
  | some rowOp =>
    (tryRows (BinOp.onRow env) rowOp (m.rows.zip o.rows.zipIdx)).andThen fun r =>
      .finished (⟨m.kind, r.1 ++ m.rows.drop o.rows.length⟩, r.2.2)

/-- A method of a matrix whose operand is a vector. -/
def execBinVec (m : Mat T) (o : DspVec T) (op : BinOp T) (env : Nat → RowEnv2) : Outcome (Mat T × VoidResult) :=
  match op.matrixMethod .vector with
  | none => .panic
  | some rowOp =>
    (tryRows (BinOp.onRow env) rowOp (m.rows.zipIdx.map fun r => (r.1, o, r.2))).andThen fun r =>
      .finished (⟨m.kind, r.1⟩, r.2.2)

end Mat
end

namespace Mat

/-- The schedules of the workers of one row in a symmetric transform. -/
structure _root_.Dsp.RowEnv3 extends RowEnv2 where
  sched3 : List Nat

/-- `windowed_sfft`, time_freq.rs:99-106. -/
def windowedSfft [Zero T] [Add T] [Sub T] [Mul T] [NatCast T] (K : FftKernel T) (win : WindowFunction T) (env : Nat → RowEnv3)
    (m : Mat T) (b : Buffer T) : Outcome (Mat T × Buffer T × VoidResult) :=
  (transformRowsRes m.kind (fun (b : Buffer T) (r : DspVec T × Nat) => r.1.windowedSfft K (env r.2).st win b (env r.2).sched) b
    m.rows.zipIdx).andThen fun r => .finished (⟨m.kind, r.1⟩, r.2)

/-- `plain_sifft`, time_freq.rs:148-152. -/
def plainSifft [Zero T] [Mul T] [NatCast T] [Neg T] (tiny : T → Bool) (K : FftKernel T) (env : Nat → RowEnv3)
    (m : Mat T) (b : Buffer T) : Outcome (Mat T × Buffer T × VoidResult) :=
  (transformRowsRes m.kind (fun (b : Buffer T) (r : DspVec T × Nat) => r.1.plainSifft tiny K (env r.2).st b (env r.2).sched) b
    m.rows.zipIdx).andThen fun r => .finished (⟨m.kind, r.1⟩, r.2)

/-- `sifft`, time_freq.rs:154-158. -/
def sifft [Field T] (tiny : T → Bool) (K : FftKernel T) (k : RegKind) (env : Nat → RowEnv3)
    (m : Mat T) (b : Buffer T) : Outcome (Mat T × Buffer T × VoidResult) :=
  (transformRowsRes m.kind (fun (b : Buffer T) (r : DspVec T × Nat) =>
      r.1.sifft tiny K k (env r.2).addr (env r.2).st b (env r.2).sched (env r.2).sched2) b
    m.rows.zipIdx).andThen fun r => .finished (⟨m.kind, r.1⟩, r.2)

/-- `windowed_sifft`, time_freq.rs:160-167. -/
def windowedSifft [Field T] (tiny : T → Bool) (K : FftKernel T) (k : RegKind) (win : WindowFunction T) (env : Nat → RowEnv3)
    (m : Mat T) (b : Buffer T) : Outcome (Mat T × Buffer T × VoidResult) :=
  (transformRowsRes m.kind (fun (b : Buffer T) (r : DspVec T × Nat) =>
      r.1.windowedSifft tiny K k (env r.2).addr (env r.2).st win b (env r.2).sched (env r.2).sched2 (env r.2).sched3) b
    m.rows.zipIdx).andThen fun r => .finished (⟨m.kind, r.1⟩, r.2)

end Mat
end Dsp
