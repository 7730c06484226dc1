import Verif.Model.InteropTable
import Verif.Model.Fft
/-
The C facade: interop/src/lib.rs and interop/src/facade32.rs (facade64.rs is the same with another number type). First what the exported
functions compute, then the memory: a handle is the address of a vector on the heap, an exported function takes a handle over or borrows it.

A call of a function with the wrong kind of pointers, with a handle whose vector does not exist (any more) or with handles which are equal
although the signature promises to the compiler that they are not is undefined behaviour.
-/
namespace Dsp
variable {T : Type}

/-! ### Vectors and results -/

/-- `InteropVec`, interop/src/lib.rs:16-22. `settings` are the `multicore_settings` of the vector. -/
structure InteropVec (T : Type) where
  buffer : Buffer T
  vec : DspVec T
  settings : MultiCoreSettings

/-- The values which are given to the C program. For the 32 bit facade the results of the `_prec` functions are 64 bit numbers, the model
    uses one number type for both. `nan` is the sampling distance of an invalid vector, a pointer is a number. -/
inductive Value (T : Type)
  | real (x : T)
  | complex (x : Cx T)
  | nan
  | int (x : Int)
  | usize (x : Nat)
  | ptr (x : Nat)
  | statistics (s : Statistics T)
  | statisticsComplex (s : Statistics (Cx T))
  | numbers (l : List T)
  | complexNumbers (l : List (Cx T))

/-- What a function gives back to the C program apart from handles: the `result_code` (or the returned code) and values. -/
structure COut (T : Type) where
  code : Option Int
  values : List (Value T)

/-- `translate_error`, interop/src/lib.rs:125-142. -/
def translateError : ErrorReason → Int
  | .inputMustHaveTheSameSize => 1
  | .inputMetaDataMustAgree => 2
  | .inputMustBeComplex => 3
  | .inputMustBeReal => 4
  | .inputMustBeInTimeDomain => 5
  | .inputMustBeInFrequencyDomain => 6
  | .invalidArgumentLength => 7
  | .inputMustBeConjSymmetric => 8
  | .inputMustHaveAnOddLength => 9
  | .argumentFunctionMustBeSymmetric => 10
  | .invalidNumberOfArgumentsForCombinedOp => 11
  | .inputMustNotBeEmpty => 12
  | .inputMustHaveAnEvenLength => 13
  | .typeCanNotResize => 14

/-- `get_error_marker`, interop/src/lib.rs:145-151. -/
def getErrorMarker (iv : InteropVec T) : Int := if iv.vec.isErroneous then -1 else 0

/-- `convert_void`, interop/src/lib.rs:100-105. -/
def convertVoid : VoidResult → Int
  | .ok () => 9
  | .error e => translateError e

/-- The code which `convert_vec` and `trans_vec` report, interop/src/lib.rs:33-46 and 57-75. -/
def resultCode (iv : InteropVec T) : VoidResult → Int
  | .ok () => getErrorMarker iv
  | .error e => translateError e

/-! ### The library -/

/-- The functions which write to other vectors, facade32.rs:563-571, 652-669, 768-785. -/
inductive FillFun | getMagnitude | getMagnitudeSquared | getReal | getImag | getPhase | getRealImag | getMagPhase
deriving DecidableEq, Repr

/-- The functions which go through `convert_scalar`, facade32.rs:193-219, 254-289, 606-649. -/
inductive ScalarFun (T : Type)
  | realDotProduct | complexDotProduct | realDotProductPrec | complexDotProductPrec
  | mapAggregateReal (map : T → Nat → Nat) (aggregate : Nat → Nat → Nat)
  | mapAggregateComplex (map : Cx T → Nat → Nat) (aggregate : Nat → Nat → Nat)

/-- The functions which give back a value of the library as it is, facade32.rs:222-252, 291-321. -/
inductive ValueFun
  | realStatistics | complexStatistics | realSum | realSumSq | complexSum | complexSumSq
  | realStatisticsPrec | complexStatisticsPrec | realSumPrec | realSumSqPrec | complexSumPrec | complexSumSqPrec
deriving DecidableEq, Repr

/-- The functions which write to an array of statistics, facade32.rs:847-931. -/
inductive SplitFun | real | complex | realPrec | complexPrec
deriving DecidableEq, Repr

/-- The library behind the facade. The theorems about the facade hold for every library. Operations get the settings of the vector, the vector, its buffer and the other vectors. -/
structure Lib (T : Type) where
  method : LibMethod T → MultiCoreSettings → DspVec T → Buffer T → List (DspVec T) → Outcome (DspVec T × Buffer T × VoidResult)
  fill : FillFun → MultiCoreSettings → DspVec T → List (DspVec T) → Outcome (List (DspVec T))
  split : DspVec T → List (DspVec T) → Outcome (List (DspVec T) × VoidResult)
  scalar : ScalarFun T → MultiCoreSettings → DspVec T → List (DspVec T) → Outcome (Except ErrorReason (Value T))
  value : ValueFun → MultiCoreSettings → DspVec T → Outcome (Value T)
  statistics : SplitFun → MultiCoreSettings → DspVec T → Nat → Outcome (Except ErrorReason (List (Value T)))

/-! ### The exported functions -/

/-- The exported functions which work on a vector, facade32.rs. `data` of `overwriteData` is the array which is passed with its length,
    `data` of `statisticsSplit` is the array of the C program before the call. -/
inductive CFun (T : Type)
  | vec (f : VecFun T)
  | overwriteData (data : List T)
  | clone
  | fill (f : FillFun)
  | splitInto
  | scalar (f : ScalarFun T)
  | value (f : ValueFun)
  | statisticsSplit (f : SplitFun) (data : List (Value T))
  | getValue (index : Nat)
  | setValue (index : Nat) (value : T)
  | isComplex
  | getDomain
  | getLen
  | setLen (len : Nat)
  | getPoints
  | getDelta
  | data
  | complexData
  | getAllocatedLen

/-- What a function leaves behind: the vector which it was given first, the other vectors, and what it returns. -/
structure Reply (T : Type) where
  self : InteropVec T
  operands : List (InteropVec T)
  out : COut T

/-- The `default` of `convert_scalar`, facade32.rs:201, 217, 269, 287, 623, 646. -/
def ScalarFun.default [Zero T] : ScalarFun T → Value T
  | .realDotProduct => .real 0
  | .realDotProductPrec => .real 0
  | .complexDotProduct => .complex 0
  | .complexDotProductPrec => .complex 0
  | .mapAggregateReal _ _ => .ptr 0
  | .mapAggregateComplex _ _ => .ptr 0

/-- The vectors of the operands exchanged, everything else as it was. -/
def putVecs (ops : List (InteropVec T)) (vs : List (DspVec T)) : List (InteropVec T) :=
  List.zipWith (fun o v => { o with vec := v }) ops vs

/-- `convert_vec` and `trans_vec`, interop/src/lib.rs:28-76: the buffer and the vector are given to the operation, its result becomes
    a code; the vector and the buffer are given back in every case. -/
def convertVec (lib : Lib T) (m : LibMethod T) (iv : InteropVec T) (ops : List (InteropVec T)) : Outcome (Reply T) :=
  (lib.method m iv.settings iv.vec iv.buffer (ops.map (·.vec))).andThen fun r =>
    let iv' : InteropVec T := ⟨r.2.1, r.1, iv.settings⟩
    .finished ⟨iv', ops, ⟨some (resultCode iv' r.2.2), []⟩⟩

/-- `convert_scalar`, interop/src/lib.rs:78-93. -/
def convertScalar (iv : InteropVec T) (ops : List (InteropVec T)) (default : Value T) : Except ErrorReason (Value T) → Reply T
  | .ok x => ⟨iv, ops, ⟨some (getErrorMarker iv), [x]⟩⟩
  | .error e => ⟨iv, ops, ⟨some (translateError e), [default]⟩⟩

/-- `overwrite_data32`, facade32.rs:825-845. -/
def overwriteVec (iv : InteropVec T) (data : List T) : Outcome (Reply T) :=
  if data.length < iv.vec.len then
    .ofOption do
      let c ← copyFromSlice iv.vec.data.cells 0 data.length data
      some ⟨{ iv with vec := iv.vec.withCells c }, [], ⟨some 0, []⟩⟩
  else .finished ⟨iv, [], ⟨some (translateError .invalidArgumentLength), []⟩⟩

/-- The functions `.._statistics_split32`, facade32.rs:847-931: the statistics are written to the array, `data[i]` panics if the array
    is too short for them. -/
def writeStatistics (iv : InteropVec T) (data : List (Value T)) : Except ErrorReason (List (Value T)) → Outcome (Reply T)
  | .ok s =>
    if s.length ≤ data.length then .finished ⟨iv, [], ⟨some 0, splice data 0 s⟩⟩ else .panic
  | .error e => .finished ⟨iv, [], ⟨some (translateError e), data⟩⟩

/-- The body of an exported function: what it computes from the vectors, facade32.rs. Lines for the functions which are not a case of
    `VecFun`: `overwrite_data32` 825-845, `clone32` 686-692 (a new buffer), `get_..32` 563-571, 652-669, 768-785 (every result is
    wrapped in `Ok`), `split_into32` 803-811, scalars 193-321 and 606-649, `.._statistics_split32` 847-931, `get_value32` 105-107,
    `set_value32` 110-112, `is_complex32` 115-121, `get_domain32` 130-135, `get_len32` 138-140, `set_len32` 143-145 (the result
    of `resize` is ignored), `get_points32` 148-150, `get_delta32` 153-155, `data32` 158-160 and `complex_data32` 163-165 (the
    numbers behind the pointer at the time of the call), `get_allocated_len32` 168-170. -/
def CFun.call [Zero T] [One T] [Add T] [Sub T] [Mul T] [Div T] (lib : Lib T) (f : CFun T) (iv : InteropVec T)
    (ops : List (InteropVec T)) : Outcome (Reply T) :=
  match f with
  | .vec f => convertVec lib f.method iv ops
  | .overwriteData d => overwriteVec iv d
  | .clone => .finished ⟨{ iv with buffer := .single [] }, ops, ⟨none, []⟩⟩
  | .fill f => (lib.fill f iv.settings iv.vec (ops.map (·.vec))).andThen fun r =>
      .finished ⟨iv, putVecs ops r, ⟨some (convertVoid (.ok ())), []⟩⟩
  | .splitInto => (lib.split iv.vec (ops.map (·.vec))).andThen fun r =>
      .finished ⟨iv, putVecs ops r.1, ⟨some (convertVoid r.2), []⟩⟩
  | .scalar f => (lib.scalar f iv.settings iv.vec (ops.map (·.vec))).andThen fun r =>
      .finished (convertScalar iv ops f.default r)
  | .value f => (lib.value f iv.settings iv.vec).andThen fun x => .finished ⟨iv, ops, ⟨none, [x]⟩⟩
  | .statisticsSplit f d => (lib.statistics f iv.settings iv.vec d.length).andThen (writeStatistics iv d)
  | .getValue i => .ofOption do
      let c ← iv.vec.content
      let x ← get c i
      some ⟨iv, ops, ⟨none, [.real x]⟩⟩
  | .setValue i x => .ofOption do
      let c ← iv.vec.content
      let c ← put c i x
      some ⟨{ iv with vec := iv.vec.withCells (splice iv.vec.data.cells 0 c) }, ops, ⟨none, []⟩⟩
  | .isComplex => .finished ⟨iv, ops, ⟨none, [.int (if iv.vec.isComplex then 1 else 0)]⟩⟩
  | .getDomain => .finished ⟨iv, ops, ⟨none, [.int (match iv.vec.dom with | .time => 0 | .frequency => 1)]⟩⟩
  | .getLen => .finished ⟨iv, ops, ⟨none, [.usize iv.vec.len]⟩⟩
  | .setLen n => .finished ⟨{ iv with vec := (iv.vec.resize n).1 }, ops, ⟨none, []⟩⟩
  | .getPoints => .finished ⟨iv, ops, ⟨none, [.usize iv.vec.points]⟩⟩
  | .getDelta => .finished ⟨iv, ops, ⟨none, [match iv.vec.delta with | some x => .real x | none => .nan]⟩⟩
  | .data => .ofOption do
      let c ← iv.vec.content
      some ⟨iv, ops, ⟨none, [.numbers c]⟩⟩
  | .complexData => .ofOption do
      let c ← iv.vec.content
      let p ← toComplex? c
      some ⟨iv, ops, ⟨none, [.complexNumbers p]⟩⟩
  | .getAllocatedLen => .finished ⟨iv, ops, ⟨none, [.usize iv.vec.allocLen]⟩⟩

/-! ### Creation -/

/-- The last parameters of the three functions which create vectors, facade32.rs:22, 44, 70. -/
inductive Performance
  | standard
  | cores (coreLimit : Nat)
  | detailed (coreLimit medDual medMulti largeDual largeMulti : Nat)

/-- The settings which a new vector gets, facade32.rs:33-40, 60-64 and 90-98; `cal` is the global calibration. -/
def Performance.settings (cal : Calibration) : Performance → MultiCoreSettings
  | .standard => .singleThreaded cal
  | .cores n => .new cal n
  | .detailed n a b c d => .withThresholds n a b c d

/-- `new32`, `new_with_performance_options32` and `new_with_detailed_performance_options32`, facade32.rs:22-100. -/
def newVector [One T] (cal : Calibration) (isComplex domain : Int) (initValue : T) (length : Nat) (delta : T) (p : Performance) : InteropVec T :=
  ⟨.single [], { toGenDspVec (.vec (List.replicate length initValue) 0) (isComplex != 0) (if domain = 0 then .time else .frequency) with
    delta := some delta }, p.settings cal⟩

/-! ### Signatures -/

/-- How the first vector is passed, facade32.rs (lines as for `CFun.call` and `VecFun`). -/
def CFun.takes : CFun T → Passed
  | .vec _ => .box
  | .overwriteData _ => .box
  | .clone => .box
  | .fill _ => .box
  | .setValue _ _ => .refMut
  | .setLen _ => .refMut
  | _ => .ref

/-- The parameters of the functions which write to other vectors, facade32.rs:563, 568, 652, 657, 667, 768-772, 777-781. -/
def FillFun.operands : FillFun → OperandSig
  | .getRealImag => .params [.refMut, .refMut]
  | .getMagPhase => .params [.refMut, .refMut]
  | _ => .params [.refMut]

/-- The parameters of the functions which go through `convert_scalar`, facade32.rs:193-196, 204-207, 254-257, 273-276, 606, 629. -/
def ScalarFun.operands : ScalarFun T → OperandSig
  | .mapAggregateReal _ _ => .params []
  | .mapAggregateComplex _ _ => .params []
  | _ => .params [.ref]

/-- The other vectors, facade32.rs (lines as for `CFun.call` and `VecFun`). -/
def CFun.operands : CFun T → OperandSig
  | .vec f => f.operands
  | .fill f => f.operands
  | .splitInto => .arrayMut
  | .scalar f => f.operands
  | _ => .params []

/-- What a function gives back: a handle to a new box (`Box::new` in `convert_vec` and `trans_vec`, lib.rs:35, 43, 59, 70, and in `clone32`,
    facade32.rs:687), the handle which it was given (facade32.rs:835, 842), or no handle. -/
inductive Given | newBox | sameBox | nothing
deriving DecidableEq, Repr

/-- What a function gives back, facade32.rs (lines as for `CFun.call` and `VecFun`). -/
def CFun.gives : CFun T → Given
  | .vec _ => .newBox
  | .clone => .newBox
  | .overwriteData _ => .sameBox
  | _ => .nothing

/-- Whether a function may change the vectors which it is given as further arguments. -/
def OperandSig.mutable : OperandSig → Bool
  | .params l => l.any (· == .refMut)
  | .array => false
  | .arrayMut => true

/-- Whether the vectors which are given as further arguments must differ from each other: they are passed as `&mut` or as boxes. -/
def OperandSig.exclusive : OperandSig → Bool
  | .params l => l.any (· == .refMut)
  | .array => true
  | .arrayMut => true

/-! ### Memory and C programs -/

/-- The heap: addresses with the vectors which are there. Other memory than the boxes of the vectors is not modelled. -/
abbrev CHeap (T : Type) := List (Nat × InteropVec T)

namespace CHeap
/-- The vector at an address. -/
def find (h : CHeap T) (a : Nat) : Option (InteropVec T) := h.lookup a
/-- The memory without the vector at an address (`drop` of a box). -/
def free (h : CHeap T) (a : Nat) : CHeap T := h.filter fun p => p.1 != a
/-- The vector at an address exchanged, or a new one. -/
def write (h : CHeap T) (a : Nat) (iv : InteropVec T) : CHeap T := (a, iv) :: h.free a
/-- Several vectors exchanged. -/
def writeAll (h : CHeap T) : List (Nat × InteropVec T) → CHeap T
  | [] => h
  | p :: l => (h.write p.1 p.2).writeAll l
end CHeap

/-- An argument of a C program for a vector: the handle in a variable or the address of the variable. -/
inductive CArg
  | handle (x : Nat)
  | addressOf (x : Nat)
deriving DecidableEq, Repr

/-- The variable of an argument. -/
def CArg.var : CArg → Nat
  | .handle x => x
  | .addressOf x => x

/-- Whether an argument has the form which a parameter needs. -/
def CArg.fits : Passed → CArg → Bool
  | .refBox, .addressOf _ => true
  | .ref, .handle _ => true
  | .refMut, .handle _ => true
  | .box, .handle _ => true
  | _, _ => false

/-- Whether arguments have the form which the parameters need; an array contains handles. -/
def OperandSig.fits : OperandSig → List CArg → Bool
  | .params l, args => l.length == args.length && (l.zip args).all fun p => p.2.fits p.1
  | .array, args => args.all fun a => a.fits .ref
  | .arrayMut, args => args.all fun a => a.fits .refMut

/-- Statements of a C program; variables are numbers. `create x ..`: `x = new..32(..)`, `delete x`: `delete_vector32(x)`,
    `call y x f args`: `y = f(x, args, ..)` (`y` is not changed if the function does not give back a handle). -/
inductive CStmt (T : Type)
  | create (x : Nat) (isComplex domain : Int) (initValue : T) (length : Nat) (delta : T) (p : Performance)
  | delete (x : Nat)
  | call (y x : Nat) (f : CFun T) (args : List CArg)

/-- The state of a C program: the heap and the handles in its variables. -/
structure CState (T : Type) where
  heap : CHeap T
  vars : Nat → Option Nat

/-- Assignment to a variable. -/
def assign {α : Type} (s : Nat → Option α) (x : Nat) (a : Option α) : Nat → Option α := fun y => if y = x then a else s y

/-- An allocator chooses the address of a new box. -/
abbrev Allocator (T : Type) := CHeap T → Nat

/-- Whether the handles `a` (first vector) and `as` obey what the signature promises. -/
def CFun.noAlias (f : CFun T) (a : Nat) (as : List Nat) : Bool :=
  (!(f.takes != .ref || f.operands.mutable) || !(as.contains a)) && (!f.operands.exclusive || decide as.Nodup)

/-- The memory and the variables after a function has returned. New boxes are allocated before the old one is freed: the old box is a
    parameter and is dropped at the end of the function. -/
def CState.after (alloc : Allocator T) (σ : CState T) (f : CFun T) (y a : Nat) (as : List Nat) (r : Reply T) : CState T :=
  let h := if f.operands.mutable then σ.heap.writeAll (as.zip r.operands) else σ.heap
  match f.gives with
  | .newBox => ⟨(h.write (alloc h) r.self).free a, assign σ.vars y (some (alloc h))⟩
  | .sameBox => ⟨h.write a r.self, assign σ.vars y (some a)⟩
  | .nothing =>
    match f.takes with
    | .box => ⟨h.free a, σ.vars⟩
    | .refMut => ⟨h.write a r.self, σ.vars⟩
    | _ => ⟨h, σ.vars⟩

/-- One statement on the real memory; `none` is undefined behaviour, a panic terminates the program. -/
def CState.step [Zero T] [One T] [Add T] [Sub T] [Mul T] [Div T] (lib : Lib T) (cal : Calibration) (alloc : Allocator T) (σ : CState T) :
    CStmt T → Option (Outcome (CState T × COut T))
  | .create x c d v n δ p =>
    let a := alloc σ.heap
    some (.finished (⟨σ.heap.write a (newVector cal c d v n δ p), assign σ.vars x (some a)⟩, ⟨none, []⟩))
  | .delete x => do
    let a ← σ.vars x
    let _ ← σ.heap.find a
    some (.finished (⟨σ.heap.free a, σ.vars⟩, ⟨none, []⟩))
  | .call y x f args =>
    if f.operands.fits args = false then none
    else do
      let a ← σ.vars x
      let iv ← σ.heap.find a
      let as ← args.mapM fun c => σ.vars c.var
      let ops ← as.mapM σ.heap.find
      if f.noAlias a as then
        some ((f.call lib iv ops).andThen fun r => .finished (σ.after alloc f y a as r, r.out))
      else none

/-- A program on the real memory, with everything which it is given back. -/
def CState.run [Zero T] [One T] [Add T] [Sub T] [Mul T] [Div T] (lib : Lib T) (cal : Calibration) (alloc : Allocator T) :
    CState T → List (CStmt T) → Option (Outcome (CState T × List (COut T)))
  | σ, [] => some (.finished (σ, []))
  | σ, s :: rest =>
    match σ.step lib cal alloc s with
    | none => none
    | some .panic => some .panic
    | some .running => some .running
    | some (.finished (σ', o)) =>
      (CState.run lib cal alloc σ' rest).map fun r => r.andThen fun q => .finished (q.1, o :: q.2)

end Dsp
