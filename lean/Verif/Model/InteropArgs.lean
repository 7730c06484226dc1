import Verif.Model.Stats
import Verif.Model.Reorg
/-
The arguments of the C facade (interop/src/lib.rs and facade32.rs) and their translation to the arguments of the library.
-/
namespace Dsp
variable {T : Type}

/-- A window which is handed to the library: one of the windows of the crate or a function of the C program (with the function and its
    data already applied), window_functions.rs and interop/src/lib.rs:243-275. -/
inductive WindowArg (T : Type)
  | triangular
  | hamming
  | blackmanHarris
  | rectangular
  | foreign (isSymmetric : Bool) (window : Nat → Nat → T)

/-- A real impulse or frequency response which is handed to the library: one of the functions of the crate or a function of the C
    program, conv_types.rs and interop/src/lib.rs:278-325. -/
inductive ResponseArg (T : Type)
  | sinc
  | raisedCosine (rolloff : T)
  | foreign (isSymmetric : Bool) (f : T → T)

/-- A complex impulse or frequency response which is handed to the library: a function of the C program, interop/src/lib.rs:328-377. -/
structure ComplexResponseArg (T : Type) where
  isSymmetric : Bool
  f : T → Cx T

/-- `translate_to_window_function`, interop/src/lib.rs:149-160. -/
def translateToWindowFunction (value : Int) : WindowArg T :=
  match value with
  | 0 => .triangular
  | 1 => .hamming
  | 2 => .blackmanHarris
  | 3 => .rectangular
  | _ => .rectangular

/-- `translate_to_real_convolution_function` and `translate_to_real_frequency_response`, interop/src/lib.rs:162-188. The functions of
    the crate implement both traits. -/
def translateToRealFunction (value : Int) (rolloff : T) : ResponseArg T :=
  if value = 0 then .sinc else .raisedCosine rolloff

/-- `translate_to_padding_option`, interop/src/lib.rs:190-196. -/
def translateToPaddingOption (value : Int) : PaddingOption :=
  match value with
  | 0 => .end
  | 1 => .surround
  | _ => .center

/-- `ForeignWindowFunction`, interop/src/lib.rs:243-275: every call passes the data pointer, the index and the points. -/
def foreignWindow (window : Nat → Nat → Nat → T) (data : Nat) (isSymmetric : Bool) : WindowArg T :=
  .foreign isSymmetric fun idx points => window data idx points

/-- `ForeignRealConvolutionFunction`, interop/src/lib.rs:278-325. -/
def foreignResponse (f : Nat → T → T) (data : Nat) (isSymmetric : Bool) : ResponseArg T :=
  .foreign isSymmetric fun x => f data x

/-- `ForeignComplexConvolutionFunction`, interop/src/lib.rs:328-377. -/
def foreignComplexResponse (f : Nat → T → Cx T) (data : Nat) (isSymmetric : Bool) : ComplexResponseArg T :=
  ⟨isSymmetric, fun x => f data x⟩

/-- `x as u32` for an `i32`, facade32.rs:345, 1415, 1433. -/
def asU32 (x : Int) : Nat := (x % 2 ^ 32).toNat

/-- The arguments of the exported functions which are not vectors. Pointers to data of the C program are numbers, pointers to functions
    are functions. -/
inductive CVal (T : Type)
  | i32 (x : Int)
  | u32 (x : Nat)
  | usize (x : Nat)
  | real (x : T)
  | bool (x : Bool)
  | ptr (x : Nat)
  | mapReal (f : T → Nat → T)
  | mapComplex (f : Cx T → Nat → Cx T)
  | window (f : Nat → Nat → Nat → T)
  | response (f : Nat → T → T)
  | responseComplex (f : Nat → T → Cx T)

/-- The arguments of the methods of the library which are not vectors or buffers. -/
inductive LibVal (T : Type)
  | nat (x : Nat)
  | real (x : T)
  | complex (x : Cx T)
  | padding (o : PaddingOption)
  | window (w : WindowArg T)
  | response (f : ResponseArg T)
  | responseComplex (f : ComplexResponseArg T)
  | mapReal (f : T → Nat → T)
  | mapComplex (f : Cx T → Nat → Cx T)

/-- How a vector is passed to an exported function: `Box<VecBuf>` (the function takes it over), `&VecBuf`, `&mut VecBuf`, or `&VecBox`, a
    pointer to a variable which holds the handle. -/
inductive Passed | box | ref | refMut | refBox
deriving DecidableEq, Repr

/-- The vectors which an exported function takes after its first one: as many as it has parameters for, or an array of handles
    (`*const Box<VecBuf>` or `*mut Box<VecBuf>`) and its length. -/
inductive OperandSig
  | params (l : List Passed)
  | array
  | arrayMut
deriving DecidableEq, Repr

end Dsp
