import Verif.Model.Interop
/-
Specification of the C facade: the documented codes, what the names and the arguments of the exported functions promise, and the rules for
handles. The rules for handles are stated with a program whose variables hold vectors instead of handles.
-/
namespace Dsp
variable {T : Type}

/-! ### Codes -/

/-- The error codes in the documentation, interop/src/lib.rs:107-124. -/
def documentedErrors : List (Int × ErrorReason) :=
  [(1, .inputMustHaveTheSameSize), (2, .inputMetaDataMustAgree), (3, .inputMustBeComplex), (4, .inputMustBeReal),
   (5, .inputMustBeInTimeDomain), (6, .inputMustBeInFrequencyDomain), (7, .invalidArgumentLength), (8, .inputMustBeConjSymmetric),
   (9, .inputMustHaveAnOddLength), (10, .argumentFunctionMustBeSymmetric), (11, .invalidNumberOfArgumentsForCombinedOp),
   (12, .inputMustNotBeEmpty)]

/-- Specification: the code tells the C program how an operation ended which left the vector `w`: 0 for success, -1 if the operation is
    not valid for the type of vector (the library marks the vector for that), otherwise the documented number of the error. -/
def Reports (code : Int) (w : DspVec T) : VoidResult → Prop
  | .ok () => (w.isErroneous = false ∧ code = 0) ∨ (w.isErroneous = true ∧ code = -1)
  | .error e => (code, e) ∈ documentedErrors

/-! ### Names and arguments -/

/-- Words in the names of exported functions which tell apart what is one overloaded method in the library. -/
def qualifiers : List String := ["real", "complex", "vector", "custom"]

/-- Specification: an exported name stands for a method: up to qualifiers it is the name of the method, whose name may end with `_b` (the
    version with a buffer). -/
inductive NameOf : List String → List String → Prop
  | done : NameOf [] []
  | buffered : NameOf [] ["b"]
  | same (w : String) {xs ys : List String} : NameOf xs ys → NameOf (w :: xs) (w :: ys)
  | qualifier (w : String) {xs ys : List String} : w ∈ qualifiers → NameOf xs ys → NameOf (w :: xs) ys

/-- The documented paddings, facade32.rs:323-328. -/
def documentedPaddings : List (Int × PaddingOption) := [(0, .end), (1, .surround), (2, .center)]

/-- The documented windows, facade32.rs:970-978; every other number is the rectangular window. -/
def documentedWindow (code : Int) : WindowArg T :=
  if code = 0 then .triangular else if code = 1 then .hamming else if code = 2 then .blackmanHarris else .rectangular

/-- Specification: the arguments of a C call and the arguments which they stand for, in the same order. -/
inductive ArgsMatch : List (CVal T) → List (LibVal T) → Prop
  | nil : ArgsMatch [] []
  | usize (n : Nat) {xs ys} : ArgsMatch xs ys → ArgsMatch (.usize n :: xs) (.nat n :: ys)
  | u32 (n : Nat) {xs ys} : ArgsMatch xs ys → ArgsMatch (.u32 n :: xs) (.nat n :: ys)
  | factor (n : Nat) {xs ys} : ArgsMatch xs ys → ArgsMatch (.i32 (n : Int) :: xs) (.nat n :: ys)
  | real (x : T) {xs ys} : ArgsMatch xs ys → ArgsMatch (.real x :: xs) (.real x :: ys)
  | complex (re im : T) {xs ys} : ArgsMatch xs ys → ArgsMatch (.real re :: .real im :: xs) (.complex ⟨re, im⟩ :: ys)
  | padding (c : Int) (o : PaddingOption) {xs ys} : (c, o) ∈ documentedPaddings → ArgsMatch xs ys →
      ArgsMatch (.i32 c :: xs) (.padding o :: ys)
  | window (c : Int) {xs ys} : ArgsMatch xs ys → ArgsMatch (.i32 c :: xs) (.window (documentedWindow c) :: ys)
  | sinc (rolloff : T) {xs ys} : ArgsMatch xs ys → ArgsMatch (.i32 0 :: .real rolloff :: xs) (.response .sinc :: ys)
  | raisedCosine (rolloff : T) {xs ys} : ArgsMatch xs ys →
      ArgsMatch (.i32 1 :: .real rolloff :: xs) (.response (.raisedCosine rolloff) :: ys)
  | foreignWindow (f : Nat → Nat → Nat → T) (data : Nat) (sym : Bool) {xs ys} : ArgsMatch xs ys →
      ArgsMatch (.window f :: .ptr data :: .bool sym :: xs) (.window (.foreign sym (f data)) :: ys)
  | foreignResponse (f : Nat → T → T) (data : Nat) (sym : Bool) {xs ys} : ArgsMatch xs ys →
      ArgsMatch (.response f :: .ptr data :: .bool sym :: xs) (.response (.foreign sym (f data)) :: ys)
  | foreignComplex (f : Nat → T → Cx T) (data : Nat) (sym : Bool) {xs ys} : ArgsMatch xs ys →
      ArgsMatch (.responseComplex f :: .ptr data :: .bool sym :: xs) (.responseComplex ⟨sym, f data⟩ :: ys)
  | mapReal (f : T → Nat → T) {xs ys} : ArgsMatch xs ys → ArgsMatch (.mapReal f :: xs) (.mapReal f :: ys)
  | mapComplex (f : Cx T → Nat → Cx T) {xs ys} : ArgsMatch xs ys → ArgsMatch (.mapComplex f :: xs) (.mapComplex f :: ys)

/-- The calls whose arguments have a documented meaning: a padding code is listed, a response code is listed, a factor is a 32 bit number
    which is not negative. -/
def VecFun.Documented : VecFun T → Prop
  | .zeroPad _ o => 0 ≤ o ∧ o ≤ 2
  | .zeroInterleave f => 0 ≤ f ∧ f < 2 ^ 31
  | .interpolateiCustom _ _ _ f => 0 ≤ f ∧ f < 2 ^ 31
  | .interpolatei c _ f => (c = 0 ∨ c = 1) ∧ 0 ≤ f ∧ f < 2 ^ 31
  | .convolve c _ _ _ => c = 0 ∨ c = 1
  | .multiplyFrequencyResponse c _ _ => c = 0 ∨ c = 1
  | .interpolatef c _ _ _ _ => c = 0 ∨ c = 1
  | .interpolate c _ _ _ => c = 0 ∨ c = 1
  | _ => True

/-- The zero which a scalar function gives back with an error: of the kind of number which it computes; no address for a pointer. -/
def IsZeroOf [Zero T] : ScalarFun T → Value T → Prop
  | .realDotProduct, x | .realDotProductPrec, x => x = .real 0
  | .complexDotProduct, x | .complexDotProductPrec, x => x = .complex ⟨0, 0⟩
  | .mapAggregateReal _ _, x | .mapAggregateComplex _ _, x => x = .ptr 0

/-- How many targets the functions have which write to other vectors. -/
def FillFun.targets : FillFun → Nat
  | .getMagnitude | .getMagnitudeSquared | .getReal | .getImag | .getPhase => 1
  | .getRealImag | .getMagPhase => 2

/-- The functions which only read: sums, products, statistics and queries. -/
def CFun.Reads : CFun T → Prop
  | .scalar _ | .value _ | .statisticsSplit _ _ | .getValue _ | .isComplex | .getDomain | .getLen | .getPoints | .getDelta
  | .data | .complexData | .getAllocatedLen => True
  | .vec _ | .overwriteData _ | .clone | .fill _ | .splitInto | .setValue _ _ | .setLen _ => False

/-- How many other vectors a method of the library takes; `merge` takes any number. -/
def LibMethod.TakesVectors : LibMethod T → Nat → Prop
  | .add, n | .sub, n | .mul, n | .div, n => n = 1
  | .addSmaller, n | .subSmaller, n | .mulSmaller, n | .divSmaller, n => n = 1
  | .correlate, n | .convolveSignal, n => n = 1
  | .setRealImag, n | .setMagPhase, n => n = 2
  | .merge, _ => True
  | _, n => n = 0

/-! ### Handles -/

/-- A program whose variables hold vectors: the vector in every variable which holds one. -/
abbrev Store (T : Type) := Nat → Option (InteropVec T)

/-- Variables set one after the other. -/
def Store.writeAll (s : Store T) : List (Nat × InteropVec T) → Store T
  | [] => s
  | p :: l => Store.writeAll (assign s p.1 (some p.2)) l

/-- Specification: a call with vectors instead of handles. A function which takes its first vector over empties the variable, one which
    gives a vector back fills the variable `y`. -/
def Store.after (s : Store T) (f : CFun T) (y x : Nat) (xs : List Nat) (r : Reply T) : Store T :=
  let s' := if f.operands.mutable then s.writeAll (xs.zip r.operands) else s
  match f.gives, f.takes with
  | .nothing, .box => assign s' x none
  | .nothing, .refMut => assign s' x (some r.self)
  | .nothing, _ => s'
  | _, _ => assign (assign s' x none) y (some r.self)

/-- Specification: a statement with vectors instead of handles. It only matters for statements which obey the rules (`Legal`). -/
def Store.step [Zero T] [One T] [Add T] [Sub T] [Mul T] [Div T] (lib : Lib T) (cal : Calibration) (s : Store T) :
    CStmt T → Outcome (Store T × COut T)
  | .create x c d v n δ p => .finished (assign s x (some (newVector cal c d v n δ p)), ⟨none, []⟩)
  | .delete x => .finished (assign s x none, ⟨none, []⟩)
  | .call y x f args =>
    match s x, (args.map CArg.var).mapM s with
    | some iv, some ops => (f.call lib iv ops).andThen fun r => .finished (s.after f y x (args.map CArg.var) r, r.out)
    | _, _ => .panic

/-- Specification: a program with vectors instead of handles. -/
def Store.run [Zero T] [One T] [Add T] [Sub T] [Mul T] [Div T] (lib : Lib T) (cal : Calibration) :
    Store T → List (CStmt T) → Outcome (Store T × List (COut T))
  | s, [] => .finished (s, [])
  | s, st :: rest => (s.step lib cal st).andThen fun q => (Store.run lib cal q.1 rest).andThen fun p => .finished (p.1, q.2 :: p.2)

/-- The rules for handles. A variable must be empty when a new vector is stored in it (otherwise a vector gets lost), the vectors which are
    passed must exist, and a vector which a function takes over or changes must not be passed twice. -/
def Legal (s : Store T) : CStmt T → Prop
  | .create x _ _ _ _ _ _ => s x = none
  | .delete x => s x ≠ none
  | .call y x f args =>
    f.operands.fits args = true ∧ s x ≠ none ∧ (∀ c ∈ args, s c.var ≠ none) ∧
    (f.takes ≠ .ref ∨ f.operands.mutable = true → x ∉ args.map CArg.var) ∧
    (f.operands.exclusive = true → (args.map CArg.var).Nodup) ∧
    (f.gives ≠ .nothing → y = x ∨ s y = none)

/-- A program obeys the rules for handles at every statement which it reaches. -/
def Follows [Zero T] [One T] [Add T] [Sub T] [Mul T] [Div T] (lib : Lib T) (cal : Calibration) : Store T → List (CStmt T) → Prop
  | _, [] => True
  | s, st :: rest => Legal s st ∧ ∀ s' o, s.step lib cal st = .finished (s', o) → Follows lib cal s' rest

/-- An allocator never gives out memory which is in use. -/
def Allocator.Sound (alloc : Allocator T) : Prop := ∀ h : CHeap T, h.find (alloc h) = none

/-- The memory represents the variables: every full variable holds the address of its vector, no two of them the same address, and there
    are no other vectors in memory. -/
structure Represents (s : Store T) (σ : CState T) : Prop where
  held : ∀ x iv, s x = some iv → ∃ a, σ.vars x = some a ∧ σ.heap.find a = some iv
  distinct : ∀ x y a, s x ≠ none → s y ≠ none → σ.vars x = some a → σ.vars y = some a → x = y
  owned : ∀ a iv, σ.heap.find a = some iv → ∃ x, s x ≠ none ∧ σ.vars x = some a

end Dsp
