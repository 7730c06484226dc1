/-
Model of Rust slices and of the small memory helpers of the crate.

Conventions used by the whole model
* A slice `&[T]` / `&mut [T]` is a `List T`; a function which mutates a slice returns the new list.
* `Option α` as the result of a modelled function: `none` means *the Rust code panics*
  (index out of bounds, failed `assert!`, `unwrap` on `None`, arithmetic underflow, ...).
* `usize` is modelled by `Nat` (overflow of `usize` is not modelled, underflow is a panic where
  it can occur).
-/
namespace Dsp

/-- Bounds checked read `a[i]` (panics when out of range).
    Models Rust's `Index` on slices. -/
def get {T : Type} (a : List T) (i : Nat) : Option T := a[i]?

/-- Bounds checked write `a[i] = v` (panics when out of range).
    Models Rust's `IndexMut` on slices. -/
def put {T : Type} (a : List T) (i : Nat) (v : T) : Option (List T) :=
  if i < a.length then some (a.set i v) else none

/-- The sub slice `&a[lo..hi]`; panics if `lo > hi` or `hi > a.len()`. -/
def slice {T : Type} (a : List T) (lo hi : Nat) : Option (List T) :=
  if lo ≤ hi ∧ hi ≤ a.length then some ((a.drop lo).take (hi - lo)) else none

/-- Overwrite the cells `lo .. lo + b.len()` of `a` with `b` (used for the write back of a mutated
    sub slice and for `copy_from_slice`, which requires equal lengths and an in range target). -/
def splice {T : Type} (a : List T) (lo : Nat) (b : List T) : List T :=
  a.take lo ++ b ++ a.drop (lo + b.length)

/-- `target[lo..hi].copy_from_slice(src)`: panics if the range is invalid or the lengths differ. -/
def copyFromSlice {T : Type} (target : List T) (lo hi : Nat) (src : List T) : Option (List T) :=
  if lo ≤ hi ∧ hi ≤ target.length ∧ src.length = hi - lo then some (splice target lo src) else none

/-- `memcpy`, vector/src/lib.rs:282-291. The copy is `ptr::copy` (memmove semantics), hence the
    source is read completely before the target is written. -/
def memcpy {T : Type} (data : List T) (fromStart fromEnd to' : Nat) : Option (List T) :=
  if fromStart ≤ fromEnd ∧ fromEnd ≤ data.length ∧ to' ≤ data.length - (fromEnd - fromStart) then
    some (splice data to' ((data.drop fromStart).take (fromEnd - fromStart)))
  else none

/-- `memzero`, vector/src/lib.rs:294-302. -/
def memzero {T : Type} [Zero T] (data : List T) (lo hi : Nat) : Option (List T) :=
  if lo ≤ hi ∧ hi ≤ data.length then some (splice data lo (List.replicate (hi - lo) 0)) else none

/-- A complex number, `num_complex::Complex<T>` (`#[repr(C)]`, fields `re`, `im`). -/
structure Cx (T : Type) where
  re : T
  im : T
deriving DecidableEq, Repr

/-- Reinterpret an interleaved list as complex numbers; `none` for odd lengths.
    `array_to_complex`/`array_to_complex_mut`, vector/src/lib.rs:238-279: the length assertion in
    `get_target_slice_len` (line 262) panics for odd lengths. -/
def toComplex? {T : Type} : List T → Option (List (Cx T))
  | [] => some []
  | [_] => none
  | re :: im :: rest => (toComplex? rest).map (fun l => ⟨re, im⟩ :: l)

/-- Reinterpret complex numbers as an interleaved list; `complex_to_array`,
    vector/src/vector_types/mod.rs:194-207. -/
def fromComplex {T : Type} : List (Cx T) → List T
  | [] => []
  | c :: rest => c.re :: c.im :: fromComplex rest

/-- `for i in start..start+n { body }`, `none` as soon as the body panics. -/
def forRange {S : Type} (start : Nat) : Nat → (Nat → S → Option S) → S → Option S
  | 0, _, s => some s
  | n + 1, f, s => (f start s).bind (forRange (start + 1) n f)

/-- Error reasons, vector/src/vector_types/checks_and_results.rs:3-65. -/
inductive ErrorReason
  | inputMustHaveTheSameSize
  | inputMetaDataMustAgree
  | inputMustBeComplex
  | inputMustBeReal
  | inputMustBeInTimeDomain
  | inputMustBeInFrequencyDomain
  | invalidArgumentLength
  | inputMustBeConjSymmetric
  | inputMustHaveAnOddLength
  | argumentFunctionMustBeSymmetric
  | invalidNumberOfArgumentsForCombinedOp
  | inputMustNotBeEmpty
  | inputMustHaveAnEvenLength
  | typeCanNotResize
deriving DecidableEq, Repr

/-- `VoidResult = Result<(), ErrorReason>`. -/
abbrev VoidResult := Except ErrorReason Unit

instance : DecidableEq VoidResult := fun a b =>
  match a, b with
  | .ok (), .ok () => isTrue rfl
  | .error e, .error e' =>
    if h : e = e' then isTrue (by rw [h]) else isFalse (fun h' => h (Except.error.inj h'))
  | .ok _, .error _ => isFalse (fun h => nomatch h)
  | .error _, .ok _ => isFalse (fun h => nomatch h)

end Dsp
