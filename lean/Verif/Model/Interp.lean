import Verif.Model.Vec
import Mathlib.Algebra.Order.Floor.Ring
import Mathlib.Algebra.Field.Defs
/-
Model of decimation and of the interpolation of real vectors:
time_freq/interpolation.rs and time_freq/real_interpolation.rs.
-/
namespace Dsp
variable {α T : Type}

/-! ### Decimation -/

/-- The loop `while i < points { data[j] = data[i]; i += factor; j += 1; }`,
    interpolation.rs:617-621 and 626-630. Returns the data and `j`. With factor zero `i` never
    reaches `points`, but `j` runs out of bounds after `points` rounds: `fuel` is the number of
    rounds after which the write `data[j]` must have failed. -/
def decimateLoop (factor : Nat) : Nat → Nat → Nat → List α → Option (List α × Nat)
  | 0, _, _, _ => none
  | fuel + 1, i, j, data =>
    if i < data.length then do
      let x ← get data i
      let data ← put data j x
      decimateLoop factor fuel (i + factor) (j + 1) data
    else some (data, j)

/-- `InterpolationOps::decimatei`, interpolation.rs:607-633. -/
def DspVec.decimatei (v : DspVec T) (factor delay : Nat) : Option (DspVec T) := do
  let c ← v.content
  if v.isComplex then do
    let p ← toComplex? c
    let r ← decimateLoop factor (p.length + 1) delay 0 p
    some { v.withCells (splice v.data.cells 0 (fromComplex r.1)) with validLen := r.2 * 2 }
  else do
    let r ← decimateLoop factor (c.length + 1) delay 0 c
    some { v.withCells (splice v.data.cells 0 r.1) with validLen := r.2 }

/-! ### Interpolation of real vectors

The numbers are exact: `T` is an ordered field with `floor`. -/

section
variable [Field T] [LinearOrder T] [FloorRing T]

/-- `to_usize().unwrap()` of a number: panics for numbers `≤ -1`, otherwise truncates towards zero.
    (Numbers which do not fit into `usize` are not modelled.) -/
def toUsize (x : T) : Option Nat := if x ≤ -1 then none else some (Int.toNat ⌊x⌋)

/-- `round`: half way cases away from zero. -/
def roundAway (x : T) : T := if x < 0 then ((-⌊-x + 1 / 2⌋ : Int) : T) else ((⌊x + 1 / 2⌋ : Int) : T)

/-- `dest_len`, real_interpolation.rs:37-42 and 77-82; `n - 1` panics for an empty vector. -/
def interpDestLen (n : Nat) (factor : T) : Option Nat :=
  if n = 0 then none
  else (toUsize (roundAway (((n - 1 : Nat) : T) * factor))).map (· + 1)

/-- `num` in the loop of `interpolate_lin` for the value `i`, real_interpolation.rs:55-65. -/
def linPoint (data : List T) (factor delay : T) (i : Nat) : Option T := do
  let rounded := (i : T) / factor + delay
  let beforef : T := ((⌊rounded⌋ : Int) : T)
  let before ← toUsize beforef
  let y0 ← get data before
  let y1 ← get data (before + 1)
  some (y0 + (y1 - y0) * (rounded - beforef))

/-- The numbers written by `interpolate_lin`, real_interpolation.rs:49-67. -/
def linPoints (data : List T) (factor delay : T) (destLen : Nat) : Option (List T) := do
  let l ← (List.range (destLen - 1)).mapM (linPoint data factor delay)
  let last ← get data (data.length - 1)
  some (l ++ [last])

/-- `interpolate_lin`, real_interpolation.rs:33-71. The destination is completely overwritten; a
    complex vector is marked as invalid *after* the buffer was borrowed. -/
def DspVec.interpolateLin (v : DspVec T) (b : Buffer T) (factor delay : T) :
    Option (DspVec T × Buffer T) := do
  let destLen ← interpDestLen v.len factor
  let temp ← b.borrow destLen
  if v.isComplex then
    match b with
    | .single _ => some (v.markInvalid, .single temp)
    | b => some (v.markInvalid, b)
  else do
    let data ← v.content
    let l ← linPoints data factor delay destLen
    some ({ v with data := (b.trade l v.data).2, validLen := destLen }, (b.trade l v.data).1)

/-- The cubic polynomial, real_interpolation.rs:116-122, 138-144, 167-173. -/
def hermite (y0 y1 y2 y3 x : T) : T :=
  let half : T := 1 / 2
  let x2 := x * x
  let a0 := -half * y0 + 3 / 2 * y1 - 3 / 2 * y2 + half * y3
  let a1 := y0 - 5 / 2 * y1 + 2 * y2 - half * y3
  let a2 := -half * y0 + half * y2
  let a3 := y1
  a0 * x * x2 + a1 * x2 + a2 * x + a3

/-- The first loop, real_interpolation.rs:104-124. -/
def hermiteFirst (data : List T) (factor delay : T) (i : Nat) : Option T := do
  let rounded := (i : T) / factor + delay
  let beforef : T := ((⌊rounded⌋ : Int) : T)
  let before ← toUsize beforef
  if before ≠ 0 then none
  else do
    let y1 ← get data before
    let y2 ← get data (before + 1)
    let y3 ← get data (before + 1 + 1)
    some (hermite (y1 - (y2 - y1)) y1 y2 y3 (rounded - beforef))

/-- The second loop, real_interpolation.rs:126-146. -/
def hermiteMiddle (data : List T) (factor delay : T) (i : Nat) : Option T := do
  let rounded := (i : T) / factor + delay
  let beforef : T := ((⌊rounded⌋ : Int) : T)
  let before ← toUsize beforef
  if before = 0 then none
  else do
    let y0 ← get data (before - 1)
    let y1 ← get data before
    let y2 ← get data (before + 1)
    let y3 ← get data (before + 1 + 1)
    some (hermite y0 y1 y2 y3 (rounded - beforef))

/-- `y2` in the third loop, real_interpolation.rs:156-160. -/
def hermiteY2 (data : List T) (before : Nat) (y0 y1 : T) : Option T :=
  if before < data.length - 1 then get data (before + 1) else some (y1 + (y1 - y0))

/-- `y3` in the third loop, real_interpolation.rs:161-165; `data_len - 2` panics for a vector with one
    element. -/
def hermiteY3 (data : List T) (before : Nat) (y1 y2 : T) : Option T :=
  if data.length < 2 then none
  else if before < data.length - 2 then get data (before + 2) else some (y2 + (y2 - y1))

/-- The third loop, real_interpolation.rs:148-175. -/
def hermiteLast (data : List T) (factor delay : T) (i : Nat) : Option T := do
  let rounded := (i : T) / factor + delay
  let beforef : T := ((⌊rounded⌋ : Int) : T)
  let before ← toUsize beforef
  if before + 2 < data.length ∨ before = 0 then none
  else do
    let y0 ← get data (before - 1)
    let y1 ← get data before
    let y2 ← hermiteY2 data before y0 y1
    let y3 ← hermiteY3 data before y1 y2
    some (hermite y0 y1 y2 y3 (rounded - beforef))

/-- The numbers written by `interpolate_hermite`, real_interpolation.rs:91-175: the counter `i` runs
    through the three loops. -/
def hermitePoints (data : List T) (factor delay : T) (destLen : Nat) : Option (List T) := do
  let start ← toUsize ((⌈(1 - delay) * factor⌉ : Int) : T)
  if start > destLen ∨ destLen < start + 1 ∨ start > destLen - (start + 1) then none
  else do
    let a ← (List.range start).mapM (hermiteFirst data factor delay)
    let b ← (List.range (destLen - (start + 1) - start)).mapM
      fun k => hermiteMiddle data factor delay (start + k)
    let c ← (List.range (start + 1)).mapM
      fun k => hermiteLast data factor delay (destLen - (start + 1) + k)
    some (a ++ b ++ c)

/-- `interpolate_hermite`, real_interpolation.rs:73-179. -/
def DspVec.interpolateHermite (v : DspVec T) (b : Buffer T) (factor delay : T) :
    Option (DspVec T × Buffer T) := do
  let destLen ← interpDestLen v.len factor
  let temp ← b.borrow destLen
  if v.isComplex then
    match b with
    | .single _ => some (v.markInvalid, .single temp)
    | b => some (v.markInvalid, b)
  else do
    let data ← v.content
    let l ← hermitePoints data factor delay destLen
    some ({ v with data := (b.trade l v.data).2, validLen := destLen }, (b.trade l v.data).1)

end
end Dsp
