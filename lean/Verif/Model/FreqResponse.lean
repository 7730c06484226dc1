import Verif.Model.Fft
import Mathlib.Algebra.Order.Field.Basic
/-
Model of the multiplication with a frequency response: `multiply_function_priv` in time_freq/mod.rs and
`multiply_frequency_response` in convolution.rs. The numbers are exact.
-/
namespace Dsp
variable {T α : Type}

section
variable [Field T] [LinearOrder T]

/-- `fft_swap_x`, time_freq/mod.rs:67-77. -/
def fftSwapX (shifted : Bool) (x max : T) : T :=
  if !shifted then x / max
  else if x ≤ 0 then 1 + x / max
  else -(max - x + 1) / max

/-- `max` and `center`: `T::from(points - offset) / two`, time_freq/mod.rs:641 and 670-671. -/
def axisCenter (points : Nat) : T := ((points - points % 2 : Nat) : T) / 2

/-- The loops `while j1 < j2` and `while j2 < j1`, time_freq/mod.rs:679-694: the cells which are consumed with their
    values of `j`, the cells which are left and the final `j`. `next().unwrap()` panics if there are no cells left. -/
def catchUp : List Nat → T → T → Option (List (Nat × T) × List Nat × T)
  | [], j, lim => if j < lim then none else some ([], [], j)
  | c :: cs, j, lim =>
    if j < lim then (catchUp cs (j + 1) lim).map fun r => ((c, j) :: r.1, r.2.1, r.2.2)
    else some ([], c :: cs, j)

/-- The loop over both iterators, time_freq/mod.rs:696-701. -/
def zipCells : List Nat → List Nat → T → List (Nat × T)
  | a :: as, b :: bs, j => (a, j) :: (b, j) :: zipCells as bs (j + 1)
  | _, _, _ => []

/-- The loops over the rest of one of the chunks, time_freq/mod.rs:710-719. -/
def tailCells : List Nat → T → List (Nat × T)
  | [], _ => []
  | c :: cs, j => (c, j) :: tailCells cs (j + 1)

/-- The closure of the symmetric path, time_freq/mod.rs:660-720. `g j` is `fun(arg, fft_swap_x(.., j, max) * ratio)`. The
    second chunk is consumed from its end, but the loop over its rest runs from its start (line 715). -/
def responseClosure [Mul α] (center : T) (scale : α) (g : T → α) (p : SymPair) : Option (CellProg α) :=
  if p.len1 < p.len2 then none
  else if p.range2.1 < p.range1.2 then none
  else do
    let r1 ← catchUp (List.range' p.lo1 p.len1) (-center + (p.range1.1 : T)) (center - ((p.range2.2 - 1 : Nat) : T))
    let r2 ← catchUp (List.range' p.lo2 p.len2).reverse (center - ((p.range2.2 - 1 : Nat) : T)) r1.2.2
    let m := min r1.2.1.length r2.2.1.length
    some ((r1.1 ++ r2.1).map (fun u => (u.1, fun x => x * scale * g u.2)) ++
      (zipCells r1.2.1 r2.2.1 r1.2.2).map (fun u => (u.1, fun x => x * (scale * g u.2))) ++
      (tailCells (r1.2.1.drop m) (r1.2.2 + m) ++ tailCells (r2.2.1.drop m).reverse (r1.2.2 + m)).map
        (fun u => (u.1, fun x => x * scale * g u.2)))

/-- `multiply_function_priv` on the converted slice (`α` is `T` or `Complex<T>`), time_freq/mod.rs:612-723; `scale` is
    `TT::from(ratio)`. -/
def multiplyFunction [Mul α] (st : MultiCoreSettings) (symmetric shifted : Bool) (ratio : T) (scale : α) (fn : T → α)
    (a : List α) (sched : List Nat) : Outcome (List α) :=
  if symmetric then
    executeSymPairs .medium st a 1
      (responseClosure (axisCenter a.length) scale fun j => fn (fftSwapX shifted j (axisCenter a.length) * ratio)) sched
  else
    executeWithRange .medium st a 1 (blockLoop 1 1 (fun i b => b.map fun x =>
      x * scale * fn (fftSwapX shifted (-axisCenter a.length + (i : T)) (axisCenter a.length) * ratio))) sched

/-- A frequency response: `is_symmetric()` and `calc(x)`, conv_types.rs:52-64. -/
structure FrequencyResponse (T α : Type) where
  isSymmetric : Bool
  value : T → α

namespace DspVec

/-- `multiply_function_priv` on a vector: the slice `0..len`, as complex numbers for a complex vector,
    time_freq/mod.rs:628-632 and 650-653. -/
def multiplyFunctionBy (st : MultiCoreSettings) (symmetric shifted : Bool) (ratio : T) (fr : T → T) (fc : T → Cx T)
    (v : DspVec T) (sched : List Nat) : Outcome (DspVec T) :=
  match v.content with
  | none => .panic
  | some c =>
    if v.isComplex then
      match toComplex? c with
      | none => .panic
      | some cs =>
        (multiplyFunction (α := Cx T) st symmetric shifted ratio ⟨ratio, 0⟩ fc cs sched).andThen fun r =>
          .finished (v.withCells (splice v.data.cells 0 (fromComplex r)))
    else
      (multiplyFunction st symmetric shifted ratio ratio fr c sched).andThen fun r =>
        .finished (v.withCells (splice v.data.cells 0 r))

/-- `multiply_frequency_response` with a `RealFrequencyResponse`, convolution.rs:581-609. -/
def multiplyRealResponse (st : MultiCoreSettings) (f : FrequencyResponse T T) (ratio : T) (v : DspVec T) (sched : List Nat) :
    Outcome (DspVec T) :=
  if v.dom ≠ .frequency then .finished v.markInvalid
  else v.multiplyFunctionBy st f.isSymmetric false ratio f.value (fun x => ⟨f.value x, 0⟩) sched

/-- `multiply_frequency_response` with a `ComplexFrequencyResponse`, convolution.rs:553-570. -/
def multiplyComplexResponse (st : MultiCoreSettings) (f : FrequencyResponse T (Cx T)) (ratio : T) (v : DspVec T)
    (sched : List Nat) : Outcome (DspVec T) :=
  if v.isComplex = false ∨ v.dom ≠ .frequency then .finished v.markInvalid
  else v.multiplyFunctionBy st f.isSymmetric false ratio (fun _ => 0) f.value sched

end DspVec
end
end Dsp
