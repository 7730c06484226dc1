import Verif.Model.Interp
import Verif.Spec.Rounding
import Mathlib.Algebra.Order.Archimedean.Real.Basic
/-
The linear interpolation with rounded numbers: time_freq/real_interpolation.rs:33-71. In Model/Interp.lean the numbers are exact.
-/
namespace Dsp
variable {R : Rounding}

noncomputable section

/-- The counter `i` after `k` rounds: `let mut i = T::zero()` and `i = i + T::one()`, real_interpolation.rs:53, 66. -/
def lineCounter : Nat → Fl R
  | 0 => 0
  | k + 1 => lineCounter k + ⟨1⟩

/-- The loop body of `interpolate_lin` in round `k`, real_interpolation.rs:55-66. The floor of a float is a float, nothing is rounded. -/
def linPointFl (data : List (Fl R)) (factor delay : Fl R) (k : Nat) : Option (Fl R) := do
  let rounded := lineCounter k / factor + delay
  let beforef : Fl R := ⟨((⌊rounded.val⌋ : Int) : ℝ)⟩
  let before ← toUsize beforef.val
  let y0 ← get data before
  let y1 ← get data (before + 1)
  some (y0 + (y1 - y0) * (rounded - beforef))

/-- `dest_len`, real_interpolation.rs:37-42: the number `data_len - 1` is converted, the product is rounded; `round` to an integer is exact. -/
def interpDestLenFl (n : Nat) (factor : Fl R) : Option Nat :=
  if n = 0 then none
  else (toUsize (roundAway (((n - 1 : Nat) : Fl R) * factor).val)).map (· + 1)

/-- The numbers written by `interpolate_lin`, real_interpolation.rs:49-67. -/
def linPointsFl (data : List (Fl R)) (factor delay : Fl R) (destLen : Nat) : Option (List (Fl R)) := do
  let l ← (List.range (destLen - 1)).mapM (linPointFl data factor delay)
  let last ← get data (data.length - 1)
  some (l ++ [last])

/-- `interpolate_lin`, real_interpolation.rs:33-71. -/
def DspVec.interpolateLinFl (v : DspVec (Fl R)) (b : Buffer (Fl R)) (factor delay : Fl R) :
    Option (DspVec (Fl R) × Buffer (Fl R)) := do
  let destLen ← interpDestLenFl v.len factor
  let temp ← b.borrow destLen
  if v.isComplex then
    match b with
    | .single _ => some (v.markInvalid, .single temp)
    | b => some (v.markInvalid, b)
  else do
    let data ← v.content
    let l ← linPointsFl data factor delay destLen
    some ({ v with data := (b.trade l v.data).2, validLen := destLen }, (b.trade l v.data).1)

end
end Dsp
