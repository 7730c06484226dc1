import Verif.Model.Chunk
import Verif.Model.Interp
/-
Model of the calibration, multicore_support/threading.rs:17-188. The clock and the crate `linreg` are parameters. Numbers are elements of
an ordered field; the conversion to `usize` fails for numbers which are not finite or too large.
-/
namespace Dsp
variable {T : Type}

/-- What the calibration finds: `clock size cores` is the time in nanoseconds which the loop over `size` numbers takes with `cores`
    threads (every combination is measured once), `fit` is `linear_regression` of `linreg` (slope and intercept; `none`: an error). -/
structure Machinery (T : Type) where
  clock : Nat → Nat → T
  fit : List T → List T → Option (T × T)
  usizeBound : Nat

/-- The sizes for which times are measured, threading.rs:89-91, 98-99, 110. -/
def calibrationSizes : List Nat := (List.range 10).map fun i => 10000 + 5000 * i

section
variable [Field T] [LinearOrder T] [FloorRing T]

/-- `measure`, threading.rs:39-52. -/
def measure (mc : Machinery T) (cores size : Nat) : Except Nat T :=
  if mc.clock size cores < 1000 then .error 1 else .ok (mc.clock size cores)

/-- The loop which measures, threading.rs:98-111: the times with one thread, two threads and with `cores` threads. -/
def measureAll (mc : Machinery T) (cores : Nat) : List Nat → Except Nat (List T × List T × List T)
  | [] => .ok ([], [], [])
  | size :: rest => do
    let one ← measure mc 1 size
    let two ← measure mc 2 size
    let many ← (if cores > 2 then measure mc cores size else .ok two)
    let (ones, twos, manys) ← measureAll mc cores rest
    .ok (one :: ones, two :: twos, many :: manys)

/-- `proportional_regression`, threading.rs:55-68; the sizes are not zero and the list is not empty. -/
def proportionalRegression (x y : List T) : T := (List.zipWith (fun x y => y / x) x y).sum / (x.length : T)

/-- `intersection`, threading.rs:71-73: for parallel lines the quotient is infinite or not a number. -/
def intersection (mc : Machinery T) (m1 b1 m2 b2 : T) : Option Nat :=
  if m1 - m2 = 0 then none
  else
    let r := |roundAway ((b2 - b1) / (m1 - m2))|
    if r < (mc.usizeBound : T) then some ⌊r⌋.toNat else none

/-- `attempt_calibrate`, threading.rs:84-162. -/
def attemptCalibrate (mc : Machinery T) (cores : Nat) : Except Nat Calibration := do
  if cores = 1 then .error 2
  else
    let (one, two, many) ← measureAll mc cores calibrationSizes
    let sizes := calibrationSizes.map fun n => ((n : Nat) : T)
    let m := proportionalRegression sizes one
    match mc.fit sizes two, mc.fit sizes many with
    | some (m2, b2), some (mm, bm) =>
      match intersection mc m 0 m2 b2, intersection mc m 0 mm bm with
      | some dual, some multi => .ok (calibrate (some (dual, multi)))
      | _, _ => .error 4
    | _, _ => .error 3

/-- `calibrate`, threading.rs:169-188: the thresholds and the code which `print_calibration` shows. -/
def runCalibration (mc : Machinery T) (cores : Nat) : Calibration × Nat :=
  match attemptCalibrate mc cores with
  | .ok c => (c, 0)
  | .error code => (calibrate none, code)

end
end Dsp
