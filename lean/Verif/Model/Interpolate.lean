import Verif.Model.FreqResponse
import Verif.Model.Elementary
import Verif.Model.ComplexReal
import Verif.Model.Reorg
/-
Model of the interpolation in the frequency domain: `interpolate`, `interpft` and `interpolatei` in interpolation.rs. The
numbers are exact; sampling distances which are not a number are `none`.
-/
namespace Dsp
variable {T : Type}

/-- `MultiCoreSettings::default`, threading.rs:208-217; the calibration is not used for a single core (threading.rs:238-257). -/
def defaultSettings : MultiCoreSettings := .singleThreaded ⟨50000, 100000, 20000, 30000⟩

namespace DspVec
variable [Field T] [LinearOrder T]

/-- `apply_linear_phase`, interpolation.rs:319-339; `cis x` is `Complex::from_polar(1, x)`, `pi` is `T::PI()`. -/
def applyLinearPhase (cis : T → Cx T) (pi delay : T) (v : DspVec T) : Option (DspVec T) := do
  let points := v.len / 2
  let posPoints := points / 2
  let negPoints := points - posPoints
  let phaseInc := 2 * pi * delay / (points : T)
  let c ← v.content
  let hi ← (toStaticVec (.sliceMut (c.drop (2 * posPoints))) true true).multiplyComplexExponential cis phaseInc
    (-(negPoints : T) * phaseInc)
  let lo ← (toStaticVec (.sliceMut (c.take (2 * posPoints))) true true).multiplyComplexExponential cis phaseInc 0
  some (v.withCells (splice v.data.cells 0 (lo.data.cells ++ hi.data.cells)))

/-- `interpolate_upsample`, interpolation.rs:341-362. -/
def interpolateUpsample (k : RegKind) (addr : Nat) (function : Option (FrequencyResponse T T)) (factor : T) (v : DspVec T)
    (sched : List Nat) : Outcome (DspVec T) :=
  match function with
  | none => v.scale k addr defaultSettings factor sched
  | some f => v.multiplyFunctionBy defaultSettings f.isSymmetric true factor (fun _ => 0) (fun x => ⟨f.value x, 0⟩) sched

/-- `interpolate_downsample`, interpolation.rs:364-376. -/
def interpolateDownsample (k : RegKind) (addr : Nat) (destPoints : Nat) (v : DspVec T) (sched : List Nat) : Outcome (DspVec T) :=
  let origLen := v.len
  let negPoints := destPoints / 2
  let posPoints := destPoints - negPoints
  if origLen < 2 * negPoints then .panic
  else
    match memcpy v.data.cells (origLen - 2 * negPoints) origLen (2 * posPoints) with
    | none => .panic
    | some cells =>
      match (v.withCells cells).resize (2 * (negPoints + posPoints)) with
      | (_, .error _) => .panic
      | (w, .ok ()) =>
        w.scale k addr defaultSettings (((2 * (negPoints + posPoints) : Nat) : T) / ((origLen : Nat) : T)) sched

/-- The steps of `interpolate` between both transforms, interpolation.rs:587-592. -/
def interpolateSpectrum (k : RegKind) (addr : Nat) (function : Option (FrequencyResponse T T)) (factor : T)
    (destPoints : Nat) (up down : Bool) (v : DspVec T) (sched : List Nat) : Outcome (DspVec T × VoidResult) :=
  if up then
    match v.zeroPad destPoints .center with
    | none => .panic
    | some (w, .error e) => .finished (w, .error e)
    | some (w, .ok ()) => (w.interpolateUpsample k addr function factor sched).andThen fun u => .finished (u, .ok ())
  else if down then (v.interpolateDownsample k addr destPoints sched).andThen fun u => .finished (u, .ok ())
  else .finished (v, .ok ())

/-- The part of `interpolate` which works on a slice of the data as complex numbers, interpolation.rs:576-594: the slice has
    `max_len` numbers of which `origLen` are valid. `delay` is zero or already divided by the sampling distance. The buffer
    lends scratch memory only, see `correlateSlices`. The result are all numbers of the slice. -/
def interpolateSlice (K : FftKernel T) (k : RegKind) (addr : Nat) (cis : T → Cx T) (pi : T) (function : Option (FrequencyResponse T T))
    (factor delay : T) (origLen destPoints : Nat) (up down : Bool) (data : List T) (b : Buffer T) (sched : List Nat) :
    Outcome (List T × VoidResult) :=
  match (toStaticVec (.sliceMut data) true false).resize origLen with
  | (_, .error _) => .panic
  | (v, .ok ()) =>
    match v.plainFft K b with
    | none => .panic
    | some (spectrum, _) =>
      match (if delay ≠ 0 then spectrum.applyLinearPhase cis pi delay else some spectrum) with
      | none => .panic
      | some phased =>
        (phased.interpolateSpectrum k addr function factor destPoints up down sched).andThen fun r =>
          match r with
          | (w, .error e) => .finished (w.data.cells, .error e)
          | (w, .ok ()) =>
            match w.plainIfft K b with
            | none => .panic
            | some (u, _) => .finished (u.data.cells, .ok ())

/-- The end of `interpolate`, interpolation.rs:595-603: `resize`, `scale`, the new sampling distance and, for real vectors, the
    real parts. -/
def interpolateFinish (k : RegKind) (addr : Nat) (st : MultiCoreSettings) (isComplex : Bool) (destPoints : Nat) (factor : T)
    (v : DspVec T) (sched : List Nat) : Outcome (DspVec T) :=
  match v.resize (2 * destPoints) with
  | (_, .error _) => .panic
  | (w, .ok ()) =>
    (w.scale k addr st (1 / (destPoints : T)) sched).andThen fun u =>
      let x : DspVec T := { u with delta := u.delta.map (· / factor) }
      if isComplex then .finished x
      else
        match complexToRealLoop Cx.re (x.len / 2) x.data.cells with
        | none => .panic
        | some cells => .finished { x.withCells cells with validLen := x.validLen / 2 }

/-- `interpolate`, interpolation.rs:542-605. `sched1` is the schedule of the operations on the spectrum, `sched2` of the final
    scaling. Where the sampling distance is not a number and the delay not zero the code computes with numbers which are not
    numbers, the model panics. -/
def interpolate (K : FftKernel T) (k : RegKind) (addr : Nat) (cis : T → Cx T) (pi : T) (st : MultiCoreSettings)
    (function : Option (FrequencyResponse T T)) (destPoints : Nat) (delay : T) (v : DspVec T) (b : Buffer T)
    (sched1 sched2 : List Nat) : Outcome (DspVec T × Buffer T × VoidResult) :=
  if (∃ f, function = some f ∧ f.isSymmetric = false) ∧ v.isComplex = false then
    .finished (v, b, .error .argumentFunctionMustBeSymmetric)
  else
    let destLen := if v.isComplex then 2 * destPoints else destPoints
    let factor : T := (destPoints : T) / (v.points : T)
    match (if v.isComplex then some (v, b) else v.zeroInterleaveB b 2) with
    | none => .panic
    | some (c, b1) =>
      match c.resizeB b1 (max c.len (2 * destPoints)) with
      | none => .panic
      | some (w, b2, .error e) => .finished (w, b2, .error e)
      | some (w, b2, .ok ()) =>
        match w.content, (if delay = 0 then some 0 else v.delta.map (delay / ·)) with
        | some data, some d =>
          (interpolateSlice K k addr cis pi function factor d c.len destPoints (decide (destLen > v.len)) (decide (destLen < v.len))
            data b2 sched1).andThen fun r =>
            match r with
            | (cells, .error e) => .finished (w.withCells (splice w.data.cells 0 cells), b2, .error e)
            | (cells, .ok ()) =>
              ((w.withCells (splice w.data.cells 0 cells)).interpolateFinish k addr st v.isComplex destPoints factor sched2).andThen
                fun u => .finished (u, b2, .ok ())
        | _, _ => .panic

/-- `interpft`, interpolation.rs:534-540: the `expect` panics for every error. -/
def interpft (K : FftKernel T) (k : RegKind) (addr : Nat) (cis : T → Cx T) (pi : T) (st : MultiCoreSettings)
    (destPoints : Nat) (v : DspVec T) (b : Buffer T) (sched1 sched2 : List Nat) : Outcome (DspVec T × Buffer T) :=
  (v.interpolate K k addr cis pi st none destPoints 0 b sched1 sched2).andThen fun r =>
    match r with
    | (w, b', .ok ()) => .finished (w, b')
    | (_, _, .error _) => .panic

/-- The part of `interpolatei` which works on the data as a complex slice, interpolation.rs:511-523. -/
def interpolateiSlice (K : FftKernel T) (function : FrequencyResponse T T) (factor : T) (data : List T) (b : Buffer T)
    (sched : List Nat) : Outcome (List T) :=
  match (toStaticVec (.sliceMut data) true false).plainFft K b with
  | none => .panic
  | some (spectrum, _) =>
    (spectrum.multiplyFunctionBy defaultSettings function.isSymmetric true factor (fun _ => 0) (fun x => ⟨function.value x, 0⟩)
      sched).andThen fun w =>
      match w.plainIfft K b with
      | none => .panic
      | some (u, _) => .finished u.data.cells

/-- `interpolatei`, interpolation.rs:484-532. -/
def interpolatei (K : FftKernel T) (k : RegKind) (addr : Nat) (st : MultiCoreSettings) (function : FrequencyResponse T T)
    (factor : Nat) (v : DspVec T) (b : Buffer T) (sched1 sched2 : List Nat) : Outcome (DspVec T × Buffer T × VoidResult) :=
  if factor ≤ 1 then .finished (v, b, .ok ())
  else if function.isSymmetric = false ∧ v.isComplex = false then .finished (v, b, .error .argumentFunctionMustBeSymmetric)
  else
    match v.zeroInterleaveB b (if v.isComplex then factor else factor * 2) with
    | none => .panic
    | some (w, b1) =>
      match w.content with
      | none => .panic
      | some data =>
        (interpolateiSlice K function (factor : T) data b1 sched1).andThen fun cells =>
          ((w.withCells (splice w.data.cells 0 cells)).scale k addr st (1 / ((w.len / 2 : Nat) : T)) sched2).andThen fun u =>
            if v.isComplex then .finished (u, b1, .ok ())
            else
              match complexToRealLoop Cx.re (u.len / 2) u.data.cells with
              | none => .panic
              | some cells => .finished ({ u.withCells cells with validLen := u.validLen / 2 }, b1, .ok ())

end DspVec
end Dsp
