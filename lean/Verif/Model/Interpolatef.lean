import Verif.Model.ConvFunction
/-
Model of the interpolation in the time domain: `interpolatef` in time_freq/interpolation.rs. The numbers are exact:
`T` is an ordered field with `floor`. `isize` is modelled by `Int` (no overflow).
-/
namespace Dsp
variable {T α : Type}

section
variable [Zero α] [Add α] [Mul α] [Field T]

/-- The loop over the iterator, interpolation.rs:120-123. The state is `(sum, j)`; `inj` is `TT::from`. -/
def interpLoop (fn : T → T) (inj : T → α) (s : α × T) : List α → α × T
  | [] => s
  | c :: rest => interpLoop fn inj (s.1 + c * inj (fn s.2), s.2 + 1) rest

/-- The value of cell `i` of the destination, interpolation.rs:111-124. (For the factor 0 there are no cells.) -/
def interpScalarAt [LinearOrder T] [FloorRing T] (fn : T → T) (inj : T → α) (factor delay : T) (convLen : Nat) (data : List α)
    (i : Nat) : Option α := do
  let center : T := (i : T) / factor
  let it ← wrappingIter data (⌊center⌋ - (convLen : Int) - 1) (2 * convLen + 1)
  some (interpLoop fn inj (0, -(convLen : T) - (center - ((⌊center⌋ : Int) : T)) + delay) it).1

/-- `interpolate_priv_scalar`, interpolation.rs:92-131 (`α` is `T` or `Complex<T>`). The destination is memory of the buffer, the
    closures only read `data`; therefore the values can be computed first. -/
def interpScalar [LinearOrder T] [FloorRing T] (st : MultiCoreSettings) (fn : T → T) (inj : T → α) (factor delay : T) (convLen : Nat)
    (data dest : List α) (sched : List Nat) : Outcome (List α) :=
  match (List.range dest.length).mapM (interpScalarAt fn inj factor delay convLen data) with
  | none => .panic
  | some ys =>
    executeWithRange .large st dest 1 (blockLoop 1 1 (fun i b => b.map (fun _ => ys.getD i 0))) sched

/-- The values in the loop of `function_to_vector`, interpolation.rs:172-178; `n` rounds are left. -/
def responseValues (fn : T → T) (offset : T) : Nat → T → List T
  | 0, _ => []
  | n + 1, j => fn (j - offset) :: responseValues fn offset n (j + 1)

/-- The values (without the zeros between them) of `function_to_vector`, interpolation.rs:156-180. -/
def functionToVector (fn : T → T) (convLen : Nat) (offset delay : T) : List T :=
  responseValues fn offset (2 * convLen + 1) (-((convLen : T) - 1) + delay)

/-- The numbers of the vector, interpolation.rs:168-178: for complex vectors (`step = 2`) every value is followed by a zero. -/
def responseNumbers (step : Nat) (values : List T) : List T := values.flatMap fun y => y :: List.replicate (step - 1) 0

/-- `function_to_vectors`, interpolation.rs:133-154. -/
def functionToVectors (fn : T → T) (convLen factor : Nat) (delay : T) : List (List T) :=
  (List.range factor).map fun (shift : Nat) => functionToVector fn convLen ((shift : T) / (factor : T)) delay

/-- `shifts`, interpolation.rs:226-232. -/
def interpShifts (w step : Nat) (vectors : List (List T)) : Option (List (List (List T))) :=
  (vectors.mapM fun y => createShiftedCopies w step (responseNumbers step y)).map List.flatten

/-- The closure of `interpolate_priv_simd` for one value, interpolation.rs:254-275; `s` is `simd_len_in_t`. `mulR` is `simd_mul`,
    `sumR` is `simd_sum`. -/
def interpSimdAt (w s : Nat) (mulR : List T → List T → List T) (sumR : List T → α)
    (simd : List (List T)) (shifts : List (List (List T))) (factor convLen leftPoints i : Nat) : Option α :=
  if factor = 0 then none
  else
    let rounded := (i + factor - 1) / factor
    if rounded + convLen < leftPoints ∨ s = 0 then none
    else
      let e := rounded + convLen - leftPoints
      (shifts[(factor - i % factor) % factor * s + e % s]?).bind fun shifted =>
        let simdEnd := (e + s - 1) / s
        if simdEnd < shifted.length then none
        else (slice simd (simdEnd - shifted.length) simdEnd).bind fun regs =>
          some (sumR ((regs.zip shifted).foldl (fun sum p => regZip (· + ·) sum (mulR p.1 p.2)) (List.replicate w 0)))

/-- `interpolate_priv_simd_step`, interpolation.rs:292-316. -/
def interpEdgeAt (inj : T → α) (factor convLen : Nat) (data : List α) (vectors : List (List T)) (i : Nat) : Option α :=
  if factor = 0 then none
  else do
    let it ← wrappingIter data (((i / factor : Nat) : Int) - (convLen : Int)) (2 * convLen + 1)
    let y ← vectors[i % factor]?
    some ((it.zip y).foldl (fun sum p => sum + p.1 * inj p.2) 0)

/-- `interpolate_priv_simd` on converted slices, interpolation.rs:190-290. `step` is 1 for real and 2 for complex vectors; `a` are
    the numbers, `x` the points of the vector. For the factor 0 `vectors[0]` panics. -/
def interpSimd (addr w step : Nat) (mulR : List T → List T → List T) (sumR : List T → α) (inj : T → α) (st : MultiCoreSettings)
    (fn : T → T) (factor : Nat) (delay : T) (convLen : Nat) (a : List T) (x dest : List α) (sched : List Nat) :
    Outcome (List α) :=
  let vectors := functionToVectors fn convLen factor delay
  let scalarLen := (2 * convLen + 1) * factor
  let p := calcDataAlignmentReqs addr w a.length
  if factor = 0 then .panic
  else if dest.length < scalarLen ∨ dest.length - scalarLen < scalarLen then .panic
  else
    match interpShifts w step vectors, (p.center a).bind (arrayToRegs (addr + p.left) w) with
    | some shifts, some simd =>
      match (List.range (dest.length - scalarLen - scalarLen)).mapM (fun r =>
          interpSimdAt w (w / step) mulR sumR simd shifts factor convLen (p.left / step) (scalarLen + r)) with
      | none => .panic
      | some ys =>
        (executeWithRange .large st ((dest.drop scalarLen).take (dest.length - scalarLen - scalarLen)) 1
          (blockLoop 1 1 (fun i b => b.map (fun _ => ys.getD i 0))) sched).andThen fun mid =>
            .ofOption (setEdges scalarLen scalarLen (fun i => interpEdgeAt inj factor convLen x vectors i)
              (splice dest scalarLen mid))
    | _, _ => .panic

end

section
variable [Field T] [LinearOrder T] [FloorRing T]

/-- `new_len`, interpolation.rs:405-409. -/
def interpNewLen (len : Nat) (factor : T) : Option Nat :=
  (toUsize (roundAway ((len : T) * factor))).map fun n => n + n % 2

/-- The condition for the implementation with registers, interpolation.rs:410-413. -/
def interpUsesSimd (convLen newLen : Nat) (factor : T) : Prop :=
  convLen ≤ 202 ∧ newLen ≥ 2000 ∧ |roundAway factor - factor| < 1 / 1000000

instance (convLen newLen : Nat) (factor : T) : Decidable (interpUsesSimd convLen newLen factor) := by
  unfold interpUsesSimd; infer_instance

namespace DspVec

/-- `interpolatef`, interpolation.rs:387-482. If the sampling distance is not a number then the code computes with numbers which are not
    numbers, the model panics. -/
def interpolatef (k : RegKind) (addr : Nat) (st : MultiCoreSettings) (fn : T → T) (factor delay : T) (convLen : Nat) (v : DspVec T)
    (b : Buffer T) (sched : List Nat) : Outcome (DspVec T × Buffer T) :=
  let convLen := if convLen > v.points / 2 then v.points / 2 else convLen
  match v.delta.map (delay / ·), interpNewLen v.len factor with
  | some d, some newLen =>
    match b.borrow newLen, v.content with
    | some temp, some a =>
      let v' : DspVec T := { v with validLen := newLen }
      if interpUsesSimd convLen newLen factor then
        match toUsize (roundAway factor) with
        | none => .panic
        | some f =>
          if v.isComplex then
            match toComplex? a, toComplex? temp with
            | some x, some dest =>
              v'.tradeOutcome b ((interpSimd addr k.len 2 (regMulComplex k) regSumComplex (fun y => ⟨y, 0⟩) st fn f d convLen a x dest
                sched).andThen fun r => .finished (fromComplex r))
            | _, _ => .panic
          else v'.tradeOutcome b (interpSimd addr k.len 1 (regZip (· * ·)) regSumReal id st fn f d convLen a a temp sched)
      else if v.isComplex then
        match toComplex? a, toComplex? temp with
        | some x, some dest =>
          v'.tradeOutcome b ((interpScalar st fn (fun y => ⟨y, 0⟩) factor d convLen x dest sched).andThen fun r =>
            .finished (fromComplex r))
        | _, _ => .panic
      else v'.tradeOutcome b (interpScalar st fn id factor d convLen a temp sched)
    | _, _ => .panic
  | _, _ => .panic

end DspVec
end
end Dsp
