import Verif.Model.MatrixOps
import Verif.Spec.Matrix
import Verif.Spec.ProgramSafe
/-
What the methods of matrices mean: what happens to the signals of the rows.
-/
namespace Dsp
variable {T : Type}

/-- The result among the values which a call returned. -/
def resultOf : List (Out T) → VoidResult
  | [.result r] => r
  | _ => .ok ()

/-- The signals are changed one after the other by `g`, which also tells the result; the first error ends this: the signals behind it
    stay as they are, and the error is the result. -/
def untilError {α : Type} (g : Signal T → α → Signal T × VoidResult) : List (Signal T × α) → List (Signal T) × VoidResult
  | [] => ([], .ok ())
  | s :: rest =>
    match (g s.1 s.2).2 with
    | .error e => ((g s.1 s.2).1 :: rest.map Prod.fst, .error e)
    | .ok () => ((g s.1 s.2).1 :: (untilError g rest).1, (untilError g rest).2)

section
variable [Field T] [LinearOrder T] [FloorRing T]

/-- Every row finds an environment which the operation accepts on a vector. -/
def Mat.SafeUn (m : Mat T) (op : UnOp T) (env : Nat → RowEnv2) : Prop :=
  ∀ (i : Nat) (v : DspVec T), m.rows[i]? = some v → (op.inEnv (env i).toRowEnv).Safe v

/-- Every row with an operand finds an environment which the operation accepts. -/
def Mat.SafeBin (m o : Mat T) (op : BinOp T) (env : Nat → RowEnv2) : Prop :=
  ∀ (i : Nat) (v x : DspVec T), m.rows[i]? = some v → o.rows[i]? = some x → (op.inEnv (env i).toRowEnv).Safe v x

/-- The same for one operand for all rows. -/
def Mat.SafeBinVec (m : Mat T) (o : DspVec T) (op : BinOp T) (env : Nat → RowEnv2) : Prop :=
  ∀ (i : Nat) (v : DspVec T), m.rows[i]? = some v → (op.inEnv (env i).toRowEnv).Safe v o

/-- What an operation with an operand makes of a signal, and its result. -/
noncomputable def BinCall.effect (c : BinCall T) (s o : Signal T) : Signal T × VoidResult :=
  ((c.meaning s o).1, resultOf (c.meaning s o).2)

end

/-- `interpolate` or `interpolatei` with a response which is not symmetric; `interpolatei` with the factors zero and one does nothing. -/
def UnOp.Asymmetric : UnOp T → Prop
  | .interpolate _ _ _ _ _ _ _ function _ _ => ∃ f, function = some f ∧ f.isSymmetric = false
  | .interpolatei _ _ _ _ _ F m => F.isSymmetric = false ∧ 2 ≤ m
  | _ => False

section
variable [Field T] [LinearOrder T] [FloorRing T]

/-- What such a call makes of a signal: real signals are rejected. -/
noncomputable def UnCall.rejectReal (c : UnCall T) (s : Signal T) (_ : Unit) : Signal T × VoidResult :=
  if s.numbers.isComplex then ((c.meaning s).1, .ok ()) else (s, .error .argumentFunctionMustBeSymmetric)

end

/-- The environment with other schedules. -/
def withSchedules2 (env : Nat → RowEnv2) (scheds : Nat → List Nat × List Nat) : Nat → RowEnv2 :=
  fun i => { env i with sched := (scheds i).1, sched2 := (scheds i).2 }

end Dsp
