import Verif.Model.Matrix
import Verif.Spec.Signal
import Verif.Spec.Safe
import Verif.Spec.Elementary
import Verif.Spec.Convert
/-
What a user sees of a matrix: one signal per row.
-/
namespace Dsp
variable {T : Type}

/-- The rows of the matrix show the signals `ss`, in this order. -/
def Mat.Shows (m : Mat T) (ss : List (Signal T)) : Prop := List.Forall₂ DspVec.Shows m.rows ss

/-- Every row finds an environment which the operation accepts on a vector. -/
def Mat.Safe [Field T] (m : Mat T) (op : VecOp T) (env : Nat → RowEnv) : Prop :=
  ∀ (i : Nat) (v : DspVec T), m.rows[i]? = some v → v.Safe (op.inEnv (env i))

/-- The environment with other schedules of the workers. -/
def withSchedules (env : Nat → RowEnv) (scheds : Nat → List Nat) : Nat → RowEnv :=
  fun i => { env i with sched := scheds i }

/-- Methods of a matrix which have a method of the vectors with the same name and do what it does with every
    row. `diff_with_start` and `cum_sum` are left out, see C60_diff_with_start_violated. -/
def MatrixCall : VecOp T → Bool
  | .diffWithStart => false
  | .cumSum => false
  | op => op.matrixMethod.isSome

/-- Every call of a history is a matrix call in a safe environment. -/
def Mat.SafeAll [Field T] : Mat T → List (VecOp T × (Nat → RowEnv)) → Prop
  | _, [] => True
  | m, c :: cs => MatrixCall c.1 = true ∧ m.Safe c.1 c.2 ∧ ∀ m', m.exec c.1 c.2 = .finished m' → m'.SafeAll cs

/-! ### Methods which return a result -/

/-- The method with an operand of the same size. -/
def ElemOp.method : ElemOp → BinaryMethod
  | .add => .add | .sub => .sub | .mul => .mul | .div => .div

/-- The method whose operand may be smaller. -/
def ElemOp.methodSmaller : ElemOp → BinaryMethod
  | .add => .addSmaller | .sub => .subSmaller | .mul => .mulSmaller | .div => .divSmaller

/-- An operand which the operation accepts, in an environment in which it works (C19, C22, C52). -/
structure Accepts [Field T] [LinearOrder T] (op : ElemOp) (k : RegKind) (addr : Nat) (v o : DspVec T) : Prop where
  wf : v.WF
  operandWf : o.WF
  posDelta : PosDelta o
  len : v.len = o.len
  metaData : MetaAgree v o
  aligned : AlignmentAccepted addr k.len v.len
  even : v.isComplex = true → op = .mul ∨ op = .div → addr % 2 = 0 ∧ v.allocLen % 2 = 0

/-- An operand which the operation for smaller operands accepts. -/
structure AcceptsSmaller [Field T] [LinearOrder T] (v o : DspVec T) : Prop where
  wf : v.WF
  operandWf : o.WF
  posDelta : PosDelta o
  nonEmpty : 0 < o.len
  divides : o.len ∣ v.len
  metaData : MetaAgree v o

/-- `w` is `v` with every number (point) combined with that of `o` at the same position. -/
def Combined [Field T] (op : ElemOp) (v o w : DspVec T) : Prop :=
  (v.isComplex = false ∧ ∃ a b, v.content = some a ∧ o.content = some b ∧ Replaced v w (List.zipWith op.real a b)) ∨
  (v.isComplex = true ∧ ∃ cs ds, v.content = some (fromComplex cs) ∧ o.content = some (fromComplex ds) ∧
    Replaced v w (fromComplex (List.zipWith op.cx cs ds)))

/-- `w` is `v` with every number (point) combined with that of the periodically continued `o`. -/
def CombinedCycled [Field T] (op : ElemOp) (v o w : DspVec T) : Prop :=
  (v.isComplex = false ∧ ∃ a b r, v.content = some a ∧ o.content = some b ∧ Replaced v w r ∧ Cycled op.real a b r) ∨
  (v.isComplex = true ∧ ∃ cs ds rs, v.content = some (fromComplex cs) ∧ o.content = some (fromComplex ds) ∧
    Replaced v w (fromComplex rs) ∧ Cycled op.cx cs ds rs)

/-- Row `i` of `m'` is related to row `i` of `m` for all rows with a number below `n`, and the other rows are the same. -/
structure RowsChanged (m m' : Mat T) (n : Nat) (R : Nat → DspVec T → DspVec T → Prop) : Prop where
  kind : m'.kind = m.kind
  count : m'.rows.length = m.rows.length
  changed : ∀ (i : Nat) (v : DspVec T), i < n → m.rows[i]? = some v → ∃ w, m'.rows[i]? = some w ∧ R i v w
  same : ∀ i, n ≤ i → m'.rows[i]? = m.rows[i]?

/-- `xs` holds one result for every row, in the order of the rows. -/
def OnePerRow {R : Type} (m : Mat T) (xs : List R) (P : Nat → DspVec T → R → Prop) : Prop :=
  xs.length = m.rows.length ∧ ∀ (i : Nat) (v : DspVec T), m.rows[i]? = some v → ∃ x, xs[i]? = some x ∧ P i v x

/-! ### Rows which agree -/

/-- Two signals with the same number of points, number space, domain and sampling distance. -/
structure Signal.Agree (s t : Signal T) : Prop where
  count : s.numbers.count = t.numbers.count
  space : s.numbers.isComplex = t.numbers.isComplex
  domain : s.dom = t.dom
  generic : s.generic = t.generic
  delta : s.delta = t.delta

/-- What a matrix says about its rows is right for every row. -/
structure Mat.MetaRight [Zero T] (m : Mat T) : Prop where
  rowLen : ∀ v ∈ m.rows, m.rowLen = v.len
  rowPoints : ∀ v ∈ m.rows, m.rowPoints = v.points
  space : ∀ v ∈ m.rows, m.isComplex = v.isComplex
  domain : ∀ v ∈ m.rows, m.domain = v.dom
  delta : ∀ v ∈ m.rows, m.delta = v.delta

end Dsp
