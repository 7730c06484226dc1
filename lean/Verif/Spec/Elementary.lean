import Verif.Spec.View
import Verif.Model.Elementary
/-
Specification of the elementary operations with two vectors.
-/
namespace Dsp
variable {T : Type}

/-- Specification: `v'` is `v` with the valid numbers replaced by `c` (of the same number): same
    length, same meta data, unused cells unchanged. -/
def Replaced (v v' : DspVec T) (c : List T) : Prop :=
  v'.content = some c ∧ v'.validLen = v.validLen ∧ v'.SameMeta v ∧
    v'.data.cells.length = v.data.cells.length ∧
    v'.data.cells.drop v.validLen = v.data.cells.drop v.validLen

/-- The four elementary operations. -/
inductive ElemOp | add | sub | mul | div
deriving DecidableEq, Repr

/-- The operation on real numbers. -/
def ElemOp.real [Add T] [Sub T] [Mul T] [Div T] : ElemOp → T → T → T
  | .add => (· + ·) | .sub => (· - ·) | .mul => (· * ·) | .div => (· / ·)

/-- The operation on complex numbers. -/
def ElemOp.cx [Add T] [Sub T] [Mul T] [Div T] : ElemOp → Cx T → Cx T → Cx T
  | .add => Cx.add | .sub => Cx.sub | .mul => Cx.mul | .div => Cx.div

/-- The method of the vector. -/
def ElemOp.run [Add T] [Sub T] [Mul T] [Div T] [Zero T] [LT T] [DecidableLT T] [DecidableEq T]
    [DeltaBounds T] (op : ElemOp) (k : RegKind) (addr : Nat) (v o : DspVec T) :
    Option (DspVec T × VoidResult) :=
  match op with
  | .add => v.add k addr o | .sub => v.sub k addr o | .mul => v.mul k addr o | .div => v.div k addr o

/-- The method for operands which may be smaller. -/
def ElemOp.runSmaller [Add T] [Sub T] [Mul T] [Div T] [Zero T] [LT T] [DecidableLT T] [DecidableEq T]
    [DeltaBounds T] (op : ElemOp) (v o : DspVec T) :
    Option (DspVec T × VoidResult) :=
  match op with
  | .add => v.addSmaller o | .sub => v.subSmaller o | .mul => v.mulSmaller o | .div => v.divSmaller o

/-- Specification: the meta data of two vectors agree: same number space, same domain and sampling
    distances which differ by at most ten percent (for positive distances; a distance which is not a
    number agrees with everything). -/
def MetaAgree [Field T] [LinearOrder T] (v o : DspVec T) : Prop :=
  v.isComplex = o.isComplex ∧ v.dom = o.dom ∧
    ∀ d e, v.delta = some d → o.delta = some e → 9 / 10 * e ≤ d ∧ d ≤ 11 / 10 * e

/-- Specification: the sampling distance of the operand, if it is a number, is positive. -/
def PosDelta [Field T] [LinearOrder T] (o : DspVec T) : Prop := ∀ e, o.delta = some e → 0 < e

/-- Specification: number `i` of `r` is number `i` of `a` combined with number `i mod m` of `b`, where
    `m` is the length of `b`. -/
def Cycled {α : Type} (f : α → α → α) (a b r : List α) : Prop :=
  r.length = a.length ∧ ∀ i x, a[i]? = some x →
    ∃ y, b[i % b.length]? = some y ∧ r[i]? = some (f x y)

end Dsp
