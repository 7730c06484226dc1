import Verif.Model.Vec
import Verif.Model.Complex
/-
Specification vocabulary about storages, buffers and addresses: what an operation may assume about its
environment.
-/
namespace Dsp
variable {T : Type}

/-- Specification: the storage can provide `n` cells. A `Vec` always can; fixed storages can not
    grow; bounded storages can grow up to their capacity. -/
def CanHold (s : Storage T) (n : Nat) : Prop :=
  n ≤ s.cells.length ∨
  match s.kind with
  | .vec => True
  | .fixed => False
  | .arrayVec cap => n ≤ cap
  | .inlineStack cap => n ≤ cap
  | .inlineHeap cap => n ≤ cap

/-- `resize` leaves the inline (stack) representation of the crate-internal `InlineVector` alone. -/
def NotInline (k : StorageKind) : Prop := ∀ cap, k ≠ .inlineStack cap

instance (k : StorageKind) : Decidable (NotInline k) :=
  match k with
  | .vec => isTrue (by intro c h; cases h)
  | .fixed => isTrue (by intro c h; cases h)
  | .arrayVec _ => isTrue (by intro c h; cases h)
  | .inlineHeap _ => isTrue (by intro c h; cases h)
  | .inlineStack cap => isFalse (fun h => h cap rfl)

/-- A buffer which can serve a request of `len` numbers for the given storage. The buffers for `Vec`
    always can; a `FixedLenBuffer` must be large enough, and so must be the storage. -/
def BufferOk (b : Buffer T) (s : Storage T) (len : Nat) : Prop :=
  match b with
  | .fixedLen mem => len ≤ mem.length ∧ len ≤ s.cells.length
  | _ => True

instance (b : Buffer T) (s : Storage T) (len : Nat) : Decidable (BufferOk b s len) := by
  unfold BufferOk; split <;> infer_instance

/-- Specification: a register operation works lane by lane like `f`. -/
def LaneWise (w : Nat) (op : List T → List T) (f : T → T) : Prop :=
  (∀ r, r.length ≤ w → (op r).length = r.length) ∧ ∀ r, r.length = w → op r = r.map f

/-- Specification: a register operation works complex number by complex number like `f`. -/
def PointWise (w : Nat) (op : List T → List T) (f : Cx T → Cx T) : Prop :=
  (∀ r, r.length ≤ w → (op r).length = r.length) ∧
    ∀ cs : List (Cx T), 2 * cs.length = w → op (fromComplex cs) = fromComplex (cs.map f)

/-- The alignments which the code accepts, cf. `C19_registers_partial`. -/
def AlignmentAccepted (addr w len : Nat) : Prop :=
  (2 * (addr % w)) % w = 0 ∨ len < addr % w + w

/-- Specification: what an accepted alignment is for complex data. -/
def ComplexAlignmentAccepted (addr w len : Nat) : Prop :=
  AlignmentAccepted addr w len ∧ addr % 2 = 0

end Dsp
