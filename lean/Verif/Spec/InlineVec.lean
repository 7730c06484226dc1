import Verif.Model.InlineVec
/-
Specification of a bounded list.
-/
namespace Dsp
variable {α : Type}

/-- Specification: a list which can hold `limit` elements (`none`: no limit). -/
def Fits (limit : Option Nat) (n : Nat) : Prop := ∀ k, limit = some k → n ≤ k

/-- Specification: the effect of one call on a list with a limit. There is no transition where the
    call must panic: index out of bounds, or no space left. -/
inductive ListStep [Zero α] (limit : Option Nat) : List α → InlineOp α → List α → InlineOut α → Prop
  | push (l x) : Fits limit (l.length + 1) → ListStep limit l (.push x) (l ++ [x]) .unit
  | popEmpty : ListStep limit [] .pop [] (.opt none)
  | pop (l x) : ListStep limit (l ++ [x]) .pop l (.opt (some x))
  | remove (a x b) : ListStep limit (a ++ x :: b) (.remove a.length) (a ++ b) (.elem x)
  | insert (a b x) : Fits limit ((a ++ b).length + 1) → ListStep limit (a ++ b) (.insert a.length x) (a ++ x :: b) .unit
  | append (l o) : Fits limit (l.length + o.len) → ListStep limit l (.append o) (l ++ o.elems) (.rest [])
  | set (a x b y) : ListStep limit (a ++ x :: b) (.set a.length y) (a ++ y :: b) .unit
  | index (a x b) : ListStep limit (a ++ x :: b) (.index a.length) (a ++ x :: b) (.elem x)
  | shrink (a b) : ListStep limit (a ++ b) (.tryResize a.length) a (.result (.ok ()))
  | enlarge (l n) : Fits limit n → l.length ≤ n →
      ListStep limit l (.tryResize n) (l ++ List.replicate (n - l.length) 0) (.result (.ok ()))
  | refuse (l n) : l.length < n → ListStep limit l (.tryResize n) l (.result (.error .typeCanNotResize))

/-- Specification: a history of calls. -/
inductive ListRun [Zero α] (limit : Option Nat) : List α → List (InlineOp α) → List α → List (InlineOut α) → Prop
  | nil (l) : ListRun limit l [] l []
  | cons {l op l1 o ops l2 os} : ListStep limit l op l1 o → ListRun limit l1 ops l2 os →
      ListRun limit l (op :: ops) l2 (o :: os)

end Dsp
