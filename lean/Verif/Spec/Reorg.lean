import Verif.Model.Reorg
/-
Specification of zero padding and interleaving.
-/
namespace Dsp

/-- Specification of padding: the old points `l` and zero points `z`, `points` in total.
    * `End`: zeros are appended,
    * `Surround`: `right` zeros at the end, all further zeros at the beginning,
    * `Center`: the zeros are inserted in the middle (the first half gets the odd point). -/
def padSpec {α : Type} (z : α) (l : List α) (points right : Nat) : PaddingOption → List α
  | .end => l ++ List.replicate (points - l.length) z
  | .surround => List.replicate (points - l.length - right) z ++ l ++ List.replicate right z
  | .center => l.take (l.length - l.length / 2) ++ List.replicate (points - l.length) z ++
      l.drop (l.length - l.length / 2)

/-- Number of zeros which `zero_pad` puts to the end for `Surround`. -/
def surroundRight (oldPoints points : Nat) : Nat := (points - oldPoints - 1) / 2

/-- Number of zeros which `zero_pad_b` puts to the end for `Surround`. -/
def surroundRightB (oldPoints points : Nat) : Nat := (points - oldPoints) / 2

/-- Specification: `factor - 1` zero points after each point. -/
def interleaveSpec {α : Type} (z : α) (factor : Nat) (l : List α) : List α :=
  l.flatMap (fun p => p :: List.replicate (factor - 1) z)

end Dsp
