import Verif.Spec.Signal
/-
Specification of the multiplication with a frequency response.
-/
namespace Dsp
variable {T α : Type}

/-- Specification: the frequency of point `i` of a full spectrum with `n` points centred at 0 Hz, relative to the
    highest frequency: `-1` for the first point, `0` for point `n / 2`. -/
def spectrumAxis [Field T] (n i : Nat) : T := ((i : T) - ((n / 2 : Nat) : T)) / ((n / 2 : Nat) : T)

/-- Specification: every point is multiplied with `ratio` and with the response at its frequency times `ratio`;
    `scale` is the ratio as a number of the type of the points. -/
def filtered [Field T] [Mul α] (f : T → α) (ratio : T) (scale : α) (xs : List α) : List α :=
  xs.mapIdx fun i x => x * (scale * f (spectrumAxis xs.length i * ratio))

/-- Specification: `f` has the symmetry which `is_symmetric` announces. -/
def EvenFunction [Neg T] (f : T → α) : Prop := ∀ x, f (-x) = f x

/-- Specification: the spectrum after the multiplication with a real frequency response. -/
def Numbers.filteredReal [Field T] (f : T → T) (ratio : T) : Numbers T → Numbers T
  | .real xs => .real (filtered f ratio ratio xs)
  | .complex cs => .complex (filtered (fun x => ⟨f x, 0⟩) ratio ⟨ratio, 0⟩ cs)

/-- Specification: only the points `i` with `p i` are multiplied. -/
def filteredWhere [Field T] [Mul α] (p : Nat → Bool) (f : T → α) (ratio : T) (scale : α) (xs : List α) : List α :=
  xs.mapIdx fun i x => if p i then x * (scale * f (spectrumAxis xs.length i * ratio)) else x

/-- Specification: only the points `i` with `p i` are multiplied with a real response. -/
def Numbers.filteredRealWhere [Field T] (p : Nat → Bool) (f : T → T) (ratio : T) : Numbers T → Numbers T
  | .real xs => .real (filteredWhere p f ratio ratio xs)
  | .complex cs => .complex (filteredWhere p (fun x => (⟨f x, 0⟩ : Cx T)) ratio ⟨ratio, 0⟩ cs)

end Dsp
