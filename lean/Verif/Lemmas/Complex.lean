import Verif.Model.Complex
import Mathlib.Algebra.Field.Basic
import Mathlib.Algebra.BigOperators.Group.List.Basic
import Mathlib.Tactic.Ring
/-
The complex numbers of the model form a commutative ring.
-/
namespace Dsp
variable {T : Type}

@[ext] theorem Cx.ext {x y : Cx T} (h1 : x.re = y.re) (h2 : x.im = y.im) : x = y := by
  cases x; cases y; simp_all

@[simp] theorem Cx.zero_re [Zero T] : (0 : Cx T).re = 0 := rfl
@[simp] theorem Cx.zero_im [Zero T] : (0 : Cx T).im = 0 := rfl
@[simp] theorem Cx.one_re [Zero T] [One T] : (1 : Cx T).re = 1 := rfl
@[simp] theorem Cx.one_im [Zero T] [One T] : (1 : Cx T).im = 0 := rfl
@[simp] theorem Cx.add_re [Add T] (x y : Cx T) : (x + y).re = x.re + y.re := rfl
@[simp] theorem Cx.add_im [Add T] (x y : Cx T) : (x + y).im = x.im + y.im := rfl
@[simp] theorem Cx.sub_re [Sub T] (x y : Cx T) : (x - y).re = x.re - y.re := rfl
@[simp] theorem Cx.sub_im [Sub T] (x y : Cx T) : (x - y).im = x.im - y.im := rfl
@[simp] theorem Cx.neg_re [Neg T] (x : Cx T) : (-x).re = -x.re := rfl
@[simp] theorem Cx.neg_im [Neg T] (x : Cx T) : (-x).im = -x.im := rfl
@[simp] theorem Cx.mul_re [Mul T] [Add T] [Sub T] (x y : Cx T) :
    (x * y).re = x.re * y.re - x.im * y.im := rfl
@[simp] theorem Cx.mul_im [Mul T] [Add T] [Sub T] (x y : Cx T) :
    (x * y).im = x.re * y.im + x.im * y.re := rfl

instance [AddCommMonoid T] : AddCommMonoid (Cx T) where
  add_assoc a b c := by ext <;> simp [add_assoc]
  zero_add a := by ext <;> simp
  add_zero a := by ext <;> simp
  add_comm a b := by ext <;> simp [add_comm]
  nsmul := nsmulRec

instance [CommRing T] : CommRing (Cx T) where
  add_assoc a b c := by ext <;> simp [add_assoc]
  zero_add a := by ext <;> simp
  add_zero a := by ext <;> simp
  add_comm a b := by ext <;> simp [add_comm]
  nsmul := nsmulRec
  zsmul := zsmulRec
  sub_eq_add_neg a b := by ext <;> simp [sub_eq_add_neg]
  neg_add_cancel a := by ext <;> simp
  mul_assoc a b c := by ext <;> simp <;> ring
  one_mul a := by ext <;> simp
  mul_one a := by ext <;> simp
  left_distrib a b c := by ext <;> simp <;> ring
  right_distrib a b c := by ext <;> simp <;> ring
  zero_mul a := by ext <;> simp
  mul_zero a := by ext <;> simp
  mul_comm a b := by ext <;> simp <;> ring

theorem Cx.sum_re [AddCommMonoid T] (l : List (Cx T)) : l.sum.re = (l.map Cx.re).sum := by
  induction l with
  | nil => rfl
  | cons x l ih => simp [ih]

theorem Cx.sum_im [AddCommMonoid T] (l : List (Cx T)) : l.sum.im = (l.map Cx.im).sum := by
  induction l with
  | nil => rfl
  | cons x l ih => simp [ih]

/-- Complex division in a field is the inverse of complex multiplication where the norm does not
    vanish: the specification `Cx.div` is really a division. -/
theorem Cx.div_mul [Field T] (x y : Cx T) (h : y.re * y.re + y.im * y.im ≠ 0) :
    (x.mul y).div y = x ∧ (x.div y).mul y = x := by
  obtain ⟨a, b⟩ := x
  obtain ⟨c, d⟩ := y
  simp only at h
  simp only [Cx.mul, Cx.div, Cx.mk.injEq]
  refine ⟨⟨?_, ?_⟩, ?_, ?_⟩
  · rw [div_eq_iff h]; ring
  · rw [div_eq_iff h]; ring
  · rw [div_mul_eq_mul_div, div_mul_eq_mul_div, ← sub_div, div_eq_iff h]; ring
  · rw [div_mul_eq_mul_div, div_mul_eq_mul_div, ← add_div, div_eq_iff h]; ring

end Dsp
