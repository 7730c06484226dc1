import Verif.Model.Slice
/-
Arithmetic of `num_complex::Complex<T>` (a dependency of the crate; its operators are taken from the
documentation of the crate `num-complex`).
-/
namespace Dsp
variable {T : Type}

/-- `Complex + Complex` (`impl Add for Complex`). -/
def Cx.add [Add T] (x y : Cx T) : Cx T := ⟨x.re + y.re, x.im + y.im⟩
/-- `Complex - Complex` (`impl Sub for Complex`). -/
def Cx.sub [Sub T] (a b : Cx T) : Cx T := ⟨a.re - b.re, a.im - b.im⟩
/-- `Complex * Complex` (`impl Mul for Complex`). -/
def Cx.mul [Mul T] [Add T] [Sub T] (x y : Cx T) : Cx T :=
  ⟨x.re * y.re - x.im * y.im, x.re * y.im + x.im * y.re⟩
/-- `Complex / Complex` (`impl Div for Complex`). -/
def Cx.div [Mul T] [Add T] [Sub T] [Div T] (x y : Cx T) : Cx T :=
  let n := y.re * y.re + y.im * y.im
  ⟨(x.re * y.re + x.im * y.im) / n, (x.im * y.re - x.re * y.im) / n⟩
/-- `Complex::conj`. -/
def Cx.conj [Neg T] (x : Cx T) : Cx T := ⟨x.re, -x.im⟩
/-- `Complex::norm_sqr`. -/
def Cx.normSq [Mul T] [Add T] (x : Cx T) : T := x.re * x.re + x.im * x.im
/-- `Complex::new(x, T::zero())`. -/
def Cx.ofReal [Zero T] (x : T) : Cx T := ⟨x, 0⟩

instance [Zero T] : Zero (Cx T) := ⟨⟨0, 0⟩⟩
instance [Zero T] [One T] : One (Cx T) := ⟨⟨1, 0⟩⟩
instance [Add T] : Add (Cx T) := ⟨Cx.add⟩
instance [Sub T] : Sub (Cx T) := ⟨Cx.sub⟩
instance [Neg T] : Neg (Cx T) := ⟨fun x => ⟨-x.re, -x.im⟩⟩
instance [Mul T] [Add T] [Sub T] : Mul (Cx T) := ⟨Cx.mul⟩
instance [Mul T] [Add T] [Sub T] [Div T] : Div (Cx T) := ⟨Cx.div⟩

end Dsp
