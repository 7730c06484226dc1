import Verif.Spec.Program
import Verif.Spec.ProgramSafe
import Verif.Props.Dft
/-
Specification vocabulary for the laws of the Fourier transform (C83): the discrete Fourier transform as a formula, and what it
means that programs give certain signals and values in all environments.
-/
namespace Dsp
open DspVec

/-- `exp (2 π j x)`. -/
noncomputable def turn (x : ℝ) : ℂ := Complex.exp (2 * Real.pi * x * Complex.I)

/-- Frequency `k` of the numbers `cs`: `Σ cs[m] exp (-2 π j k m / n)`. -/
noncomputable def fourierAt (cs : List (Cx ℝ)) (k : ℤ) : ℂ :=
  ∑ m ∈ Finset.range cs.length, (cs.getD m ⟨0, 0⟩).toC * turn (-(k * m) / cs.length)

/-- What this library expects of the FFT library: it computes the discrete Fourier transform and its inverse, which is not
    normalised. -/
structure FftKernel.IsDft (K : FftKernel ℝ) : Prop where
  forward_length : ∀ cs, (K.forward cs).length = cs.length
  inverse_length : ∀ cs, (K.inverse cs).length = cs.length
  forward : ∀ cs k, k < cs.length → ((K.forward cs).getD k ⟨0, 0⟩).toC = fourierAt cs k
  inverse : ∀ cs k, k < cs.length → ((K.inverse cs).getD k ⟨0, 0⟩).toC = fourierAt cs (-k)

/-- In every environment which accepts it and for all schedules: a program with the calls `c` which starts with vectors which show
    the signals of `w` leaves a vector with the numbers `N` in the domain `d` in the variable `x`. -/
def Leaves (w : World ℝ) (c : List (StmtCall ℝ)) (x : Nat) (N : Numbers ℝ) (d : DataDomain) : Prop :=
  ∀ (m : Machine ℝ) (p : List (Stmt ℝ)), m.Shows w → p.map Stmt.call = c → m.SafeAll p →
    ∀ oracle f, runProgram oracle 0 m p = .finished f →
      (f.vec x).content = some N.flat ∧ (f.vec x).isComplex = N.isComplex ∧ (f.vec x).dom = d

/-- In every environment which accepts it and for all schedules: a program with the calls `c` which starts with vectors which show
    the signals of `w` returns the values `o`. -/
def Returns (w : World ℝ) (c : List (StmtCall ℝ)) (o : List (Out ℝ)) : Prop :=
  ∀ (m : Machine ℝ) (p : List (Stmt ℝ)), m.Shows w → p.map Stmt.call = c → m.SafeAll p →
    ∀ oracle f, runProgram oracle 0 m p = .finished f → f.out = w.out ++ o

/-- Two programs, in any two environments and for any schedules, leave vectors with the same content, number space and domain in
    the variable `x` if they start with the same signals. -/
def SameResult (w : World ℝ) (c1 c2 : List (StmtCall ℝ)) (x : Nat) : Prop :=
  ∀ (m1 m2 : Machine ℝ) (p1 p2 : List (Stmt ℝ)), m1.Shows w → m2.Shows w → p1.map Stmt.call = c1 → p2.map Stmt.call = c2 →
    m1.SafeAll p1 → m2.SafeAll p2 → ∀ o1 o2 f1 f2, runProgram o1 0 m1 p1 = .finished f1 → runProgram o2 0 m2 p2 = .finished f2 →
      (f1.vec x).content = (f2.vec x).content ∧ (f1.vec x).isComplex = (f2.vec x).isComplex ∧ (f1.vec x).dom = (f2.vec x).dom

end Dsp
