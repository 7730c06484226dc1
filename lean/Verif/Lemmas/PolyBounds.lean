import Mathlib.Data.Real.Basic
import Mathlib.Algebra.Order.Floor.Ring
import Mathlib.Data.Rat.Floor
import Mathlib.Algebra.Order.Archimedean.Real.Basic
import Mathlib.Tactic.Ring
import Mathlib.Tactic.Linarith
import Mathlib.Tactic.Positivity
import Mathlib.Tactic.NormNum
import Mathlib.Tactic.FieldSimp
/-
Bounds of polynomials with rational coefficients on intervals of real numbers.
-/
namespace Dsp

/-- The polynomial with the coefficients `cs`, constant term first. -/
noncomputable def peval (cs : List ℚ) (t : ℝ) : ℝ := cs.foldr (fun c acc => (c : ℝ) + t * acc) 0

@[simp] theorem peval_nil (t : ℝ) : peval [] t = 0 := rfl
@[simp] theorem peval_cons (c : ℚ) (cs : List ℚ) (t : ℝ) : peval (c :: cs) t = (c : ℝ) + t * peval cs t := rfl

/-- The sum of two polynomials. -/
def padd : List ℚ → List ℚ → List ℚ
  | [], q => q
  | p, [] => p
  | a :: p, b :: q => (a + b) :: padd p q

theorem peval_padd (p q : List ℚ) (t : ℝ) : peval (padd p q) t = peval p t + peval q t := by
  induction p generalizing q with
  | nil => simp [padd]
  | cons a p ih =>
    cases q with
    | nil => simp [padd]
    | cons b q => simp only [padd, peval_cons, ih]; push_cast; ring

theorem peval_map (a : ℚ) (p : List ℚ) (t : ℝ) : peval (p.map (a * ·)) t = a * peval p t := by
  induction p with
  | nil => simp
  | cons b p ih => simp only [List.map_cons, peval_cons, ih]; push_cast; ring

/-- The polynomial `p (a + s)` in `s`. -/
def pshift (a : ℚ) : List ℚ → List ℚ
  | [] => []
  | c :: q => padd [c] (padd ((pshift a q).map (a * ·)) (0 :: pshift a q))

theorem peval_pshift (a : ℚ) (p : List ℚ) (s : ℝ) : peval (pshift a p) s = peval p (a + s) := by
  induction p with
  | nil => rfl
  | cons c q ih =>
    simp only [pshift, peval_padd, peval_map, peval_cons, peval_nil, ih]
    push_cast
    ring

/-- A lower bound of the polynomial on `[0, h]`. -/
def plower (h : ℚ) : List ℚ → ℚ
  | [] => 0
  | c :: q => c + min 0 (h * plower h q)

theorem plower_le (h : ℚ) (p : List ℚ) (s : ℝ) (h0 : 0 ≤ s) (h1 : s ≤ h) : (plower h p : ℝ) ≤ peval p s := by
  induction p with
  | nil => simp [plower]
  | cons c q ih =>
    simp only [plower, peval_cons]
    push_cast
    have : min 0 ((h : ℝ) * (plower h q : ℝ)) ≤ s * peval q s := by
      by_cases hn : 0 ≤ peval q s
      · exact (min_le_left _ _).trans (mul_nonneg h0 hn)
      · refine (min_le_right _ _).trans ?_
        have hl : (plower h q : ℝ) < 0 := by linarith
        calc (h : ℝ) * (plower h q : ℝ) ≤ s * plower h q := mul_le_mul_of_nonpos_right h1 hl.le
          _ ≤ s * peval q s := mul_le_mul_of_nonneg_left ih h0
    linarith

/-- A lower bound on `[a, a + n * h]`, found on `n` pieces. -/
theorem peval_bound (p : List ℚ) (a h : ℚ) (hh : 0 < h) (n : Nat) (lo : ℚ)
    (hc : ∀ i < n, lo ≤ plower h (pshift (a + i * h) p)) (t : ℝ) (h0 : (a : ℝ) ≤ t) (h1 : t < a + n * h) : (lo : ℝ) ≤ peval p t := by
  have hh' : (0 : ℝ) < h := by exact_mod_cast hh
  have hf0 : 0 ≤ (t - a) / h := div_nonneg (by linarith) hh'.le
  have hlt : (t - a) / h < n := by rw [div_lt_iff₀ hh']; linarith
  obtain ⟨hi1, hi2⟩ := And.intro (Nat.floor_le hf0) (Nat.lt_floor_add_one ((t - a) / h))
  have hin : ⌊(t - a) / h⌋₊ < n := (Nat.floor_lt hf0).2 hlt
  generalize ⌊(t - a) / (h : ℝ)⌋₊ = i at hi1 hi2 hin
  rw [le_div_iff₀ hh'] at hi1
  rw [div_lt_iff₀ hh'] at hi2
  have key := plower_le h (pshift (a + i * h) p) (t - (a + i * h)) (by linarith) (by linarith)
  rw [peval_pshift] at key
  have e : (((a + i * h : ℚ)) : ℝ) + (t - (a + i * h)) = t := by push_cast; ring
  rw [e] at key
  have := hc i hin
  have this' : (lo : ℝ) ≤ (plower h (pshift (a + i * h) p) : ℝ) := by exact_mod_cast this
  linarith

end Dsp
