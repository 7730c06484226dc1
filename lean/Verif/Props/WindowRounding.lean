import Verif.Model.WindowFunctions
import Verif.Props.ModulationRounding
import Mathlib.Analysis.Real.Pi.Bounds
/-
C94: the accuracy of the window functions of the crate with floating point numbers.
-/
namespace Dsp
open DspVec

/-- The real numbers as a library. -/
noncomputable def realWindowLib : WindowLib ℝ :=
  ⟨fun n => n, 2, 4, 6, Real.pi, 0.35875, 0.48829, 0.14128, 0.01168, Real.cos, fun x => |x|⟩

/-- C94: with real numbers the windows of the code are the documented windows. -/
theorem C94_windows_exact (alpha : ℝ) : triangularWindow realWindowLib = triangular ∧
    hammingWindow realWindowLib alpha = hamming alpha ∧ blackmanHarrisWindow realWindowLib = blackmanHarris := ⟨rfl, rfl, rfl⟩

section
variable {R : Rounding}

/-- A library of floating point numbers: the constants and the conversion of counts are rounded, `abs` is exact, `cos` has an error of at
    most `e`. -/
structure WindowLibAccurate (l : WindowLib (Fl R)) (e : ℝ) : Prop where
  ofNat : ∀ n : Nat, (l.ofNat n).val = R.rnd n
  two : l.two.val = 2
  four : l.four.val = 4
  six : l.six.val = 6
  pi : l.pi.val = R.rnd Real.pi
  a0 : l.a0.val = R.rnd 0.35875
  a1 : l.a1.val = R.rnd 0.48829
  a2 : l.a2.val = R.rnd 0.14128
  a3 : l.a3.val = R.rnd 0.01168
  cos : ∀ x, |(l.cos x).val - Real.cos x.val| ≤ e
  abs : ∀ x, (l.abs x).val = |x.val|

/-- A rounded number as a multiple of the exact one. -/
theorem rnd_factor (R : Rounding) (x : ℝ) : ∃ d, |d| ≤ R.u ∧ R.rnd x = x * (1 + d) := by
  by_cases hx : x = 0
  · exact ⟨0, by simpa using R.u_nonneg, by subst hx; rw [R.rnd_zero]; simp⟩
  · refine ⟨(R.rnd x - x) / x, ?_, by field_simp; ring⟩
    rw [abs_div, div_le_iff₀ (abs_pos.2 hx)]
    exact R.error x

theorem factor_mul {g h d f : ℝ} (hd : |d| ≤ g) (hf : |f| ≤ h) : ∃ k, |k| ≤ g + h + g * h ∧ (1 + d) * (1 + f) = 1 + k := by
  refine ⟨d + f + d * f, ?_, by ring⟩
  have := abs_add_le (d + f) (d * f)
  have := abs_add_le d f
  rw [abs_mul] at *
  have := mul_le_mul hd hf (abs_nonneg _) ((abs_nonneg _).trans hd)
  linarith

/-- A quotient of factors. -/
theorem factor_div {g h d f : ℝ} (hd : |d| ≤ g) (hf : |f| ≤ h) (h1 : h < 1) :
    ∃ k, |k| ≤ (g + h) / (1 - h) ∧ (1 + d) / (1 + f) = 1 + k := by
  have hp : 1 - h ≤ 1 + f := by linarith [(abs_le.1 hf).1]
  have hp0 : 0 < 1 + f := by linarith
  refine ⟨(d - f) / (1 + f), ?_, by field_simp; ring⟩
  rw [abs_div, abs_of_pos hp0]
  have := abs_sub d f
  have hg := (abs_nonneg _).trans hd
  have hh := (abs_nonneg _).trans hf
  gcongr
  linarith

/-- The angle of a point is right up to nine units. -/
theorem angle_error (hu : R.u ≤ 1 / 1000) (c : ℝ) (n len : Nat) (h2 : 2 ≤ len) :
    ∃ k, |k| ≤ 9 * R.u ∧
      R.rnd (R.rnd (R.rnd (c * R.rnd Real.pi) * R.rnd n) / R.rnd (R.rnd len - 1)) =
        c * Real.pi * n / ((len : ℝ) - 1) * (1 + k) := by
  have h0 := R.u_nonneg
  obtain ⟨d1, e1, f1⟩ := rnd_factor R Real.pi
  rw [f1]
  obtain ⟨d2, e2, f2⟩ := rnd_factor R (c * (Real.pi * (1 + d1)))
  rw [f2]
  obtain ⟨d3, e3, f3⟩ := rnd_factor R n
  rw [f3]
  obtain ⟨d4, e4, f4⟩ := rnd_factor R (c * (Real.pi * (1 + d1)) * (1 + d2) * (n * (1 + d3)))
  rw [f4]
  obtain ⟨d5, e5, f5⟩ := rnd_factor R len
  rw [f5]
  have hl : (2 : ℝ) ≤ len := by exact_mod_cast h2
  have hl1 : (0 : ℝ) < (len : ℝ) - 1 := by linarith
  have hm : (len : ℝ) * (1 + d5) - 1 = ((len : ℝ) - 1) * (1 + len / ((len : ℝ) - 1) * d5) := by field_simp; ring
  have e6 : |(len : ℝ) / ((len : ℝ) - 1) * d5| ≤ 2 * R.u := by
    rw [abs_mul, abs_of_nonneg (by positivity)]
    refine mul_le_mul ?_ e5 (abs_nonneg _) (by norm_num)
    rw [div_le_iff₀ hl1]; linarith
  rw [hm]
  generalize (len : ℝ) / ((len : ℝ) - 1) * d5 = d6 at *
  obtain ⟨d7, e7, f7⟩ := rnd_factor R (((len : ℝ) - 1) * (1 + d6))
  rw [f7]
  obtain ⟨d8, e8, f8⟩ := rnd_factor R (c * (Real.pi * (1 + d1)) * (1 + d2) * (n * (1 + d3)) * (1 + d4) / (((len : ℝ) - 1) * (1 + d6) * (1 + d7)))
  rw [f8]
  have b2 : R.u * R.u ≤ R.u / 1000 := by nlinarith
  obtain ⟨k1, g1, i1⟩ := factor_mul e1 e2
  have c1 : |k1| ≤ 2.001 * R.u := by linarith
  obtain ⟨k2, g2, i2⟩ := factor_mul c1 e3
  have c2 : |k2| ≤ 3.004 * R.u := by linarith
  obtain ⟨k3, g3, i3⟩ := factor_mul c2 e4
  have c3 : |k3| ≤ 4.008 * R.u := by linarith
  obtain ⟨k4, g4, i4⟩ := factor_mul c3 e8
  have c4 : |k4| ≤ 5.014 * R.u := by linarith
  obtain ⟨k5, g5, i5⟩ := factor_mul e6 e7
  have c5 : |k5| ≤ 3.002 * R.u := by linarith
  obtain ⟨k6, g6, i6⟩ := factor_div c4 c5 (by linarith)
  refine ⟨k6, g6.trans ?_, ?_⟩
  · rw [div_le_iff₀ (by linarith)]
    linarith
  · rw [← i6, ← i4, ← i3, ← i2, ← i1, ← i5]
    have p5 : (0 : ℝ) < 1 + k5 := by linarith [(abs_le.1 c5).1]
    have p6 : (1 + d6) * (1 + d7) ≠ 0 := by rw [i5]; exact p5.ne'
    have p7 := left_ne_zero_of_mul p6
    have p8 := right_ne_zero_of_mul p6
    have p9 := hl1.ne'
    clear * - p7 p8 p9
    generalize 1 + d1 = D1
    generalize 1 + d2 = D2
    generalize 1 + d3 = D3
    generalize 1 + d4 = D4
    generalize 1 + d6 = D6 at *
    generalize 1 + d7 = D7 at *
    generalize 1 + d8 = D8
    generalize (len : ℝ) - 1 = L at *
    field_simp

theorem cos_lipschitz (x y : ℝ) : |Real.cos x - Real.cos y| ≤ |x - y| := by
  have h := phasor_sub_le x y
  have hre := Complex.abs_re_le_norm (phasor x - phasor y)
  have e : ∀ x : ℝ, (phasor x).re = Real.cos x := fun x => by
    unfold phasor; rw [mul_comm]; exact Complex.exp_ofReal_mul_I_re x
  rw [Complex.sub_re, e, e] at hre
  exact hre.trans h

/-- The cosine of the angle of a point. -/
theorem cos_angle {l : WindowLib (Fl R)} {e : ℝ} (hl : WindowLibAccurate l e) (hu : R.u ≤ 1 / 1000) (c : Fl R) (hc : 0 ≤ c.val)
    (n len : Nat) (h2 : 2 ≤ len) (hn : n < len) :
    |(l.cos (c * l.pi * l.ofNat n / (l.ofNat len - 1))).val - Real.cos (c.val * Real.pi * n / ((len : ℝ) - 1))| ≤
      e + c.val * 29 * R.u := by
  obtain ⟨k, h3, h4⟩ := angle_error hu c.val n len h2
  have h0 := R.u_nonneg
  have h5 := hl.cos (c * l.pi * l.ofNat n / (l.ofNat len - 1))
  have h6 : (c * l.pi * l.ofNat n / (l.ofNat len - 1) : Fl R).val = c.val * Real.pi * n / ((len : ℝ) - 1) * (1 + k) := by
    rw [← h4, ← hl.pi, ← hl.ofNat, ← hl.ofNat]
    rfl
  rw [h6] at h5
  have h7 := cos_lipschitz (c.val * Real.pi * n / ((len : ℝ) - 1) * (1 + k)) (c.val * Real.pi * n / ((len : ℝ) - 1))
  have hl2 : (2 : ℝ) ≤ len := by exact_mod_cast h2
  have hn' : (n : ℝ) + 1 ≤ len := by exact_mod_cast hn
  have h8 : |c.val * Real.pi * n / ((len : ℝ) - 1) * (1 + k) - c.val * Real.pi * n / ((len : ℝ) - 1)| ≤ c.val * 29 * R.u := by
    have e1 : c.val * Real.pi * n / ((len : ℝ) - 1) * (1 + k) - c.val * Real.pi * n / ((len : ℝ) - 1) =
        c.val * Real.pi * (n / ((len : ℝ) - 1)) * k := by ring
    have q1 : (n : ℝ) / ((len : ℝ) - 1) ≤ 1 := by rw [div_le_one (by linarith)]; linarith
    have q0 : 0 ≤ (n : ℝ) / ((len : ℝ) - 1) := div_nonneg (Nat.cast_nonneg _) (by linarith)
    rw [e1, abs_mul, abs_of_nonneg (by have := Real.pi_pos; positivity)]
    have hpi := Real.pi_lt_d2
    have := Real.pi_pos
    calc _ ≤ c.val * 3.15 * 1 * (9 * R.u) := by gcongr
      _ ≤ _ := by nlinarith [mul_nonneg hc h0]
  have := abs_add_le ((l.cos (c * l.pi * l.ofNat n / (l.ofNat len - 1))).val - Real.cos (c.val * Real.pi * n / ((len : ℝ) - 1) * (1 + k)))
    (Real.cos (c.val * Real.pi * n / ((len : ℝ) - 1) * (1 + k)) - Real.cos (c.val * Real.pi * n / ((len : ℝ) - 1)))
  rw [sub_add_sub_cancel] at this
  linarith

/-- The error of a rounded product with a rounded constant. -/
theorem const_mul_error (hu : R.u ≤ 1 / 1000) {a b x y g : ℝ} (ha : |b - a| ≤ R.u) (ha1 : |a| ≤ 1) (hy : |y| ≤ 1) (h : |x - y| ≤ g) (hg : g ≤ 1) :
    |R.rnd (b * x) - a * y| ≤ |a| * g + 5 * R.u := by
  have h0 := R.u_nonneg
  have r := R.error (b * x)
  have hx : |x| ≤ 1 + g := by
    have := abs_add_le (x - y) y
    rw [sub_add_cancel] at this; linarith
  have hb : |b| ≤ 1 + R.u := by
    have := abs_add_le (b - a) a
    rw [sub_add_cancel] at this; linarith
  have e1 : b * x - a * y = (b - a) * x + a * (x - y) := by ring
  have e2 : |b * x - a * y| ≤ R.u * (1 + g) + |a| * g := by
    rw [e1]
    refine (abs_add_le _ _).trans ?_
    rw [abs_mul, abs_mul]
    have q1 := mul_le_mul ha hx (abs_nonneg _) h0
    have q2 := mul_le_mul_of_nonneg_left h (abs_nonneg a)
    linarith
  have e3 : |b * x| ≤ (1 + R.u) * (1 + g) := by
    rw [abs_mul]; exact mul_le_mul hb hx (abs_nonneg _) (by linarith)
  have tri := abs_add_le (R.rnd (b * x) - b * x) (b * x - a * y)
  rw [sub_add_sub_cancel] at tri
  have hg0 := (abs_nonneg _).trans h
  have q3 := mul_le_mul_of_nonneg_left e3 h0
  have q4 : R.u * ((1 + R.u) * (1 + g)) ≤ R.u * 2.002 := mul_le_mul_of_nonneg_left (by nlinarith) h0
  have q5 : R.u * (1 + g) ≤ R.u * 2 := mul_le_mul_of_nonneg_left (by linarith) h0
  linarith

theorem round_sum_error {x y g : ℝ} (h : |x - y| ≤ g) : |R.rnd x - y| ≤ g + R.u * (|y| + g) := by
  have h0 := R.u_nonneg
  have r := R.error x
  have hx : |x| ≤ |y| + g := by
    have := abs_add_le (x - y) y
    rw [sub_add_cancel] at this; linarith
  have := mul_le_mul_of_nonneg_left hx h0
  have tri := abs_add_le (R.rnd x - x) (x - y)
  rw [sub_add_sub_cancel] at tri
  linarith

/-- C94: the Hamming windows with floating point numbers: the error is at most twice the error of the cosine and 200 units. -/
theorem C94_hamming {l : WindowLib (Fl R)} {e : ℝ} (hl : WindowLibAccurate l e) (hu : R.u ≤ 1 / 1000) (he : e ≤ 1 / 2) (alpha : Fl R)
    (h0 : 0 ≤ alpha.val) (h1 : alpha.val ≤ 1) (n len : Nat) (h2 : 2 ≤ len) (hn : n < len) :
    |((hammingWindow l alpha).window n len).val - (hamming alpha.val).window n len| ≤ 2 * e + 200 * R.u := by
  have hu0 := R.u_nonneg
  have hc := cos_angle hl hu l.two (by rw [hl.two]; norm_num) n len h2 hn
  have he0 : 0 ≤ e := (abs_nonneg _).trans (hl.cos 0)
  rw [hl.two] at hc
  generalize hy : Real.cos (2 * Real.pi * n / ((len : ℝ) - 1)) = y at hc
  have hy1 : |y| ≤ 1 := by rw [← hy]; exact Real.abs_cos_le_one _
  have hbeta : |(1 - alpha : Fl R).val - (1 - alpha.val)| ≤ R.u := by
    have : |(1 - alpha : Fl R).val - (1 - alpha.val)| ≤ R.u * |1 - alpha.val| := R.error (1 - alpha.val)
    rw [abs_of_nonneg (a := 1 - alpha.val) (by linarith)] at this
    nlinarith
  have h3 := const_mul_error hu hbeta (by rw [abs_of_nonneg (by linarith)]; linarith) hy1 hc (by linarith)
  rw [abs_of_nonneg (a := 1 - alpha.val) (by linarith)] at h3
  have h4 : |(alpha.val - R.rnd ((1 - alpha : Fl R).val * (l.cos (l.two * l.pi * l.ofNat n / (l.ofNat len - 1))).val)) -
      (alpha.val - (1 - alpha.val) * y)| ≤ (1 - alpha.val) * (e + 2 * 29 * R.u) + 5 * R.u := by
    rw [sub_sub_sub_cancel_left, abs_sub_comm]; exact h3
  have h5 := round_sum_error (R := R) h4
  have h6 : |alpha.val - (1 - alpha.val) * y| ≤ 1 := by
    rw [abs_le] at *
    constructor <;> nlinarith
  show |R.rnd (alpha.val - R.rnd ((1 - alpha : Fl R).val * (l.cos (l.two * l.pi * l.ofNat n / (l.ofNat len - 1))).val)) -
    (alpha.val - (1 - alpha.val) * Real.cos (2 * Real.pi * n / ((len : ℝ) - 1)))| ≤ _
  rw [hy]
  refine h5.trans ?_
  have q : (1 - alpha.val) * (e + 2 * 29 * R.u) ≤ e + 58 * R.u := by nlinarith
  nlinarith

/-- C94: the Blackman-Harris window. -/
theorem C94_blackman_harris {l : WindowLib (Fl R)} {e : ℝ} (hl : WindowLibAccurate l e) (hu : R.u ≤ 1 / 1000) (he : e ≤ 1 / 2)
    (n len : Nat) (h2 : 2 ≤ len) (hn : n < len) :
    |((blackmanHarrisWindow l).window n len).val - blackmanHarris.window n len| ≤ 2 * e + 200 * R.u := by
  have hu0 := R.u_nonneg
  have he0 : 0 ≤ e := (abs_nonneg _).trans (hl.cos 0)
  have c1 := cos_angle hl hu l.two (by rw [hl.two]; norm_num) n len h2 hn
  have c2 := cos_angle hl hu l.four (by rw [hl.four]; norm_num) n len h2 hn
  have c3 := cos_angle hl hu l.six (by rw [hl.six]; norm_num) n len h2 hn
  rw [hl.two] at c1
  rw [hl.four] at c2
  rw [hl.six] at c3
  show |R.rnd (R.rnd (R.rnd (l.a0.val - R.rnd (l.a1.val * (l.cos (l.two * l.pi * l.ofNat n / (l.ofNat len - 1))).val)) +
      R.rnd (l.a2.val * (l.cos (l.four * l.pi * l.ofNat n / (l.ofNat len - 1))).val)) -
      R.rnd (l.a3.val * (l.cos (l.six * l.pi * l.ofNat n / (l.ofNat len - 1))).val)) -
    (0.35875 - 0.48829 * Real.cos (2 * Real.pi * n / ((len : ℝ) - 1)) + 0.14128 * Real.cos (4 * Real.pi * n / ((len : ℝ) - 1)) -
      0.01168 * Real.cos (6 * Real.pi * n / ((len : ℝ) - 1)))| ≤ _
  generalize (l.cos (l.two * l.pi * l.ofNat n / (l.ofNat len - 1))).val = x1 at *
  generalize (l.cos (l.four * l.pi * l.ofNat n / (l.ofNat len - 1))).val = x2 at *
  generalize (l.cos (l.six * l.pi * l.ofNat n / (l.ofNat len - 1))).val = x3 at *
  have y1 := Real.abs_cos_le_one (2 * Real.pi * n / ((len : ℝ) - 1))
  have y2 := Real.abs_cos_le_one (4 * Real.pi * n / ((len : ℝ) - 1))
  have y3 := Real.abs_cos_le_one (6 * Real.pi * n / ((len : ℝ) - 1))
  generalize Real.cos (2 * Real.pi * n / ((len : ℝ) - 1)) = z1 at *
  generalize Real.cos (4 * Real.pi * n / ((len : ℝ) - 1)) = z2 at *
  generalize Real.cos (6 * Real.pi * n / ((len : ℝ) - 1)) = z3 at *
  have ha : ∀ (b : Fl R) (a : ℝ), b.val = R.rnd a → 0 ≤ a → a ≤ 1 → |b.val - a| ≤ R.u ∧ |a| = a := fun b a hb h0 h1 => by
    have := R.error a
    rw [← hb, abs_of_nonneg (a := a) h0] at this
    exact ⟨by nlinarith, abs_of_nonneg h0⟩
  obtain ⟨p0, -⟩ := ha l.a0 _ hl.a0 (by norm_num) (by norm_num)
  obtain ⟨p1, q1⟩ := ha l.a1 _ hl.a1 (by norm_num) (by norm_num)
  obtain ⟨p2, q2⟩ := ha l.a2 _ hl.a2 (by norm_num) (by norm_num)
  obtain ⟨p3, q3⟩ := ha l.a3 _ hl.a3 (by norm_num) (by norm_num)
  have r1 := const_mul_error hu p1 (by rw [q1]; norm_num) y1 c1 (by linarith)
  have r2 := const_mul_error hu p2 (by rw [q2]; norm_num) y2 c2 (by linarith)
  have r3 := const_mul_error hu p3 (by rw [q3]; norm_num) y3 c3 (by linarith)
  rw [q1] at r1
  rw [q2] at r2
  rw [q3] at r3
  clear c1 c2 c3 p1 p2 p3 q1 q2 q3 ha
  generalize R.rnd (l.a1.val * x1) = w1 at *
  generalize R.rnd (l.a2.val * x2) = w2 at *
  generalize R.rnd (l.a3.val * x3) = w3 at *
  have b2 : R.u * R.u ≤ R.u / 1000 := by nlinarith
  have b3 : R.u * e ≤ R.u / 2 := by nlinarith
  have s1 : |l.a0.val - w1 - (0.35875 - 0.48829 * z1)| ≤ 0.5 * e + 35 * R.u := by
    rw [abs_le] at *
    constructor <;> linarith [r1.1, r1.2, p0.1, p0.2]
  have t1 := round_sum_error (R := R) s1
  have m1 : |0.35875 - 0.48829 * z1| ≤ 1 := by
    rw [abs_le] at *
    constructor <;> linarith [y1.1, y1.2]
  have s1' : |R.rnd (l.a0.val - w1) - (0.35875 - 0.48829 * z1)| ≤ 0.5 * e + 37 * R.u := by
    have := mul_le_mul_of_nonneg_left m1 hu0
    linarith
  generalize R.rnd (l.a0.val - w1) = v1 at *
  have s2 : |v1 + w2 - (0.35875 - 0.48829 * z1 + 0.14128 * z2)| ≤ 0.7 * e + 60 * R.u := by
    rw [abs_le] at *
    constructor <;> linarith [r2.1, r2.2, s1'.1, s1'.2]
  have t2 := round_sum_error (R := R) s2
  have m2 : |0.35875 - 0.48829 * z1 + 0.14128 * z2| ≤ 1 := by
    rw [abs_le] at *
    constructor <;> linarith [y1.1, y1.2, y2.1, y2.2]
  have s2' : |R.rnd (v1 + w2) - (0.35875 - 0.48829 * z1 + 0.14128 * z2)| ≤ 0.7 * e + 62 * R.u := by
    have := mul_le_mul_of_nonneg_left m2 hu0
    linarith
  generalize R.rnd (v1 + w2) = v2 at *
  have s3 : |v2 - w3 - (0.35875 - 0.48829 * z1 + 0.14128 * z2 - 0.01168 * z3)| ≤ 0.8 * e + 70 * R.u := by
    rw [abs_le] at *
    constructor <;> linarith [r3.1, r3.2, s2'.1, s2'.2]
  have t3 := round_sum_error (R := R) s3
  have m3 : |0.35875 - 0.48829 * z1 + 0.14128 * z2 - 0.01168 * z3| ≤ 2 := by
    rw [abs_le] at *
    constructor <;> linarith [y1.1, y1.2, y2.1, y2.2, y3.1, y3.2]
  have := mul_le_mul_of_nonneg_left m3 hu0
  linarith

/-- C94: the triangular window: twelve units. -/
theorem C94_triangular {l : WindowLib (Fl R)} {e : ℝ} (hl : WindowLibAccurate l e) (hu : R.u ≤ 1 / 1000)
    (n len : Nat) (hn : n < len) :
    |((triangularWindow l).window n len).val - triangular.window n len| ≤ 12 * R.u := by
  have hu0 := R.u_nonneg
  have b2 : R.u * R.u ≤ R.u / 1000 := by nlinarith
  show |R.rnd (1 - (l.abs ((l.ofNat n - (l.ofNat len - 1) / l.two) / (l.ofNat len / l.two))).val) -
    (1 - |((n : ℝ) - ((len : ℝ) - 1) / 2) / ((len : ℝ) / 2)|)| ≤ _
  rw [hl.abs]
  show |R.rnd (1 - |R.rnd (R.rnd ((l.ofNat n).val - R.rnd (R.rnd ((l.ofNat len).val - 1) / l.two.val)) /
    R.rnd ((l.ofNat len).val / l.two.val))|) - _| ≤ _
  rw [hl.ofNat, hl.ofNat, hl.two]
  have hn1 : (n : ℝ) + 1 ≤ len := by exact_mod_cast hn
  have hn0 : (0 : ℝ) ≤ n := Nat.cast_nonneg n
  have e1 := R.error n
  have e2 := R.error len
  generalize (n : ℝ) = N at *
  generalize (len : ℝ) = L at *
  have hL : 1 ≤ L := by linarith
  rw [abs_of_nonneg (a := N) hn0] at e1
  rw [abs_of_nonneg (a := L) (by linarith)] at e2
  have u1 : R.u * N ≤ R.u * L := mul_le_mul_of_nonneg_left (by linarith) hu0
  have u2 : 0 ≤ R.u * L := by positivity
  have u3 : R.u * (R.u * L) ≤ R.u * L / 1000 := by nlinarith
  generalize R.rnd N = N' at *
  generalize R.rnd L = L' at *
  -- len - 1
  have g1 : |L' - 1 - (L - 1)| ≤ R.u * L := by rw [sub_sub_sub_cancel_right]; exact e2
  have h1 := round_sum_error (R := R) g1
  rw [abs_of_nonneg (a := L - 1) (by linarith)] at h1
  generalize R.rnd (L' - 1) = M at *
  have i1 : |M - (L - 1)| ≤ 2.001 * (R.u * L) := by linarith
  -- its half
  have g2 : |M / 2 - (L - 1) / 2| ≤ 1.0005 * (R.u * L) := by
    rw [← sub_div, abs_div, abs_of_pos (by norm_num : (0:ℝ) < 2)]; linarith
  have h2 := round_sum_error (R := R) g2
  rw [abs_of_nonneg (a := (L - 1) / 2) (by linarith)] at h2
  generalize R.rnd (M / 2) = H at *
  have i2 : |H - (L - 1) / 2| ≤ 1.502 * (R.u * L) := by linarith
  -- the numerator
  have g3 : |N' - H - (N - (L - 1) / 2)| ≤ 2.502 * (R.u * L) := by
    rw [abs_le] at *
    constructor <;> linarith [e1.1, e1.2, i2.1, i2.2]
  have h3 := round_sum_error (R := R) g3
  have j3 : |N - (L - 1) / 2| ≤ L / 2 := by
    rw [abs_le]; constructor <;> linarith
  generalize R.rnd (N' - H) = X at *
  have i3 : |X - (N - (L - 1) / 2)| ≤ 3.01 * (R.u * L) := by
    have := mul_le_mul_of_nonneg_left j3 hu0
    linarith
  -- the denominator
  have g4 : |L' / 2 - L / 2| ≤ 0.5 * (R.u * L) := by
    rw [← sub_div, abs_div, abs_of_pos (by norm_num : (0:ℝ) < 2)]; linarith
  have h4 := round_sum_error (R := R) g4
  rw [abs_of_nonneg (a := L / 2) (by linarith)] at h4
  generalize R.rnd (L' / 2) = D at *
  have i4 : |D - L / 2| ≤ 1.001 * (R.u * L) := by linarith
  have u4 : R.u * L ≤ L / 1000 := by nlinarith
  have hD : 0.498 * L ≤ D := by linarith [(abs_le.1 i4).1]
  have hD0 : 0 < D := by linarith
  -- the quotient
  have hq1 : |(N - (L - 1) / 2) / (L / 2)| ≤ 1 := by
    rw [abs_div, abs_of_pos (by linarith : 0 < L / 2), div_le_one (by linarith)]; exact j3
  have g5 : |X / D - (N - (L - 1) / 2) / (L / 2)| ≤ 8.2 * R.u := by
    generalize hQ : (N - (L - 1) / 2) / (L / 2) = Q at *
    have hx : N - (L - 1) / 2 = Q * (L / 2) := by rw [← hQ]; field_simp
    rw [hx] at i3
    have e3 : X / D - Q = ((X - Q * (L / 2)) - Q * (D - L / 2)) / D := by field_simp; ring
    rw [e3, abs_div, abs_of_pos hD0, div_le_iff₀ hD0]
    refine (abs_sub _ _).trans ?_
    rw [abs_mul]
    have k1 : |Q| * |D - L / 2| ≤ 1 * (1.001 * (R.u * L)) := mul_le_mul hq1 i4 (abs_nonneg _) (by norm_num)
    have k2 : R.u * (0.498 * L) ≤ R.u * D := mul_le_mul_of_nonneg_left hD hu0
    linarith
  have h5 := round_sum_error (R := R) g5
  generalize (N - (L - 1) / 2) / (L / 2) = Q at *
  generalize R.rnd (X / D) = Q' at *
  have i5 : |Q' - Q| ≤ 9.3 * R.u := by
    have := mul_le_mul_of_nonneg_left hq1 hu0
    linarith
  have g6 : |1 - |Q'| - (1 - |Q|)| ≤ 9.3 * R.u := by
    rw [sub_sub_sub_cancel_left]
    exact (abs_abs_sub_abs_le _ _).trans (by rw [abs_sub_comm]; exact i5)
  have h6 := round_sum_error (R := R) g6
  have j6 : |1 - (|Q|)| ≤ 1 := by
    rw [abs_le]; constructor <;> linarith [abs_nonneg Q]
  have := mul_le_mul_of_nonneg_left j6 hu0
  linarith

/-- There is such a library for every rounding. -/
noncomputable def roundedWindowLib (R : Rounding) : WindowLib (Fl R) :=
  ⟨fun n => ⟨R.rnd n⟩, ⟨2⟩, ⟨4⟩, ⟨6⟩, ⟨R.rnd Real.pi⟩, ⟨R.rnd 0.35875⟩, ⟨R.rnd 0.48829⟩, ⟨R.rnd 0.14128⟩, ⟨R.rnd 0.01168⟩,
    fun x => ⟨R.rnd (Real.cos x.val)⟩, fun x => ⟨|x.val|⟩⟩

theorem roundedWindowLib_accurate : WindowLibAccurate (roundedWindowLib R) R.u :=
  ⟨fun _ => rfl, rfl, rfl, rfl, rfl, rfl, rfl, rfl, rfl, fun x => by
    have := R.error (Real.cos x.val)
    have h := Real.abs_cos_le_one x.val
    have := mul_le_mul_of_nonneg_left h R.u_nonneg
    show |R.rnd (Real.cos x.val) - Real.cos x.val| ≤ _
    linarith, fun _ => rfl⟩

/-- Hence, for numbers like `f32`, the Hamming window with 54/100 is right up to 202 units for every length from 2 on. -/
example (n len : Nat) (h2 : 2 ≤ len) (hn : n < len) :
    |((hammingWindow (roundedWindowLib (binaryRounding 23)) ⟨54 / 100⟩).window n len).val - (hamming (54 / 100)).window n len| ≤
      202 / 2 ^ 24 := by
  have hu : (binaryRounding 23).u = 1 / 2 ^ 24 := rfl
  have := C94_hamming (roundedWindowLib_accurate (R := binaryRounding 23)) (by rw [hu]; norm_num) (by rw [hu]; norm_num) ⟨54 / 100⟩
    (by norm_num) (by norm_num) n len h2 hn
  refine this.trans (le_of_eq ?_)
  rw [hu]
  ring

end
end Dsp
