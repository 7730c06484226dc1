import Verif.Spec.StatsComplexRounding
import Verif.Props.StatsRounding
import Verif.Props.ModulationRounding
import Mathlib.Analysis.SpecialFunctions.Pow.Complex
/-
C82: the root mean square of complex vectors with rounded numbers.
-/
namespace Dsp
open DspVec
variable {R : Rounding}

noncomputable section

theorem complex_add_error (x y : Cx (Fl R)) :
    ‖Fl.complex (x + y) - (Fl.complex x + Fl.complex y)‖ ≤ R.u * ‖Fl.complex x + Fl.complex y‖ := by
  have := rnd_parts (R := R) (x.re.val + y.re.val) (x.im.val + y.im.val)
  exact this

theorem absSquares_nonneg (cs : List (Cx (Fl R))) : 0 ≤ absSquares cs :=
  List.sum_nonneg (by intro x hx; obtain ⟨c, -, rfl⟩ := List.mem_map.mp hx; positivity)

theorem norm_exactSquares (cs : List (Cx (Fl R))) : ‖exactSquares cs‖ ≤ absSquares cs := by
  unfold exactSquares absSquares
  induction cs with
  | nil => simp
  | cons c cs ih =>
    simp only [List.map_cons, List.sum_cons]
    refine (norm_add_le _ _).trans (add_le_add ?_ ih)
    rw [norm_pow]

/-- The loop over the squares. -/
theorem squares_error (hu : R.u ≤ 1 / 1000) (cs : List (Cx (Fl R))) :
    ‖Fl.complex (cs.foldl (fun s x => s + x * x) 0) - exactSquares cs‖ ≤
      ((1 + 3 * R.u) * (1 + R.u) ^ cs.length - 1) * absSquares cs := by
  have hu0 := R.u_nonneg
  induction cs using List.reverseRecOn with
  | nil =>
    have : Fl.complex (0 : Cx (Fl R)) = 0 := rfl
    simp [exactSquares, absSquares, this]
  | append_singleton l x ih =>
    rw [List.foldl_append, List.foldl_cons, List.foldl_nil, List.length_append, List.length_cons, List.length_nil, zero_add]
    have e1 : exactSquares (l ++ [x]) = exactSquares l + Fl.complex x ^ 2 := by simp [exactSquares]
    have e2 : absSquares (l ++ [x]) = absSquares l + ‖Fl.complex x‖ ^ 2 := by simp [absSquares]
    rw [e1, e2]
    generalize l.foldl (fun s x => s + x * x) 0 = s at ih
    have h1 := complex_add_error s (x * x)
    have h2 : ‖Fl.complex (x * x) - Fl.complex x ^ 2‖ ≤ 3 * R.u * ‖Fl.complex x‖ ^ 2 := by
      have := cx_mul_three hu x x
      rw [norm_mul, ← pow_two, ← pow_two] at this
      exact this
    have hB : 1 + 3 * R.u ≤ (1 + 3 * R.u) * (1 + R.u) ^ l.length := by
      have := one_le_pow₀ (n := l.length) (show 1 ≤ 1 + R.u by linarith)
      nlinarith
    generalize hBd : (1 + 3 * R.u) * (1 + R.u) ^ l.length = B at ih hB
    have hx : 0 ≤ ‖Fl.complex x‖ ^ 2 := by positivity
    have hs := absSquares_nonneg l
    have h3 : ‖Fl.complex s + Fl.complex (x * x) - (exactSquares l + Fl.complex x ^ 2)‖ ≤
        (B - 1) * (absSquares l + ‖Fl.complex x‖ ^ 2) := by
      have := norm_add_le (Fl.complex s - exactSquares l) (Fl.complex (x * x) - Fl.complex x ^ 2)
      rw [show Fl.complex s - exactSquares l + (Fl.complex (x * x) - Fl.complex x ^ 2) =
        Fl.complex s + Fl.complex (x * x) - (exactSquares l + Fl.complex x ^ 2) by ring] at this
      nlinarith
    have h4 : ‖exactSquares l + Fl.complex x ^ 2‖ ≤ absSquares l + ‖Fl.complex x‖ ^ 2 := by
      refine (norm_add_le _ _).trans (add_le_add (norm_exactSquares l) ?_)
      rw [norm_pow]
    have h5 : ‖Fl.complex s + Fl.complex (x * x)‖ ≤ B * (absSquares l + ‖Fl.complex x‖ ^ 2) := by
      have := norm_add_le (Fl.complex s + Fl.complex (x * x) - (exactSquares l + Fl.complex x ^ 2)) (exactSquares l + Fl.complex x ^ 2)
      rw [sub_add_cancel] at this
      linarith
    have h6 := norm_add_le (Fl.complex (s + x * x) - (Fl.complex s + Fl.complex (x * x)))
      (Fl.complex s + Fl.complex (x * x) - (exactSquares l + Fl.complex x ^ 2))
    rw [sub_add_sub_cancel] at h6
    have h7 := mul_le_mul_of_nonneg_left h5 hu0
    rw [show (1 + 3 * R.u) * (1 + R.u) ^ (l.length + 1) = B * (1 + R.u) by rw [← hBd, pow_succ]; ring]
    linarith

/-- The division of a complex number by a count. -/
theorem complex_divN_error {B m : ℝ} {x : Cx (Fl R)} {z : ℂ} (h1 : ‖Fl.complex x - z‖ ≤ (B - 1) * m) (h2 : ‖z‖ ≤ m) (hB : 1 ≤ B)
    (n : Nat) (hn : n ≠ 0) (hu : R.u < 1) :
    ‖Fl.complex ⟨x.re / (n : Fl R), x.im / (n : Fl R)⟩ - z / n‖ ≤ (B * (1 + R.u) / (1 - R.u) - 1) * (m / n) := by
  have hu0 := R.u_nonneg
  have hm := (norm_nonneg _).trans h2
  have hn' : (0 : ℝ) < n := by exact_mod_cast Nat.pos_of_ne_zero hn
  have hv : 0 < 1 - R.u := by linarith
  have hc := R.error (n : ℝ)
  rw [abs_of_pos hn'] at hc
  have hr := rnd_parts (R := R) (x.re.val / R.rnd n) (x.im.val / R.rnd n)
  have hq : (⟨x.re.val / R.rnd n, x.im.val / R.rnd n⟩ : ℂ) = Fl.complex x / ((R.rnd n : ℝ) : ℂ) := by
    apply Complex.ext
    · rw [Complex.div_ofReal_re]; rfl
    · rw [Complex.div_ofReal_im]; rfl
  rw [hq] at hr
  show ‖(⟨R.rnd (x.re.val / R.rnd n), R.rnd (x.im.val / R.rnd n)⟩ : ℂ) - z / n‖ ≤ _
  generalize R.rnd (n : ℝ) = c at *
  have hc1 : (1 - R.u) * n ≤ c := by
    have := (abs_le.1 hc).1; linarith
  have hcp : 0 < c := lt_of_lt_of_le (by positivity) hc1
  have hcc : ((c : ℝ) : ℂ) ≠ 0 := by rw [Ne, Complex.ofReal_eq_zero]; exact hcp.ne'
  have hnc : ((n : ℝ) : ℂ) ≠ 0 := by rw [Ne, Complex.ofReal_eq_zero]; exact hn'.ne'
  have hx : ‖Fl.complex x‖ ≤ B * m := by
    have := norm_add_le (Fl.complex x - z) z
    rw [sub_add_cancel] at this; linarith
  have e : Fl.complex x / (c : ℂ) - z / ((n : ℝ) : ℂ) =
      Fl.complex x / (c : ℂ) * ((((n : ℝ) - c) / n : ℝ) : ℂ) + (Fl.complex x - z) / ((n : ℝ) : ℂ) := by
    rw [Complex.ofReal_div, Complex.ofReal_sub]
    field_simp
    ring
  have hw : |((n : ℝ) - c) / n| ≤ R.u := by
    rw [abs_div, abs_of_pos hn', div_le_iff₀ hn', abs_sub_comm]; exact hc
  have hxc : ‖Fl.complex x / (c : ℂ)‖ ≤ B * m / ((1 - R.u) * n) := by
    rw [norm_div, Complex.norm_real, Real.norm_eq_abs, abs_of_pos hcp]
    exact div_le_div₀ (by nlinarith) hx (by positivity) hc1
  have hxz : ‖(Fl.complex x - z) / ((n : ℝ) : ℂ)‖ ≤ (B - 1) * m / n := by
    rw [norm_div, Complex.norm_real, Real.norm_eq_abs, abs_of_pos hn']; gcongr
  have key : ‖Fl.complex x / (c : ℂ) - z / ((n : ℝ) : ℂ)‖ ≤ (B / (1 - R.u) - 1) * (m / n) := by
    calc _ ≤ ‖Fl.complex x / (c : ℂ)‖ * |((n : ℝ) - c) / n| + ‖(Fl.complex x - z) / ((n : ℝ) : ℂ)‖ := by
          rw [e]
          refine (norm_add_le _ _).trans (le_of_eq ?_)
          rw [norm_mul, Complex.norm_real, Real.norm_eq_abs]
      _ ≤ B * m / ((1 - R.u) * n) * R.u + (B - 1) * m / n := by
          refine add_le_add (mul_le_mul hxc hw (abs_nonneg _) ?_) hxz
          have : 0 ≤ B * m := by nlinarith
          positivity
      _ = (B / (1 - R.u) - 1) * (m / n) := by field_simp; ring
  have hxc' : ‖Fl.complex x / (c : ℂ)‖ ≤ B / (1 - R.u) * (m / n) := hxc.trans (le_of_eq (by field_simp))
  have tri := norm_add_le ((⟨R.rnd (x.re.val / c), R.rnd (x.im.val / c)⟩ : ℂ) - Fl.complex x / (c : ℂ))
    (Fl.complex x / (c : ℂ) - z / ((n : ℝ) : ℂ))
  rw [sub_add_sub_cancel] at tri
  have h3 := mul_le_mul_of_nonneg_left hxc' hu0
  calc _ ≤ _ := tri
    _ ≤ R.u * (B / (1 - R.u) * (m / n)) + (B / (1 - R.u) - 1) * (m / n) := by linarith
    _ = _ := by ring

/-- C82: the root mean square of a complex vector: its square is the mean of the squares of the points, up to the error of the square
    root of the library and of `n + 4` roundings. -/
theorem C82_complex_rms [LinearOrder K] (norm : Cx (Fl R) → K) (sqrt : Cx (Fl R) → Cx (Fl R)) (e : ℝ) (he : 0 ≤ e)
    (hs : ComplexSqrtAccurate sqrt e)
    (hnorm : ∀ x, norm ⟨0, 0⟩ ≤ norm x ∧ (norm x = norm ⟨0, 0⟩ → x = ⟨0, 0⟩)) (hu : R.u ≤ 1 / 1000) (st : MultiCoreSettings)
    (v : DspVec (Fl R)) (cs : List (Cx (Fl R))) (ha : v.content = some (fromComplex cs)) (hne : cs ≠ []) (order : List Nat) :
    ∃ s rms, v.statisticsComplex (complexStatOps norm sqrt) st order = some s ∧ s.rms = some rms ∧
      ‖Fl.complex rms ^ 2 - exactSquares cs / cs.length‖ ≤
        ((1 + e) * ((1 + 3 * R.u) * (1 + R.u) ^ (cs.length + 2) / (1 - R.u)) - 1) * (absSquares cs / cs.length) := by
  have hu0 := R.u_nonneg
  have hops : InitOk (complexStatOps norm sqrt) := ⟨rfl, .inr ⟨⟨0, 0⟩, rfl, hnorm⟩⟩
  have hl : cs.length ≠ 0 := fun hh => hne (List.eq_nil_of_length_eq_zero hh)
  obtain ⟨-, -, -, h3⟩ := merge_one_raw (addAll_raw (complexStatOps norm sqrt) hops cs) hne
  refine ⟨_, _, (statisticsComplex_value (complexStatOps norm sqrt) st v cs ha hne order).1, h3, ?_⟩
  have g1 := squares_error hu cs
  have g2 := complex_add_error 0 (cs.foldl (fun s x => s + x * x) 0)
  have z0 : Fl.complex (0 : Cx (Fl R)) = 0 := rfl
  rw [z0, zero_add] at g2
  have hm := norm_exactSquares cs
  have hm0 := absSquares_nonneg cs
  have hB : 1 ≤ (1 + 3 * R.u) * (1 + R.u) ^ cs.length := by
    have := one_le_pow₀ (n := cs.length) (show 1 ≤ 1 + R.u by linarith)
    nlinarith
  have hBn : (1 + 3 * R.u) * (1 + R.u) ^ (cs.length + 2) = (1 + 3 * R.u) * (1 + R.u) ^ cs.length * (1 + R.u) * (1 + R.u) := by ring
  rw [hBn]
  generalize (1 + 3 * R.u) * (1 + R.u) ^ cs.length = B at *
  generalize cs.foldl (fun s x => s + x * x) 0 = f at *
  have g3 : ‖Fl.complex (0 + f) - exactSquares cs‖ ≤ (B * (1 + R.u) - 1) * absSquares cs := by
    have t1 := norm_add_le (Fl.complex f - exactSquares cs) (exactSquares cs)
    rw [sub_add_cancel] at t1
    have t2 := norm_add_le (Fl.complex (0 + f) - Fl.complex f) (Fl.complex f - exactSquares cs)
    rw [sub_add_sub_cancel] at t2
    have t3 : ‖Fl.complex f‖ ≤ B * absSquares cs := by linarith
    have t4 := mul_le_mul_of_nonneg_left t3 hu0
    linarith
  have g4 := complex_divN_error g3 hm (by nlinarith) cs.length hl (by linarith)
  show ‖Fl.complex (sqrt ⟨(0 + f).re / (cs.length : Fl R), (0 + f).im / (cs.length : Fl R)⟩) ^ 2 - _‖ ≤ _
  generalize (⟨(0 + f).re / (cs.length : Fl R), (0 + f).im / (cs.length : Fl R)⟩ : Cx (Fl R)) = q at *
  have g5 := hs q
  generalize B * (1 + R.u) * (1 + R.u) / (1 - R.u) = D at *
  have hn' : (0 : ℝ) < cs.length := by exact_mod_cast Nat.pos_of_ne_zero hl
  have hmn : ‖exactSquares cs / cs.length‖ ≤ absSquares cs / cs.length := by
    rw [norm_div, Complex.norm_natCast]
    exact div_le_div_of_nonneg_right hm hn'.le
  have t1 := norm_add_le (Fl.complex q - exactSquares cs / cs.length) (exactSquares cs / cs.length)
  rw [sub_add_cancel] at t1
  have t2 := norm_add_le (Fl.complex (sqrt q) ^ 2 - Fl.complex q) (Fl.complex q - exactSquares cs / cs.length)
  rw [sub_add_sub_cancel] at t2
  have t3 : ‖Fl.complex q‖ ≤ D * (absSquares cs / cs.length) := by linarith
  have t4 := mul_le_mul_of_nonneg_left t3 he
  linarith

theorem kahan_components (l : List (Cx (Fl R))) (c : Cx (Fl R) × Cx (Fl R)) :
    (let r := l.foldl (kahanStep (· + ·) (· - ·)) c
     ((r.1.re, r.2.re), (r.1.im, r.2.im))) =
      ((l.map Cx.re).foldl (kahanStep (· + ·) (· - ·)) (c.1.re, c.2.re),
        (l.map Cx.im).foldl (kahanStep (· + ·) (· - ·)) (c.1.im, c.2.im)) := by
  induction l generalizing c with
  | nil => rfl
  | cons x l ih => exact ih (kahanStep (· + ·) (· - ·) c x)

/-- C82: the errors of the sum and the average of `statistics_prec` of complex vectors, for both components: they do not depend on the
    number of points, as long as `n u` is at most one percent. -/
theorem C82_complex_prec_errors [LinearOrder K] (norm : Cx (Fl R) → K) (sqrt : Cx (Fl R) → Cx (Fl R))
    (hnorm : ∀ x, norm ⟨0, 0⟩ ≤ norm x ∧ (norm x = norm ⟨0, 0⟩ → x = ⟨0, 0⟩)) (st : MultiCoreSettings)
    (v : DspVec (Fl R)) (cs : List (Cx (Fl R))) (ha : v.content = some (fromComplex cs)) (hne : cs ≠ [])
    (hn : (cs.length : ℝ) * R.u ≤ 1 / 100) (order : List Nat) (comp : Cx (Fl R) → Fl R) (hcomp : comp = Cx.re ∨ comp = Cx.im) :
    ∃ s average, v.statisticsPrecComplex (complexStatOps norm sqrt) st order = some s ∧ s.average = some average ∧
      |(comp s.sum).val - exactSum (cs.map comp)| ≤ 10 * R.u * absSum (cs.map comp) ∧
      |(comp average).val - exactSum (cs.map comp) / cs.length| ≤ 12 * R.u * (absSum (cs.map comp) / cs.length) := by
  have hu0 := R.u_nonneg
  have hu1 : R.u ≤ 1 / 100 := by
    have : (1 : ℝ) ≤ cs.length := by exact_mod_cast List.length_pos_iff.2 hne
    nlinarith
  have hops : InitOk (complexStatOps norm sqrt) := ⟨rfl, .inr ⟨⟨0, 0⟩, rfl, hnorm⟩⟩
  have hl : cs.length ≠ 0 := fun hh => hne (List.eq_nil_of_length_eq_zero hh)
  obtain ⟨-, h1, h2, -⟩ := merge_one_raw (addAllPrec_raw (complexStatOps norm sqrt) hops cs) hne
  have hk := kahan_components cs (0, 0)
  have hfold : comp (kahanSum (· + ·) (· - ·) 0 cs) = kahanSum (· + ·) (· - ·) 0 (cs.map comp) := by
    rcases hcomp with rfl | rfl
    · exact congrArg (fun x => x.1.1) hk
    · exact congrArg (fun x => x.2.1) hk
  have hadd : ∀ x : Cx (Fl R), comp (0 + x) = 0 + comp x := by
    rcases hcomp with rfl | rfl <;> exact fun _ => rfl
  have hdiv : ∀ (x : Cx (Fl R)) (n : Nat), comp ((complexStatOps norm sqrt).divN x n) = comp x / (n : Fl R) := by
    rcases hcomp with rfl | rfl <;> exact fun _ _ => rfl
  have hf := kahan_approx (cs.map comp) (by simpa using hn)
  have hz := ((Approx.zero (R := R)).mono hf.2.2).add hf
  rw [zero_add, zero_add] at hz
  have hab : 0 ≤ absSum (cs.map comp) := (abs_nonneg _).trans (exactSum_le _)
  have hv : 0 < 1 - R.u := by linarith
  have p2 : 0 ≤ R.u * R.u := mul_nonneg hu0 hu0
  have p2' : R.u * R.u ≤ 1 / 100 * R.u := mul_le_mul_of_nonneg_right hu1 hu0
  have p3 : R.u * R.u * R.u ≤ 1 / 100 * R.u := by nlinarith
  have p3' : 0 ≤ R.u * R.u * R.u := mul_nonneg p2 hu0
  refine ⟨_, _, (statisticsComplex_value (complexStatOps norm sqrt) st v cs ha hne order).2, h2, ?_, ?_⟩
  · rw [h1, hadd, hfold]
    refine hz.1.trans (mul_le_mul_of_nonneg_right ?_ hab)
    nlinarith
  · rw [hdiv, hadd, hfold]
    refine (hz.divN cs.length hl (by linarith)).1.trans (mul_le_mul_of_nonneg_right ?_ (by positivity))
    rw [sub_le_iff_le_add, div_le_iff₀ hv]
    nlinarith

theorem parts_le_norm (z : ℂ) : |z.re| + |z.im| ≤ 3 / 2 * ‖z‖ := by
  have h1 : ‖z‖ ^ 2 = z.re ^ 2 + z.im ^ 2 := by rw [← Complex.normSq_eq_norm_sq, Complex.normSq_apply]; ring
  refine abs_le_of_sq_le_sq' ?_ (by positivity) |>.2
  have h2 := sq_abs z.re
  have h3 := sq_abs z.im
  nlinarith [sq_nonneg (|z.re| - |z.im|)]

theorem sum_rounded_squares (hu : R.u ≤ 1 / 1000) (cs : List (Cx (Fl R))) :
    ‖(cs.map fun x => Fl.complex (x * x)).sum - exactSquares cs‖ ≤ 3 * R.u * absSquares cs ∧
    absSum (cs.map fun x => (x * x).re) + absSum (cs.map fun x => (x * x).im) ≤ 3 / 2 * (1 + 3 * R.u) * absSquares cs ∧
    (cs.map fun x => Fl.complex (x * x)).sum =
      ⟨exactSum (cs.map fun x => (x * x).re), exactSum (cs.map fun x => (x * x).im)⟩ := by
  unfold exactSquares absSquares absSum exactSum
  induction cs with
  | nil => refine ⟨by simp, by simp, rfl⟩
  | cons c cs ih =>
    obtain ⟨i1, i2, i3⟩ := ih
    simp only [List.map_cons, List.sum_cons]
    have h2 : ‖Fl.complex (c * c) - Fl.complex c ^ 2‖ ≤ 3 * R.u * ‖Fl.complex c‖ ^ 2 := by
      have := cx_mul_three hu c c
      rw [norm_mul, ← pow_two, ← pow_two] at this
      exact this
    refine ⟨?_, ?_, ?_⟩
    · rw [add_sub_add_comm, mul_add]
      exact (norm_add_le _ _).trans (add_le_add h2 i1)
    · have h3 : ‖Fl.complex (c * c)‖ ≤ (1 + 3 * R.u) * ‖Fl.complex c‖ ^ 2 := by
        have := norm_add_le (Fl.complex (c * c) - Fl.complex c ^ 2) (Fl.complex c ^ 2)
        rw [sub_add_cancel, norm_pow] at this
        linarith
      have h4 := parts_le_norm (Fl.complex (c * c))
      have h5 : |(c * c).re.val| + |(c * c).im.val| ≤ 3 / 2 * ‖Fl.complex (c * c)‖ := h4
      linarith
    · rw [i3]; rfl

/-- The compensated sum of the squares. -/
theorem kahan_squares_error (hu : R.u ≤ 1 / 1000) (cs : List (Cx (Fl R))) (hn : (cs.length : ℝ) * R.u ≤ 1 / 100) :
    ‖Fl.complex (kahanSum (· + ·) (· - ·) 0 (cs.map fun x => x * x)) - exactSquares cs‖ ≤ ((1 + 16 * R.u) - 1) * absSquares cs := by
  have hu0 := R.u_nonneg
  obtain ⟨g1, g2, g3⟩ := sum_rounded_squares hu cs
  have hk := kahan_components (cs.map fun x => x * x) (0, 0)
  rw [List.map_map, List.map_map] at hk
  have k1 : (kahanSum (· + ·) (· - ·) 0 (cs.map fun x => x * x)).re = kahanSum (· + ·) (· - ·) 0 (cs.map fun x => (x * x).re) :=
    congrArg (fun x => x.1.1) hk
  have k2 : (kahanSum (· + ·) (· - ·) 0 (cs.map fun x => x * x)).im = kahanSum (· + ·) (· - ·) 0 (cs.map fun x => (x * x).im) :=
    congrArg (fun x => x.2.1) hk
  have f1 := (kahan_approx (cs.map fun x => (x * x).re) (by simpa using hn)).1
  have f2 := (kahan_approx (cs.map fun x => (x * x).im) (by simpa using hn)).1
  rw [← k1] at f1
  rw [← k2] at f2
  generalize kahanSum (· + ·) (· - ·) 0 (cs.map fun x => x * x) = f at *
  have h1 : ‖Fl.complex f - (cs.map fun x => Fl.complex (x * x)).sum‖ ≤ 8 * R.u * (3 / 2 * (1 + 3 * R.u) * absSquares cs) := by
    rw [g3]
    refine (Complex.norm_le_abs_re_add_abs_im _).trans ?_
    have : |(Fl.complex f - ⟨exactSum (cs.map fun x => (x * x).re), exactSum (cs.map fun x => (x * x).im)⟩).re| +
        |(Fl.complex f - ⟨exactSum (cs.map fun x => (x * x).re), exactSum (cs.map fun x => (x * x).im)⟩).im| ≤
        8 * R.u * (absSum (cs.map fun x => (x * x).re) + absSum (cs.map fun x => (x * x).im)) := by
      rw [Complex.sub_re, Complex.sub_im]
      show |f.re.val - _| + |f.im.val - _| ≤ _
      linarith
    exact this.trans (mul_le_mul_of_nonneg_left g2 (by linarith))
  have t := norm_add_le (Fl.complex f - (cs.map fun x => Fl.complex (x * x)).sum) ((cs.map fun x => Fl.complex (x * x)).sum - exactSquares cs)
  rw [sub_add_sub_cancel] at t
  have hm0 := absSquares_nonneg cs
  have hum : 0 ≤ R.u * absSquares cs := mul_nonneg hu0 hm0
  have hum2 : R.u * (R.u * absSquares cs) ≤ 1 / 1000 * (R.u * absSquares cs) := mul_le_mul_of_nonneg_right hu hum
  nlinarith

/-- C82: the root mean square of `statistics_prec` of a complex vector: the error does not depend on the number of points, as long as
    `n u` is at most one percent. -/
theorem C82_complex_prec_rms [LinearOrder K] (norm : Cx (Fl R) → K) (sqrt : Cx (Fl R) → Cx (Fl R)) (e : ℝ) (he : 0 ≤ e)
    (hs : ComplexSqrtAccurate sqrt e)
    (hnorm : ∀ x, norm ⟨0, 0⟩ ≤ norm x ∧ (norm x = norm ⟨0, 0⟩ → x = ⟨0, 0⟩)) (hu : R.u ≤ 1 / 1000) (st : MultiCoreSettings)
    (v : DspVec (Fl R)) (cs : List (Cx (Fl R))) (ha : v.content = some (fromComplex cs)) (hne : cs ≠ [])
    (hn : (cs.length : ℝ) * R.u ≤ 1 / 100) (order : List Nat) :
    ∃ s rms, v.statisticsPrecComplex (complexStatOps norm sqrt) st order = some s ∧ s.rms = some rms ∧
      ‖Fl.complex rms ^ 2 - exactSquares cs / cs.length‖ ≤
        ((1 + e) * ((1 + 16 * R.u) * (1 + R.u) * (1 + R.u) / (1 - R.u)) - 1) * (absSquares cs / cs.length) := by
  have hu0 := R.u_nonneg
  have hops : InitOk (complexStatOps norm sqrt) := ⟨rfl, .inr ⟨⟨0, 0⟩, rfl, hnorm⟩⟩
  have hl : cs.length ≠ 0 := fun hh => hne (List.eq_nil_of_length_eq_zero hh)
  obtain ⟨-, -, -, h3⟩ := merge_one_raw (addAllPrec_raw (complexStatOps norm sqrt) hops cs) hne
  refine ⟨_, _, (statisticsComplex_value (complexStatOps norm sqrt) st v cs ha hne order).2, h3, ?_⟩
  have g1 := kahan_squares_error hu cs hn
  have g2 := complex_add_error 0 (kahanSum (· + ·) (· - ·) 0 (cs.map fun x => x * x))
  have z0 : Fl.complex (0 : Cx (Fl R)) = 0 := rfl
  rw [z0, zero_add] at g2
  have hm := norm_exactSquares cs
  have hm0 := absSquares_nonneg cs
  have hB : 1 ≤ 1 + 16 * R.u := by linarith
  generalize 1 + 16 * R.u = B at *
  generalize kahanSum (· + ·) (· - ·) 0 (cs.map fun x => x * x) = f at *
  have g3 : ‖Fl.complex (0 + f) - exactSquares cs‖ ≤ (B * (1 + R.u) - 1) * absSquares cs := by
    have t1 := norm_add_le (Fl.complex f - exactSquares cs) (exactSquares cs)
    rw [sub_add_cancel] at t1
    have t2 := norm_add_le (Fl.complex (0 + f) - Fl.complex f) (Fl.complex f - exactSquares cs)
    rw [sub_add_sub_cancel] at t2
    have t3 : ‖Fl.complex f‖ ≤ B * absSquares cs := by linarith
    have t4 := mul_le_mul_of_nonneg_left t3 hu0
    linarith
  have g4 := complex_divN_error g3 hm (by nlinarith) cs.length hl (by linarith)
  show ‖Fl.complex (sqrt ⟨(0 + f).re / (cs.length : Fl R), (0 + f).im / (cs.length : Fl R)⟩) ^ 2 - _‖ ≤ _
  generalize (⟨(0 + f).re / (cs.length : Fl R), (0 + f).im / (cs.length : Fl R)⟩ : Cx (Fl R)) = q at *
  have g5 := hs q
  generalize B * (1 + R.u) * (1 + R.u) / (1 - R.u) = D at *
  have hn' : (0 : ℝ) < cs.length := by exact_mod_cast Nat.pos_of_ne_zero hl
  have hmn : ‖exactSquares cs / cs.length‖ ≤ absSquares cs / cs.length := by
    rw [norm_div, Complex.norm_natCast]
    exact div_le_div_of_nonneg_right hm hn'.le
  have t1 := norm_add_le (Fl.complex q - exactSquares cs / cs.length) (exactSquares cs / cs.length)
  rw [sub_add_cancel] at t1
  have t2 := norm_add_le (Fl.complex (sqrt q) ^ 2 - Fl.complex q) (Fl.complex q - exactSquares cs / cs.length)
  rw [sub_add_sub_cancel] at t2
  have t3 : ‖Fl.complex q‖ ≤ D * (absSquares cs / cs.length) := by linarith
  have t4 := mul_le_mul_of_nonneg_left t3 he
  linarith

/-- There is such a square root for every rounding: the principal root with both parts rounded. -/
def roundedComplexSqrt (R : Rounding) (x : Cx (Fl R)) : Cx (Fl R) :=
  ⟨⟨R.rnd (Fl.complex x ^ (1 / 2 : ℂ)).re⟩, ⟨R.rnd (Fl.complex x ^ (1 / 2 : ℂ)).im⟩⟩

theorem roundedComplexSqrt_accurate : ComplexSqrtAccurate (roundedComplexSqrt R) (2 * R.u + R.u ^ 2) := by
  intro x
  have hu0 := R.u_nonneg
  have h := rnd_parts (R := R) (Fl.complex x ^ (1 / 2 : ℂ)).re (Fl.complex x ^ (1 / 2 : ℂ)).im
  have hw : (Fl.complex x ^ (1 / 2 : ℂ)) ^ 2 = Fl.complex x := by
    have := Complex.cpow_nat_inv_pow (Fl.complex x) (n := 2) (by norm_num)
    rwa [show ((2 : ℕ) : ℂ)⁻¹ = 1 / 2 by norm_num] at this
  rw [show (⟨(Fl.complex x ^ (1 / 2 : ℂ)).re, (Fl.complex x ^ (1 / 2 : ℂ)).im⟩ : ℂ) = Fl.complex x ^ (1 / 2 : ℂ) from rfl] at h
  rw [show (⟨R.rnd (Fl.complex x ^ (1 / 2 : ℂ)).re, R.rnd (Fl.complex x ^ (1 / 2 : ℂ)).im⟩ : ℂ) =
    Fl.complex (roundedComplexSqrt R x) from rfl] at h
  generalize Fl.complex (roundedComplexSqrt R x) = y at h
  generalize Fl.complex x ^ (1 / 2 : ℂ) = w at h hw
  rw [← hw, norm_pow]
  have e : y ^ 2 - w ^ 2 = (y - w) * (2 * w) + (y - w) ^ 2 := by ring
  rw [e]
  have t := norm_add_le ((y - w) * (2 * w)) ((y - w) ^ 2)
  have n2 : ‖(2 : ℂ)‖ = 2 := by norm_num
  rw [norm_mul, norm_mul, norm_pow, n2] at t
  have t1 := mul_le_mul_of_nonneg_right h (show 0 ≤ 2 * ‖w‖ by positivity)
  have t2 : ‖y - w‖ ^ 2 ≤ (R.u * ‖w‖) ^ 2 := pow_le_pow_left₀ (norm_nonneg _) h 2
  nlinarith

/-- Numbers like `f32`, two complex points. -/
example : let R := binaryRounding 23; let v := roundedVec R .complex
    ComplexSqrtAccurate (roundedComplexSqrt R) (2 * R.u + R.u ^ 2) ∧ R.u ≤ 1 / 1000 ∧
    (∀ x : Cx (Fl R), ‖Fl.complex (⟨0, 0⟩ : Cx (Fl R))‖ ≤ ‖Fl.complex x‖ ∧
      (‖Fl.complex x‖ = ‖Fl.complex (⟨0, 0⟩ : Cx (Fl R))‖ → x = ⟨0, 0⟩)) ∧
    ∃ cs, v.content = some (fromComplex cs) ∧ cs ≠ [] := by
  intro R v
  have hu : R.u = 1 / 2 ^ 24 := rfl
  have z0 : Fl.complex (⟨0, 0⟩ : Cx (Fl R)) = 0 := rfl
  refine ⟨roundedComplexSqrt_accurate, by rw [hu]; norm_num, fun x => ?_, ?_⟩
  · rw [z0, norm_zero]
    refine ⟨norm_nonneg _, fun h => ?_⟩
    have := norm_eq_zero.mp h
    have h1 : x.re.val = 0 := congrArg Complex.re this
    have h2 : x.im.val = 0 := congrArg Complex.im this
    obtain ⟨⟨a⟩, ⟨b⟩⟩ := x
    cases h1
    cases h2
    rfl
  · obtain ⟨cs, h, hl⟩ := (rounded_wf R .complex).content_even rfl
    exact ⟨cs, h, fun h0 => by rw [h0] at hl; exact absurd hl (by decide)⟩

end
end Dsp
