import Verif.Spec.ModulationRounding
import Verif.Props.ElementaryRounding
import Verif.Props.WindowsExact
import Mathlib.Analysis.SpecialFunctions.Trigonometric.Bounds
/-
C94: operations which use functions of the mathematical library, with floating point numbers: the multiplication with a complex
exponential, the magnitude, the absolute value and windows.
-/
namespace Dsp
open DspVec

/-! ### The complex exponential -/
section
variable {R : Rounding}

theorem norm_phasor (x : ℝ) : ‖phasor x‖ = 1 := by
  unfold phasor; rw [mul_comm]; exact Complex.norm_exp_ofReal_mul_I x

theorem phasor_add (x y : ℝ) : phasor (x + y) = phasor x * phasor y := by
  unfold phasor; rw [← Complex.exp_add]; congr 1; push_cast; ring

theorem phasor_zero : phasor 0 = 1 := by unfold phasor; simp

theorem phasor_pow (x : ℝ) (n : Nat) : phasor x ^ n = phasor (x * n) := by
  induction n with
  | zero => simp [phasor_zero]
  | succ n ih => rw [pow_succ, ih, ← phasor_add]; congr 1; push_cast; ring

theorem phasor_sub_le (x y : ℝ) : ‖phasor x - phasor y‖ ≤ |x - y| := by
  have h : phasor x - phasor y = phasor y * (phasor (x - y) - 1) := by
    rw [mul_sub, ← phasor_add, mul_one]; congr 2; ring
  rw [h, norm_mul, norm_phasor, one_mul]
  exact Real.norm_exp_I_mul_ofReal_sub_one_le

theorem cx_mul_three (hu : R.u ≤ 1 / 1000) (z w : Cx (Fl R)) :
    ‖Fl.complex (z.mul w) - Fl.complex z * Fl.complex w‖ ≤ 3 * R.u * ‖Fl.complex z * Fl.complex w‖ := by
  have := cx_error .mul z w hu (by simp)
  exact this

/-- The product of two approximations. -/
theorem mul_approx (hu : R.u ≤ 1 / 1000) {z w : Cx (Fl R)} {Z W : ℂ} {m B C : ℝ} (hB : 1 ≤ B)
    (hZ : ‖Z‖ = m) (hW : ‖W‖ = 1) (hz : ‖Fl.complex z - Z‖ ≤ m * (B - 1)) (hw : ‖Fl.complex w - W‖ ≤ C - 1) :
    ‖Fl.complex (z.mul w) - Z * W‖ ≤ m * (B * C * (1 + 3 * R.u) - 1) := by
  have h0 := R.u_nonneg
  have hm : 0 ≤ m := hZ ▸ norm_nonneg _
  have hz' : ‖Fl.complex z‖ ≤ m * B := by
    have := norm_add_le (Fl.complex z - Z) Z
    rw [sub_add_cancel] at this; linarith
  have hw' : ‖Fl.complex w‖ ≤ C := by
    have := norm_add_le (Fl.complex w - W) W
    rw [sub_add_cancel] at this; linarith
  have hC : 1 ≤ C := by linarith [norm_nonneg (Fl.complex w - W)]
  have h1 : ‖Fl.complex z * Fl.complex w‖ ≤ m * B * C := by
    rw [norm_mul]; exact mul_le_mul hz' hw' (norm_nonneg _) (by positivity)
  have h2 : ‖Fl.complex z * Fl.complex w - Z * W‖ ≤ m * (B * C - 1) := by
    have e : Fl.complex z * Fl.complex w - Z * W = (Fl.complex z - Z) * Fl.complex w + Z * (Fl.complex w - W) := by ring
    rw [e]
    refine (norm_add_le _ _).trans ?_
    rw [norm_mul, norm_mul, hZ]
    have a1 : ‖Fl.complex z - Z‖ * ‖Fl.complex w‖ ≤ m * (B - 1) * C := mul_le_mul hz hw' (norm_nonneg _) (by nlinarith)
    have a2 : m * ‖Fl.complex w - W‖ ≤ m * (C - 1) := mul_le_mul_of_nonneg_left hw hm
    linarith
  have h3 := cx_mul_three hu z w
  have h4 : 3 * R.u * ‖Fl.complex z * Fl.complex w‖ ≤ 3 * R.u * (m * B * C) := mul_le_mul_of_nonneg_left h1 (by linarith)
  have h5 := norm_add_le (Fl.complex (z.mul w) - Fl.complex z * Fl.complex w) (Fl.complex z * Fl.complex w - Z * W)
  rw [sub_add_sub_cancel] at h5
  linarith

/-- The running product. -/
theorem expLoop_get {T : Type} [Add T] [Sub T] [Mul T] (inc : Cx T) : ∀ (cs : List (Cx T)) (e : Cx T) (i : Nat) (c : Cx T), cs[i]? = some c →
    (expLoop inc e cs)[i]? = some (c.mul ((fun x => Cx.mul x inc)^[i] e))
  | [], _, _, _, h => by simp at h
  | c :: cs, e, 0, d, h => by simp at h; subst h; rfl
  | c :: cs, e, i + 1, d, h => by
    rw [expLoop, List.getElem?_cons_succ, expLoop_get inc cs _ i d (by simpa using h)]
    rfl

theorem expLoop_length {T : Type} [Add T] [Sub T] [Mul T] (inc : Cx T) : ∀ (cs : List (Cx T)) (e : Cx T),
    (expLoop inc e cs).length = cs.length
  | [], _ => rfl
  | _ :: cs, e => by rw [expLoop, List.length_cons, expLoop_length inc cs, List.length_cons]

theorem running_approx (hu : R.u ≤ 1 / 1000) {inc e : Cx (Fl R)} {x y C B : ℝ} (hC : 1 ≤ C) (hB : 1 ≤ B)
    (hinc : ‖Fl.complex inc - phasor x‖ ≤ C - 1) (he : ‖Fl.complex e - phasor y‖ ≤ B - 1) : ∀ i : Nat,
    ‖Fl.complex ((fun z => Cx.mul z inc)^[i] e) - phasor (x * i + y)‖ ≤ B * (C * (1 + 3 * R.u)) ^ i - 1
  | 0 => by simpa using he
  | i + 1 => by
    have h0 := R.u_nonneg
    have ih := running_approx hu hC hB hinc he i
    have hg : 1 ≤ B * (C * (1 + 3 * R.u)) ^ i := by
      have : 1 ≤ C * (1 + 3 * R.u) := by nlinarith
      have := one_le_pow₀ this (n := i)
      nlinarith
    have := mul_approx hu hg (norm_phasor _) (norm_phasor _) (by rw [one_mul]; exact ih) hinc
    rw [Function.iterate_succ_apply']
    have e1 : phasor (x * ((i + 1 : Nat) : ℝ) + y) = phasor (x * i + y) * phasor x := by
      rw [← phasor_add]; congr 1; push_cast; ring
    rw [e1, one_mul] at *
    refine this.trans (le_of_eq ?_)
    rw [pow_succ]; ring

/-- What `multiply_complex_exponential` computes, without any law of the arithmetic. -/
theorem exponential_bitwise {T : Type} [Add T] [Sub T] [Mul T] [Zero T] (cis : T → Cx T) (a b d : T) (v : DspVec T)
    (hv : v.WF) (hc : v.isComplex = true) (cs : List (Cx T)) (h : v.content = some (fromComplex cs)) (hd : v.delta = some d) :
    ∃ w, v.multiplyComplexExponential cis a b = some w ∧
      Replaced v w (fromComplex (expLoop (cis (a * d)) ((cis (b * d)).mul (cis (a * d * 0))) cs)) := by
  have ha : v.assertComplex = v := by simp [assertComplex, hc]
  have hl := hv.content_length h
  rw [length_fromComplex] at hl
  refine ⟨_, ?_, replaced_splice hv _ (by rw [length_fromComplex, expLoop_length]; exact hl)⟩
  unfold multiplyComplexExponential
  simp only [ha, h, hd, toComplex?_fromComplex, Option.bind_eq_bind, Option.bind_some]

/-- C94: `multiply_complex_exponential(a, b)` with the sampling distance `d`. The exponential is calculated by repeated
    multiplication, so the error of point `i` grows with `i`: every step contributes the error `e` of the library and three
    roundings; the rounding of the angle of one step contributes `i` times. -/
theorem C94_exponential (cis : Fl R → Cx (Fl R)) (e : ℝ) (hcis : CisAccurate cis e) (hu : R.u ≤ 1 / 1000) (a b d : Fl R)
    (v : DspVec (Fl R)) (hv : v.WF) (hc : v.isComplex = true) (hd : v.delta = some d) :
    ∃ cs w rs, v.content = some (fromComplex cs) ∧ v.multiplyComplexExponential cis a b = some w ∧
      Replaced v w (fromComplex rs) ∧ rs.length = cs.length ∧
      ∀ (i : Nat) c, cs[i]? = some c → ∃ z, rs[i]? = some z ∧
        ‖Fl.complex z - Fl.complex c * phasor (a.val * d.val * i + b.val * d.val)‖ ≤
          ‖Fl.complex c‖ * (((1 + e) * (1 + 3 * R.u)) ^ (i + 2) - 1 + R.u * (|a.val * d.val| * i + |b.val * d.val|)) := by
  obtain ⟨cs, h, hl⟩ := hv.content_even hc
  obtain ⟨w, h1, h2⟩ := exponential_bitwise cis a b d v hv hc cs h hd
  refine ⟨cs, w, _, h, h1, h2, expLoop_length _ _ _, fun i c hi => ⟨_, expLoop_get _ _ _ i c hi, ?_⟩⟩
  have h0 := R.u_nonneg
  have he : 0 ≤ e := (norm_nonneg _).trans (hcis 0)
  have hz : (a * d * 0 : Fl R).val = 0 := by
    show R.rnd ((a * d : Fl R).val * 0) = 0
    rw [mul_zero, R.rnd_zero]
  have c1 := hcis (a * d)
  have c2 := hcis (b * d)
  have c3 := hcis (a * d * 0)
  rw [hz] at c3
  have hstart := mul_approx hu (z := cis (b * d)) (w := cis (a * d * 0)) (B := 1 + e) (C := 1 + e) (by linarith)
    (norm_phasor (b * d : Fl R).val) (norm_phasor 0) (by rw [one_mul]; linarith [c2]) (by linarith [c3])
  rw [phasor_zero, mul_one, one_mul] at hstart
  have hB : 1 ≤ (1 + e) * (1 + e) * (1 + 3 * R.u) := by nlinarith [mul_nonneg he he, mul_nonneg (mul_nonneg he he) h0, mul_nonneg he h0]
  have hrun := running_approx hu (inc := cis (a * d)) (x := (a * d : Fl R).val) (C := 1 + e) (by linarith) hB (by linarith [c1]) hstart i
  have hB2 : 1 ≤ (1 + e) * (1 + e) * (1 + 3 * R.u) * ((1 + e) * (1 + 3 * R.u)) ^ i := by
    have : 1 ≤ (1 + e) * (1 + 3 * R.u) := by nlinarith [mul_nonneg he h0]
    have := one_le_pow₀ this (n := i)
    nlinarith
  have hfin := mul_approx hu (z := c) (Z := Fl.complex c) (B := 1) (le_refl 1) rfl (norm_phasor _) (by simp) hrun
  rw [one_mul] at hfin
  have e1 : (1 + e) * (1 + e) * (1 + 3 * R.u) * ((1 + e) * (1 + 3 * R.u)) ^ i * (1 + 3 * R.u) =
      ((1 + e) * (1 + 3 * R.u)) ^ (i + 2) := by rw [pow_add]; ring
  rw [e1] at hfin
  have hang : ‖phasor ((a * d : Fl R).val * i + (b * d : Fl R).val) - phasor (a.val * d.val * i + b.val * d.val)‖ ≤
      R.u * (|a.val * d.val| * i + |b.val * d.val|) := by
    refine (phasor_sub_le _ _).trans ?_
    have r1 : |(a * d : Fl R).val - a.val * d.val| ≤ _ := R.error (a.val * d.val)
    have r2 : |(b * d : Fl R).val - b.val * d.val| ≤ _ := R.error (b.val * d.val)
    have e2 : (a * d : Fl R).val * i + (b * d : Fl R).val - (a.val * d.val * i + b.val * d.val) =
        ((a * d : Fl R).val - a.val * d.val) * i + ((b * d : Fl R).val - b.val * d.val) := by ring
    rw [e2]
    refine (abs_add_le _ _).trans ?_
    rw [abs_mul, Nat.abs_cast]
    have := mul_le_mul_of_nonneg_right r1 (Nat.cast_nonneg (α := ℝ) i)
    linarith
  have tri := norm_add_le (Fl.complex (c.mul ((fun z => Cx.mul z (cis (a * d)))^[i] ((cis (b * d)).mul (cis (a * d * 0))))) -
      Fl.complex c * phasor ((a * d : Fl R).val * i + (b * d : Fl R).val))
    (Fl.complex c * phasor ((a * d : Fl R).val * i + (b * d : Fl R).val) - Fl.complex c * phasor (a.val * d.val * i + b.val * d.val))
  rw [sub_add_sub_cancel, ← mul_sub (Fl.complex c), norm_mul] at tri
  have := mul_le_mul_of_nonneg_left hang (norm_nonneg (Fl.complex c))
  linarith
end

theorem exact_mul (z w : Cx (Fl exactRounding)) : Fl.complex (z.mul w) = Fl.complex z * Fl.complex w := by
  apply Complex.ext
  · show z.re.val * w.re.val - z.im.val * w.im.val = _
    simp [Fl.complex]
  · show z.re.val * w.im.val + z.im.val * w.re.val = _
    simp [Fl.complex]

/-- C94: the growth is real: for every error `e` there is a library with that error for which, even without rounding, the amplitude
    of point `i` is wrong by the factor `(1 + e) ^ (i + 2)`. -/
theorem C94_exponential_drift (e : ℝ) (he : 0 ≤ e) : ∃ cis : Fl exactRounding → Cx (Fl exactRounding), CisAccurate cis e ∧
    ∀ (a b d : Fl exactRounding) (v : DspVec (Fl exactRounding)) (cs : List (Cx (Fl exactRounding))), v.WF → v.isComplex = true →
      v.delta = some d → v.content = some (fromComplex cs) →
      ∃ w rs, v.multiplyComplexExponential cis a b = some w ∧ Replaced v w (fromComplex rs) ∧ rs.length = cs.length ∧
        ∀ (i : Nat) c, cs[i]? = some c → ∃ z, rs[i]? = some z ∧ Fl.complex z =
          (1 + e) ^ (i + 2) * (Fl.complex c * phasor (a.val * d.val * i + b.val * d.val)) := by
  refine ⟨fun x => ⟨⟨(1 + e) * (phasor x.val).re⟩, ⟨(1 + e) * (phasor x.val).im⟩⟩, ?_, ?_⟩
  all_goals
    have hcis : ∀ x : Fl exactRounding, Fl.complex (R := exactRounding) ⟨⟨(1 + e) * (phasor x.val).re⟩, ⟨(1 + e) * (phasor x.val).im⟩⟩ =
        (1 + e) * phasor x.val := by
      intro x
      apply Complex.ext
      · simp [Fl.complex]
      · simp [Fl.complex]
  · intro x
    rw [hcis]
    have : (1 + (e : ℂ)) * phasor x.val - phasor x.val = e * phasor x.val := by ring
    rw [this, norm_mul, norm_phasor, mul_one, Complex.norm_real, Real.norm_eq_abs, abs_of_nonneg he]
  · intro a b d v cs hv hc hd h
    obtain ⟨w, h1, h2⟩ := exponential_bitwise _ a b d v hv hc cs h hd
    refine ⟨w, _, h1, h2, expLoop_length _ _ _, fun i c hi => ⟨_, expLoop_get _ _ _ i c hi, ?_⟩⟩
    have hit : ∀ (p q : Cx (Fl exactRounding)) (n : Nat),
        Fl.complex ((fun z => Cx.mul z p)^[n] q) = Fl.complex q * Fl.complex p ^ n := by
      intro p q n
      induction n with
      | zero => simp
      | succ n ih => rw [Function.iterate_succ_apply', exact_mul, ih, pow_succ, mul_assoc]
    rw [exact_mul, hit, exact_mul, hcis, hcis, hcis]
    have v1 : (a * d : Fl exactRounding).val = a.val * d.val := rfl
    have v2 : (b * d : Fl exactRounding).val = b.val * d.val := rfl
    have v3 : (a * d * 0 : Fl exactRounding).val = 0 := by
      show a.val * d.val * 0 = 0
      simp
    rw [v1, v2, v3, phasor_zero, mul_pow, phasor_pow, phasor_add, pow_add]
    ring

/-! ### Absolute values -/
section
variable {R : Rounding}

/-- The square root of an approximated square. -/
theorem sqrt_approx {y m g : ℝ} (hm : 0 ≤ m) (hg : g ≤ 1) (h : |y - m ^ 2| ≤ g * m ^ 2) :
    0 ≤ y ∧ |Real.sqrt y - m| ≤ g * m := by
  have hy : 0 ≤ y := by
    have := (abs_le.1 h).1
    nlinarith [sq_nonneg m]
  refine ⟨hy, ?_⟩
  rcases hm.eq_or_lt with rfl | hpos
  · have : y = 0 := by simpa using h
    simp [this]
  have h1 : (Real.sqrt y - m) * (Real.sqrt y + m) = y - m ^ 2 := by
    have := Real.mul_self_sqrt hy
    nlinarith
  have h2 : |Real.sqrt y - m| * (Real.sqrt y + m) ≤ g * m * m := by
    rw [← abs_of_nonneg (a := Real.sqrt y + m) (by positivity), ← abs_mul, h1]
    calc _ ≤ g * m ^ 2 := h
      _ = g * m * m := by ring
  have h3 : |Real.sqrt y - m| * m ≤ g * m * m := by
    refine le_trans ?_ h2
    exact mul_le_mul_of_nonneg_left (by linarith [Real.sqrt_nonneg y]) (abs_nonneg _)
  exact le_of_mul_le_mul_right h3 hpos

/-- The rounded square root of an approximated square. -/
theorem sqrt_rounded {sqrt : Fl R → Fl R} (hs : SqrtAccurate sqrt) {y : Fl R} {m g : ℝ} (hm : 0 ≤ m) (hg : g ≤ 1)
    (h : |y.val - m ^ 2| ≤ g * m ^ 2) : |(sqrt y).val - m| ≤ ((1 + R.u) * (1 + g) - 1) * m := by
  obtain ⟨h1, h2⟩ := sqrt_approx hm hg h
  have h3 := hs y h1
  have h0 := R.u_nonneg
  have h4 : Real.sqrt y.val ≤ (1 + g) * m := by linarith [(abs_le.1 h2).2]
  have h5 := abs_add_le ((sqrt y).val - Real.sqrt y.val) (Real.sqrt y.val - m)
  rw [sub_add_sub_cancel] at h5
  nlinarith [mul_le_mul_of_nonneg_left h4 h0]

/-- C94: `abs` of real vectors for every schedule. In registers the square root of the square is calculated, elsewhere the absolute
    value: both are right up to two roundings. -/
theorem C94_abs (lib : MathLib (Fl R)) (hs : SqrtAccurate lib.sqrt) (ha : ∀ x, (lib.abs x).val = |x.val|) (hu : R.u ≤ 1)
    (k : RegKind) (addr : Nat) (st : MultiCoreSettings) (v : DspVec (Fl R)) (hv : v.WF)
    (hr : v.isComplex = false) (hal : AlignmentAccepted addr k.len v.len) :
    ∃ a w r, v.content = some a ∧ Always (v.abs lib k addr st) w ∧ Replaced v w r ∧ r.length = a.length ∧
      ∀ (i : Nat) x, a[i]? = some x → ∃ z, r[i]? = some z ∧ |z.val - (|x.val|)| ≤ ((1 + R.u) ^ 2 - 1) * |x.val| := by
  obtain ⟨a, w, h1, h2, h3⟩ := C74_abs lib k addr st v hv hr hal
  refine ⟨a, w, _, h1, h2, h3, by simp, fun i x hi => ⟨_, by rw [List.getElem?_mapIdx, hi]; rfl, ?_⟩⟩
  have h0 := R.u_nonneg
  beta_reduce
  split
  · have e : |(x * x : Fl R).val - _root_.abs x.val ^ 2| ≤ R.u * _root_.abs x.val ^ 2 := by
      have := R.error (x.val * x.val)
      rw [abs_mul] at this
      rw [sq_abs]
      calc _ ≤ R.u * (|x.val| * |x.val|) := by rw [pow_two (x.val)]; exact this
        _ = R.u * x.val ^ 2 := by rw [abs_mul_abs_self]; ring
    refine (sqrt_rounded hs (abs_nonneg _) hu e).trans (le_of_eq ?_)
    ring
  · rw [ha, sub_self, abs_zero]
    have : 0 ≤ (1 + R.u) ^ 2 - 1 := by nlinarith
    positivity

/-- C94: `magnitude_b`, for every buffer: in registers the square root of the sum of the squares is calculated, elsewhere the norm of
    the library (`norm`): both are right up to three roundings if the norm of the library is. Excluded: AVX registers with four
    `f64` (`C30_avx_f64_violated`) and alignments which the SIMD splitting does not accept (C19). -/
theorem C94_magnitude_b (sqrt : Fl R → Fl R) (norm : Cx (Fl R) → Fl R) (hs : SqrtAccurate sqrt) (hu : (1 + R.u) ^ 2 ≤ 2)
    (hn : ∀ c, |(norm c).val - ‖Fl.complex c‖| ≤ ((1 + R.u) ^ 3 - 1) * ‖Fl.complex c‖)
    (k : RegKind) (hk : k ≠ .avxF64x4) (addr : Nat) (v : DspVec (Fl R)) (hc : v.isComplex = true) (cs : List (Cx (Fl R)))
    (h : v.content = some (fromComplex cs)) (b : Buffer (Fl R)) (hb : BufferOk b v.data cs.length)
    (hal : AlignmentAccepted addr k.len v.len) (heven : addr % 2 = 0) :
    ∃ w b' r, v.magnitudeBWith k addr (regComplexAbs sqrt k) norm b = some (w, b') ∧ RealVersion v w r ∧ r.length = cs.length ∧
      ∀ (i : Nat) c, cs[i]? = some c → ∃ z, r[i]? = some z ∧
        |z.val - ‖Fl.complex c‖| ≤ ((1 + R.u) ^ 3 - 1) * ‖Fl.complex c‖ := by
  obtain ⟨⟨s, hcells⟩, hl⟩ := cells_of_content h
  rw [length_fromComplex] at hl
  have hlen : v.len / 2 = cs.length := by unfold len; omega
  obtain ⟨temp, ht1, ht2⟩ := borrow_ok b v.data cs.length hb
  obtain ⟨p, q, t, he, hsimd⟩ := simdComplexToReal_split k addr (regComplexAbs sqrt k) norm (fun c => sqrt c.normSq)
    (regNorm_op sqrt k hk) cs (by rw [← hl]; exact hal) heven temp ht2
  generalize hr : p.map norm ++ q.map (fun c => sqrt c.normSq) ++ t.map norm = r at hsimd
  have hrl : r.length = cs.length := by rw [← hr, he]; simp
  obtain ⟨rest, hrest⟩ := trade_ok b v.data r (by rw [hrl]; exact hb)
  refine ⟨{ v with data := (b.trade r v.data).2, validLen := v.validLen / 2 }.asReal, (b.trade r v.data).1, r, ?_, ?_, hrl, ?_⟩
  · unfold magnitudeBWith
    rw [if_neg (by simp [hc]), hlen]
    simp only [ht1, h, hsimd, Option.bind_eq_bind, Option.bind_some]
  · refine realVersion_asReal (s := rest) ?_ ?_ rfl rfl
    · show (b.trade r v.data).2.cells = _
      rw [hrest]
    · show v.len / 2 = _
      rw [hlen, hrl]
  · have hq : ∀ c : Cx (Fl R), |(sqrt c.normSq).val - ‖Fl.complex c‖| ≤ ((1 + R.u) ^ 3 - 1) * ‖Fl.complex c‖ := by
      intro c
      have := normSq_error c
      rw [Complex.normSq_eq_norm_sq] at this
      refine (sqrt_rounded hs (norm_nonneg _) ?_ this).trans (le_of_eq ?_)
      · unfold Rounding.two; linarith
      · unfold Rounding.two; ring
    have hall : ∀ (i : Nat) c, cs[i]? = some c → r[i]? = some (norm c) ∨ r[i]? = some (sqrt c.normSq) := by
      intro i c hi
      rw [← hr]
      rw [he] at hi
      rw [List.getElem?_append] at hi ⊢
      simp only [List.length_append, List.length_map] at hi ⊢
      split at hi
      · rename_i h1
        rw [List.getElem?_append] at hi ⊢
        simp only [List.length_map] at hi ⊢
        rw [if_pos h1]
        split at hi
        · rename_i h2
          left; rw [if_pos h2, List.getElem?_map, hi]; rfl
        · rename_i h2
          right; rw [if_neg h2, List.getElem?_map, hi]; rfl
      · rename_i h1
        left; rw [if_neg h1, List.getElem?_map, hi]; rfl
    intro i c hi
    rcases hall i c hi with h1 | h1
    · exact ⟨_, h1, hn c⟩
    · exact ⟨_, h1, hq c⟩

/-! ### Windows -/

/-- What `apply_window` and `unapply_window` do bit for bit, for every schedule. -/
theorem window_bitwise {T : Type} [Zero T] [Add T] [Sub T] [Mul T] (st : MultiCoreSettings) (sym : Bool) (f : Nat → Nat → T)
    (v : DspVec T) (hv : v.WF) (hp : (sym = true ∧ 2 ≤ v.points ∧ st.coreLimit ≠ 0) ∨ (sym = false ∧ 1 ≤ v.points)) :
    let idx := windowIndex sym (determineNumberOfChunks v.points .medium st) v.points
    (v.isComplex = false → ∃ a w, v.content = some a ∧ a.length = v.points ∧ Always (v.multiplyWindowBy st sym f) w ∧
      Replaced v w (a.mapIdx fun i x => (idx i).elim x fun j => x * f j v.points)) ∧
    (v.isComplex = true → ∃ cs w, v.content = some (fromComplex cs) ∧ cs.length = v.points ∧
      Always (v.multiplyWindowBy st sym f) w ∧
      Replaced v w (fromComplex (cs.mapIdx fun i c => (idx i).elim c fun j => c.mul ⟨f j v.points, 0⟩))) := by
  have key : ∀ {α : Type} [Mul α] (g : Nat → α) (a : List α), a.length = v.points →
      Always (multiplyWindow st sym g a) (a.mapIdx fun i x =>
        (windowIndex sym (determineNumberOfChunks v.points .medium st) v.points i).elim x fun j => x * g j) := by
    intro α _ g a ha
    rcases hp with ⟨rfl, h2, hcl⟩ | ⟨rfl, h1⟩
    · have := multiplyWindow_bitwise st hcl g a (by rw [ha]; exact h2)
      rw [ha] at this
      exact this
    · exact executeWithRange_mapIdx a (by rintro rfl; simp at ha; omega) (fun x i => x * g i) .medium st
  intro idx
  constructor
  · intro hc'
    have hl := hv.content_length hv.content_eq
    have hpt : v.points = v.validLen := by unfold points; rw [hc']; simp
    have hA := key (fun i => f i v.points) _ (hl.trans hpt.symm)
    refine ⟨_, v.withCells (splice v.data.cells 0 ((v.data.cells.take v.validLen).mapIdx fun i x =>
      (idx i).elim x fun j => x * f j v.points)), hv.content_eq, hl.trans hpt.symm, ?_, replaced_splice hv _ (by
        rw [List.length_mapIdx]; exact hl)⟩
    refine hA.map (fun s e => ?_) (fun s e => ?_) <;>
    · unfold multiplyWindowBy
      simp only [hv.content_eq, hc', e]
      rfl
  · intro hc
    obtain ⟨cs, h, hl⟩ := hv.content_even hc
    have hpt : v.points = cs.length := by unfold points; rw [hc]; simp; omega
    have hA := key (fun i => (⟨f i v.points, 0⟩ : Cx T)) cs hpt.symm
    refine ⟨cs, v.withCells (splice v.data.cells 0 (fromComplex (cs.mapIdx fun i c =>
      (idx i).elim c fun j => c.mul ⟨f j v.points, 0⟩))), h, hpt.symm, ?_, replaced_splice hv _ (by
        rw [length_fromComplex, List.length_mapIdx]; omega)⟩
    refine hA.map (fun s e => ?_) (fun s e => ?_)
    all_goals
      unfold multiplyWindowBy
      simp only [h, hc, if_true, toComplex?_fromComplex, e] <;> rfl

/-- C94: `apply_window` of real vectors for every schedule: point `i` is multiplied with the window value of the point `j` which the
    code takes (C16), up to the error `e` of the window function and one rounding; points without a partner are kept. -/
theorem C94_window (st : MultiCoreSettings) (w : WindowFunction (Fl R)) (W : Nat → Nat → ℝ) (e : ℝ) (hw : WindowAccurate w W e)
    (v : DspVec (Fl R)) (hv : v.WF) (hr : v.isComplex = false)
    (hp : (w.isSymmetric = true ∧ 2 ≤ v.points ∧ st.coreLimit ≠ 0) ∨ (w.isSymmetric = false ∧ 1 ≤ v.points)) :
    ∃ a v' r, v.content = some a ∧ Always (v.applyWindow st w) v' ∧ Replaced v v' r ∧ r.length = a.length ∧
      ∀ (i : Nat) x, a[i]? = some x → ∃ z, r[i]? = some z ∧
        match windowIndex w.isSymmetric (determineNumberOfChunks v.points .medium st) v.points i with
        | some j => |z.val - x.val * W j v.points| ≤ |x.val| * (e + R.u * (|W j v.points| + e))
        | none => z = x := by
  obtain ⟨a, v', h1, -, h2, h3⟩ := (window_bitwise st w.isSymmetric w.window v hv hp).1 hr
  refine ⟨a, v', _, h1, h2, h3, by simp, fun i x hi => ⟨_, by rw [List.getElem?_mapIdx, hi]; rfl, ?_⟩⟩
  cases windowIndex w.isSymmetric (determineNumberOfChunks v.points .medium st) v.points i with
  | none => rfl
  | some j =>
    have h0 := R.u_nonneg
    have ew := hw j v.points
    have er : |(x * w.window j v.points : Fl R).val - x.val * (w.window j v.points).val| ≤ _ :=
      R.error (x.val * (w.window j v.points).val)
    show |(x * w.window j v.points : Fl R).val - _| ≤ _
    rw [abs_mul] at er
    have e3 : |(w.window j v.points).val| ≤ |W j v.points| + e := by
      have := abs_add_le ((w.window j v.points).val - W j v.points) (W j v.points)
      rw [sub_add_cancel] at this; linarith
    have tri := abs_add_le ((x * w.window j v.points : Fl R).val - x.val * (w.window j v.points).val)
      (x.val * (w.window j v.points).val - x.val * W j v.points)
    rw [sub_add_sub_cancel, ← mul_sub x.val, abs_mul x.val] at tri
    have e4 := mul_le_mul_of_nonneg_left ew (abs_nonneg x.val)
    have e5 := mul_le_mul_of_nonneg_left e3 (mul_nonneg h0 (abs_nonneg x.val))
    nlinarith

/-- C94: the same for complex vectors: three roundings. -/
theorem C94_window_complex (st : MultiCoreSettings) (w : WindowFunction (Fl R)) (W : Nat → Nat → ℝ) (e : ℝ)
    (hw : WindowAccurate w W e) (hu : R.u ≤ 1 / 1000) (v : DspVec (Fl R)) (hv : v.WF) (hc : v.isComplex = true)
    (hp : (w.isSymmetric = true ∧ 2 ≤ v.points ∧ st.coreLimit ≠ 0) ∨ (w.isSymmetric = false ∧ 1 ≤ v.points)) :
    ∃ cs v' rs, v.content = some (fromComplex cs) ∧ Always (v.applyWindow st w) v' ∧ Replaced v v' (fromComplex rs) ∧
      rs.length = cs.length ∧
      ∀ (i : Nat) x, cs[i]? = some x → ∃ z, rs[i]? = some z ∧
        match windowIndex w.isSymmetric (determineNumberOfChunks v.points .medium st) v.points i with
        | some j => ‖Fl.complex z - Fl.complex x * W j v.points‖ ≤ ‖Fl.complex x‖ * (e + 3 * R.u * (|W j v.points| + e))
        | none => z = x := by
  obtain ⟨cs, v', h1, -, h2, h3⟩ := (window_bitwise st w.isSymmetric w.window v hv hp).2 hc
  refine ⟨cs, v', _, h1, h2, h3, by simp, fun i x hi => ⟨_, by rw [List.getElem?_mapIdx, hi]; rfl, ?_⟩⟩
  cases windowIndex w.isSymmetric (determineNumberOfChunks v.points .medium st) v.points i with
  | none => rfl
  | some j =>
    have h0 := R.u_nonneg
    have ew := hw j v.points
    have er := cx_mul_three hu x ⟨w.window j v.points, 0⟩
    have ec : Fl.complex (⟨w.window j v.points, 0⟩ : Cx (Fl R)) = ((w.window j v.points).val : ℂ) := by
      apply Complex.ext
      · simp [Fl.complex]
      · rfl
    rw [ec, norm_mul, Complex.norm_real, Real.norm_eq_abs] at er
    show ‖Fl.complex (x.mul ⟨w.window j v.points, 0⟩) - _‖ ≤ _
    have e3 : |(w.window j v.points).val| ≤ |W j v.points| + e := by
      have := abs_add_le ((w.window j v.points).val - W j v.points) (W j v.points)
      rw [sub_add_cancel] at this; linarith
    have tri := norm_add_le (Fl.complex (x.mul ⟨w.window j v.points, 0⟩) - Fl.complex x * ((w.window j v.points).val : ℂ))
      (Fl.complex x * ((w.window j v.points).val : ℂ) - Fl.complex x * (W j v.points : ℂ))
    rw [sub_add_sub_cancel, ← mul_sub (Fl.complex x), norm_mul (Fl.complex x), ← Complex.ofReal_sub, Complex.norm_real,
      Real.norm_eq_abs] at tri
    have e4 := mul_le_mul_of_nonneg_left ew (norm_nonneg (Fl.complex x))
    have e5 := mul_le_mul_of_nonneg_left e3 (mul_nonneg (mul_nonneg (by norm_num : (0:ℝ) ≤ 3) h0) (norm_nonneg (Fl.complex x)))
    nlinarith

theorem replaced_trans {T : Type} {v v' v'' : DspVec T} {c c' : List T} (h : Replaced v v' c) (h' : Replaced v' v'' c') :
    Replaced v v'' c' := by
  obtain ⟨a1, a2, ⟨a3, a4, a5, a6⟩, a7, a8⟩ := h
  obtain ⟨b1, b2, ⟨b3, b4, b5, b6⟩, b7, b8⟩ := h'
  exact ⟨b1, b2.trans a2, ⟨b3.trans a3, b4.trans a4, b5.trans a5, b6.trans a6⟩, b7.trans a7, by rw [← a2, b8, a2, a8]⟩

/-- With one worker the index is the point or its mirror image. -/
theorem windowIndex_one (sym : Bool) (n i : Nat) (h2 : 2 ≤ n ∨ sym = false) (hi : i < n) :
    ∃ j, windowIndex sym 1 n i = some j ∧ (j = i ∨ j = n - 1 - i) := by
  unfold windowIndex
  cases sym
  · exact ⟨i, rfl, .inl rfl⟩
  · have h2 : 2 ≤ n := by simpa using h2
    have e : (n + (n + 2 * 1 - 1) / (2 * 1) - 1) / ((n + 2 * 1 - 1) / (2 * 1)) = 2 := by
      rw [Nat.div_eq_iff (by omega)]; omega
    simp only [if_true]
    unfold symmetricIndex
    simp only [e]
    by_cases h : i < (2 - 1) * ((n + 2 * 1 - 1) / (2 * 1))
    · exact ⟨i, if_pos h, .inl rfl⟩
    · refine ⟨n - 1 - i, ?_, .inr rfl⟩
      rw [if_neg h, if_neg (by omega), if_neg h]

/-- C94, the default settings (one core): with a symmetric exact window every point is multiplied with its own window value, up to the
    error of the window function and one rounding. -/
theorem C94_window_one_core (st : MultiCoreSettings) (h1 : st.coreLimit = 1) (w : WindowFunction (Fl R)) (W : Nat → Nat → ℝ) (e : ℝ)
    (hw : WindowAccurate w W e) (v : DspVec (Fl R)) (hW : ∀ i < v.points, W i v.points = W (v.points - 1 - i) v.points)
    (hv : v.WF) (hr : v.isComplex = false) (hp : 2 ≤ v.points) :
    ∃ a v' r, v.content = some a ∧ Always (v.applyWindow st w) v' ∧ Replaced v v' r ∧ r.length = a.length ∧
      ∀ (i : Nat) x, a[i]? = some x → ∃ z, r[i]? = some z ∧
        |z.val - x.val * W i v.points| ≤ |x.val| * (e + R.u * (|W i v.points| + e)) := by
  have hn : determineNumberOfChunks v.points .medium st = 1 := by unfold determineNumberOfChunks; rw [if_pos h1]; exact h1
  obtain ⟨a, v', r, g1, g2, g3, g4, g5⟩ := C94_window st w W e hw v hv hr (by
    cases hs : w.isSymmetric
    · exact .inr ⟨rfl, by omega⟩
    · exact .inl ⟨rfl, hp, by omega⟩)
  refine ⟨a, v', r, g1, g2, g3, g4, fun i x hi => ?_⟩
  obtain ⟨z, hz, hz'⟩ := g5 i x hi
  refine ⟨z, hz, ?_⟩
  have hlt : i < v.points := by
    have hl := hv.content_length g1
    have hpt : v.points = v.validLen := by unfold points; rw [hr]; simp
    have := (List.getElem?_eq_some_iff.1 hi).1
    omega
  obtain ⟨j, hj, hj'⟩ := windowIndex_one w.isSymmetric v.points i (.inl hp) hlt
  rw [hn, hj] at hz'
  rcases hj' with rfl | rfl
  · exact hz'
  · rw [hW i hlt]; exact hz'

/-- C94: `apply_window` and then `unapply_window` with the same settings, real vectors, for every schedule of both: every number is
    back up to a relative error of three roundings, whatever the accuracy of the window function, if no window value is zero. -/
theorem C94_unapply (st : MultiCoreSettings) (w : WindowFunction (Fl R)) (v : DspVec (Fl R)) (hv : v.WF)
    (hr : v.isComplex = false) (hw : ∀ i, (w.window i v.points).val ≠ 0)
    (hp : (w.isSymmetric = true ∧ 2 ≤ v.points ∧ st.coreLimit ≠ 0) ∨ (w.isSymmetric = false ∧ 1 ≤ v.points)) :
    ∃ a v' v'' r, v.content = some a ∧ Always (v.applyWindow st w) v' ∧ Always (v'.unapplyWindow st w) v'' ∧
      Replaced v v'' r ∧ r.length = a.length ∧
      ∀ (i : Nat) x, a[i]? = some x → ∃ z, r[i]? = some z ∧ |z.val - x.val| ≤ ((1 + R.u) ^ 3 - 1) * |x.val| := by
  obtain ⟨a, v', h1, hal, h2, h3⟩ := (window_bitwise st w.isSymmetric w.window v hv hp).1 hr
  have hr' : v'.isComplex = false := (replaced_isComplex h3).trans hr
  have hpt : v'.points = v.points := by unfold points; rw [replaced_isComplex h3, h3.2.1]
  obtain ⟨a', v'', k1, -, k2, k3⟩ := (window_bitwise st w.isSymmetric (fun i n => 1 / w.window i n) v' (replaced_wf hv h3)
    (by rw [hpt]; exact hp)).1 hr'
  rw [h3.1, Option.some.injEq] at k1
  subst k1
  refine ⟨a, v', v'', _, h1, h2, k2, replaced_trans h3 k3, by simp only [List.length_mapIdx], fun i x hi =>
    ⟨_, by rw [List.getElem?_mapIdx, List.getElem?_mapIdx, hi]; rfl, ?_⟩⟩
  rw [hpt]
  have h0 := R.u_nonneg
  cases windowIndex w.isSymmetric (determineNumberOfChunks v.points .medium st) v.points i with
  | none =>
    show |x.val - x.val| ≤ _
    rw [sub_self, abs_zero]
    have : 1 ≤ (1 + R.u) ^ 3 := one_le_pow₀ (by linarith)
    have := abs_nonneg x.val
    nlinarith
  | some j =>
    show |R.rnd (R.rnd (x.val * (w.window j v.points).val) * R.rnd (1 / (w.window j v.points).val)) - x.val| ≤ _
    have hne := hw j
    generalize (w.window j v.points).val = y at *
    have r1 := R.error (x.val * y)
    have r2 := R.error (1 / y)
    generalize R.rnd (x.val * y) = p at *
    generalize R.rnd (1 / y) = q at *
    have r3 := R.error (p * q)
    generalize R.rnd (p * q) = t at *
    have hy : 0 < |y| := abs_pos.2 hne
    have e1 : p * q - x.val = (p - x.val * y) * q + x.val * (y * (q - 1 / y)) := by field_simp; ring
    have b1 : |y| * |q - 1 / y| ≤ R.u := by
      rw [abs_div, abs_one] at r2
      calc _ ≤ |y| * (R.u * (1 / |y|)) := mul_le_mul_of_nonneg_left r2 hy.le
        _ = R.u := by field_simp
    have b2 : |y| * |q| ≤ 1 + R.u := by
      have := abs_add_le (q - 1 / y) (1 / y)
      rw [sub_add_cancel] at this
      have := mul_le_mul_of_nonneg_left this hy.le
      have e : |y| * |1 / y| = 1 := by rw [← abs_mul, mul_one_div_cancel hne, abs_one]
      nlinarith
    have b3 : |p - x.val * y| * |q| ≤ R.u * |x.val| * (1 + R.u) := by
      rw [abs_mul] at r1
      calc _ ≤ R.u * (|x.val| * |y|) * |q| := mul_le_mul_of_nonneg_right r1 (abs_nonneg _)
        _ = R.u * |x.val| * (|y| * |q|) := by ring
        _ ≤ _ := mul_le_mul_of_nonneg_left b2 (by positivity)
    have b4 : |p * q - x.val| ≤ ((1 + R.u) ^ 2 - 1) * |x.val| := by
      rw [e1]
      refine (abs_add_le _ _).trans ?_
      rw [abs_mul, abs_mul, abs_mul]
      have := mul_le_mul_of_nonneg_left b1 (abs_nonneg x.val)
      nlinarith
    have b5 : |p * q| ≤ (1 + R.u) ^ 2 * |x.val| := by
      have := abs_add_le (p * q - x.val) x.val
      rw [sub_add_cancel] at this; linarith
    have := abs_add_le (t - p * q) (p * q - x.val)
    rw [sub_add_sub_cancel] at this
    have := mul_le_mul_of_nonneg_left b5 h0
    nlinarith

/-! ### Examples -/

/-- A library as the theorems ask for, for numbers like `f32`: sine and cosine rounded, a rounded square root. -/
noncomputable def roundedCis (R : Rounding) (x : Fl R) : Cx (Fl R) := ⟨⟨R.rnd (phasor x.val).re⟩, ⟨R.rnd (phasor x.val).im⟩⟩

example : CisAccurate (roundedCis R) R.u := fun x => by
  have := rnd_parts (R := R) (phasor x.val).re (phasor x.val).im
  have e : (⟨(phasor x.val).re, (phasor x.val).im⟩ : ℂ) = phasor x.val := rfl
  rw [e, norm_phasor, mul_one] at this
  exact this

example : SqrtAccurate (fun x : Fl R => ⟨R.rnd (Real.sqrt x.val)⟩) := fun x _ => by
  have := R.error (Real.sqrt x.val)
  rw [abs_of_nonneg (Real.sqrt_nonneg _)] at this
  exact this

/-- A Hamming window whose values are rounded once. -/
example : WindowAccurate (⟨true, fun i n => ⟨(binaryRounding 23).rnd ((hamming (54 / 100)).window i n)⟩⟩ : WindowFunction (Fl (binaryRounding 23)))
    (hamming (54 / 100)).window ((binaryRounding 23).u * 1) := fun i n => by
  refine ((binaryRounding 23).error _).trans (mul_le_mul_of_nonneg_left ?_ (binaryRounding 23).u_nonneg)
  show |54 / 100 - (1 - 54 / 100) * Real.cos _| ≤ 1
  have h1 := Real.neg_one_le_cos (2 * Real.pi * (i : ℝ) / ((n : ℝ) - 1))
  have h2 := Real.cos_le_one (2 * Real.pi * (i : ℝ) / ((n : ℝ) - 1))
  rw [abs_le]
  constructor <;> linarith

/-- The vectors: complex with a sampling distance, real with a window without zeros. -/
example : let v : DspVec (Fl R) := { roundedVec R .complex with delta := some ⟨1 / 2⟩ }
    v.WF ∧ v.isComplex = true ∧ v.delta = some ⟨1 / 2⟩ ∧ v.points = 2 ∧
    AlignmentAccepted 0 RegKind.sseF32x4.len v.len ∧ BufferOk (Buffer.noBuffer : Buffer (Fl R)) v.data 2 :=
  ⟨rounded_wf R .complex, rfl, rfl, by simp [points, isComplex, roundedVec, NumberSpace.isComplex], .inl rfl, trivial⟩

example : let v := roundedVec R .real
    let w : WindowFunction (Fl R) := ⟨true, fun i n => ⟨(triangular.window (min i (n - 1)) 4)⟩⟩
    v.WF ∧ v.isComplex = false ∧ (∀ i, (w.window i v.points).val ≠ 0) ∧ w.isSymmetric = true ∧ 2 ≤ v.points := by
  have hp : (roundedVec R .real).points = 4 := by simp [points, isComplex, roundedVec, NumberSpace.isComplex]
  refine ⟨rounded_wf R .real, rfl, fun i => ?_, rfl, by rw [hp]; omega⟩
  exact (C17_shipped_windows_nonzero 4 _ (by rw [hp]; omega) 1 (by norm_num) le_rfl).1

end
end Dsp
