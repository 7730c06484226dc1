import Verif.Spec.ElementaryRounding
import Verif.Props.Bitwise
import Verif.Props.RoundingComplex
import Verif.Props.DiffSum
import Verif.Props.RealOps
import Verif.Props.ComplexReal
import Mathlib.Analysis.Complex.Basic
/-
C87: the elementary operations on vectors of rounded (floating point) numbers.
-/
namespace Dsp
open DspVec

section
variable {R : Rounding}

/-! ### One number -/

theorem Rounding.rnd_zero (R : Rounding) : R.rnd 0 = 0 := by
  have := R.error 0; simp at this; exact this

/-- The operation on single numbers is correctly rounded. -/
theorem real_rounded (op : ElemOp) (x y : Fl R) : (op.real x y).val = R.rnd (op.exact x.val y.val) := by
  cases op <;> rfl

/-- From the parts to the norm. -/
theorem complex_error_of_parts {z w : ℂ} {e B : ℝ} (hB : 0 ≤ B) (h : (z.re - w.re) ^ 2 + (z.im - w.im) ^ 2 ≤ e ^ 2 * B ^ 2)
    (he : 0 ≤ e) : ‖z - w‖ ≤ e * B := by
  rw [Complex.norm_eq_sqrt_sq_add_sq]
  refine Real.sqrt_le_iff.2 ⟨by positivity, ?_⟩
  rw [mul_pow]
  simpa [Complex.sub_re, Complex.sub_im] using h

theorem sq_of_abs_le {a b : ℝ} (h : |a| ≤ b) : a ^ 2 ≤ b ^ 2 := by
  rw [← sq_abs]; exact pow_le_pow_left₀ (abs_nonneg _) h 2

/-- Rounding both parts of a complex number. -/
theorem rnd_parts (x y : ℝ) : ‖(⟨R.rnd x, R.rnd y⟩ : ℂ) - ⟨x, y⟩‖ ≤ R.u * ‖(⟨x, y⟩ : ℂ)‖ := by
  refine complex_error_of_parts (norm_nonneg _) ?_ R.u_nonneg
  rw [Complex.sq_norm, Complex.normSq_apply]
  have h1 := sq_of_abs_le (R.error x)
  have h2 := sq_of_abs_le (R.error y)
  rw [mul_pow, sq_abs] at h1 h2
  show (R.rnd x - x) ^ 2 + (R.rnd y - y) ^ 2 ≤ R.u ^ 2 * (x * x + y * y)
  nlinarith [h1, h2]

/-- A product whose parts are known up to `g` times the sums of the absolute values of the two products. -/
theorem product_error (a b c d p q g : ℝ) (hg : 0 ≤ g) (hp : |p - (a * c - b * d)| ≤ g * (|a * c| + |b * d|))
    (hq : |q - (a * d + b * c)| ≤ g * (|a * d| + |b * c|)) :
    ‖(⟨p, q⟩ : ℂ) - ⟨a, b⟩ * ⟨c, d⟩‖ ≤ Real.sqrt 2 * g * (‖(⟨a, b⟩ : ℂ)‖ * ‖(⟨c, d⟩ : ℂ)‖) := by
  refine complex_error_of_parts (by positivity) ?_ (by positivity)
  have h1 := sq_of_abs_le hp
  have h2 := sq_of_abs_le hq
  rw [mul_pow] at h1 h2
  rw [mul_pow, mul_pow, Complex.sq_norm, Complex.sq_norm, Complex.normSq_apply, Complex.normSq_apply, Real.sq_sqrt (by norm_num)]
  show (p - (a * c - b * d)) ^ 2 + (q - (a * d + b * c)) ^ 2 ≤ 2 * g ^ 2 * ((a * a + b * b) * (c * c + d * d))
  have h3 : (|a * c| + |b * d|) ^ 2 + (|a * d| + |b * c|) ^ 2 ≤ 2 * ((a * a + b * b) * (c * c + d * d)) := by
    have e1 : |a * c| = |a| * |c| := abs_mul _ _
    have e2 : |b * d| = |b| * |d| := abs_mul _ _
    have e3 : |a * d| = |a| * |d| := abs_mul _ _
    have e4 : |b * c| = |b| * |c| := abs_mul _ _
    rw [e1, e2, e3, e4, ← abs_mul_abs_self a, ← abs_mul_abs_self b, ← abs_mul_abs_self c, ← abs_mul_abs_self d]
    nlinarith [sq_nonneg (|a| * |c| - |b| * |d|), sq_nonneg (|a| * |d| - |b| * |c|)]
  have hg2 : 0 ≤ g ^ 2 := by positivity
  calc _ ≤ g ^ 2 * (|a * c| + |b * d|) ^ 2 + g ^ 2 * (|a * d| + |b * c|) ^ 2 := add_le_add h1 h2
    _ = g ^ 2 * ((|a * c| + |b * d|) ^ 2 + (|a * d| + |b * c|) ^ 2) := by ring
    _ ≤ g ^ 2 * (2 * ((a * a + b * b) * (c * c + d * d))) := mul_le_mul_of_nonneg_left h3 hg2
    _ = _ := by ring

/-- The relative error of two rounded operations. -/
noncomputable def Rounding.two (R : Rounding) : ℝ := (1 + R.u) ^ 2 - 1

theorem Rounding.two_nonneg (R : Rounding) : 0 ≤ R.two := by
  have := R.u_nonneg; unfold Rounding.two; nlinarith

theorem cx_add_error (z w : Cx (Fl R)) :
    ‖Fl.complex (Cx.add z w) - (Fl.complex z + Fl.complex w)‖ ≤ R.u * ‖Fl.complex z + Fl.complex w‖ := rnd_parts (R := R) _ _

theorem cx_sub_error (z w : Cx (Fl R)) :
    ‖Fl.complex (Cx.sub z w) - (Fl.complex z - Fl.complex w)‖ ≤ R.u * ‖Fl.complex z - Fl.complex w‖ := rnd_parts (R := R) _ _

theorem cx_mul_error (z w : Cx (Fl R)) :
    ‖Fl.complex (Cx.mul z w) - Fl.complex z * Fl.complex w‖ ≤ Real.sqrt 2 * R.two * ‖Fl.complex z * Fl.complex w‖ := by
  rw [norm_mul]
  exact product_error _ _ _ _ _ _ _ R.two_nonneg (Approx.mul_re z w).1 (Approx.mul_im z w).1

/-- The sum of the squares. -/
theorem normSq_error (w : Cx (Fl R)) :
    |(Cx.normSq w).val - Complex.normSq (Fl.complex w)| ≤ R.two * Complex.normSq (Fl.complex w) := by
  have h := ((Approx.mul w.re w.re).add (Approx.mul w.im w.im)).1
  rw [abs_mul_self, abs_mul_self] at h
  rw [Complex.normSq_apply]
  unfold Rounding.two
  rw [pow_two (1 + R.u)]
  exact h

/-- The quotient. -/
theorem cx_div_error (z w : Cx (Fl R)) (hw : Fl.complex w ≠ 0) (hg : R.two < 1) :
    ‖Fl.complex (Cx.div z w) - Fl.complex z / Fl.complex w‖ ≤
      ((1 + Real.sqrt 2 * R.two) * (1 + R.u) / (1 - R.two) - 1) * ‖Fl.complex z / Fl.complex w‖ := by
  set g := R.two with hgdef
  have hg0 : 0 ≤ g := R.two_nonneg
  have hu := R.u_nonneg
  set Z := Fl.complex z with hZ
  set W := Fl.complex w with hW
  set n : ℝ := Complex.normSq W with hn
  have hnpos : 0 < n := Complex.normSq_pos.2 hw
  set m : ℝ := (Cx.normSq w).val with hm
  have hmn : |m - n| ≤ g * n := normSq_error w
  have hmlo : n * (1 - g) ≤ m := by have := (abs_le.1 hmn).1; linarith
  have h1g : 0 < 1 - g := by linarith
  have hmpos : 0 < m := lt_of_lt_of_le (by positivity) hmlo
  -- the numerator
  set p : ℝ := (z.re * w.re + z.im * w.im).val with hp
  set q : ℝ := (z.im * w.re - z.re * w.im).val with hq
  set P : ℂ := Z * (starRingEnd ℂ) W with hP
  have hPn : ‖P‖ = ‖Z‖ * ‖W‖ := by rw [hP, norm_mul, RCLike.norm_conj]
  have hpq : ‖(⟨p, q⟩ : ℂ) - P‖ ≤ Real.sqrt 2 * g * ‖P‖ := by
    have h1 := ((Approx.mul z.re w.re).add (Approx.mul z.im w.im)).1
    have h2 := ((Approx.mul z.im w.re).sub (Approx.mul z.re w.im)).1
    rw [← pow_two] at h1 h2
    have := product_error z.re.val z.im.val w.re.val (-w.im.val) p q g hg0
      (by rw [mul_neg, sub_neg_eq_add, abs_neg]; exact h1)
      (by
        have e : z.re.val * -w.im.val + z.im.val * w.re.val = z.im.val * w.re.val - z.re.val * w.im.val := by ring
        rw [e, mul_neg, abs_neg, add_comm |z.re.val * w.im.val|]; exact h2)
    rw [hPn]
    have e : ‖(⟨w.re.val, -w.im.val⟩ : ℂ)‖ = ‖W‖ := by
      rw [← RCLike.norm_conj W]; rfl
    rw [e] at this
    exact this
  have hZW : Z / W = P / n := by
    rw [div_eq_mul_inv, Complex.inv_def]
    push_cast [hP, hn]
    rw [← mul_assoc]; rfl
  -- the division of the parts
  have hdiv : ‖Fl.complex (Cx.div z w) - (⟨p, q⟩ : ℂ) / m‖ ≤ R.u * ‖(⟨p, q⟩ : ℂ) / m‖ := by
    have e : ((⟨p, q⟩ : ℂ) / (m : ℂ)) = ⟨p / m, q / m⟩ := by
      apply Complex.ext <;> simp [Complex.div_ofReal_re, Complex.div_ofReal_im]
    rw [e]
    exact rnd_parts (R := R) (p / m) (q / m)
  have hpqn : ‖(⟨p, q⟩ : ℂ)‖ ≤ (1 + Real.sqrt 2 * g) * ‖P‖ := by
    have := norm_sub_norm_le (⟨p, q⟩ : ℂ) P
    linarith
  have hm' : ‖(m : ℂ)‖ = m := by rw [Complex.norm_real, Real.norm_of_nonneg hmpos.le]
  have hn' : ‖(n : ℂ)‖ = n := by rw [Complex.norm_real, Real.norm_of_nonneg hnpos.le]
  have hmz : (m : ℂ) ≠ 0 := by exact_mod_cast hmpos.ne'
  have hnz : (n : ℂ) ≠ 0 := by exact_mod_cast hnpos.ne'
  rw [norm_div, hm'] at hdiv
  clear_value P
  have hsecond : ‖(⟨p, q⟩ : ℂ) / m - P / m‖ ≤ Real.sqrt 2 * g * ‖P‖ / m := by
    rw [← sub_div, norm_div, hm']; exact div_le_div_of_nonneg_right hpq hmpos.le
  have hthird : ‖P / (m : ℂ) - P / n‖ ≤ g * ‖P‖ / m := by
    have e : P / (m : ℂ) - P / n = P * ((n : ℂ) - m) / (m * n) := by field_simp
    rw [e, norm_div, norm_mul, norm_mul, hm', hn', ← Complex.ofReal_sub, Complex.norm_real, Real.norm_eq_abs, abs_sub_comm]
    rw [div_le_div_iff₀ (by positivity) hmpos]
    have := mul_le_mul_of_nonneg_left hmn (norm_nonneg P)
    nlinarith [this, hmpos]
  have hfirst : ‖Fl.complex (Cx.div z w) - (⟨p, q⟩ : ℂ) / m‖ ≤ R.u * ((1 + Real.sqrt 2 * g) * ‖P‖) / m := by
    refine hdiv.trans ?_
    rw [mul_div_assoc]
    exact mul_le_mul_of_nonneg_left (div_le_div_of_nonneg_right hpqn hmpos.le) hu
  have htot : ‖Fl.complex (Cx.div z w) - Z / W‖ ≤
      (R.u * (1 + Real.sqrt 2 * g) + Real.sqrt 2 * g + g) * ‖P‖ / m := by
    rw [hZW]
    have e : Fl.complex (Cx.div z w) - P / (n : ℂ) =
        (Fl.complex (Cx.div z w) - (⟨p, q⟩ : ℂ) / m) + ((⟨p, q⟩ : ℂ) / m - P / m) + (P / (m : ℂ) - P / n) := by ring
    rw [e]
    refine (norm_add₃_le).trans ((add_le_add (add_le_add hfirst hsecond) hthird).trans (le_of_eq ?_))
    ring
  refine htot.trans ?_
  have hc0 : 0 ≤ R.u * (1 + Real.sqrt 2 * g) + Real.sqrt 2 * g + g := by positivity
  have hZWn : ‖Z / W‖ = ‖P‖ / n := by rw [hZW, norm_div, hn']
  rw [hZWn]
  have e : (1 + Real.sqrt 2 * g) * (1 + R.u) / (1 - g) - 1 =
      (R.u * (1 + Real.sqrt 2 * g) + Real.sqrt 2 * g + g) / (1 - g) := by
    field_simp; ring
  rw [e, mul_div_assoc, div_mul_eq_mul_div, ← mul_div_assoc, ← mul_div_assoc, div_div, mul_comm n]
  rw [mul_comm (1 - g)]
  exact div_le_div_of_nonneg_left (by positivity) (by positivity) hmlo

theorem sqrt_two_bounds : 1 ≤ Real.sqrt 2 ∧ Real.sqrt 2 ≤ 1415 / 1000 :=
  ⟨by rw [Real.one_le_sqrt]; norm_num, by rw [Real.sqrt_le_left (by norm_num)]; norm_num⟩

/-- One operation on complex numbers. -/
theorem cx_error (op : ElemOp) (z w : Cx (Fl R)) (hu : R.u ≤ 1 / 1000) (hw : op = .div → Fl.complex w ≠ 0) :
    ‖Fl.complex (op.cx z w) - op.exactComplex (Fl.complex z) (Fl.complex w)‖ ≤
      op.complexUnits * R.u * ‖op.exactComplex (Fl.complex z) (Fl.complex w)‖ := by
  have h0 := R.u_nonneg
  obtain ⟨s1, s2⟩ := sqrt_two_bounds
  have g1 : R.two ≤ 2001 / 1000 * R.u := by unfold Rounding.two; nlinarith
  have g0 := R.two_nonneg
  have sg : Real.sqrt 2 * R.two ≤ 2832 / 1000 * R.u := by nlinarith
  cases op
  · refine (cx_add_error z w).trans (le_of_eq ?_)
    show _ = 1 * R.u * _
    rw [one_mul]; rfl
  · refine (cx_sub_error z w).trans (le_of_eq ?_)
    show _ = 1 * R.u * _
    rw [one_mul]; rfl
  · refine (cx_mul_error z w).trans (mul_le_mul_of_nonneg_right ?_ (norm_nonneg _))
    show _ ≤ 3 * R.u
    linarith
  · refine (cx_div_error z w (hw rfl) (by linarith)).trans (mul_le_mul_of_nonneg_right ?_ (norm_nonneg _))
    show _ ≤ 6 * R.u
    have h1 : 0 < 1 - R.two := by linarith
    rw [sub_le_iff_le_add, div_le_iff₀ h1]
    nlinarith

end

/-! ### Vectors -/

/-- When the operations succeed on real vectors, without any law for the arithmetic except for commutativity. -/
theorem runs_real {T : Type} [AddCommMagma T] [Sub T] [CommMagma T] [Div T] [Zero T] [LT T] [DecidableLT T]
    [DecidableEq T] [DeltaBounds T] (op : ElemOp)
    (k : RegKind) (addr : Nat) (v o : DspVec T) (hv : v.WF) (ho : o.WF)
    (hlen : v.len = o.len) (hmm : v.metaMismatch o = false) (hr : v.isComplex = false)
    (hal : AlignmentAccepted addr k.len v.len) :
    ∃ a b v', v.content = some a ∧ o.content = some b ∧ op.run k addr v o = some (v', .ok ()) ∧
      Replaced v v' (List.zipWith op.real a b) := by
  have hb : ∀ f, binaryReal k addr f v o =
      some (v.withCells (splice v.data.cells 0 (List.zipWith f (v.data.cells.take v.validLen)
        (o.data.cells.take o.validLen))), .ok ()) := by
    intro f
    unfold binaryReal
    rw [if_neg (not_not.mpr hlen), if_neg (by rw [hmm]; decide), hv.content_eq, ho.content_eq]
    have e1 := hv.content_length hv.content_eq
    have e2 := ho.content_length ho.content_eq
    simp only [Option.bind_eq_bind, Option.bind_some]
    rw [C20_elementwise k addr f _ _ (by rw [e1, e2]; exact hlen.symm) (by rw [e1]; exact hal)]
    rfl
  have e1 := hv.content_length hv.content_eq
  have e2 := ho.content_length ho.content_eq
  have hlen' : v.validLen = o.validLen := hlen
  refine ⟨_, _, v.withCells (splice v.data.cells 0 (List.zipWith op.real (v.data.cells.take v.validLen)
        (o.data.cells.take o.validLen))), hv.content_eq, ho.content_eq, ?_, replaced_splice hv _ ?_⟩
  · cases op <;> simp only [ElemOp.run, add, sub, mul, div, if_neg (not_not.mpr hlen), hmm, hr, hb,
      ElemOp.real] <;> rfl
  · rw [List.length_zipWith, e1, e2]; omega

/-- When the operations succeed on complex vectors. -/
theorem runs_complex {T : Type} [AddCommMagma T] [Sub T] [CommMagma T] [Div T] [Zero T] [LT T] [DecidableLT T]
    [DecidableEq T] [DeltaBounds T] (op : ElemOp)
    (k : RegKind) (addr : Nat) (v o : DspVec T) (hv : v.WF) (ho : o.WF)
    (hlen : v.len = o.len) (hmm : v.metaMismatch o = false) (hc : v.isComplex = true)
    (hal : AlignmentAccepted addr k.len v.len)
    (heven : op = .mul ∨ op = .div → addr % 2 = 0 ∧ v.allocLen % 2 = 0) :
    ∃ cs ds v', v.content = some (fromComplex cs) ∧ o.content = some (fromComplex ds) ∧
      op.run k addr v o = some (v', .ok ()) ∧
      Replaced v v' (fromComplex (List.zipWith op.cx cs ds)) := by
  have hco : v.isComplex = o.isComplex := by
    unfold metaMismatch at hmm
    simp only [Bool.or_eq_false_iff, bne_eq_false_iff_eq] at hmm
    exact hmm.1.1
  obtain ⟨cs, c1, c2⟩ := hv.content_even hc
  obtain ⟨ds, d1, d2⟩ := ho.content_even (by rw [← hco]; exact hc)
  have hlen' : v.validLen = o.validLen := hlen
  have hal' : AlignmentAccepted addr k.len (2 * cs.length) := by rw [c2]; exact hal
  have hadd : ∀ f, binaryReal k addr f v o =
      some (v.withCells (splice v.data.cells 0 (fromComplex
        (List.zipWith (fun a b => ⟨f a.re b.re, f a.im b.im⟩) cs ds))), .ok ()) := by
    intro f
    unfold binaryReal
    rw [if_neg (not_not.mpr hlen), if_neg (by rw [hmm]; decide), c1, d1]
    simp only [Option.bind_eq_bind, Option.bind_some]
    rw [C20_elementwise k addr f _ _ (by simp; omega) (by simpa using hal'),
      zipWith_fromComplex]
    rfl
  have hmul : ∀ g f, v.allocLen % 2 = 0 →
      simdBinaryComplex addr k.len g f (fromComplex cs) (fromComplex ds) =
        some (fromComplex (List.zipWith f cs ds)) → binaryComplex k addr g f v o =
      some (v.withCells (splice v.data.cells 0 (fromComplex (List.zipWith f cs ds))), .ok ()) := by
    intro g f ha h
    unfold binaryComplex
    obtain ⟨q, hq⟩ := exists_fromComplex (l := v.data.cells) ha
    rw [if_neg (not_not.mpr hlen), if_neg (by rw [hmm]; decide), c1, d1]
    simp only [Option.bind_eq_bind, Option.bind_some, h]
    rw [show toComplex? v.data.cells = some q by rw [hq, toComplex?_fromComplex]]
    rfl
  refine ⟨cs, ds, v.withCells (splice v.data.cells 0 (fromComplex (List.zipWith op.cx cs ds))), c1, d1,
    ?_, replaced_splice hv _ (by simp; omega)⟩
  cases op with
  | add => exact hadd _
  | sub => exact hadd _
  | mul =>
    obtain ⟨h1, h2⟩ := heven (.inl rfl)
    simp only [ElemOp.run, mul, if_neg (not_not.mpr hlen), hmm, hc, if_true, ElemOp.cx]
    exact hmul _ _ h2 (C20_complex_mul_div k addr cs ds (by omega) ⟨hal', h1⟩).1
  | div =>
    obtain ⟨h1, h2⟩ := heven (.inr rfl)
    simp only [ElemOp.run, div, if_neg (not_not.mpr hlen), hmm, hc, if_true, ElemOp.cx]
    exact hmul _ _ h2 (C20_complex_mul_div k addr cs ds (by omega) ⟨hal', h1⟩).2

section
variable {R : Rounding}

/-- C87: `add`, `sub`, `mul` and `div` of real vectors: every number is the exact result, rounded once. -/
theorem C87_real [DeltaBounds (Fl R)] (op : ElemOp) (k : RegKind) (addr : Nat) (v o v' : DspVec (Fl R)) (hv : v.WF) (ho : o.WF)
    (hr : v.isComplex = false) (hal : AlignmentAccepted addr k.len v.len) (hok : op.run k addr v o = some (v', .ok ())) :
    ∃ a b r, v.content = some a ∧ o.content = some b ∧ Replaced v v' r ∧ b.length = a.length ∧ r.length = a.length ∧
      ∀ (i : Nat) x y, a[i]? = some x → b[i]? = some y → ∃ z, r[i]? = some z ∧
        z.val = R.rnd (op.exact x.val y.val) ∧
        |z.val - op.exact x.val y.val| ≤ R.u * |op.exact x.val y.val| := by
  obtain ⟨a, b, ha, hb, hrep⟩ := C74_real op k addr v o v' hv ho hr hal hok
  have hlen : v.validLen = o.validLen := (run_ok hok).1
  have hl : b.length = a.length := by
    rw [ho.content_length hb, hv.content_length ha, hlen]
  refine ⟨a, b, _, ha, hb, hrep, hl, by simp [hl], fun i x y hx hy => ⟨op.real x y, ?_, real_rounded op x y, ?_⟩⟩
  · rw [List.getElem?_zipWith, hx, hy]
  · rw [real_rounded]; exact R.error _

/-- C87: `add`, `sub`, `mul` and `div` of complex vectors: the distance of every point to the exact result is at most 1, 1, 3 and 6
    units of the exact result. -/
theorem C87_complex [DeltaBounds (Fl R)] (op : ElemOp) (k : RegKind) (addr : Nat) (v o v' : DspVec (Fl R)) (hv : v.WF) (ho : o.WF)
    (hc : v.isComplex = true) (hal : ComplexAlignmentAccepted addr k.len v.len) (hu : R.u ≤ 1 / 1000)
    (hok : op.run k addr v o = some (v', .ok ())) :
    ∃ cs ds rs, v.content = some (fromComplex cs) ∧ o.content = some (fromComplex ds) ∧ Replaced v v' (fromComplex rs) ∧
      ds.length = cs.length ∧ rs.length = cs.length ∧
      ∀ (i : Nat) x y, cs[i]? = some x → ds[i]? = some y → (op = .div → Fl.complex y ≠ 0) → ∃ z, rs[i]? = some z ∧
        ‖Fl.complex z - op.exactComplex (Fl.complex x) (Fl.complex y)‖ ≤
          op.complexUnits * R.u * ‖op.exactComplex (Fl.complex x) (Fl.complex y)‖ := by
  obtain ⟨cs, ds, ha, hb, hrep⟩ := C74_complex op k addr v o v' hv ho hc hal hok
  have hlen : v.validLen = o.validLen := (run_ok hok).1
  have hl : ds.length = cs.length := by
    have h1 := ho.content_length hb
    have h2 := hv.content_length ha
    rw [length_fromComplex] at h1 h2
    omega
  refine ⟨cs, ds, _, ha, hb, hrep, hl, by simp [hl], fun i x y hx hy hn => ⟨op.cx x y, ?_, cx_error op x y hu hn⟩⟩
  rw [List.getElem?_zipWith, hx, hy]

/-- When a method for smaller operands succeeds. -/
theorem runSmaller_ok {T : Type} [Add T] [Sub T] [Mul T] [Div T] [Zero T] [LT T] [DecidableLT T] [DecidableEq T] [DeltaBounds T]
    {op : ElemOp} {v o v' : DspVec T} (h : op.runSmaller v o = some (v', .ok ())) :
    0 < o.len ∧ o.len ∣ v.len ∧ v.metaMismatch o = false := by
  by_cases h0 : o.len = 0
  · exfalso
    cases op <;> simp [ElemOp.runSmaller, addSmaller, subSmaller, mulSmaller, divSmaller, smallerReal, h0] at h
  by_cases h1 : v.len % o.len ≠ 0
  · exfalso
    cases op <;> simp [ElemOp.runSmaller, addSmaller, subSmaller, mulSmaller, divSmaller, smallerReal, h0, h1] at h
  by_cases h2 : v.metaMismatch o = true
  · exfalso
    cases op <;>
      simp [ElemOp.runSmaller, addSmaller, subSmaller, mulSmaller, divSmaller, smallerReal, h0, h1, h2] at h
  exact ⟨Nat.pos_of_ne_zero h0, Nat.dvd_of_mod_eq_zero (not_not.mp h1), by simpa using h2⟩

/-- C87: the same for operands which are repeated (real vectors). -/
theorem C87_smaller_real [DeltaBounds (Fl R)] (op : ElemOp) (v o v' : DspVec (Fl R)) (hv : v.WF) (ho : o.WF)
    (hr : v.isComplex = false) (hok : op.runSmaller v o = some (v', .ok ())) :
    ∃ a b r, v.content = some a ∧ o.content = some b ∧ Replaced v v' r ∧ r.length = a.length ∧
      ∀ (i : Nat) x, a[i]? = some x → ∃ y z, b[i % b.length]? = some y ∧ r[i]? = some z ∧
        z.val = R.rnd (op.exact x.val y.val) ∧
        |z.val - op.exact x.val y.val| ≤ R.u * |op.exact x.val y.val| := by
  obtain ⟨h0, h1, h2⟩ := runSmaller_ok hok
  obtain ⟨a, b, r, w, ha, hb, hrun, hrep, hl, hcyc⟩ := smaller_real op v o hv ho h0 h1 h2 hr
  rw [hrun] at hok
  simp only [Option.some.injEq, Prod.mk.injEq, and_true] at hok
  subst hok
  refine ⟨a, b, r, ha, hb, hrep, hl, fun i x hx => ?_⟩
  obtain ⟨y, hy, hz⟩ := hcyc i x hx
  exact ⟨y, _, hy, hz, real_rounded op x y, by rw [real_rounded]; exact R.error _⟩

/-- C87: the same for operands which are repeated (complex vectors). -/
theorem C87_smaller_complex [DeltaBounds (Fl R)] (op : ElemOp) (v o v' : DspVec (Fl R)) (hv : v.WF) (ho : o.WF)
    (hc : v.isComplex = true) (hu : R.u ≤ 1 / 1000) (hok : op.runSmaller v o = some (v', .ok ())) :
    ∃ cs ds rs, v.content = some (fromComplex cs) ∧ o.content = some (fromComplex ds) ∧ Replaced v v' (fromComplex rs) ∧
      rs.length = cs.length ∧
      ∀ (i : Nat) x, cs[i]? = some x → ∃ y z, ds[i % ds.length]? = some y ∧ rs[i]? = some z ∧
        ((op = .div → Fl.complex y ≠ 0) →
          ‖Fl.complex z - op.exactComplex (Fl.complex x) (Fl.complex y)‖ ≤
            op.complexUnits * R.u * ‖op.exactComplex (Fl.complex x) (Fl.complex y)‖) := by
  obtain ⟨h0, h1, h2⟩ := runSmaller_ok hok
  obtain ⟨cs, ds, rs, w, ha, hb, hrun, hrep, hl, hcyc⟩ := smaller_complex op v o hv ho h0 h1 h2 hc
  rw [hrun] at hok
  simp only [Option.some.injEq, Prod.mk.injEq, and_true] at hok
  subst hok
  refine ⟨cs, ds, rs, ha, hb, hrep, hl, fun i x hx => ?_⟩
  obtain ⟨y, hy, hz⟩ := hcyc i x hx
  exact ⟨y, _, hy, hz, cx_error op x y hu⟩

/-- C87: `offset` and `scale` of real vectors, for every schedule. -/
theorem C87_offset_scale (k : RegKind) (addr : Nat) (st : MultiCoreSettings) (x : Fl R) (v : DspVec (Fl R)) (hv : v.WF)
    (hr : v.isComplex = false) (hal : AlignmentAccepted addr k.len v.len) :
    ∃ a, v.content = some a ∧
      (∃ v' r, Always (v.offset k addr st x) v' ∧ Replaced v v' r ∧ r.length = a.length ∧
        ∀ (i : Nat) y, a[i]? = some y → ∃ z, r[i]? = some z ∧ |z.val - (y.val + x.val)| ≤ R.u * |y.val + x.val|) ∧
      (∃ v' r, Always (v.scale k addr st x) v' ∧ Replaced v v' r ∧ r.length = a.length ∧
        ∀ (i : Nat) y, a[i]? = some y → ∃ z, r[i]? = some z ∧ |z.val - y.val * x.val| ≤ R.u * |y.val * x.val|) := by
  obtain ⟨a, ha, ⟨v1, h1, r1⟩, ⟨v2, h2, r2⟩⟩ := C20_real_vector k addr st x v hv hr hal
  exact ⟨a, ha, ⟨v1, _, h1, r1, by simp, fun i y hy => ⟨y + x, by simp [hy], R.error _⟩⟩,
    ⟨v2, _, h2, r2, by simp, fun i y hy => ⟨y * x, by simp [hy], R.error _⟩⟩⟩

/-- C87: `offset` and `scale` of complex vectors by a complex number, for every schedule. -/
theorem C87_offset_scale_complex (k : RegKind) (addr : Nat) (st : MultiCoreSettings) (x : Cx (Fl R)) (v : DspVec (Fl R)) (hv : v.WF)
    (hc : v.isComplex = true) (hal : ComplexAlignmentAccepted addr k.len v.len) (hu : R.u ≤ 1 / 1000) :
    ∃ cs, v.content = some (fromComplex cs) ∧
      (∃ v' rs, Always (v.offsetComplex k addr st x) v' ∧ Replaced v v' (fromComplex rs) ∧ rs.length = cs.length ∧
        ∀ (i : Nat) y, cs[i]? = some y → ∃ z, rs[i]? = some z ∧
          ‖Fl.complex z - (Fl.complex y + Fl.complex x)‖ ≤ R.u * ‖Fl.complex y + Fl.complex x‖) ∧
      (∃ v' rs, Always (v.scaleComplex k addr st x) v' ∧ Replaced v v' (fromComplex rs) ∧ rs.length = cs.length ∧
        ∀ (i : Nat) y, cs[i]? = some y → ∃ z, rs[i]? = some z ∧
          ‖Fl.complex z - Fl.complex y * Fl.complex x‖ ≤ 3 * R.u * ‖Fl.complex y * Fl.complex x‖) := by
  obtain ⟨cs, ha, -, -, ⟨v1, h1, r1⟩, ⟨v2, h2, r2⟩⟩ := C74_offset_scale_complex k addr st x.re x v hv hc hal
  refine ⟨cs, ha, ⟨v1, _, h1, r1, by simp, fun i y hy => ⟨Cx.add y x, by simp [hy, Cx.add], cx_add_error y x⟩⟩,
    ⟨v2, _, h2, r2, by simp, fun i y hy => ⟨Cx.mul y x, by simp [hy, Cx.mul], ?_⟩⟩⟩
  exact cx_error .mul y x hu (fun h => by cases h)

/-- C87: `square`. -/
theorem C87_square (lib : MathLib (Fl R)) (k : RegKind) (addr : Nat) (st : MultiCoreSettings) (v : DspVec (Fl R)) (hv : v.WF) :
    (v.isComplex = false → AlignmentAccepted addr k.len v.len →
      ∃ a v' r, v.content = some a ∧ Always (v.square k addr st) v' ∧ Replaced v v' r ∧ r.length = a.length ∧
        ∀ (i : Nat) y, a[i]? = some y → ∃ z, r[i]? = some z ∧ |z.val - y.val ^ 2| ≤ R.u * y.val ^ 2) ∧
    (v.isComplex = true → R.u ≤ 1 / 1000 →
      ∃ cs v' rs, v.content = some (fromComplex cs) ∧ Always (v.square k addr st) v' ∧ Replaced v v' (fromComplex rs) ∧
        rs.length = cs.length ∧
        ∀ (i : Nat) y, cs[i]? = some y → ∃ z, rs[i]? = some z ∧
          ‖Fl.complex z - Fl.complex y ^ 2‖ ≤ 3 * R.u * ‖Fl.complex y‖ ^ 2) := by
  constructor
  · intro hr hal
    obtain ⟨a, ha, -, ⟨v2, h2, r2⟩, -⟩ := C47_sqrt_square_abs lib k addr st v hv hr hal
    refine ⟨a, v2, _, ha, h2, r2, by simp, fun i y hy => ⟨y * y, by simp [hy], ?_⟩⟩
    have := R.error (y.val * y.val)
    rw [abs_mul_self] at this
    rw [pow_two]; exact this
  · intro hc hu
    obtain ⟨-, cs, v2, ha, h2, r2⟩ := C47_sqrt_square_complex lib k addr st v hv hc
    refine ⟨cs, v2, _, ha, h2, r2, by simp, fun i y hy => ⟨Cx.mul y y, by rw [List.getElem?_map, hy]; rfl, ?_⟩⟩
    have := cx_error .mul y y hu (fun h => by cases h)
    rw [← norm_pow, pow_two]
    exact this

/-- C87: `magnitude_squared`. -/
theorem C87_magnitude_squared (v : DspVec (Fl R)) (hc : v.isComplex = true) (cs : List (Cx (Fl R)))
    (h : v.content = some (fromComplex cs)) :
    ∃ w r, v.toRealWith Cx.normSq = some w ∧ RealVersion v w r ∧ r.length = cs.length ∧
      ∀ (i : Nat) c, cs[i]? = some c → ∃ z, r[i]? = some z ∧
        |z.val - ‖Fl.complex c‖ ^ 2| ≤ ((1 + R.u) ^ 2 - 1) * ‖Fl.complex c‖ ^ 2 := by
  obtain ⟨w, h1, h2⟩ := C30_in_place Cx.normSq v hc cs h
  refine ⟨w, _, h1, h2, by simp, fun i c hi => ⟨Cx.normSq c, by simp [hi], ?_⟩⟩
  rw [Complex.sq_norm]
  exact normSq_error c

/-! ### Back and forth -/

theorem replaced_isComplex {T : Type} {v v' : DspVec T} {c : List T} (h : Replaced v v' c) : v'.isComplex = v.isComplex := by
  unfold isComplex; rw [h.2.2.1.2.2.1]

theorem replaced_wf {T : Type} {v v' : DspVec T} {c : List T} (hv : v.WF) (h : Replaced v v' c) : v'.WF := by
  refine ⟨?_, ?_⟩
  · rw [h.2.1, h.2.2.2.1]; exact hv.1
  · intro hc; rw [h.2.1]; exact hv.2 (by rw [← replaced_isComplex h]; exact hc)


/-- C87: dividing again by what was multiplied: every number is back up to a relative error of two roundings. -/
theorem C87_mul_div [DeltaBounds (Fl R)] (k k' : RegKind) (addr addr' : Nat) (v o v' v'' : DspVec (Fl R)) (hv : v.WF) (ho : o.WF)
    (hr : v.isComplex = false) (hal : AlignmentAccepted addr k.len v.len) (hal' : AlignmentAccepted addr' k'.len v.len)
    (h1 : v.mul k addr o = some (v', .ok ())) (h2 : v'.div k' addr' o = some (v'', .ok ())) :
    ∃ a b c, v.content = some a ∧ o.content = some b ∧ v''.content = some c ∧ c.length = a.length ∧
      ∀ (i : Nat) x y, a[i]? = some x → b[i]? = some y → y.val ≠ 0 → ∃ z, c[i]? = some z ∧
        |z.val - x.val| ≤ ((1 + R.u) ^ 2 - 1) * |x.val| := by
  obtain ⟨a, b, r, ha, hb, hrep, hl, hlr, hall⟩ := C87_real .mul k addr v o v' hv ho hr hal h1
  have hr' : v'.isComplex = false := by rw [← hr]; exact replaced_isComplex hrep
  have hlen : v'.len = v.len := hrep.2.1
  have hv' : v'.WF := replaced_wf hv hrep
  obtain ⟨a', b', c, ha', hb', hrep', hl', hlc, hall'⟩ := C87_real .div k' addr' v' o v'' hv' ho hr' (by rw [hlen]; exact hal') h2
  rw [hrep.1] at ha'; rw [hb] at hb'
  cases ha'; cases hb'
  refine ⟨a, b, c, ha, hb, hrep'.1, by rw [hlc, hlr], fun i x y hx hy hy0 => ?_⟩
  obtain ⟨p, hp, -, e1⟩ := hall i x y hx hy
  obtain ⟨z, hz, -, e2⟩ := hall' i p y hp hy
  refine ⟨z, hz, ?_⟩
  have hu := R.u_nonneg
  change |p.val - x.val * y.val| ≤ R.u * |x.val * y.val| at e1
  change |z.val - p.val / y.val| ≤ R.u * |p.val / y.val| at e2
  have hq : |p.val / y.val - x.val| ≤ R.u * |x.val| := by
    have e : p.val / y.val - x.val = (p.val - x.val * y.val) / y.val := by field_simp
    rw [e, abs_div, div_le_iff₀ (abs_pos.2 hy0), mul_assoc, ← abs_mul]; exact e1
  have hq' : |p.val / y.val| ≤ (1 + R.u) * |x.val| := by
    have := abs_sub_abs_le_abs_sub (p.val / y.val) x.val
    linarith
  calc |z.val - x.val| ≤ |z.val - p.val / y.val| + |p.val / y.val - x.val| := abs_sub_le _ _ _
    _ ≤ R.u * ((1 + R.u) * |x.val|) + R.u * |x.val| := add_le_add (e2.trans (mul_le_mul_of_nonneg_left hq' hu)) hq
    _ = _ := by ring

/-- C87: subtracting again what was added: the error is relative to the numbers which were added, not to the result. -/
theorem C87_add_sub [DeltaBounds (Fl R)] (k k' : RegKind) (addr addr' : Nat) (v o v' v'' : DspVec (Fl R)) (hv : v.WF) (ho : o.WF)
    (hr : v.isComplex = false) (hal : AlignmentAccepted addr k.len v.len) (hal' : AlignmentAccepted addr' k'.len v.len)
    (h1 : v.add k addr o = some (v', .ok ())) (h2 : v'.sub k' addr' o = some (v'', .ok ())) :
    ∃ a b c, v.content = some a ∧ o.content = some b ∧ v''.content = some c ∧ c.length = a.length ∧
      ∀ (i : Nat) x y, a[i]? = some x → b[i]? = some y → ∃ z, c[i]? = some z ∧
        |z.val - x.val| ≤ R.u * |x.val| + R.u * (1 + R.u) * |x.val + y.val| := by
  obtain ⟨a, b, r, ha, hb, hrep, hl, hlr, hall⟩ := C87_real .add k addr v o v' hv ho hr hal h1
  have hr' : v'.isComplex = false := by rw [← hr]; exact replaced_isComplex hrep
  have hlen : v'.len = v.len := hrep.2.1
  have hv' : v'.WF := replaced_wf hv hrep
  obtain ⟨a', b', c, ha', hb', hrep', hl', hlc, hall'⟩ := C87_real .sub k' addr' v' o v'' hv' ho hr' (by rw [hlen]; exact hal') h2
  rw [hrep.1] at ha'; rw [hb] at hb'
  cases ha'; cases hb'
  refine ⟨a, b, c, ha, hb, hrep'.1, by rw [hlc, hlr], fun i x y hx hy => ?_⟩
  obtain ⟨p, hp, -, e1⟩ := hall i x y hx hy
  obtain ⟨z, hz, -, e2⟩ := hall' i p y hp hy
  refine ⟨z, hz, ?_⟩
  have hu := R.u_nonneg
  change |p.val - (x.val + y.val)| ≤ R.u * |x.val + y.val| at e1
  change |z.val - (p.val - y.val)| ≤ R.u * |p.val - y.val| at e2
  have hq : |p.val - y.val - x.val| ≤ R.u * |x.val + y.val| := by
    have e : p.val - y.val - x.val = p.val - (x.val + y.val) := by ring
    rw [e]; exact e1
  have hq' : |p.val - y.val| ≤ |x.val| + R.u * |x.val + y.val| := by
    have := abs_sub_abs_le_abs_sub (p.val - y.val) x.val
    linarith
  calc |z.val - x.val| ≤ |z.val - (p.val - y.val)| + |p.val - y.val - x.val| := abs_sub_le _ _ _
    _ ≤ R.u * (|x.val| + R.u * |x.val + y.val|) + R.u * |x.val + y.val| :=
      add_le_add (e2.trans (mul_le_mul_of_nonneg_left hq' hu)) hq
    _ = _ := by ring

end

/-! ### Running sums and differences -/

/-- C87, without any law for the arithmetic: point `i` after `cum_sum` is the sum of the points `0 .. i`, each added once, and no
    number goes through more than `i` additions. -/
theorem C87_cum_sum_additions {T : Type} [Add T] [Zero T] (v : DspVec T) (h : v.WF) :
    ∃ v' l l', v.cumSum = some v' ∧ v.pts = some l ∧ v'.pts = some l' ∧ v'.SameMeta v ∧ l'.length = l.length ∧
      ∀ i c, i < l.length → c < v.stride → ∃ y, (l'[i]?).bind (fun p => p[c]?) = some y ∧
        SumOf i y ((l.take (i + 1)).filterMap (fun p => p[c]?) : Multiset T) := by
  obtain ⟨r, a1, a2, a3⟩ := cumSum_cells v h
  have hwf : (v.withCells r).WF := ⟨by show v.validLen ≤ r.length; rw [a2]; exact h.1, h.2⟩
  obtain ⟨l, hl⟩ := h.exists_pts
  obtain ⟨l', hl'⟩ := hwf.exists_pts
  obtain ⟨hm, -, -, hv, -⟩ := cells_of_pts hl
  obtain ⟨hm', -, -, hv', -⟩ := cells_of_pts hl'
  have hst : (v.withCells r).stride = v.stride := rfl
  have hln : (v.withCells r).validLen = v.validLen := rfl
  rw [hst, hln, hv] at hv'
  have hll : l'.length = l.length := (Nat.eq_of_mul_eq_mul_left v.stride_pos hv').symm
  refine ⟨_, l, l', a1, hl, hl', ⟨rfl, rfl, rfl, rfl⟩, hll, ?_⟩
  intro i c hi hc
  have hcell : ∀ i, i < l.length → v.data.cells.getD (i * v.stride + c) 0 = ((l[i]?).bind (fun p => p[c]?)).getD 0 ∧
      r.getD (i * v.stride + c) 0 = ((l'[i]?).bind (fun p => p[c]?)).getD 0 ∧ i * v.stride + c < v.len := by
    intro i hi
    have hx : i * v.stride + c < v.validLen := by
      rw [hv]
      calc i * v.stride + c < i * v.stride + v.stride := by omega
        _ = v.stride * (i + 1) := by rw [Nat.mul_comm, ← Nat.mul_succ]
        _ ≤ v.stride * l.length := Nat.mul_le_mul_left _ hi
    have d1 : (i * v.stride + c) / v.stride = i := by
      rw [Nat.mul_comm, Nat.mul_add_div v.stride_pos, Nat.div_eq_of_lt hc]; omega
    have d2 : (i * v.stride + c) % v.stride = c := by
      rw [Nat.mul_comm, Nat.mul_add_mod, Nat.mod_eq_of_lt hc]
    have e1 := cell_of_pts hl _ hx
    have e2 := cell_of_pts hl' (i * v.stride + c) hx
    rw [d1, d2] at e1
    rw [hst, d1, d2] at e2
    refine ⟨?_, ?_, hx⟩
    · rw [List.getD_eq_getElem?_getD, e1]
    · rw [List.getD_eq_getElem?_getD]
      have : r[i * v.stride + c]? = _ := e2
      rw [this]
  have hsome : ∀ i, i < l.length → ∃ x y, (l[i]?).bind (fun p => p[c]?) = some x ∧ (l'[i]?).bind (fun p => p[c]?) = some y := by
    intro i hi
    have h1 := hm _ (List.getElem_mem hi)
    have hi' : i < l'.length := by omega
    have h2 := hm' _ (List.getElem_mem hi')
    rw [hst] at h2
    exact ⟨l[i][c], l'[i][c], by simp [hi, h1, hc], by simp [hi', h2, hc]⟩
  induction i with
  | zero =>
    obtain ⟨x, y, hx, hy⟩ := hsome 0 hi
    obtain ⟨c1, c2, c3⟩ := hcell 0 hi
    have e := a3 (0 * v.stride + c)
    rw [if_neg (by omega), c1, c2, hx, hy] at e
    simp only [Option.getD_some] at e
    have ht : l.take 1 = [l[0]] := by
      rw [List.take_one, List.head?_eq_getElem?]; simp [hi]
    simp only [List.getElem?_eq_getElem hi, Option.bind_some] at hx
    refine ⟨y, hy, ?_⟩
    rw [ht, e, List.filterMap_cons, hx, List.filterMap_nil]
    exact .leaf 0 x
  | succ i ih =>
    have hi0 : i < l.length := by omega
    obtain ⟨s, hs, hsum⟩ := ih hi0
    obtain ⟨x, y, hx, hy⟩ := hsome (i + 1) hi
    obtain ⟨c1, c2, c3⟩ := hcell (i + 1) hi
    obtain ⟨d1, d2, d3⟩ := hcell i hi0
    have e := a3 ((i + 1) * v.stride + c)
    have hsub : (i + 1) * v.stride + c - v.stride = i * v.stride + c := by
      rw [Nat.succ_mul]; omega
    rw [if_pos ⟨by rw [Nat.succ_mul]; omega, c3⟩, hsub, c1, c2, d2, hx, hy, hs] at e
    simp only [Option.getD_some] at e
    have ht : l.take (i + 1 + 1) = l.take (i + 1) ++ [l[i + 1]] := by
      rw [List.take_add_one]; simp [hi]
    simp only [List.getElem?_eq_getElem hi, Option.bind_some] at hx
    refine ⟨y, hy, ?_⟩
    rw [e]
    have e2 : ((l.take (i + 1 + 1)).filterMap (fun p => p[c]?) : Multiset T) =
        {x} + ((l.take (i + 1)).filterMap (fun p => p[c]?) : Multiset T) := by
      rw [ht, List.filterMap_append, List.filterMap_cons, hx, List.filterMap_nil, ← Multiset.coe_add]
      exact add_comm _ _
    rw [e2]
    exact .add (.leaf i x) hsum

section
variable {R : Rounding}

/-- C87: the rounding error of `cum_sum`: point `i` is the exact sum of the points `0 .. i` up to the error of `i` additions. -/
theorem C87_cum_sum (v : DspVec (Fl R)) (h : v.WF) :
    ∃ v' l l', v.cumSum = some v' ∧ v.pts = some l ∧ v'.pts = some l' ∧ v'.SameMeta v ∧ l'.length = l.length ∧
      ∀ i c, i < l.length → c < v.stride → ∃ y, (l'[i]?).bind (fun p => p[c]?) = some y ∧
        |y.val - exactSum ((l.take (i + 1)).filterMap (fun p => p[c]?))| ≤
          ((1 + R.u) ^ i - 1) * absSum ((l.take (i + 1)).filterMap (fun p => p[c]?)) := by
  obtain ⟨v', l, l', h1, h2, h3, h4, h5, h6⟩ := C87_cum_sum_additions v h
  refine ⟨v', l, l', h1, h2, h3, h4, h5, fun i c hi hc => ?_⟩
  obtain ⟨y, hy, hs⟩ := h6 i c hi hc
  exact ⟨y, hy, C73_rounding hs⟩

/-- C87: `diff`: every number is the exact difference, rounded once. -/
theorem C87_diff (v : DspVec (Fl R)) (h : v.WF) (hne : v.len ≠ 0) (halloc : v.isComplex = true → v.allocLen % 2 = 0) :
    ∃ v' l l', v.diff = some v' ∧ v.pts = some l ∧ v'.pts = some l' ∧ v'.SameMeta v ∧ l'.length = l.length - 1 ∧
      ∀ (i : Nat) a b, l[i]? = some a → l[i + 1]? = some b → ∃ p, l'[i]? = some p ∧ p.length = v.stride ∧
        ∀ (c : Nat) x y, a[c]? = some x → b[c]? = some y → ∃ z, p[c]? = some z ∧
          |z.val - (y.val - x.val)| ≤ R.u * |y.val - x.val| := by
  obtain ⟨v', l, l', h1, h2, h3, h4, h5, h6⟩ := C11_diff v h hne halloc
  refine ⟨v', l, l', h1, h2, h3, h4, h5, fun i a b ha hb => ⟨_, h6 i a b ha hb, ?_, fun c x y hx hy => ⟨y - x, ?_, R.error _⟩⟩⟩
  · obtain ⟨hm, -⟩ := cells_of_pts h2
    have e1 := hm a (List.mem_of_getElem? ha)
    have e2 := hm b (List.mem_of_getElem? hb)
    simp [pointSub, e1, e2]
  · simp [pointSub, List.getElem?_zipWith, hx, hy]

/-! ### Examples -/

/-- The bounds of the comparison of sampling distances for the examples. -/
noncomputable local instance exampleBounds : DeltaBounds (Fl R) := ⟨⟨11 / 10⟩, ⟨9 / 10⟩⟩

/-- A vector of rounded numbers without a sampling distance. -/
noncomputable def roundedVec (R : Rounding) (c : NumberSpace) : DspVec (Fl R) := ⟨⟨.vec, [⟨3⟩, ⟨1 / 3⟩, ⟨-2⟩, ⟨5⟩]⟩, none, .time, c, 4⟩

theorem rounded_wf (R : Rounding) (c : NumberSpace) : (roundedVec R c).WF := ⟨Nat.le_refl 4, fun _ => (rfl : 4 % 2 = 0)⟩

theorem rounded_meta (R : Rounding) (c : NumberSpace) : (roundedVec R c).metaMismatch (roundedVec R c) = false := by
  simp [metaMismatch, roundedVec, deltaRatioBad]

/-- Numbers like `f32` and like `f64` are precise enough for the bounds of complex vectors. -/
example : (binaryRounding 23).u ≤ 1 / 1000 ∧ (binaryRounding 52).u ≤ 1 / 1000 := by
  constructor <;> norm_num [binaryRounding]

/-- Real vectors: all operations succeed, with registers and with a part outside of registers. -/
example (op : ElemOp) (addr : Nat) (ha : addr = 0) : let v := roundedVec (binaryRounding 23) .real
    v.WF ∧ v.isComplex = false ∧ AlignmentAccepted addr RegKind.sseF32x4.len v.len ∧
    AlignmentAccepted addr RegKind.avxF32x8.len v.len ∧
    (∃ w, op.run .sseF32x4 addr v v = some (w, .ok ())) ∧ (∃ w, op.run .avxF32x8 addr v v = some (w, .ok ())) ∧
    (∃ w, op.runSmaller v v = some (w, .ok ())) := by
  intro v
  subst ha
  have h1 : AlignmentAccepted 0 RegKind.sseF32x4.len v.len := .inl rfl
  have h2 : AlignmentAccepted 0 RegKind.avxF32x8.len v.len := .inl rfl
  have hw := rounded_wf (binaryRounding 23) .real
  have hm := rounded_meta (binaryRounding 23) .real
  obtain ⟨-, -, w1, -, -, e1, -⟩ := runs_real op .sseF32x4 0 v v hw hw rfl hm rfl h1
  obtain ⟨-, -, w2, -, -, e2, -⟩ := runs_real op .avxF32x8 0 v v hw hw rfl hm rfl h2
  obtain ⟨-, -, -, w3, -, -, e3, -⟩ := smaller_real op v v hw hw (by decide) (dvd_refl _) hm rfl
  exact ⟨hw, rfl, h1, h2, ⟨_, e1⟩, ⟨_, e2⟩, ⟨_, e3⟩⟩

/-- Complex vectors. -/
example (op : ElemOp) : let v := roundedVec (binaryRounding 52) .complex
    v.WF ∧ v.isComplex = true ∧ ComplexAlignmentAccepted 0 RegKind.sseF64x2.len v.len ∧
    (∃ w, op.run .sseF64x2 0 v v = some (w, .ok ())) ∧ (∃ w, op.runSmaller v v = some (w, .ok ())) := by
  intro v
  have hw := rounded_wf (binaryRounding 52) .complex
  have hm := rounded_meta (binaryRounding 52) .complex
  obtain ⟨-, -, w1, -, -, e1, -⟩ := runs_complex op .sseF64x2 0 v v hw hw rfl hm rfl (.inl rfl) (fun _ => ⟨rfl, (rfl : 4 % 2 = 0)⟩)
  obtain ⟨-, -, -, w3, -, -, e3, -⟩ := smaller_complex op v v hw hw (by decide) (dvd_refl _) hm rfl
  exact ⟨hw, rfl, ⟨.inl rfl, rfl⟩, ⟨_, e1⟩, ⟨_, e3⟩⟩

/-- Back and forth, differences and running sums. -/
example (op op' : ElemOp) : let v := roundedVec (binaryRounding 23) .real
    (∃ w u, op.run .sseF32x4 0 v v = some (w, .ok ()) ∧ op'.run .avxF32x8 0 w v = some (u, .ok ())) ∧
    v.len ≠ 0 ∧ (v.isComplex = true → v.allocLen % 2 = 0) ∧ v.pts.map List.length = some 4 := by
  intro v
  have hw := rounded_wf (binaryRounding 23) .real
  have hm := rounded_meta (binaryRounding 23) .real
  obtain ⟨_, _, w1, _, _, e1, r1⟩ := runs_real op .sseF32x4 0 v v hw hw rfl hm rfl (.inl rfl)
  have hm1 : w1.metaMismatch v = false := by
    obtain ⟨m1, m2, m3, m4⟩ := r1.2.2.1
    unfold metaMismatch DspVec.dom isComplex at *
    rw [m1, m2, m3]; exact hm
  obtain ⟨-, -, w2, -, -, e2, -⟩ := runs_real op' .avxF32x8 0 w1 v (replaced_wf hw r1) hw r1.2.1 hm1
    (replaced_isComplex r1) (by rw [show w1.len = v.len from r1.2.1]; exact .inl rfl)
  exact ⟨⟨_, _, e1, e2⟩, by decide, fun _ => (rfl : 4 % 2 = 0), rfl⟩

/-- The exact operations of the specification. -/
example : ElemOp.div.exact 6 4 = 3 / 2 ∧ ElemOp.sub.exact 6 4 = 2 ∧
    ElemOp.mul.exactComplex Complex.I Complex.I = -1 ∧ Fl.complex (⟨⟨0⟩, ⟨1⟩⟩ : Cx (Fl R)) = Complex.I := by
  refine ⟨by norm_num [ElemOp.exact], by norm_num [ElemOp.exact], by simp [ElemOp.exactComplex], rfl⟩

end
end Dsp
