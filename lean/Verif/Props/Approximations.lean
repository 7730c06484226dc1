import Verif.Lemmas.ApproxLn
import Verif.Props.Bitwise
/-
C79: the approximated functions.
-/
namespace Dsp

/-- C79: the sine is approximated with an error below `1E-6`, in exact arithmetic and for arguments up to 10^8. -/
theorem C79_sin (fmt : FloatFormat) (x : ℝ) (hx : |x| ≤ 1e8) : |sinCosApprox fmt true x - Real.sin x| ≤ 1e-6 :=
  (sinApprox_error fmt x hx).trans (by norm_num)

/-- C79: the cosine is approximated with an error below `1E-6`, in exact arithmetic and for arguments up to 10^8. -/
theorem C79_cos (fmt : FloatFormat) (x : ℝ) (hx : |x| ≤ 1e8) : |sinCosApprox fmt false x - Real.cos x| ≤ 1e-6 :=
  (cosApprox_error fmt x hx).trans (by norm_num)

/-- C79: the exponential function is approximated with a relative error below `1E-6` for arguments between -87 and 87. -/
theorem C79_exp (fmt : FloatFormat) (x : ℝ) (hx : |x| ≤ 87) : |expApprox fmt x - Real.exp x| ≤ 1e-6 * Real.exp x :=
  expApprox_error fmt x hx

/-- What is computed for a normal number. -/
theorem lnApprox_parts (fmt : FloatFormat) (x : ℝ) (hx : PositiveNormal fmt x) :
    ∃ (k : ℤ) (t y : ℝ), fmt.minExp ≤ k ∧ k ≤ fmt.maxExp ∧ 0 ≤ t ∧ t < 1 ∧ x = (1 + t) * 2 ^ k ∧ lnApprox fmt x = some y ∧
      Real.log x = Real.log (1 + t) + k * Real.log 2 ∧ y - Real.log x = lnErr t + k * (0.69314718056 - Real.log 2) := by
  obtain ⟨k, f, hk1, hk2, hf, rfl⟩ := hx
  have ht : (f : ℝ) / 2 ^ fmt.mantLen < 1 := by
    rw [div_lt_one (by positivity)]; exact_mod_cast hf
  have ht0 : 0 ≤ (f : ℝ) / 2 ^ fmt.mantLen := by positivity
  refine ⟨k, (f : ℝ) / 2 ^ fmt.mantLen, _, hk1, hk2, ht0, ht, rfl, lnApprox_normal fmt k f hk1 hk2 hf, ?_⟩
  have hlog : Real.log ((1 + (f : ℝ) / 2 ^ fmt.mantLen) * 2 ^ k) = Real.log (1 + (f : ℝ) / 2 ^ fmt.mantLen) + k * Real.log 2 := by
    rw [Real.log_mul (by positivity) (zpow_ne_zero _ (by norm_num)), Real.log_zpow]
  refine ⟨hlog, ?_⟩
  rw [hlog, lnTail_peval, lnErr]
  ring

theorem log_two_const : |(0.69314718056 : ℝ) - Real.log 2| ≤ 3e-10 := by
  have h1 := Real.log_two_gt_d9
  have h2 := Real.log_two_lt_d9
  rw [abs_le]; norm_num at *
  constructor <;> linarith

theorem exponent_bounds {fmt : FloatFormat} {k : ℤ} (h1 : fmt.minExp ≤ k) (h2 : k ≤ fmt.maxExp) : |(k : ℝ)| ≤ 1023 := by
  rw [abs_le]
  have : -1023 ≤ k ∧ k ≤ 1023 := by
    cases fmt <;> simp only [FloatFormat.minExp, FloatFormat.maxExp] at * <;> omega
  exact ⟨by exact_mod_cast this.1, by exact_mod_cast this.2⟩

/-- C79: for all positive normal numbers the logarithm is approximated with an absolute error below 0.014. -/
theorem C79_ln_absolute (fmt : FloatFormat) (x : ℝ) (hx : PositiveNormal fmt x) :
    ∃ y, lnApprox fmt x = some y ∧ |y - Real.log x| ≤ 0.014 := by
  obtain ⟨k, t, y, hk1, hk2, h0, h1, hxe, hy, -, he⟩ := lnApprox_parts fmt x hx
  refine ⟨y, hy, ?_⟩
  have hk := exponent_bounds hk1 hk2
  have hkc : |(k : ℝ) * (0.69314718056 - Real.log 2)| ≤ 1023 * 3e-10 := by
    rw [abs_mul]; exact mul_le_mul hk log_two_const (abs_nonneg _) (by norm_num)
  have l := lnErr_low t h0 h1.le
  have u := lnErr_up t 1 h0 h1.le le_rfl
  have e1 := lnErr_one
  have b := log_one_add_bounds t h0 h1.le
  have l2 := Real.log_two_lt_d9
  rw [he]
  obtain ⟨c1, c2⟩ := abs_le.1 hkc
  rw [abs_le]
  generalize (k : ℝ) * (0.69314718056 - Real.log 2) = c at *
  norm_num at *
  constructor <;> linarith

/-- C79: above 1, except between 1.9 and 2, the logarithm is approximated with an error below one percent. -/
theorem C79_ln_partial (fmt : FloatFormat) (x : ℝ) (hx : PositiveNormal fmt x) (h1 : 1 < x) (h2 : x ≤ 1.9 ∨ 2 ≤ x) :
    ∃ y, lnApprox fmt x = some y ∧ |y - Real.log x| ≤ 0.01 * Real.log x := by
  obtain ⟨k, t, y, hk1, hk2, ht0, ht1, hxe, hy, hlog, he⟩ := lnApprox_parts fmt x hx
  refine ⟨y, hy, ?_⟩
  have hl := Real.log_two_gt_d9
  have hpos : 0 < Real.log x := Real.log_pos h1
  have b := log_one_add_bounds t ht0 ht1.le
  have l := lnErr_low t ht0 ht1.le
  have hc := log_two_const
  have hk0 : 0 ≤ k := by
    by_contra hneg
    have : (2 : ℝ) ^ k ≤ 2 ^ (-1 : ℤ) := zpow_le_zpow_right₀ (by norm_num) (by omega)
    have hp : (0 : ℝ) < 2 ^ k := zpow_pos (by norm_num) k
    rw [hxe] at h1
    norm_num at this
    nlinarith
  rcases hk0.eq_or_lt with hk | hk
  · subst hk
    simp only [zpow_zero, mul_one] at hxe
    simp only [Int.cast_zero, zero_mul, add_zero] at hlog he
    have ht9 : t ≤ 0.9 := by
      rcases h2 with h | h
      · rw [hxe] at h; norm_num at *; linarith
      · rw [hxe] at h; linarith
    have := lnErr_below t ht0 ht9
    rw [he, hlog, abs_le]
    constructor
    · norm_num at *; linarith
    · exact this
  · have hk1' : (1 : ℝ) ≤ k := by exact_mod_cast hk
    have hkc : |(k : ℝ) * (0.69314718056 - Real.log 2)| ≤ k * 3e-10 := by
      rw [abs_mul, abs_of_nonneg (by linarith : (0 : ℝ) ≤ k)]; exact mul_le_mul_of_nonneg_left hc (by linarith)
    have hkl : (0.69 : ℝ) * (k - 1) ≤ (k - 1) * Real.log 2 := by
      rw [mul_comm]; exact mul_le_mul_of_nonneg_left (by norm_num at *; linarith) (by linarith)
    have u := lnErr_above t ht0 ht1.le
    obtain ⟨c1, c2⟩ := abs_le.1 hkc
    rw [he, hlog, abs_le]
    have e : (k : ℝ) * Real.log 2 = (k - 1) * Real.log 2 + Real.log 2 := by ring
    rw [e]
    generalize (k : ℝ) * (0.69314718056 - Real.log 2) = c at *
    generalize ((k : ℝ) - 1) * Real.log 2 = m at *
    norm_num at *
    constructor <;> linarith

/-- C79: above 1 the error is below one percent of the argument (the measure of the example `approx_accuracy`). -/
theorem C79_ln_input (fmt : FloatFormat) (x : ℝ) (hx : PositiveNormal fmt x) (h1 : 1 < x) :
    ∃ y, lnApprox fmt x = some y ∧ |y - Real.log x| ≤ 0.01 * x := by
  by_cases h : x ≤ 1.9 ∨ 2 ≤ x
  · obtain ⟨y, hy, he⟩ := C79_ln_partial fmt x hx h1 h
    refine ⟨y, hy, he.trans ?_⟩
    have := Real.log_le_sub_one_of_pos (show 0 < x by linarith)
    norm_num
    linarith
  · obtain ⟨y, hy, he⟩ := C79_ln_absolute fmt x hx
    refine ⟨y, hy, he.trans ?_⟩
    rw [not_or, not_le, not_le] at h
    norm_num at *
    linarith [h.1]

/-- C79: the logarithm of a number which is not positive is not a number. -/
theorem C79_ln_invalid (fmt : FloatFormat) (x : ℝ) (hx : x ≤ 0) : lnApprox fmt x = none := by
  unfold lnApprox; rw [if_pos hx]

/-- C79: `sqrthf` is the square root of 2 instead of that of 1/2 (approximations.rs:75). Between 1.95 and 2 the error of the logarithm exceeds the
    documented one percent. -/
theorem C79_ln_violated (fmt : FloatFormat) (x : ℝ) (hx : PositiveNormal fmt x) (h1 : 1.95 ≤ x) (h2 : x < 2) :
    ∃ y, lnApprox fmt x = some y ∧ 0.01 * Real.log x < |y - Real.log x| := by
  obtain ⟨k, t, y, hk1, hk2, ht0, ht1, hxe, hy, hlog, he⟩ := lnApprox_parts fmt x hx
  refine ⟨y, hy, ?_⟩
  have hk : k = 0 := by
    have hp : (0 : ℝ) < 2 ^ k := zpow_pos (by norm_num) k
    by_contra hne
    rcases lt_or_gt_of_ne hne with h | h
    · have : (2 : ℝ) ^ k ≤ 2 ^ (-1 : ℤ) := zpow_le_zpow_right₀ (by norm_num) (by omega)
      rw [hxe] at h1
      norm_num at this h1
      nlinarith
    · have : (2 : ℝ) ^ (1 : ℤ) ≤ 2 ^ k := zpow_le_zpow_right₀ (by norm_num) (by omega)
      rw [hxe] at h2
      norm_num at this
      nlinarith
  subst hk
  simp only [zpow_zero, mul_one] at hxe
  simp only [Int.cast_zero, zero_mul, add_zero] at hlog he
  have := lnErr_near_two t (by rw [hxe] at h1; norm_num at *; linarith) ht1.le
  rw [he, hlog]
  exact this.trans_le (le_abs_self _)

/-- What is computed outside of registers is the function itself. -/
theorem scalar_exact (op : ApproxOp) (fmt : FloatFormat) (nan x : ℝ) (hx : op.Covers fmt x) : op.scalar nan x = op.exact x := by
  have normal_pos : PositiveNormal fmt x → 0 < x := by
    rintro ⟨k, f, -, -, -, rfl⟩
    have hp : (0 : ℝ) < 2 ^ k := zpow_pos (by norm_num) k
    positivity
  cases op with
  | ln => simp only [ApproxOp.scalar, ApproxOp.exact]; rw [if_pos (normal_pos hx.1)]
  | exp => rfl
  | sin => rfl
  | cos => rfl
  | log b => simp only [ApproxOp.scalar, ApproxOp.exact]; rw [if_pos (normal_pos hx.2.1)]; rfl
  | expf b => simp only [ApproxOp.scalar, ApproxOp.exact]; rw [Real.rpow_def_of_pos hx.1]
  | powf y => simp only [ApproxOp.scalar, ApproxOp.exact]; rw [if_pos (normal_pos hx.1), Real.rpow_def_of_pos (normal_pos hx.1)]

/-- What a register computes is within the documented error. -/
theorem lane_accurate (op : ApproxOp) (fmt : FloatFormat) (nan x : ℝ) (hx : op.Covers fmt x) :
    |op.lane fmt nan x - op.exact x| ≤ op.tolerance x := by
  cases op with
  | sin => exact C79_sin fmt x hx
  | cos => exact C79_cos fmt x hx
  | exp =>
    refine (C79_exp fmt x hx).trans ?_
    show _ ≤ 0.01 * |Real.exp x|
    rw [abs_of_pos (Real.exp_pos x)]
    exact mul_le_mul_of_nonneg_right (by norm_num) (Real.exp_pos x).le
  | ln =>
    obtain ⟨h0, h1, h2⟩ := hx
    obtain ⟨y, hy, he⟩ := C79_ln_partial fmt x h0 h1 h2
    show |(lnApprox fmt x).getD nan - Real.log x| ≤ 0.01 * |Real.log x|
    rw [hy, abs_of_pos (Real.log_pos h1)]
    exact he
  | log b =>
    obtain ⟨hb, h0, h1, h2⟩ := hx
    obtain ⟨y, hy, he⟩ := C79_ln_partial fmt x h0 h1 h2
    show |((lnApprox fmt x).map (· / Real.log b)).getD nan - Real.logb b x| ≤ 0.01 * |Real.logb b x|
    have hlb := Real.log_pos hb
    rw [hy]
    simp only [Option.map_some, Option.getD_some, Real.logb]
    rw [← sub_div, abs_div, abs_div, abs_of_pos hlb, abs_of_pos (Real.log_pos h1), ← mul_div_assoc]
    exact div_le_div_of_nonneg_right he hlb.le
  | expf b =>
    obtain ⟨hb, h1⟩ := hx
    have := C79_exp fmt (Real.log b * x) h1
    show |expApprox fmt (Real.log b * x) - b ^ x| ≤ 0.01 * |b ^ x|
    rw [Real.rpow_def_of_pos hb, abs_of_pos (Real.exp_pos _)]
    exact this.trans (mul_le_mul_of_nonneg_right (by norm_num) (Real.exp_pos _).le)
  | powf y =>
    obtain ⟨h0, h1, h2⟩ := hx
    obtain ⟨l, hl, he⟩ := C79_ln_absolute fmt x h0
    have hx0 : 0 < x := by
      obtain ⟨k, f, -, -, -, rfl⟩ := h0
      have hp : (0 : ℝ) < 2 ^ k := zpow_pos (by norm_num) k
      positivity
    show |((lnApprox fmt x).map fun l => expApprox fmt (l * y)).getD nan - x ^ y| ≤ 0.01 * |x ^ y|
    rw [hl]
    simp only [Option.map_some, Option.getD_some]
    rw [Real.rpow_def_of_pos hx0, abs_of_pos (Real.exp_pos _)]
    have hd : |l * y - Real.log x * y| ≤ 0.007 := by
      rw [← sub_mul, abs_mul]
      calc _ ≤ 0.014 * (1 / 2) := mul_le_mul he h1 (abs_nonneg _) (by norm_num)
        _ ≤ 0.007 := by norm_num
    have hr : |l * y| ≤ 87 := by
      have := abs_sub_abs_le_abs_sub (l * y) (Real.log x * y)
      norm_num at *
      linarith
    have ha := C79_exp fmt (l * y) hr
    generalize l * y = a at *
    generalize Real.log x * y = b at *
    have he1 := Real.abs_exp_sub_one_sub_id_le (x := a - b) (hd.trans (by norm_num))
    have hab : Real.exp a = Real.exp b * Real.exp (a - b) := by rw [← Real.exp_add]; congr 1; ring
    have hb0 := Real.exp_pos b
    have hsq : (a - b) ^ 2 ≤ 0.00005 := by
      rw [← sq_abs]
      calc _ ≤ (0.007 : ℝ) ^ 2 := pow_le_pow_left₀ (abs_nonneg _) hd 2
        _ ≤ 0.00005 := by norm_num
    have hE : |Real.exp (a - b) - 1| ≤ 0.00705 := by
      obtain ⟨u1, u2⟩ := abs_le.1 he1
      obtain ⟨w1, w2⟩ := abs_le.1 hd
      rw [abs_le]
      norm_num at *
      constructor <;> linarith
    obtain ⟨v1, v2⟩ := abs_le.1 hE
    obtain ⟨p1, p2⟩ := abs_le.1 ha
    rw [hab] at p1 p2
    rw [abs_le]
    norm_num at *
    constructor <;> nlinarith

/-- What a register computes is within the documented error, also without SIMD support. -/
theorem register_accurate (op : ApproxOp) (k : RegKind) (nan x : ℝ) (hx : op.Covers k.format x) :
    |op.register k nan x - op.exact x| ≤ op.tolerance x := by
  unfold ApproxOp.register
  split
  · rw [scalar_exact op k.format nan x hx]
    simp only [sub_self, abs_zero]
    cases op <;> simp only [ApproxOp.tolerance] <;> positivity
  · exact lane_accurate op k.format nan x hx

/-- C79: the approximated functions of real vectors: every number is replaced by one which differs from the value of the function by not more
    than the documented error; nothing else changes, with all settings and schedules. Numbers which are not processed in registers (and all
    numbers on machines without SIMD support) are replaced by the value of the function. -/
theorem C79_vector_partial (op : ApproxOp) (nan : ℝ) (k : RegKind) (addr : Nat) (st : MultiCoreSettings) (v : DspVec ℝ) (hv : v.WF)
    (hr : v.isComplex = false) (hal : AlignmentAccepted addr k.len v.len) (a : List ℝ) (ha : v.content = some a)
    (hc : ∀ x ∈ a, op.Covers (laneType k) x) :
    ∃ w ys, Always (v.approx op nan k addr st) w ∧ Replaced v w ys ∧ List.Forall₂ (fun x y => |y - op.exact x| ≤ op.tolerance x) a ys ∧
      ∀ (i : Nat) (x : ℝ), a[i]? = some x → NoSimd k ∨ ¬ InRegister addr k.len v.len i → ys[i]? = some (op.exact x) := by
  have hfmt : laneType k = k.format := by cases k <;> rfl
  have hfall : NoSimd k → k.isFallback = true := by rintro (h | h) <;> subst h <;> rfl
  rw [hfmt] at hc
  have hl := hv.content_length hv.content_eq
  have hae : a = v.data.cells.take v.validLen := by have := hv.content_eq; rw [ha] at this; exact Option.some.inj this
  have h := simdReal_mixed addr k.len (RegKind.len_pos k) (fun r => r.map (op.register k nan)) _ (op.scalar nan) (laneWise_map _ _) st
    (v.data.cells.take v.validLen) (by rw [hl]; exact hal)
  rw [hl] at h
  rw [← hae] at h hl
  refine ⟨_, _, h.mapOutcome.congr fun s => ?_, replaced_splice hv _ (by rw [List.length_mapIdx]; exact hl), ?_, ?_⟩
  · unfold DspVec.approx; rw [hr, ha]; rfl
  · rw [List.forall₂_iff_get]
    refine ⟨by simp, fun i h1 h2 => ?_⟩
    simp only [List.get_eq_getElem, List.getElem_mapIdx]
    have hm := hc a[i] (List.getElem_mem h1)
    split
    · exact register_accurate op k nan _ hm
    · rw [scalar_exact op k.format nan _ hm]
      simp only [sub_self, abs_zero]
      cases op <;> simp only [ApproxOp.tolerance] <;> positivity
  · intro i x hx hor
    rw [List.getElem?_mapIdx, hx]
    have hm := hc x (List.mem_of_getElem? hx)
    simp only [Option.map_some, Option.some.injEq]
    split
    · rename_i hin
      rcases hor with hf | hn
      · unfold ApproxOp.register
        rw [if_pos (hfall hf)]
        exact scalar_exact op k.format nan x hm
      · exact absurd hin hn
    · exact scalar_exact op k.format nan x hm

/-- C79: complex vectors are marked as invalid. -/
theorem C79_complex (op : ApproxOp) (nan : ℝ) (k : RegKind) (addr : Nat) (st : MultiCoreSettings) (v : DspVec ℝ) (hr : v.isComplex = true) :
    Always (v.approx op nan k addr st) v.markInvalid := by
  have : v.approx op nan k addr st = fun _ => .finished v.markInvalid := by
    funext s; unfold DspVec.approx; rw [if_pos hr]
  rw [this]
  exact Always.const _

/-- C79: `powf_approx` is documented for numbers between -0.1 and 0.1, but the result for negative numbers (and zero) is not a number. -/
theorem C79_powf_negative_violated (fmt : FloatFormat) (nan x y : ℝ) (hx : x ≤ 0) :
    (ApproxOp.powf y).lane fmt nan x = nan ∧ (ApproxOp.powf y).scalar nan x = nan := by
  constructor
  · simp [ApproxOp.lane, C79_ln_invalid fmt x hx]
  · simp [ApproxOp.scalar, not_lt.2 hx]

theorem normal_example (fmt : FloatFormat) (k : ℤ) (h1 : fmt.minExp ≤ k) (h2 : k ≤ fmt.maxExp) : PositiveNormal fmt (63 / 32 * 2 ^ k) := by
  refine ⟨k, 31 * 2 ^ (fmt.mantLen - 5), h1, h2, ?_, ?_⟩
  · cases fmt <;> decide
  · cases fmt <;> norm_num [FloatFormat.mantLen]

/-- C79: also for small positive numbers the error of `powf_approx` exceeds one percent: the square of 63/1024. -/
theorem C79_powf_violated (fmt : FloatFormat) (nan : ℝ) :
    0.01 * (63 / 1024 : ℝ) ^ (2 : ℝ) < |(ApproxOp.powf 2).lane fmt nan (63 / 1024) - (63 / 1024 : ℝ) ^ (2 : ℝ)| := by
  have hn : PositiveNormal fmt (63 / 1024) := by
    have := normal_example fmt (-5) (by cases fmt <;> decide) (by cases fmt <;> decide)
    norm_num at this
    exact this
  obtain ⟨k, t, l, hk1, hk2, ht0, ht1, hxe, hl, hlog, he⟩ := lnApprox_parts fmt _ hn
  have hp : (0 : ℝ) < 2 ^ k := zpow_pos (by norm_num) k
  have hk : k = -5 := by
    by_contra hne
    rcases lt_or_gt_of_ne hne with h | h
    · have : (2 : ℝ) ^ k ≤ 2 ^ (-6 : ℤ) := zpow_le_zpow_right₀ (by norm_num) (by omega)
      norm_num at this
      nlinarith
    · have : (2 : ℝ) ^ (-4 : ℤ) ≤ 2 ^ k := zpow_le_zpow_right₀ (by norm_num) (by omega)
      norm_num at this
      nlinarith
  subst hk
  have ht : t = 31 / 32 := by norm_num at hxe; linarith
  subst ht
  have hc := log_two_const
  have hup := lnErr_up 0.95 (31 / 32) (by norm_num) (by norm_num) (by norm_num)
  have h95 := lnErr_095
  have hone := lnErr_up (31 / 32) 1 (by norm_num) (by norm_num) le_rfl
  have hone' := lnErr_one
  have l1 := Real.log_two_gt_d9
  have l2 := Real.log_two_lt_d9
  have b := log_one_add_bounds (31 / 32) (by norm_num) (by norm_num)
  show _ < |((lnApprox fmt (63 / 1024)).map fun l => expApprox fmt (l * 2)).getD nan - (63 / 1024 : ℝ) ^ (2 : ℝ)|
  rw [hl]
  simp only [Option.map_some, Option.getD_some]
  rw [Real.rpow_def_of_pos (by norm_num)]
  obtain ⟨c1, c2⟩ := abs_le.1 hc
  push_cast at he hlog
  have hr : |l * 2| ≤ 87 := by rw [abs_le]; norm_num at *; constructor <;> linarith
  have ha := C79_exp fmt (l * 2) hr
  have hδ : 0.0138 ≤ l * 2 - Real.log (63 / 1024) * 2 := by norm_num at *; linarith
  generalize l * 2 = p at *
  generalize Real.log (63 / 1024) * 2 = q at *
  have hab : Real.exp p = Real.exp q * Real.exp (p - q) := by rw [← Real.exp_add]; congr 1; ring
  have hE := Real.add_one_le_exp (p - q)
  have hq0 := Real.exp_pos q
  obtain ⟨p1, p2⟩ := abs_le.1 ha
  have hge : Real.exp q * 1.0138 ≤ Real.exp p := by
    rw [hab]; exact mul_le_mul_of_nonneg_left (by norm_num at *; linarith) hq0.le
  refine lt_of_lt_of_le ?_ (le_abs_self _)
  norm_num at *
  linarith

/-! ### The hypotheses can be met -/

/-- Numbers to which `C79_ln_violated` applies. -/
example (fmt : FloatFormat) : PositiveNormal fmt (63 / 32) ∧ 1.95 ≤ (63 / 32 : ℝ) ∧ (63 / 32 : ℝ) < 2 := by
  have := normal_example fmt 0 (by cases fmt <;> decide) (by cases fmt <;> decide)
  rw [zpow_zero, mul_one] at this
  exact ⟨this, by norm_num, by norm_num⟩

/-- Numbers to which `C79_ln_partial` applies. -/
example (fmt : FloatFormat) : PositiveNormal fmt (63 / 16) ∧ 1 < (63 / 16 : ℝ) ∧ 2 ≤ (63 / 16 : ℝ) := by
  have := normal_example fmt 1 (by cases fmt <;> decide) (by cases fmt <;> decide)
  rw [zpow_one] at this
  norm_num at this
  exact ⟨this, by norm_num, by norm_num⟩

/-- A vector to which `C79_vector_partial` applies. -/
example : ∃ w ys, Always ((⟨⟨.vec, [63 / 16, 63 / 8, 63 / 16, 63 / 8, 63 / 16]⟩, none, .time, .real, 5⟩ : DspVec ℝ).approx .ln 0 .sseF32x4 0
      (.withThresholds 1 0 0 0 0)) w ∧
    Replaced (⟨⟨.vec, [63 / 16, 63 / 8, 63 / 16, 63 / 8, 63 / 16]⟩, none, .time, .real, 5⟩ : DspVec ℝ) w ys ∧
    List.Forall₂ (fun x y => |y - Real.log x| ≤ 0.01 * |Real.log x|) [63 / 16, 63 / 8, 63 / 16, 63 / 8, 63 / 16] ys := by
  have h1 : PositiveNormal .f32 (63 / 16) := by
    have := normal_example .f32 1 (by decide) (by decide)
    rw [zpow_one] at this
    norm_num at this
    exact this
  have h2 : PositiveNormal .f32 (63 / 8) := by
    have := normal_example .f32 2 (by decide) (by decide)
    norm_num at this
    exact this
  obtain ⟨w, ys, hw, hrep, hall, -⟩ := C79_vector_partial .ln 0 .sseF32x4 0 (.withThresholds 1 0 0 0 0)
    ⟨⟨.vec, [63 / 16, 63 / 8, 63 / 16, 63 / 8, 63 / 16]⟩, none, .time, .real, 5⟩ (by simp [DspVec.WF, DspVec.isComplex, NumberSpace.isComplex]) rfl (.inl rfl) [63 / 16, 63 / 8, 63 / 16, 63 / 8, 63 / 16] rfl (by
      intro x hx
      have hx' : x = 63 / 16 ∨ x = 63 / 8 := by
        simp only [List.mem_cons, List.not_mem_nil, or_false] at hx
        tauto
      rcases hx' with rfl | rfl
      · exact ⟨h1, by norm_num, .inr (by norm_num)⟩
      · exact ⟨h2, by norm_num, .inr (by norm_num)⟩)
  exact ⟨w, ys, hw, hrep, hall⟩

end Dsp
