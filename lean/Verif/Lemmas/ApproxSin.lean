import Verif.Lemmas.ApproxExp
/-
Sine and cosine: the bit operations of the octants.
-/
namespace Dsp

theorem lit_bit (w x i : Nat) : (BitVec.ofNat w x).getLsbD i = (decide (i < w) && x.testBit i) := BitVec.getLsbD_ofNat w x i

theorem clear_low_bit (w : Nat) (b : BitVec w) : (b &&& ~~~1#w).toNat = 2 * (b.toNat / 2) := by
  apply Nat.eq_of_testBit_eq
  intro i
  rw [BitVec.testBit_toNat, BitVec.getLsbD_and, BitVec.getLsbD_not, lit_bit]
  by_cases hi : i < w
  · cases i with
    | zero => simp [hi]
    | succ i =>
      rw [show 2 * (b.toNat / 2) = b.toNat / 2 * 2 ^ 1 by omega, Nat.testBit_mul_two_pow]
      simp [hi, Nat.testBit_succ, BitVec.getLsbD]
  · have : b.getLsbD i = false := BitVec.getLsbD_of_ge b i (by omega)
    rw [this]
    simp only [Bool.false_and]
    have hb := b.isLt
    symm
    apply Nat.testBit_lt_two_pow
    calc 2 * (b.toNat / 2) ≤ b.toNat := Nat.mul_div_le _ _
      _ < 2 ^ w := hb
      _ ≤ 2 ^ i := Nat.pow_le_pow_right (by norm_num) (by omega)

theorem FloatFormat.le_bitLen (fmt : FloatFormat) : 32 ≤ fmt.bitLen := by cases fmt <;> decide

theorem octant_nat (w n : Nat) (hw : 32 ≤ w) (hn : n < 2 ^ 28) :
    ((BitVec.ofInt w (n : ℤ) + 1#w) &&& ~~~1#w).toNat = 2 * ((n + 1) / 2) := by
  have hP : 2 ^ 32 ≤ 2 ^ w := Nat.pow_le_pow_right (by norm_num) hw
  rw [clear_low_bit, BitVec.ofInt_natCast, BitVec.toNat_add, BitVec.toNat_ofNat, BitVec.toNat_ofNat,
    Nat.mod_eq_of_lt (show n < 2 ^ w by omega), Nat.mod_eq_of_lt (show 1 < 2 ^ w by omega), Nat.mod_eq_of_lt (by omega)]

theorem octant_spec (fmt : FloatFormat) (x : ℝ) (hx : |x| ≤ 1e8) :
    ∃ q : Nat, (octant fmt x).toNat = 2 * q ∧ q < 2 ^ 28 ∧ (octant fmt x).toInt = 2 * q ∧
      |(|x| * 1.27323954473516 - 2 * q)| ≤ 1 := by
  have hy0 : 0 ≤ |x| * 1.27323954473516 := mul_nonneg (abs_nonneg x) (by norm_num)
  have hy1 : |x| * 1.27323954473516 < 2 ^ 28 := by norm_num at *; linarith
  have hc : castInt (|x| * 1.27323954473516) = ⌊|x| * 1.27323954473516⌋₊ := by
    unfold castInt
    rw [if_neg (not_lt.2 hy0), Int.natCast_floor_eq_floor hy0]
  have hf1 := Nat.floor_le hy0
  have hf2 := Nat.lt_floor_add_one (|x| * 1.27323954473516)
  have hf3 : ⌊|x| * 1.27323954473516⌋₊ < 2 ^ 28 := by
    rw [Nat.floor_lt hy0]; push_cast; exact_mod_cast hy1
  have hN : (octant fmt x).toNat = 2 * ((⌊|x| * 1.27323954473516⌋₊ + 1) / 2) := by
    unfold octant
    rw [hc]
    exact octant_nat _ _ fmt.le_bitLen hf3
  refine ⟨_, hN, by omega, ?_, ?_⟩
  · have hP : 2 ^ 32 ≤ 2 ^ fmt.bitLen := Nat.pow_le_pow_right (by norm_num) fmt.le_bitLen
    rw [BitVec.toInt_eq_toNat_of_lt (by omega), hN]
    push_cast
    rfl
  · generalize |x| * 1.27323954473516 = y at *
    generalize ⌊y⌋₊ = n at *
    have h1 : (n : ℝ) ≤ ((2 * ((n + 1) / 2) : Nat) : ℝ) := by exact_mod_cast (by omega)
    have h2 : ((2 * ((n + 1) / 2) : Nat) : ℝ) ≤ ((n + 1 : Nat) : ℝ) := by exact_mod_cast (by omega)
    push_cast at h1 h2
    rw [abs_le]
    constructor <;> linarith

theorem bit_eq (w : Nat) (b : BitVec w) (i : Nat) : b.getLsbD i = decide (b.toNat / 2 ^ i % 2 = 1) := by
  rw [BitVec.getLsbD, Nat.testBit_eq_decide_div_mod_eq]

theorem shifted_msb (w : Nat) (hw : 32 ≤ w) (b : BitVec w) : ((b &&& 4#w) <<< (w - 3)).msb = b.getLsbD 2 := by
  rw [BitVec.msb_eq_getLsbD_last, BitVec.getLsbD_shiftLeft, BitVec.getLsbD_and, lit_bit, show w - 1 - (w - 3) = 2 by omega]
  have h4 : Nat.testBit 4 2 = true := by decide
  simp [show w - 1 < w by omega, show ¬ (w - 1 < w - 3) by omega, show 2 < w by omega, h4]

theorem masked_zero (w : Nat) (hw : 32 ≤ w) (b : BitVec w) : (b &&& 2#w == 0#w) = !b.getLsbD 1 := by
  by_cases h : b.getLsbD 1 = true
  · rw [h]
    simp only [Bool.not_true, beq_eq_false_iff_ne, ne_eq]
    intro hc
    have : (b &&& 2#w).getLsbD 1 = (0#w).getLsbD 1 := by rw [hc]
    rw [BitVec.getLsbD_and, h, lit_bit, lit_bit] at this
    have h2 : Nat.testBit 2 1 = true := by decide
    simp [show 1 < w by omega, h2] at this
  · rw [Bool.not_eq_true] at h
    rw [h]
    simp only [Bool.not_false, beq_iff_eq]
    apply BitVec.eq_of_getLsbD_eq
    intro i hi
    rw [BitVec.getLsbD_and, lit_bit, lit_bit]
    by_cases h1 : i = 1
    · subst h1; rw [h]; simp
    · have : Nat.testBit 2 i = false := by
        rw [show (2 : Nat) = 2 ^ 1 from rfl, Nat.testBit_two_pow]
        simp; omega
      simp [this]

/-- Sine: the sign changes in the third and fourth quarter, the cosine is used in the second and fourth quarter. -/
theorem octantChoice_sin (w : Nat) (hw : 32 ≤ w) (b : BitVec w) (q : Nat) (hb : b.toNat = 2 * q) :
    octantChoice w true b = (decide (2 ≤ q % 4), decide (q % 2 = 0)) := by
  have e : octantChoice w true b = (((b &&& 4#w) <<< (w - 3)).msb, b &&& 2#w == 0#w) := rfl
  rw [e, shifted_msb w hw, masked_zero w hw, bit_eq, bit_eq, hb]
  rw [Prod.mk.injEq]
  refine ⟨?_, ?_⟩
  · rw [decide_eq_decide]; omega
  · rw [← decide_not, decide_eq_decide]; omega

/-- Cosine: the sign changes in the second and third quarter, the sine is used in the second and fourth quarter. -/
theorem octantChoice_cos (w : Nat) (hw : 32 ≤ w) (b : BitVec w) (q : Nat) (hb : b.toNat = 2 * q) :
    octantChoice w false b = (decide (q % 4 = 1 ∨ q % 4 = 2), decide (q % 2 = 1)) := by
  have e : octantChoice w false b = (((~~~(b - 2#w) &&& 4#w) <<< (w - 3)).msb, (b - 2#w) &&& 2#w == 0#w) := rfl
  have hP : 2 ^ 32 ∣ 2 ^ w := Nat.pow_dvd_pow 2 hw
  obtain ⟨P, hP'⟩ := hP
  have hpos : 0 < 2 ^ w := by positivity
  have hlt := b.isLt
  have hsub : (b - 2#w).toNat = if q = 0 then 2 ^ w - 2 else 2 * q - 2 := by
    rw [BitVec.toNat_sub, BitVec.toNat_ofNat, Nat.mod_eq_of_lt (by omega : 2 < 2 ^ w), hb]
    split
    · subst_vars; rw [Nat.mod_eq_of_lt (by omega)]; omega
    · rw [show 2 ^ w - 2 + 2 * q = (2 * q - 2) + 2 ^ w by omega, Nat.add_mod_right, Nat.mod_eq_of_lt (by omega)]
  rw [e, shifted_msb w hw, masked_zero w hw, BitVec.getLsbD_not, bit_eq, bit_eq, hsub]
  rw [Prod.mk.injEq]
  refine ⟨?_, ?_⟩
  · rw [decide_eq_true (by omega : 2 < w), Bool.true_and, ← decide_not, decide_eq_decide]
    split <;> omega
  · rw [← decide_not, decide_eq_decide]
    split <;> omega

theorem sin_close (a b : ℝ) : |Real.sin a - Real.sin b| ≤ |a - b| := by
  rw [Real.sin_sub_sin, abs_mul, abs_mul]
  have h1 : |Real.sin ((a - b) / 2)| ≤ |(a - b) / 2| := Real.abs_sin_le_abs
  have h2 := Real.abs_cos_le_one ((a + b) / 2)
  have h3 : |Real.sin ((a - b) / 2)| * |Real.cos ((a + b) / 2)| ≤ |(a - b) / 2| * 1 :=
    mul_le_mul h1 h2 (abs_nonneg _) (abs_nonneg _)
  rw [abs_div] at h3
  norm_num at *
  linarith

theorem cos_close (a b : ℝ) : |Real.cos a - Real.cos b| ≤ |a - b| := by
  have := sin_close (Real.pi / 2 - a) (Real.pi / 2 - b)
  rw [Real.sin_pi_div_two_sub, Real.sin_pi_div_two_sub] at this
  rw [abs_sub_comm a b]
  calc _ ≤ _ := this
    _ = |b - a| := by congr 1; ring

/-- The quarter in which the argument lies. -/
theorem quarterTurn (q : Nat) (r : ℝ) :
    Real.sin (r + q * (Real.pi / 2)) = (if 2 ≤ q % 4 then -1 else 1) * (if q % 2 = 0 then Real.sin r else Real.cos r) ∧
    Real.cos (r + q * (Real.pi / 2)) = (if q % 4 = 1 ∨ q % 4 = 2 then -1 else 1) * (if q % 2 = 1 then Real.sin r else Real.cos r) := by
  induction q with
  | zero => simp
  | succ q ih =>
    have e : r + ((q + 1 : Nat) : ℝ) * (Real.pi / 2) = (r + q * (Real.pi / 2)) + Real.pi / 2 := by push_cast; ring
    rw [e, Real.sin_add_pi_div_two, Real.cos_add_pi_div_two, ih.1, ih.2]
    have h4 : q % 4 = 0 ∨ q % 4 = 1 ∨ q % 4 = 2 ∨ q % 4 = 3 := by omega
    rcases h4 with h | h | h | h
    · have h1 : (q + 1) % 4 = 1 := by omega
      have h2 : q % 2 = 0 := by omega
      have h3 : (q + 1) % 2 = 1 := by omega
      simp [h, h1, h2, h3]
    · have h1 : (q + 1) % 4 = 2 := by omega
      have h2 : q % 2 = 1 := by omega
      have h3 : (q + 1) % 2 = 0 := by omega
      simp [h, h1, h2, h3]
    · have h1 : (q + 1) % 4 = 3 := by omega
      have h2 : q % 2 = 0 := by omega
      have h3 : (q + 1) % 2 = 1 := by omega
      simp [h, h1, h2, h3]
    · have h1 : (q + 1) % 4 = 0 := by omega
      have h2 : q % 2 = 1 := by omega
      have h3 : (q + 1) % 2 = 0 := by omega
      simp [h, h1, h2, h3]

/-- The argument after the reduction. -/
theorem reduced (x : ℝ) (hx : |x| ≤ 1e8) (q : Nat) (hq : |(|x| * 1.27323954473516 - 2 * q)| ≤ 1) :
    |(|x| + 2 * q * -0.78515625 + 2 * q * -2.4187564849853515625e-4 + 2 * q * -3.77489497744594108e-8)| ≤ 0.786 ∧
    |(|x| + 2 * q * -0.78515625 + 2 * q * -2.4187564849853515625e-4 + 2 * q * -3.77489497744594108e-8) - (|x| - q * (Real.pi / 2))| ≤ 1e-9 := by
  have h0 := abs_nonneg x
  generalize |x| = a at *
  obtain ⟨h1, h2⟩ := abs_le.1 hq
  have hq0 : (0 : ℝ) ≤ q := Nat.cast_nonneg q
  have p1 := Real.pi_gt_d20
  have p2 := Real.pi_lt_d20
  generalize (q : ℝ) = Q at *
  have hq1 : Q ≤ 7e7 := by norm_num at *; linarith
  constructor
  · rw [abs_le]; norm_num at *
    constructor <;> linarith
  · rw [abs_le]; norm_num at *
    constructor <;> nlinarith

theorem sinCos_even (x : ℝ) : Real.sin x = (if x < 0 then -1 else 1) * Real.sin |x| ∧ Real.cos x = Real.cos |x| := by
  by_cases h : x < 0
  · rw [if_pos h, abs_of_neg h, Real.sin_neg, Real.cos_neg]; simp
  · rw [if_neg h, abs_of_nonneg (not_lt.1 h)]; simp

theorem signed_close (s : Bool) (a b e : ℝ) (h : |a - b| ≤ e) : |(if s then -a else a) - (if s then -1 else 1) * b| ≤ e := by
  cases s
  · simpa using h
  · simp only [if_true]
    rw [show -a - -1 * b = -(a - b) by ring, abs_neg]; exact h

theorem chosen_close (c : Bool) (r r' : ℝ) (hr : |r| ≤ 0.786) (hd : |r - r'| ≤ 1e-9) :
    |(if c then sinPoly r else cosPoly r) - (if c then Real.sin r' else Real.cos r')| ≤ 5e-7 := by
  cases c
  · have h1 := cosPoly_error hr
    have h2 := cos_close r r'
    have := abs_sub_le (cosPoly r) (Real.cos r) (Real.cos r')
    simp only [Bool.false_eq_true, if_false]
    norm_num at *
    linarith
  · have h1 := sinPoly_error hr
    have h2 := sin_close r r'
    have := abs_sub_le (sinPoly r) (Real.sin r) (Real.sin r')
    simp only [if_true]
    norm_num at *
    linarith

theorem sinApprox_error (fmt : FloatFormat) (x : ℝ) (hx : |x| ≤ 1e8) : |sinCosApprox fmt true x - Real.sin x| ≤ 5e-7 := by
  obtain ⟨q, hq, -, hqi, hr⟩ := octant_spec fmt x hx
  obtain ⟨hb, hd⟩ := reduced x hx q hr
  unfold sinCosApprox
  simp only [octantChoice_sin _ fmt.le_bitLen _ q hq, hqi, if_true]
  push_cast
  generalize hR : |x| + 2 * (q : ℝ) * -0.78515625 + 2 * q * -2.4187564849853515625e-4 + 2 * q * -3.77489497744594108e-8 = R at *
  have hs : Real.sin x = (if (Bool.xor (decide (x < 0)) (decide (2 ≤ q % 4))) = true then -1 else 1) *
      (if decide (q % 2 = 0) = true then Real.sin (|x| - q * (Real.pi / 2)) else Real.cos (|x| - q * (Real.pi / 2))) := by
    rw [(sinCos_even x).1]
    have e : |x| = (|x| - q * (Real.pi / 2)) + q * (Real.pi / 2) := by ring
    rw [e, (quarterTurn q _).1]
    rw [← e]
    by_cases h1 : x < 0 <;> by_cases h2 : 2 ≤ q % 4 <;> simp [h1, h2]
  rw [hs]
  exact signed_close _ _ _ _ (chosen_close _ _ _ hb hd)

theorem cosApprox_error (fmt : FloatFormat) (x : ℝ) (hx : |x| ≤ 1e8) : |sinCosApprox fmt false x - Real.cos x| ≤ 5e-7 := by
  obtain ⟨q, hq, -, hqi, hr⟩ := octant_spec fmt x hx
  obtain ⟨hb, hd⟩ := reduced x hx q hr
  unfold sinCosApprox
  simp only [octantChoice_cos _ fmt.le_bitLen _ q hq, hqi, Bool.false_eq_true, if_false]
  push_cast
  generalize hR : |x| + 2 * (q : ℝ) * -0.78515625 + 2 * q * -2.4187564849853515625e-4 + 2 * q * -3.77489497744594108e-8 = R at *
  have hs : Real.cos x = (if decide (q % 4 = 1 ∨ q % 4 = 2) = true then -1 else 1) *
      (if decide (q % 2 = 1) = true then Real.sin (|x| - q * (Real.pi / 2)) else Real.cos (|x| - q * (Real.pi / 2))) := by
    rw [(sinCos_even x).2]
    have e : |x| = (|x| - q * (Real.pi / 2)) + q * (Real.pi / 2) := by ring
    rw [e, (quarterTurn q _).2]
    rw [← e]
    simp
  rw [hs]
  exact signed_close _ _ _ _ (chosen_close _ _ _ hb hd)

end Dsp
