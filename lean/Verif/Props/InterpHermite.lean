import Verif.Props.InterpLin
import Mathlib.Tactic.LinearCombination
/-
C50: piecewise cubic interpolation of real vectors.
-/
namespace Dsp
open DspVec
variable {T : Type} [Field T] [LinearOrder T]

section
variable [IsStrictOrderedRing T]

theorem hermite_eq (y0 y1 y2 y3 x : T) :
    hermite y0 y1 y2 y3 x = cubicHermite y1 ((y2 - y0) / 2) y2 ((y3 - y1) / 2) x := by
  unfold hermite cubicHermite
  field_simp
  ring

omit [LinearOrder T] [IsStrictOrderedRing T] in
theorem extendLin_mid (data : List T) (k : Nat) (hk : k < data.length) :
    extendLin data k = data.getD k 0 := by
  unfold extendLin
  rw [if_neg (by omega), if_pos (by omega)]; simp

omit [LinearOrder T] [IsStrictOrderedRing T] in
theorem extendLin_first (data : List T) :
    extendLin data (-1) = data.getD 0 0 - (data.getD 1 0 - data.getD 0 0) := by
  unfold extendLin
  rw [if_pos (by omega)]; push_cast; ring

omit [LinearOrder T] [IsStrictOrderedRing T] in
theorem extendLin_end (data : List T) (hn : 2 ≤ data.length) (j : Nat) :
    extendLin data ((data.length + j : Nat) : Int) = data.getD (data.length - 1) 0 +
      ((j : T) + 1) * (data.getD (data.length - 1) 0 - data.getD (data.length - 2) 0) := by
  unfold extendLin
  rw [if_neg (by omega), if_neg (by omega)]
  congr 2
  have : ((data.length + j : Nat) : Int) - ((data.length - 1 : Nat) : Int) = ((j + 1 : Nat) : Int) := by omega
  rw [this]; push_cast; ring

omit [IsStrictOrderedRing T] [LinearOrder T] in
theorem get_getD (data : List T) (k : Nat) (h : k < data.length) : get data k = some (data.getD k 0) := by
  unfold get
  rw [List.getD_eq_getElem?_getD, List.getElem?_eq_getElem h]; rfl

variable [FloorRing T]

/-- Position and integer part for an integer factor and a delay of less than one step of the output. -/
theorem pos_split (m : Nat) (hm : 1 ≤ m) (d : T) (hd0 : 0 ≤ d) (hd : d * m < 1) (k r : Nat) (hr : r < m) :
    ((k * m + r : Nat) : T) / (m : T) + d = k + ((r : T) / m + d) ∧ ⌊((k * m + r : Nat) : T) / (m : T) + d⌋ = (k : Int) := by
  have hm0 : (0 : T) < m := by exact_mod_cast hm
  have ex : ((k * m + r : Nat) : T) / m + d = k + ((r : T) / m + d) := by
    push_cast; field_simp; ring
  refine ⟨ex, ?_⟩
  rw [ex]
  apply floor_nat
  · have : (0 : T) ≤ (r : T) / m := by positivity
    linarith
  · have hr1 : (r : T) / m + d < 1 := by
      have h1 : ((r + 1 : Nat) : T) ≤ m := Nat.cast_le.mpr hr
      push_cast at h1
      rw [show (r : T) / m + d = (r + d * m) / m by field_simp, div_lt_one hm0]; linarith
    linarith

theorem hermiteFirst_spec (data : List T) (hn : 3 ≤ data.length) (m : Nat) (hm : 1 ≤ m) (d : T) (hd0 : 0 ≤ d) (hd : d * m < 1)
    (r : Nat) (hr : r < m) : hermiteFirst data (m : T) d r = some (hermiteAt data 0 ((r : T) / m + d)) := by
  obtain ⟨-, e2⟩ := pos_split (T := T) m hm d hd0 hd 0 r hr
  rw [Nat.zero_mul, Nat.zero_add] at e2
  unfold hermiteFirst
  simp only [e2, Int.cast_natCast, toUsize_natCast, Option.bind_eq_bind, Option.bind_some, ne_eq,
    not_true_eq_false, if_false, get_getD data 0 (by omega), get_getD data (0 + 1) (by omega),
    get_getD data (0 + 1 + 1) (by omega)]
  rw [hermite_eq]
  unfold hermiteAt
  have a0 := extendLin_mid data 0 (by omega)
  have a1 := extendLin_mid data 1 (by omega)
  have a2 := extendLin_mid data 2 (by omega)
  have a3 := extendLin_first data
  simp only [Nat.cast_zero, Nat.cast_one, Nat.cast_ofNat, zero_add, zero_sub, sub_zero] at a0 a1 a2 a3 ⊢
  rw [a0, a1, a2, a3]

theorem hermiteMiddle_spec (data : List T) (m : Nat) (hm : 1 ≤ m) (d : T) (hd0 : 0 ≤ d) (hd : d * m < 1) (k r : Nat) (hr : r < m) (hk : 1 ≤ k)
    (hk2 : k + 2 < data.length) :
    hermiteMiddle data (m : T) d (k * m + r) = some (hermiteAt data k ((r : T) / m + d)) := by
  obtain ⟨e1, e2⟩ := pos_split (T := T) m hm d hd0 hd k r hr
  rw [e1] at e2
  unfold hermiteMiddle
  simp only [e2, e1, Int.cast_natCast, toUsize_natCast, Option.bind_eq_bind, Option.bind_some,
    if_neg (show ¬ k = 0 by omega), get_getD data (k - 1) (by omega), get_getD data k (by omega), get_getD data (k + 1) (by omega),
    get_getD data (k + 1 + 1) (by omega)]
  rw [hermite_eq]
  unfold hermiteAt
  have a0 := extendLin_mid data k (by omega)
  have a1 := extendLin_mid data (k + 1) (by omega)
  have a2 := extendLin_mid data (k + 2) (by omega)
  have a3 := extendLin_mid data (k - 1) (by omega)
  rw [Nat.cast_sub hk] at a3
  push_cast at a1 a2 a3
  simp only [add_sub_cancel_left] 
  rw [a0, a1, a2, a3]

theorem hermiteLast_spec (data : List T) (hn : 3 ≤ data.length) (m : Nat) (hm : 1 ≤ m) (d : T) (hd0 : 0 ≤ d) (hd : d * m < 1)
    (k r : Nat) (hr : r < m)
    (hk : data.length ≤ k + 2) (hk2 : k < data.length) :
    hermiteLast data (m : T) d (k * m + r) = some (hermiteAt data k ((r : T) / m + d)) := by
  obtain ⟨e1, e2⟩ := pos_split (T := T) m hm d hd0 hd k r hr
  rw [e1] at e2
  have a0 := extendLin_mid data k (by omega)
  have a3 := extendLin_mid data (k - 1) (by omega)
  rw [Nat.cast_sub (by omega)] at a3
  push_cast at a3
  have b2 : hermiteY2 data k (data.getD (k - 1) 0) (data.getD k 0) = some (extendLin data (k + 1)) := by
    unfold hermiteY2
    by_cases hc : k < data.length - 1
    · rw [if_pos hc, get_getD data (k + 1) (by omega), ← extendLin_mid data (k + 1) (by omega)]
      push_cast; rfl
    · rw [if_neg hc]
      have hkn : k = data.length - 1 := by omega
      have := extendLin_end data (by omega) 0
      have e : ((data.length + 0 : Nat) : Int) = (k : Int) + 1 := by omega
      rw [e] at this
      rw [this]
      have e' : data.length - 2 = k - 1 := by omega
      rw [e', ← hkn]
      congr 1; push_cast; ring
  have b3 : hermiteY3 data k (data.getD k 0) (extendLin data (k + 1)) = some (extendLin data (k + 2)) := by
    unfold hermiteY3
    rw [if_neg (by omega), if_neg (by omega)]
    by_cases hc : k < data.length - 1
    · have hkn : k + 1 = data.length - 1 := by omega
      have a1 := extendLin_mid data (k + 1) (by omega)
      push_cast at a1
      have := extendLin_end data (by omega) 0
      have e : ((data.length + 0 : Nat) : Int) = (k : Int) + 2 := by omega
      rw [e] at this
      rw [this, a1]
      have e' : data.length - 2 = k := by omega
      rw [e', ← hkn]
      congr 1; push_cast; ring
    · have hkn : k = data.length - 1 := by omega
      have c1 := extendLin_end data (by omega) 0
      have c2 := extendLin_end data (by omega) 1
      have e1 : ((data.length + 0 : Nat) : Int) = (k : Int) + 1 := by omega
      have e2 : ((data.length + 1 : Nat) : Int) = (k : Int) + 2 := by omega
      rw [e1] at c1
      rw [e2] at c2
      rw [c1, c2, ← hkn]
      congr 1; push_cast; ring
  unfold hermiteLast
  simp only [e2, e1, Int.cast_natCast, toUsize_natCast, Option.bind_eq_bind, Option.bind_some,
    if_neg (show ¬ (k + 2 < data.length ∨ k = 0) by omega), get_getD data (k - 1) (by omega), get_getD data k (by omega), b2, b3]
  rw [hermite_eq]
  unfold hermiteAt
  simp only [add_sub_cancel_left]
  rw [a0, a3]

omit [FloorRing T] [LinearOrder T] [IsStrictOrderedRing T] in
/-- At a given position the curve has the given number. -/
theorem hermiteAt_zero (data : List T) (k : Nat) (hk : k < data.length) :
    hermiteAt data k 0 = data.getD k 0 := by
  unfold hermiteAt cubicHermite
  rw [extendLin_mid data k hk]; ring

/-- Every number written by the three loops lies on the curve. -/
theorem hermitePoints_spec (data : List T) (hn : 3 ≤ data.length) (m : Nat) (hm : 1 ≤ m) (d : T) (hd0 : 0 ≤ d) (hd : d * m < 1) :
    ∃ l, hermitePoints data (m : T) d ((data.length - 1) * m + 1) = some l ∧
      l.length = (data.length - 1) * m + 1 ∧
      ∀ k r, r < m → k * m + r < (data.length - 1) * m + 1 →
        l[k * m + r]? = some (hermiteAt data k ((r : T) / m + d)) := by
  have hm0 : 0 < m := hm
  obtain ⟨n, hnn⟩ : ∃ n, data.length = n + 3 := ⟨data.length - 3, by omega⟩
  have hstart : toUsize ((⌈(1 - d) * (m : T)⌉ : Int) : T) = some m := by
    have hm0 : (0 : T) < m := by exact_mod_cast hm
    have := mul_nonneg hd0 hm0.le
    have e : ⌈(1 - d) * (m : T)⌉ = (m : Int) := by
      rw [Int.ceil_eq_iff, Int.cast_natCast]
      constructor <;> linarith
    rw [e, Int.cast_natCast, toUsize_natCast]
  have hdest : (data.length - 1) * m + 1 = n * m + m + m + 1 := by
    rw [hnn, show n + 3 - 1 = n + 2 by omega]; ring
  have hmid : (data.length - 1) * m + 1 - (m + 1) - m = n * m := by omega
  have hlst : (data.length - 1) * m + 1 - (m + 1) = (n + 1) * m := by
    rw [hdest, Nat.add_mul]; omega
  let F : Nat → T := fun i => hermiteAt data (i / m) (((i % m : Nat) : T) / m + d)
  have hF : ∀ k r, r < m → F (k * m + r) = hermiteAt data k ((r : T) / m + d) := by
    intro k r hr
    have d1 : (k * m + r) / m = k := by
      rw [Nat.add_comm, Nat.add_mul_div_right _ _ hm0, Nat.div_eq_of_lt hr, Nat.zero_add]
    have d2 : (k * m + r) % m = r := by
      rw [Nat.add_comm, Nat.add_mul_mod_self_right, Nat.mod_eq_of_lt hr]
    show hermiteAt data ((k * m + r) / m) ((((k * m + r) % m : Nat) : T) / m + d) = _
    rw [d1, d2]
  have hdm : ∀ i : Nat, i / m * m + i % m = i := fun i => by
    rw [Nat.mul_comm]; exact Nat.div_add_mod i m
  obtain ⟨a, a1, a2, a3⟩ := mapM_range_exists (hermiteFirst data (m : T) d) (fun i y => y = F i) m
    (fun i hi => ⟨_, hermiteFirst_spec data hn m hm d hd0 hd i hi, by
      have := hF 0 i hi
      rw [Nat.zero_mul, Nat.zero_add] at this
      exact this.symm⟩)
  obtain ⟨b, b1, b2, b3⟩ := mapM_range_exists (fun k => hermiteMiddle data (m : T) d (m + k))
    (fun i y => y = F (m + i)) (n * m) (fun i hi => by
      have hq : i / m < n := Nat.div_lt_of_lt_mul (by rwa [Nat.mul_comm])
      have e : m + i = (i / m + 1) * m + i % m := by
        rw [Nat.add_mul]; have := hdm i; omega
      refine ⟨_, ?_, rfl⟩
      show hermiteMiddle data (m : T) d (m + i) = some (F (m + i))
      rw [e, hF _ _ (Nat.mod_lt _ hm0)]
      exact hermiteMiddle_spec data m hm d hd0 hd _ _ (Nat.mod_lt _ hm0) (Nat.le_add_left 1 _) (by generalize i / m = q at hq ⊢; omega))
  obtain ⟨c, c1, c2, c3⟩ := mapM_range_exists (fun k => hermiteLast data (m : T) d ((n + 1) * m + k))
    (fun i y => y = F ((n + 1) * m + i)) (m + 1) (fun i hi => by
      have hq : i / m < 2 := Nat.div_lt_of_lt_mul (by omega)
      have e : (n + 1) * m + i = (n + 1 + i / m) * m + i % m := by
        rw [Nat.add_mul (n + 1)]; have := hdm i; omega
      refine ⟨_, ?_, rfl⟩
      show hermiteLast data (m : T) d ((n + 1) * m + i) = some (F ((n + 1) * m + i))
      rw [e, hF _ _ (Nat.mod_lt _ hm0)]
      exact hermiteLast_spec data hn m hm d hd0 hd _ _ (Nat.mod_lt _ hm0) (by generalize i / m = q at hq ⊢; omega)
        (by generalize i / m = q at hq ⊢; omega))
  have hlen : (a ++ b ++ c).length = (data.length - 1) * m + 1 := by
    simp only [List.length_append, a2, b2, c2]; omega
  refine ⟨a ++ b ++ c, ?_, hlen, ?_⟩
  · unfold hermitePoints
    rw [hstart]
    simp only [Option.bind_eq_bind, Option.bind_some]
    rw [hlst]
    have e2 : (n + 1) * m - m = n * m := by rw [Nat.add_mul]; omega
    have e3 : m ≤ (n + 1) * m := by rw [Nat.add_mul]; omega
    rw [if_neg (by omega), e2]
    simp only [a1, b1, c1, Option.bind_some]
  · intro k r hr hi
    rw [← hF k r hr]
    generalize k * m + r = i at hi
    have hnm : (n + 1) * m = n * m + m := by rw [Nat.add_mul]; omega
    by_cases h1 : i < m
    · obtain ⟨y, y1, y2⟩ := a3 i h1
      rw [List.append_assoc, List.getElem?_append_left (by omega), y1, y2]
    · by_cases h2 : i < m + n * m
      · obtain ⟨y, y1, y2⟩ := b3 (i - m) (by omega)
        rw [List.append_assoc, List.getElem?_append_right (by omega), List.getElem?_append_left (by omega), a2, y1, y2,
          Nat.add_sub_cancel' (by omega)]
      · obtain ⟨y, y1, y2⟩ := c3 (i - (n + 1) * m) (by omega)
        rw [List.getElem?_append_right (by simp [a2, b2]; omega), List.length_append, a2, b2,
          show i - (m + n * m) = i - (n + 1) * m by omega, y1, y2, Nat.add_sub_cancel' (by omega)]

/-- C50, integer factor `m` and a delay `d` of less than one step of the output, at least three numbers: `interpolate_hermite` of a real
    vector gives `(n - 1) m + 1` numbers, number `k m + r` is the value at `k + r / m + d` of the
    piecewise cubic Hermite interpolation. Longer delays panic (`C50_delay_panics`).
    Excluded: factors which are no integers (for some of them the function panics, see
    `C50_fraction_panics`), and vectors with less than three numbers (see `C50_short_panics`). -/
theorem C50_interpolate_hermite_delay (v : DspVec T) (hc : v.isComplex = false) (data : List T)
    (hdata : v.content = some data) (hn : 3 ≤ data.length) (m : Nat) (hm : 1 ≤ m) (d : T) (hd0 : 0 ≤ d)
    (hd : d * m < 1) (b : Buffer T)
    (hb : BufferOk b v.data ((data.length - 1) * m + 1)) :
    ∃ v' b' l, v.interpolateHermite b (m : T) d = some (v', b') ∧ v'.content = some l ∧
      l.length = (data.length - 1) * m + 1 ∧
      (∀ k r, r < m → k * m + r < (data.length - 1) * m + 1 →
        l[k * m + r]? = some (hermiteAt data k ((r : T) / m + d))) ∧
      v'.SameMeta v := by
  obtain ⟨_, hl⟩ := cells_of_content hdata
  have hm0 : (0 : T) < m := by exact_mod_cast hm
  obtain ⟨R, h1, h2⟩ := interpDestLen_spec data.length (by omega) (m : T) hm0
  have hR : R = (data.length - 1) * m := by
    apply Rounded.eq_of_nat (T := T)
    push_cast; exact h2
  subst hR
  obtain ⟨l, h3, hll, h4⟩ := hermitePoints_spec data hn m hm d hd0 hd
  obtain ⟨t, t1, _⟩ := borrow_ok b v.data _ hb
  obtain ⟨rest, hrest⟩ := trade_ok b v.data l (by rw [hll]; exact hb)
  refine ⟨_, (b.trade l v.data).1, l, ?_, content_of_cells (v := { v with data := (b.trade l v.data).2, validLen := (data.length - 1) * m + 1 })
    (s := rest) (by simp only [hrest]) hll.symm, hll, h4, ⟨rfl, rfl, rfl, by simp only [hrest]⟩⟩
  · have hlen : v.len = data.length := by unfold len; omega
    unfold interpolateHermite
    simp only [hlen, h1, t1, hc, hdata, h3, Option.bind_eq_bind, Option.bind_some, Bool.false_eq_true, if_false]

/-- C50, integer factor `m` without delay, at least three numbers: `interpolate_hermite` of a real
    vector gives `(n - 1) m + 1` numbers, number `k m + r` is the value at `k + r / m` of the
    piecewise cubic Hermite interpolation; in particular the given numbers are reproduced.
    Excluded: factors which are no integers (for some of them the function panics, see
    `C50_fraction_panics`), and vectors with less than three numbers (see `C50_short_panics`). -/
theorem C50_interpolate_hermite (v : DspVec T) (hc : v.isComplex = false) (data : List T)
    (hdata : v.content = some data) (hn : 3 ≤ data.length) (m : Nat) (hm : 1 ≤ m) (b : Buffer T)
    (hb : BufferOk b v.data ((data.length - 1) * m + 1)) :
    ∃ v' b' l, v.interpolateHermite b (m : T) 0 = some (v', b') ∧ v'.content = some l ∧
      l.length = (data.length - 1) * m + 1 ∧
      (∀ k r, r < m → k * m + r < (data.length - 1) * m + 1 →
        l[k * m + r]? = some (hermiteAt data k ((r : T) / m))) ∧
      (∀ k y, data[k]? = some y → l[k * m]? = some y) ∧ v'.SameMeta v := by
  obtain ⟨v', b', l, h1, h2, h3, h4, h5⟩ := C50_interpolate_hermite_delay v hc data hdata hn m hm 0 (le_refl _) (by simp) b hb
  simp only [add_zero] at h4
  refine ⟨v', b', l, h1, h2, h3, h4, ?_, h5⟩
  intro k y e
  have hk : k < data.length := by
    by_contra hc
    rw [List.getElem?_eq_none (by omega)] at e; cases e
  have : k * m ≤ (data.length - 1) * m := Nat.mul_le_mul_right _ (by omega)
  have := h4 k 0 (by omega) (by omega)
  rw [Nat.cast_zero, zero_div, hermiteAt_zero data k hk, Nat.add_zero] at this
  rw [this, List.getD_eq_getElem?_getD, e]; rfl

/-- C50 fails for short vectors: with an integer factor and one or two numbers the function panics. -/
theorem C50_short_panics (v : DspVec T) (hc : v.isComplex = false) (data : List T)
    (hdata : v.content = some data) (hn : data.length < 3) (m : Nat) (hm : 1 ≤ m) (b : Buffer T) :
    v.interpolateHermite b (m : T) 0 = none := by
  obtain ⟨_, hl⟩ := cells_of_content hdata
  have hlen : v.len = data.length := by unfold len; omega
  unfold interpolateHermite
  by_cases h0 : data.length = 0
  · simp only [hlen, h0, interpDestLen, if_true, Option.bind_eq_bind, Option.bind_none]
  have hm0 : (0 : T) < m := by exact_mod_cast hm
  obtain ⟨R, h1, h2⟩ := interpDestLen_spec data.length h0 (m : T) hm0
  have hR : R = (data.length - 1) * m := by
    apply Rounded.eq_of_nat (T := T)
    push_cast; exact h2
  have hle : R ≤ m := by
    rw [hR]
    calc (data.length - 1) * m ≤ 1 * m := Nat.mul_le_mul_right _ (by omega)
      _ = m := Nat.one_mul m
  have hstart : toUsize ((⌈(1 - 0) * (m : T)⌉ : Int) : T) = some m := by
    rw [sub_zero, one_mul, Int.ceil_natCast, Int.cast_natCast, toUsize_natCast]
  have hp : hermitePoints data (m : T) 0 (R + 1) = none := by
    unfold hermitePoints
    rw [hstart]
    simp only [Option.bind_eq_bind, Option.bind_some]
    rw [if_pos (by omega)]
  simp only [hlen, h1, hc, hdata, hp, Option.bind_eq_bind, Option.bind_some, Bool.false_eq_true, if_false,
    Option.bind_none]
  cases b.borrow (R + 1) <;> rfl

/-- C50: with an integer factor `m` and a delay of a step of the output or more, `interpolate_hermite` panics for every real vector
    with at least three numbers: the second loop reads past the end, or the length of the first loop is negative. Together with
    `C50_interpolate_hermite_delay`: it works exactly for delays of less than a step of the output. -/
theorem C50_delay_panics (v : DspVec T) (hc : v.isComplex = false) (data : List T)
    (hdata : v.content = some data) (hn : 3 ≤ data.length) (m : Nat) (hm : 1 ≤ m) (d : T) (hd : 1 ≤ d * m) (b : Buffer T) :
    v.interpolateHermite b (m : T) d = none := by
  obtain ⟨_, hl⟩ := cells_of_content hdata
  have hlen : v.len = data.length := by unfold len; omega
  have hm0 : (0 : T) < m := by exact_mod_cast hm
  obtain ⟨R, h1, h2⟩ := interpDestLen_spec data.length (by omega) (m : T) hm0
  have hR : R = (data.length - 1) * m := by
    apply Rounded.eq_of_nat (T := T)
    push_cast; exact h2
  have hp : hermitePoints data (m : T) d (R + 1) = none := by
    have hceil : ((⌈(1 - d) * (m : T)⌉ : Int) : T) < (1 - d) * m + 1 := Int.ceil_lt_add_one _
    unfold hermitePoints
    by_cases hneg : ((⌈(1 - d) * (m : T)⌉ : Int) : T) ≤ -1
    · unfold toUsize
      rw [if_pos hneg]; rfl
    obtain ⟨s, hs⟩ : ∃ s : Nat, ⌈(1 - d) * (m : T)⌉ = (s : Int) := by
      refine Int.eq_ofNat_of_zero_le ?_
      by_contra hlt
      apply hneg
      have : ⌈(1 - d) * (m : T)⌉ ≤ -1 := by omega
      have := (Int.cast_le (R := T)).mpr this
      push_cast at this
      exact this
    rw [hs, Int.cast_natCast] at hceil
    have hsm : s < m := by
      have : (s : T) < m := by linarith
      exact_mod_cast this
    rw [hs, Int.cast_natCast, toUsize_natCast]
    simp only [Option.bind_eq_bind, Option.bind_some]
    split
    · rfl
    have hRm : 2 * m ≤ R := by
      rw [hR]; exact Nat.mul_le_mul_right _ (by omega)
    -- the last round of the second loop
    have hpos : ((data.length - 2 : Nat) : T) ≤ ((R - s - 1 : Nat) : T) / m + d := by
      have e : ((R - s - 1 : Nat) : T) = ((data.length - 2 : Nat) : T) * m + m - s - 1 := by
        rw [Nat.cast_sub (by omega), Nat.cast_sub (by omega), hR, show data.length - 1 = (data.length - 2) + 1 by omega]
        push_cast; ring
      rw [e, ← sub_le_iff_le_add, le_div_iff₀ hm0]
      have : (((data.length - 2 : Nat) : T) - d) * m = (data.length - 2 : Nat) * m - d * m := by ring
      rw [this]; linarith
    have hlast : hermiteMiddle data (m : T) d (R - s - 1) = none := by
      obtain ⟨k, k1, k2⟩ := exists_floor ((Nat.cast_nonneg _).trans hpos)
      have hk : data.length - 2 ≤ k := by
        have : ((data.length - 2 : Nat) : T) < ((k + 1 : Nat) : T) := by push_cast; linarith
        have := Nat.cast_lt.mp this
        omega
      unfold hermiteMiddle
      simp only [floor_nat k1 k2, toUsize_natCast, Option.bind_eq_bind, Option.bind_some, get, Int.cast_natCast]
      rw [if_neg (by omega), List.getElem?_eq_none (by omega : data.length ≤ k + 1 + 1)]
      simp
    have hmid : (List.range (R + 1 - (s + 1) - s)).mapM (fun k => hermiteMiddle data (m : T) d (s + k)) = none := by
      cases hq : (List.range (R + 1 - (s + 1) - s)).mapM (fun k => hermiteMiddle data (m : T) d (s + k)) with
      | none => rfl
      | some l =>
        rw [show R + 1 - (s + 1) - s = (R - s - 1 - s) + 1 by omega, List.range_succ, List.mapM_append] at hq
        have e : s + (R - s - 1 - s) = R - s - 1 := by omega
        simp [e, hlast] at hq
    rw [hmid]
    cases (List.range s).mapM (hermiteFirst data (m : T) d) <;> rfl
  unfold interpolateHermite
  simp only [hlen, h1, hc, hdata, hp, Option.bind_eq_bind, Option.bind_some, Bool.false_eq_true, if_false,
    Option.bind_none]
  cases b.borrow (R + 1) <;> rfl

end

/-- C50 fails for factors which are no integers: with four numbers and the factor 2.3 the function
    panics (the third loop starts one step too early), whatever the numbers are. -/
theorem C50_fraction_panics (v : DspVec ℚ) (hc : v.isComplex = false) (data : List ℚ)
    (hdata : v.content = some data) (hn : data.length = 4) (b : Buffer ℚ) :
    v.interpolateHermite b (23 / 10) 0 = none := by
  obtain ⟨_, hl⟩ := cells_of_content hdata
  have hlen : v.len = 4 := by unfold len; omega
  have h1 : interpDestLen 4 (23 / 10 : ℚ) = some 8 := by
    unfold interpDestLen roundAway
    have e : ⌊((4 - 1 : Nat) : ℚ) * (23 / 10) + 1 / 2⌋ = ((7 : Nat) : Int) := floor_nat (by norm_num) (by norm_num)
    rw [if_neg (by omega), if_neg (by norm_num), e, Int.cast_natCast, toUsize_natCast]; rfl
  have hs : toUsize ((⌈(1 - 0) * (23 / 10 : ℚ)⌉ : Int) : ℚ) = some 3 := by
    have e : ⌈(1 - 0) * (23 / 10 : ℚ)⌉ = ((3 : Nat) : Int) := by
      rw [Int.ceil_eq_iff]; constructor <;> norm_num
    rw [e, Int.cast_natCast, toUsize_natCast]
  have h4 : hermiteLast data (23 / 10 : ℚ) 0 4 = none := by
    have e : ⌊((4 : Nat) : ℚ) / (23 / 10) + 0⌋ = ((1 : Nat) : Int) := floor_nat (by norm_num) (by norm_num)
    unfold hermiteLast
    simp only [e, Int.cast_natCast, toUsize_natCast, Option.bind_eq_bind, Option.bind_some]
    rw [if_pos (by omega)]
  have hp : hermitePoints data (23 / 10 : ℚ) 0 8 = none := by
    unfold hermitePoints
    rw [hs]
    simp only [Option.bind_eq_bind, Option.bind_some]
    rw [if_neg (by omega)]
    have h5 : (List.range (3 + 1)).mapM (fun k => hermiteLast data (23 / 10 : ℚ) 0 (8 - (3 + 1) + k)) = none := by
      rw [List.range_succ_eq_map, List.mapM_cons]
      simp only [h4, Option.bind_eq_bind, Option.bind_none, Nat.add_zero, Nat.reduceSub, Nat.reduceAdd]
    rw [h5]
    cases (List.range 3).mapM (hermiteFirst data (23 / 10 : ℚ) 0) with
    | none => rfl
    | some a =>
      cases (List.range (8 - (3 + 1) - 3)).mapM (fun k => hermiteMiddle data (23 / 10 : ℚ) 0 (3 + k)) <;> rfl
  unfold interpolateHermite
  simp only [hlen, h1, hc, hdata, hp, Option.bind_eq_bind, Option.bind_some, Bool.false_eq_true, if_false,
    Option.bind_none]
  cases b.borrow 8 <;> rfl

/-- C50: complex vectors are marked as invalid. -/
theorem C50_complex_invalid [IsStrictOrderedRing T] [FloorRing T] (v : DspVec T) (hc : v.isComplex = true)
    (hn : v.len ≠ 0) (f delay : T) (hf : 0 < f) (b : Buffer T)
    (hb : ∀ R, Rounded (((v.len - 1 : Nat) : T) * f) R → BufferOk b v.data (R + 1)) :
    ∃ b', v.interpolateHermite b f delay = some (v.markInvalid, b') := by
  obtain ⟨R, h1, h2⟩ := interpDestLen_spec v.len hn f hf
  obtain ⟨t, t1, _⟩ := borrow_ok b v.data (R + 1) (hb R h2)
  unfold interpolateHermite
  simp only [h1, t1, hc, Option.bind_eq_bind, Option.bind_some, if_true]
  cases b <;> exact ⟨_, rfl⟩

/-- The hypotheses of `C50_interpolate_hermite` are met. -/
example : let v : DspVec ℚ := ⟨⟨.vec, [0, 3, 1]⟩, some 1, .time, .real, 3⟩
    v.isComplex = false ∧ v.content = some [0, 3, 1] ∧
    hermiteAt [(0 : ℚ), 3, 1] 0 (1 / 2) = 29 / 16 := by
  refine ⟨rfl, rfl, ?_⟩
  norm_num [hermiteAt, cubicHermite, extendLin, show Int.toNat 2 = 2 from rfl]

/-- The hypotheses of `C50_interpolate_hermite_delay` and of `C50_delay_panics` are met: factor two, delays 1/3 and 1/2. -/
example : let v : DspVec ℚ := ⟨⟨.vec, [0, 3, 1]⟩, some 1, .time, .real, 3⟩
    v.isComplex = false ∧ v.content = some [0, 3, 1] ∧ (0 : ℚ) ≤ 1 / 3 ∧ (1 / 3 : ℚ) * (2 : Nat) < 1 ∧ 1 ≤ (1 / 2 : ℚ) * (2 : Nat) :=
  ⟨rfl, rfl, by norm_num, by norm_num, by norm_num⟩

end Dsp
