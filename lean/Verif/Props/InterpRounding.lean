import Verif.Model.InterpRounding
import Verif.Spec.InterpRounding
import Verif.Props.InterpLin
import Verif.Props.StatsRounding
/-
C98: linear interpolation with rounded numbers.
-/
namespace Dsp
open DspVec
variable {R : Rounding}

noncomputable section

/-! ### The line -/

theorem data_steps {data : List ℝ} {D : ℝ} (hD : ∀ (k : Nat) y0 y1, data[k]? = some y0 → data[k + 1]? = some y1 → |y1 - y0| ≤ D)
    (i : Nat) (a : ℝ) (ha : data[i]? = some a) : ∀ (m : Nat) (b : ℝ), data[i + m]? = some b → |b - a| ≤ D * m
  | 0, b, hb => by
    rw [Nat.add_zero, ha] at hb
    rw [Option.some.inj hb]; simp
  | m + 1, b, hb => by
    have hlt : i + m < data.length := by
      have := (List.getElem?_eq_some_iff.mp hb).1; omega
    have h1 := data_steps hD i a ha m data[i + m] (List.getElem?_eq_getElem hlt)
    have h2 := hD (i + m) _ b (List.getElem?_eq_getElem hlt) hb
    have h3 := abs_add_le (b - data[i + m]) (data[i + m] - a)
    rw [sub_add_sub_cancel] at h3
    push_cast
    linarith

theorem onLine_lipschitz {data : List ℝ} {D : ℝ}
    (hD : ∀ (k : Nat) y0 y1, data[k]? = some y0 → data[k + 1]? = some y1 → |y1 - y0| ≤ D) {x x' z z' : ℝ}
    (h : OnLine data x z) (h' : OnLine data x' z') : |z - z'| ≤ D * |x - x'| := by
  wlog hle : x ≤ x' generalizing x x' z z'
  · rw [abs_sub_comm, abs_sub_comm x]
    exact this h' h (le_of_lt (not_le.mp hle))
  obtain ⟨k, y0, y1, a1, a2, a3, a4, rfl⟩ := h
  obtain ⟨j, w0, w1, b1, b2, b3, b4, rfl⟩ := h'
  have hd := hD k y0 y1 a1 a2
  have hd' := hD j w0 w1 b1 b2
  have hkj : k ≤ j := by
    have : (k : ℝ) < ((j + 1 : Nat) : ℝ) := by push_cast; linarith
    have := Nat.cast_lt.mp this
    omega
  rcases Nat.eq_or_lt_of_le hkj with rfl | hlt
  · rw [a1] at b1; rw [a2] at b2
    rw [Option.some.inj b1, Option.some.inj b2,
      show w0 + (w1 - w0) * (x - k) - (w0 + (w1 - w0) * (x' - k)) = (w1 - w0) * (x - x') by ring, abs_mul]
    exact mul_le_mul_of_nonneg_right hd' (abs_nonneg _)
  · obtain ⟨m, rfl⟩ := Nat.exists_eq_add_of_le (show k + 1 ≤ j from hlt)
    have hs := data_steps hD (k + 1) y1 a2 m w0 b1
    push_cast at b3 b4
    have e : y0 + (y1 - y0) * (x - k) - (w0 + (w1 - w0) * (x' - ((k + 1 + m : Nat) : ℝ))) =
        -((y1 - y0) * (k + 1 - x)) + (-(w0 - y1) + -((w1 - w0) * (x' - (k + 1 + m)))) := by push_cast; ring
    have n1 : |(y1 - y0) * (k + 1 - x)| ≤ D * (k + 1 - x) := by
      rw [abs_mul, abs_of_nonneg (a := (k : ℝ) + 1 - x) (by linarith)]
      exact mul_le_mul_of_nonneg_right hd (by linarith)
    have n2 : |(w1 - w0) * (x' - (k + 1 + m))| ≤ D * (x' - (k + 1 + m)) := by
      rw [abs_mul, abs_of_nonneg (a := x' - ((k : ℝ) + 1 + m)) (by linarith)]
      exact mul_le_mul_of_nonneg_right hd' (by linarith)
    have t1 := abs_add_le (-((y1 - y0) * (k + 1 - x))) (-(w0 - y1) + -((w1 - w0) * (x' - (k + 1 + m))))
    have t2 := abs_add_le (-(w0 - y1)) (-((w1 - w0) * (x' - (k + 1 + m))))
    rw [abs_neg] at t1
    rw [abs_neg, abs_neg] at t2
    rw [e, abs_sub_comm x, abs_of_nonneg (a := x' - x) (by linarith)]
    calc _ ≤ _ := t1
      _ ≤ D * (k + 1 - x) + (D * m + D * (x' - (k + 1 + m))) := by linarith
      _ = D * (x' - x) := by ring

/-- The values between two bounded numbers are bounded. -/
theorem onLine_bounded {data : List ℝ} {M : ℝ} (hM : ∀ y ∈ data, |y| ≤ M) {x z : ℝ} (h : OnLine data x z) : |z| ≤ M := by
  obtain ⟨k, y0, y1, a1, a2, a3, a4, rfl⟩ := h
  have h0 := hM y0 (List.mem_of_getElem? a1)
  have h1 := hM y1 (List.mem_of_getElem? a2)
  rw [abs_le] at *
  have p1 : 0 ≤ x - k := by linarith
  have p2 : 0 ≤ 1 - (x - k) := by linarith
  rw [show y0 + (y1 - y0) * (x - k) = y0 * (1 - (x - k)) + y1 * (x - k) by ring]
  constructor
  · nlinarith [mul_nonneg p1 (show 0 ≤ y1 + M by linarith), mul_nonneg p2 (show 0 ≤ y0 + M by linarith)]
  · nlinarith [mul_nonneg p1 (show 0 ≤ M - y1 by linarith), mul_nonneg p2 (show 0 ≤ M - y0 by linarith)]

/-! ### One point -/

theorem lineCounter_exact {N : Nat} (hN : ∀ k : Nat, k ≤ N → R.rnd (k : ℝ) = k) : ∀ k : Nat, k ≤ N → (lineCounter k : Fl R).val = k
  | 0, _ => by simp [lineCounter, show (0 : Fl R).val = 0 from rfl]
  | k + 1, h => by
    have ih := lineCounter_exact hN k (by omega)
    show R.rnd ((lineCounter k : Fl R).val + 1) = _
    rw [ih]
    have := hN (k + 1) h
    push_cast at this ⊢
    exact this

/-- The position: two roundings. -/
theorem position_error (hu : R.u ≤ 1) {q d : ℝ} (hq : 0 ≤ q) (hd : 0 ≤ d) :
    0 ≤ R.rnd (R.rnd q + d) ∧ R.rnd (R.rnd q + d) ≤ (1 + R.u) * ((1 + R.u) * q + d) ∧
      |R.rnd (R.rnd q + d) - (q + d)| ≤ ((1 + R.u) ^ 2 - 1) * (q + d) := by
  have hu0 := R.u_nonneg
  have h1 := R.error q
  rw [abs_of_nonneg hq, abs_le] at h1
  have hr : 0 ≤ R.rnd q := by nlinarith [h1.1]
  have h2 := R.error (R.rnd q + d)
  rw [abs_of_nonneg (a := R.rnd q + d) (by linarith), abs_le] at h2
  have hs : R.rnd q + d ≤ (1 + R.u) * q + d := by linarith [h1.2]
  have h3 := mul_le_mul_of_nonneg_left hs hu0
  have p1 := mul_nonneg hu0 hd
  have p2 := mul_nonneg hu0 hq
  have p3 := mul_nonneg hu0 p1
  have p4 := mul_nonneg hu0 p2
  refine ⟨by nlinarith [h2.1, mul_nonneg (sub_nonneg.mpr hu) (show 0 ≤ R.rnd q + d by linarith)], by linarith [h2.2], ?_⟩
  rw [abs_le]
  constructor
  · nlinarith [h2.1, h1.1]
  · nlinarith [h2.2, h1.2]

/-- The value at the position `x`, computed with four roundings. -/
theorem line_value_error {y0 y1 t M D : ℝ} (ht0 : 0 ≤ t) (ht1 : t ≤ 1) (hD : |y1 - y0| ≤ D) (hM : |y0 + (y1 - y0) * t| ≤ M) :
    |R.rnd (y0 + R.rnd (R.rnd (y1 - y0) * R.rnd t)) - (y0 + (y1 - y0) * t)| ≤
      R.u * M + ((1 + R.u) ^ 4 - (1 + R.u)) * D := by
  have hu0 := R.u_nonneg
  have hD0 := (abs_nonneg _).trans hD
  have h1 := R.error (y1 - y0)
  have h2 := R.error t
  rw [abs_of_nonneg ht0] at h2
  have h3 := R.error (R.rnd (y1 - y0) * R.rnd t)
  have h4 := R.error (y0 + R.rnd (R.rnd (y1 - y0) * R.rnd t))
  generalize R.rnd (y0 + R.rnd (R.rnd (y1 - y0) * R.rnd t)) = r at *
  generalize R.rnd (R.rnd (y1 - y0) * R.rnd t) = q at *
  generalize R.rnd (y1 - y0) = s at *
  generalize R.rnd t = w at *
  generalize y1 - y0 = c at *
  have hs : |s - c| ≤ R.u * D := h1.trans (mul_le_mul_of_nonneg_left hD hu0)
  have hw : |w - t| ≤ R.u := h2.trans (by nlinarith)
  have hsa : |s| ≤ (1 + R.u) * D := by
    have := abs_add_le (s - c) c
    rw [sub_add_cancel] at this; linarith
  have hsw : |s * w - c * t| ≤ ((1 + R.u) ^ 2 - 1) * D := by
    have t1 := abs_add_le (s * (w - t)) ((s - c) * t)
    rw [show s * (w - t) + (s - c) * t = s * w - c * t by ring, abs_mul, abs_mul, abs_of_nonneg ht0] at t1
    have t2 := mul_le_mul hsa hw (abs_nonneg _) (by positivity)
    have t3 : |s - c| * t ≤ R.u * D := (mul_le_mul hs ht1 ht0 (by positivity)).trans (by linarith)
    calc _ ≤ _ := t1
      _ ≤ (1 + R.u) * D * R.u + R.u * D := by linarith
      _ = _ := by ring
  have hct : |c * t| ≤ D := by
    rw [abs_mul, abs_of_nonneg ht0]
    exact (mul_le_mul hD ht1 ht0 hD0).trans (by linarith)
  have hswa : |s * w| ≤ (1 + R.u) ^ 2 * D := by
    have := abs_add_le (s * w - c * t) (c * t)
    rw [sub_add_cancel] at this; linarith
  have hq : |q - c * t| ≤ ((1 + R.u) ^ 3 - 1) * D := by
    have t1 := abs_add_le (q - s * w) (s * w - c * t)
    rw [sub_add_sub_cancel] at t1
    have t2 := h3.trans (mul_le_mul_of_nonneg_left hswa hu0)
    calc _ ≤ _ := t1
      _ ≤ R.u * ((1 + R.u) ^ 2 * D) + ((1 + R.u) ^ 2 - 1) * D := by linarith
      _ = _ := by ring
  have hya : |y0 + q| ≤ M + ((1 + R.u) ^ 3 - 1) * D := by
    have := abs_add_le (y0 + c * t) (q - c * t)
    rw [show y0 + c * t + (q - c * t) = y0 + q by ring] at this
    linarith
  have t1 := abs_add_le (r - (y0 + q)) (q - c * t)
  rw [show r - (y0 + q) + (q - c * t) = r - (y0 + c * t) by ring] at t1
  have t2 := h4.trans (mul_le_mul_of_nonneg_left hya hu0)
  calc _ ≤ _ := t1
    _ ≤ R.u * (M + ((1 + R.u) ^ 3 - 1) * D) + ((1 + R.u) ^ 3 - 1) * D := by linarith
    _ = _ := by ring

/-! ### The vector -/

theorem linPointFl_spec (hu : R.u ≤ 1) {N : Nat} (hN : ∀ k : Nat, k ≤ N → R.rnd (k : ℝ) = k) (data : List (Fl R)) (f d : Fl R)
    (hf : 0 < f.val) (hd : 0 ≤ d.val) {M D : ℝ} (hM : ∀ y ∈ data, |y.val| ≤ M)
    (hD : ∀ (k : Nat) y0 y1, data[k]? = some y0 → data[k + 1]? = some y1 → |y1.val - y0.val| ≤ D) (i : Nat) (hiN : i ≤ N)
    (hpos : (1 + R.u) * ((1 + R.u) * ((i : ℝ) / f.val) + d.val) < ((data.length - 1 : Nat) : ℝ)) :
    ∃ y, linPointFl data f d i = some y ∧ ∃ z, OnLine (data.map Fl.val) ((i : ℝ) / f.val + d.val) z ∧
      |y.val - z| ≤ R.u * M + ((1 + R.u) ^ 4 - (1 + R.u)) * D + ((1 + R.u) ^ 2 - 1) * ((i : ℝ) / f.val + d.val) * D := by
  have hu0 := R.u_nonneg
  have hq : 0 ≤ (i : ℝ) / f.val := by positivity
  obtain ⟨p0, p1, p2⟩ := position_error hu hq hd
  have hval : (lineCounter i / f + d : Fl R).val = R.rnd (R.rnd ((i : ℝ) / f.val) + d.val) := by
    show R.rnd (R.rnd ((lineCounter i : Fl R).val / f.val) + d.val) = _
    rw [lineCounter_exact hN i hiN]
  have hexact : (i : ℝ) / f.val + d.val < ((data.length - 1 : Nat) : ℝ) := by
    refine lt_of_le_of_lt ?_ hpos
    nlinarith [mul_nonneg hu0 hq, mul_nonneg hu0 hd, mul_nonneg hu0 (mul_nonneg hu0 hq)]
  obtain ⟨k, h1, h2⟩ := exists_floor p0
  have hk : k < data.length - 1 := by
    have : (k : ℝ) < ((data.length - 1 : Nat) : ℝ) := lt_of_le_of_lt (h1.trans p1) hpos
    exact_mod_cast this
  obtain ⟨j, j1, j2⟩ := exists_floor (show (0 : ℝ) ≤ (i : ℝ) / f.val + d.val by linarith)
  have hj : j < data.length - 1 := by
    have : (j : ℝ) < ((data.length - 1 : Nat) : ℝ) := lt_of_le_of_lt j1 hexact
    exact_mod_cast this
  have e0 : data[k]? = some data[k] := List.getElem?_eq_getElem (by omega)
  have e1 : data[k + 1]? = some data[k + 1] := List.getElem?_eq_getElem (by omega)
  have hD' : ∀ (k : Nat) y0 y1, (data.map Fl.val)[k]? = some y0 → (data.map Fl.val)[k + 1]? = some y1 → |y1 - y0| ≤ D := by
    intro k y0 y1 a0 a1
    rw [List.getElem?_map, Option.map_eq_some_iff] at a0 a1
    obtain ⟨w0, b0, rfl⟩ := a0
    obtain ⟨w1, b1, rfl⟩ := a1
    exact hD k w0 w1 b0 b1
  have hM' : ∀ y ∈ data.map Fl.val, |y| ≤ M := by
    intro y hy
    obtain ⟨w, hw, rfl⟩ := List.mem_map.mp hy
    exact hM w hw
  have on0 : OnLine (data.map Fl.val) ((i : ℝ) / f.val + d.val) ((data[j]'(by omega)).val +
      ((data[j + 1]'(by omega)).val - (data[j]'(by omega)).val) * ((i : ℝ) / f.val + d.val - j)) :=
    ⟨j, _, _, by rw [List.getElem?_map, List.getElem?_eq_getElem (by omega)]; rfl,
      by rw [List.getElem?_map, List.getElem?_eq_getElem (by omega)]; rfl, j1, j2, rfl⟩
  have on1 : OnLine (data.map Fl.val) (R.rnd (R.rnd ((i : ℝ) / f.val) + d.val)) (data[k].val + (data[k + 1].val - data[k].val) *
      (R.rnd (R.rnd ((i : ℝ) / f.val) + d.val) - k)) :=
    ⟨k, _, _, by rw [List.getElem?_map, e0]; rfl, by rw [List.getElem?_map, e1]; rfl, h1, h2, rfl⟩
  have l1 := onLine_lipschitz hD' on1 on0
  have l2 := line_value_error (R := R) (by linarith) (by linarith) (hD k _ _ e0 e1) (onLine_bounded hM' on1)
  have hD0 : 0 ≤ D := (abs_nonneg _).trans (hD k _ _ e0 e1)
  have l3 := mul_le_mul_of_nonneg_left p2 hD0
  refine ⟨⟨R.rnd (data[k].val + R.rnd (R.rnd (data[k + 1].val - data[k].val) *
    R.rnd (R.rnd (R.rnd ((i : ℝ) / f.val) + d.val) - k)))⟩, ?_, _, on0, ?_⟩
  · unfold linPointFl
    simp only [hval, floor_nat h1 h2, Int.cast_natCast, toUsize_natCast, Option.bind_eq_bind, Option.bind_some, get, e0, e1]
    congr 1
    show (⟨R.rnd (_ + R.rnd (_ * R.rnd ((lineCounter i / f + d : Fl R).val - _)))⟩ : Fl R) = _
    rw [hval]
    rfl
  · dsimp only
    have t := (abs_sub_le _ _ _).trans (add_le_add l2 l1)
    linarith [t, l3]

theorem interpDestLenFl_spec (hu : R.u ≤ 1) (n : Nat) (hn : n ≠ 0) (hex : R.rnd ((n - 1 : Nat) : ℝ) = ((n - 1 : Nat) : ℝ)) (f : Fl R)
    (hf : 0 < f.val) (L : Nat) (hL : Rounded (R.rnd (((n - 1 : Nat) : ℝ) * f.val)) L) : interpDestLenFl n f = some (L + 1) := by
  have h0 : (0 : ℝ) ≤ ((n - 1 : Nat) : ℝ) * f.val := by positivity
  have h1 := R.error (((n - 1 : Nat) : ℝ) * f.val)
  rw [abs_of_nonneg h0, abs_le] at h1
  have h2 : 0 ≤ R.rnd (((n - 1 : Nat) : ℝ) * f.val) := by nlinarith [h1.1]
  have hv : (((n - 1 : Nat) : Fl R) * f).val = R.rnd (((n - 1 : Nat) : ℝ) * f.val) := by
    show R.rnd (R.rnd ((n - 1 : Nat) : ℝ) * f.val) = _
    rw [hex]
  unfold interpDestLenFl roundAway
  rw [if_neg hn, hv, if_neg (not_lt.mpr h2), floor_nat (k := L) hL.2 (by linarith [hL.1]), Int.cast_natCast, toUsize_natCast]
  rfl

/-- C98. `interpolate_lin` of a real vector with rounded numbers. Let every natural number up to `N` be exact (`N = 2^24` for `f32`,
`2^53` for `f64`), the result have at most `N` numbers, neighbours differ by at most `D`, and all numbers be at most `M`. If the last
position stays inside the data even with the roundings, the call does not panic, the length is the rounded one, the last number
is exactly the last given number, and number `i` is as close to the line at `i / f + delay` as three roundings relative to `D`, one relative to `M`
and the two roundings of the position allow. -/
theorem C98_interpolate_lin (hu : R.u ≤ 1) (N : Nat) (hN : ∀ k : Nat, k ≤ N → R.rnd (k : ℝ) = k) (v : DspVec (Fl R))
    (hc : v.isComplex = false) (data : List (Fl R)) (hdata : v.content = some data) (hn : data ≠ []) (f delay : Fl R)
    (hf : 0 < f.val) (hd : 0 ≤ delay.val) (M D : ℝ) (hM : ∀ y ∈ data, |y.val| ≤ M)
    (hD : ∀ (k : Nat) y0 y1, data[k]? = some y0 → data[k + 1]? = some y1 → |y1.val - y0.val| ≤ D) (hnN : data.length - 1 ≤ N)
    (L : Nat) (hL : Rounded (R.rnd (((data.length - 1 : Nat) : ℝ) * f.val)) L) (hLN : L ≤ N)
    (hpos : ∀ i < L, (1 + R.u) * ((1 + R.u) * ((i : ℝ) / f.val) + delay.val) < ((data.length - 1 : Nat) : ℝ))
    (b : Buffer (Fl R)) (hb : BufferOk b v.data (L + 1)) :
    ∃ v' b' l, v.interpolateLinFl b f delay = some (v', b') ∧ v'.content = some l ∧ v'.SameMeta v ∧ l.length = L + 1 ∧
      l[L]? = data[data.length - 1]? ∧
      ∀ i < L, ∃ y z, l[i]? = some y ∧ OnLine (data.map Fl.val) ((i : ℝ) / f.val + delay.val) z ∧
        |y.val - z| ≤ R.u * M + ((1 + R.u) ^ 4 - (1 + R.u)) * D +
          ((1 + R.u) ^ 2 - 1) * ((i : ℝ) / f.val + delay.val) * D := by
  obtain ⟨_, hl⟩ := cells_of_content hdata
  have hlen0 : 0 < data.length := List.length_pos_of_ne_nil hn
  have h1 := interpDestLenFl_spec hu data.length (by omega) (hN _ hnN) f hf L hL
  obtain ⟨l, h2, h3, h4⟩ := mapM_range_exists (linPointFl data f delay) _ L
    (fun i hi => linPointFl_spec hu hN data f delay hf hd hM hD i (by omega) (hpos i hi))
  have e : data[data.length - 1]? = some data[data.length - 1] := List.getElem?_eq_getElem (by omega)
  have hll : (l ++ [data[data.length - 1]]).length = L + 1 := by simp [h3]
  obtain ⟨t, t1, _⟩ := borrow_ok b v.data (L + 1) hb
  obtain ⟨rest, hrest⟩ := trade_ok b v.data (l ++ [data[data.length - 1]]) (by rw [hll]; exact hb)
  have hlen : v.len = data.length := by unfold len; omega
  have hp : linPointsFl data f delay (L + 1) = some (l ++ [data[data.length - 1]]) := by
    unfold linPointsFl
    simp only [Nat.add_sub_cancel, h2, get, e, Option.bind_eq_bind, Option.bind_some]
  refine ⟨_, (b.trade (l ++ [data[data.length - 1]]) v.data).1, l ++ [data[data.length - 1]], ?_,
    content_of_cells (v := { v with data := (b.trade (l ++ [data[data.length - 1]]) v.data).2, validLen := L + 1 })
    (s := rest) (by simp only [hrest]) hll.symm, ⟨rfl, rfl, rfl, by simp only [hrest]⟩, hll, ?_, fun i hi => ?_⟩
  · unfold interpolateLinFl
    simp only [hlen, h1, t1, hc, hdata, hp, Option.bind_eq_bind, Option.bind_some, Bool.false_eq_true, if_false]
  · rw [List.getElem?_append_right (by omega), h3, e]; simp
  · obtain ⟨y, y1, z, z1, z2⟩ := h4 i hi
    exact ⟨y, z, by rw [List.getElem?_append_left (by omega)]; exact y1, z1, z2⟩

/-! ### Ties to even -/

theorem roundEven_int (n : Int) : roundEven (n : ℝ) = n := by
  unfold roundEven
  rw [if_neg (by simp), round_intCast]

/-- Numbers with at most `p + 1` digits are exact. -/
theorem ieee_exact (p : Nat) (m e : Int) (hm : |m| ≤ 2 ^ (p + 1)) : (ieeeRounding p).rnd (m * (2 : ℝ) ^ e) = m * (2 : ℝ) ^ e := by
  have key : ∀ (m e : Int), |m| < 2 ^ (p + 1) → (ieeeRounding p).rnd (m * (2 : ℝ) ^ e) = m * (2 : ℝ) ^ e := by
    intro m e hm
    show (roundEven (_ / (2 : ℝ) ^ (Int.log 2 |_| - (p : Int))) : ℝ) * (2 : ℝ) ^ (Int.log 2 |_| - (p : Int)) = _
    by_cases h0 : m = 0
    · subst h0
      have : roundEven 0 = 0 := by have := roundEven_int 0; simpa using this
      simp [this]
    have he : (0 : ℝ) < (2 : ℝ) ^ e := zpow_pos (by norm_num) _
    have hx : |(m : ℝ) * (2 : ℝ) ^ e| < (2 : ℝ) ^ ((p : Int) + 1 + e) := by
      rw [abs_mul, abs_of_pos he, zpow_add₀ (by norm_num)]
      refine mul_lt_mul_of_pos_right ?_ he
      have : ((|m| : Int) : ℝ) < ((2 ^ (p + 1) : Int) : ℝ) := Int.cast_lt.mpr hm
      rw [Int.cast_abs] at this
      push_cast at this
      rw [show ((p : Int) + 1) = ((p + 1 : Nat) : Int) by push_cast; rfl, zpow_natCast]
      exact this
    have hpos : 0 < |(m : ℝ) * (2 : ℝ) ^ e| := abs_pos.2 (mul_ne_zero (by exact_mod_cast h0) he.ne')
    have hlog : Int.log 2 |(m : ℝ) * (2 : ℝ) ^ e| < (p : Int) + 1 + e := (Int.lt_zpow_iff_log_lt (b := 2) (by norm_num) hpos).mp (by exact_mod_cast hx)
    generalize hg : Int.log 2 |(m : ℝ) * (2 : ℝ) ^ e| - (p : Int) = g at *
    obtain ⟨w, hw⟩ := Int.eq_ofNat_of_zero_le (show 0 ≤ e - g by omega)
    have hgp : (2 : ℝ) ^ g ≠ 0 := (zpow_pos (by norm_num) _).ne'
    have h1 : (m : ℝ) * (2 : ℝ) ^ e / (2 : ℝ) ^ g = ((m * 2 ^ w : Int) : ℝ) := by
      rw [show e = g + (w : Int) by omega, zpow_add₀ (by norm_num), zpow_natCast]
      push_cast
      field_simp
    rw [h1, roundEven_int, ← h1, div_mul_cancel₀ _ hgp]
  rcases lt_or_eq_of_le hm with h | h
  · exact key m e h
  · have h1 : (1 : Int) < 2 ^ (p + 1) := one_lt_pow₀ (by norm_num) (by omega)
    rcases abs_choice m with hs | hs
    · have hm' : m = 2 ^ (p + 1) := by omega
      have := key 1 (e + (p + 1 : Nat)) (by simpa using h1)
      rw [zpow_add₀ (by norm_num), zpow_natCast] at this
      subst hm'
      push_cast at this ⊢
      rw [one_mul, mul_comm] at this
      exact this
    · have hm' : m = -2 ^ (p + 1) := by omega
      have := key (-1) (e + (p + 1 : Nat)) (by simpa using h1)
      rw [zpow_add₀ (by norm_num), zpow_natCast] at this
      subst hm'
      push_cast at this ⊢
      rw [neg_one_mul, mul_comm, ← neg_mul] at this
      exact this

theorem ieee_nat (p k : Nat) (hk : k ≤ 2 ^ (p + 1)) : (ieeeRounding p).rnd (k : ℝ) = k := by
  have := ieee_exact p (k : Int) 0 (by simpa using (by exact_mod_cast hk : (k : Int) ≤ 2 ^ (p + 1)))
  simpa using this

/-- The counter stops at `2^(p + 1)`. -/
theorem lineCounter_stops (p : Nat) (hp : 1 ≤ p) : ∀ k, (lineCounter k : Fl (ieeeRounding p)).val = (min k (2 ^ (p + 1)) : Nat)
  | 0 => by simp [lineCounter, show (0 : Fl (ieeeRounding p)).val = 0 from rfl]
  | k + 1 => by
    show (ieeeRounding p).rnd ((lineCounter k : Fl (ieeeRounding p)).val + 1) = _
    rw [lineCounter_stops p hp k]
    rcases Nat.lt_or_ge k (2 ^ (p + 1)) with h | h
    · rw [min_eq_left (by omega), min_eq_left (by omega)]
      have := ieee_nat p (k + 1) (by omega)
      push_cast at this ⊢
      exact this
    · rw [min_eq_right (by omega), min_eq_right (by omega)]
      push_cast
      show (roundEven (_ / (2 : ℝ) ^ (Int.log 2 |_| - (p : Int))) : ℝ) * (2 : ℝ) ^ (Int.log 2 |_| - (p : Int)) = _
      have hp2 : (2 : ℝ) ≤ 2 ^ (p + 1) := by
        calc (2 : ℝ) = 2 ^ 1 := by norm_num
          _ ≤ 2 ^ (p + 1) := pow_le_pow_right₀ (by norm_num) (by omega)
      have hlog : Int.log 2 |(2 : ℝ) ^ (p + 1) + 1| = ((p + 1 : Nat) : Int) := by
        rw [abs_of_pos (by positivity)]
        have a1 : ((p + 1 : Nat) : Int) ≤ Int.log 2 ((2 : ℝ) ^ (p + 1) + 1) := by
          rw [← Int.zpow_le_iff_le_log (by norm_num) (by positivity)]
          rw [zpow_natCast]; push_cast; linarith
        have a2 : Int.log 2 ((2 : ℝ) ^ (p + 1) + 1) < ((p + 2 : Nat) : Int) := by
          rw [← Int.lt_zpow_iff_log_lt (by norm_num) (by positivity)]
          rw [zpow_natCast]; push_cast
          rw [pow_succ _ (p + 1)]; linarith
        push_cast at a1 a2 ⊢; omega
      rw [hlog, show (((p + 1 : Nat) : Int) - (p : Int)) = 1 by push_cast; ring, zpow_one]
      have hx : ((2 : ℝ) ^ (p + 1) + 1) / 2 = ((2 ^ p : Int) : ℝ) + 1 / 2 := by
        push_cast; rw [pow_succ]; ring
      have hfl : ⌊((2 ^ p : Int) : ℝ) + 1 / 2⌋ = 2 ^ p := by
        rw [Int.floor_intCast_add]; norm_num
      have hfr : Int.fract (((2 ^ p : Int) : ℝ) + 1 / 2) = 1 / 2 := by
        rw [Int.fract_intCast_add, Int.fract_eq_self.mpr (by norm_num)]
      have hev : Even (2 ^ p : Int) := (even_two).pow_of_ne_zero (by omega)
      rw [hx]
      unfold roundEven
      rw [hfr, hfl, if_pos rfl, if_pos hev]
      push_cast; rw [pow_succ]

/-- A point between the numbers `0` and `1` if nothing is rounded. -/
theorem linPointFl_unit (f d : Fl R) (k : Nat) (x : ℝ) (hval : (lineCounter k / f + d : Fl R).val = x) (h0 : ((0 : Nat) : ℝ) ≤ x)
    (h1 : x < ((0 : Nat) : ℝ) + 1) (hx : R.rnd x = x) (hone : R.rnd 1 = 1) : linPointFl [⟨0⟩, ⟨1⟩] f d k = some ⟨x⟩ := by
  have e : ∀ (a b c e : Fl R), a.val = 0 → b.val = 1 → c.val = x → e.val = 0 → a + (b - a) * (c - e) = ⟨x⟩ := by
    intro a b c e ha hb hc he
    show (⟨R.rnd (a.val + R.rnd (R.rnd (b.val - a.val) * R.rnd (c.val - e.val)))⟩ : Fl R) = _
    rw [ha, hb, hc, he, sub_zero, sub_zero, hone, hx, one_mul, hx, zero_add, hx]
  unfold linPointFl
  simp only [hval, floor_nat h0 h1, Int.cast_natCast, toUsize_natCast, Option.bind_eq_bind, Option.bind_some, get,
    List.getElem?_cons_zero, List.getElem?_cons_succ]
  rw [e _ _ _ _ rfl rfl hval (Nat.cast_zero)]

/-- C98, violated: with ties to even and `p + 1` digits the counter of the loop, `i = i + T::one()`, never gets beyond `2^(p + 1)`
(`2^24` for `f32`): from there on every further position is the same. The two numbers `0, 1` with the factor `2^(p + 2)` become
the wanted `k / 2^(p + 2)` in the first half of the result only; the whole second half is `1/2`. -/
theorem C98_counter_violated (p : Nat) (hp : 1 ≤ p) (v : DspVec (Fl (ieeeRounding p))) (hc : v.isComplex = false)
    (hdata : v.content = some [⟨0⟩, ⟨1⟩]) (b : Buffer (Fl (ieeeRounding p))) (hb : BufferOk b v.data (2 ^ (p + 2) + 1)) :
    ∃ v' b' l, v.interpolateLinFl b ⟨2 ^ (p + 2)⟩ ⟨0⟩ = some (v', b') ∧ v'.content = some l ∧ l.length = 2 ^ (p + 2) + 1 ∧
      (∀ k < 2 ^ (p + 1), l[k]? = some ⟨k / 2 ^ (p + 2)⟩) ∧
      (∀ k, 2 ^ (p + 1) ≤ k → k < 2 ^ (p + 2) → l[k]? = some ⟨1 / 2⟩) := by
  obtain ⟨_, hl⟩ := cells_of_content hdata
  have hu : (ieeeRounding p).u ≤ 1 := by
    show (1 : ℝ) / 2 ^ (p + 1) ≤ 1
    rw [div_le_one (by positivity)]; exact one_le_pow₀ (by norm_num)
  have hone : (ieeeRounding p).rnd 1 = 1 := by
    have := ieee_nat p 1 Nat.one_le_two_pow
    simpa using this
  have hpow : (ieeeRounding p).rnd (2 ^ (p + 2)) = 2 ^ (p + 2) := by
    have := ieee_exact p 1 ((p + 2 : Nat) : Int) (by simp [one_le_pow₀])
    rw [zpow_natCast] at this
    push_cast at this
    rw [one_mul] at this
    exact this
  have h1 : interpDestLenFl 2 (⟨2 ^ (p + 2)⟩ : Fl (ieeeRounding p)) = some (2 ^ (p + 2) + 1) := by
    refine interpDestLenFl_spec hu 2 (by omega) (by simpa using hone) ⟨2 ^ (p + 2)⟩ (by show (0 : ℝ) < 2 ^ (p + 2); positivity) _ ?_
    show Rounded ((ieeeRounding p).rnd (((2 - 1 : Nat) : ℝ) * 2 ^ (p + 2))) _
    norm_num [hpow, Rounded]
  have hpt : ∀ k, linPointFl [⟨0⟩, ⟨1⟩] (⟨2 ^ (p + 2)⟩ : Fl (ieeeRounding p)) ⟨0⟩ k = some ⟨(min k (2 ^ (p + 1)) : Nat) / 2 ^ (p + 2)⟩ := by
    intro k
    have hx : (ieeeRounding p).rnd (((min k (2 ^ (p + 1)) : Nat) : ℝ) / 2 ^ (p + 2)) = ((min k (2 ^ (p + 1)) : Nat) : ℝ) / 2 ^ (p + 2) := by
      have := ieee_exact p ((min k (2 ^ (p + 1)) : Nat) : Int) (-((p + 2 : Nat) : Int)) (by
        rw [abs_of_nonneg (Int.natCast_nonneg _)]; exact_mod_cast min_le_right k (2 ^ (p + 1)))
      rw [zpow_neg, zpow_natCast, ← div_eq_mul_inv, Int.cast_natCast] at this
      exact this
    have hval : (lineCounter k / ⟨2 ^ (p + 2)⟩ + ⟨0⟩ : Fl (ieeeRounding p)).val = ((min k (2 ^ (p + 1)) : Nat) : ℝ) / 2 ^ (p + 2) := by
      show (ieeeRounding p).rnd ((ieeeRounding p).rnd ((lineCounter k : Fl (ieeeRounding p)).val / 2 ^ (p + 2)) + 0) = _
      rw [lineCounter_stops p hp, hx, add_zero, hx]
    have hlt : ((min k (2 ^ (p + 1)) : Nat) : ℝ) / 2 ^ (p + 2) < ((0 : Nat) : ℝ) + 1 := by
      rw [Nat.cast_zero, zero_add, div_lt_one (by positivity)]
      have : min k (2 ^ (p + 1)) < 2 ^ (p + 2) := lt_of_le_of_lt (min_le_right _ _) (Nat.pow_lt_pow_right (by omega) (by omega))
      exact_mod_cast this
    have hge : ((0 : Nat) : ℝ) ≤ ((min k (2 ^ (p + 1)) : Nat) : ℝ) / 2 ^ (p + 2) := by
      rw [Nat.cast_zero]; positivity
    exact linPointFl_unit _ _ k _ hval hge hlt hx hone
  obtain ⟨l, h2, h3, h4⟩ := mapM_range_exists (linPointFl [⟨0⟩, ⟨1⟩] (⟨2 ^ (p + 2)⟩ : Fl (ieeeRounding p)) ⟨0⟩)
    (fun k y => y = ⟨(min k (2 ^ (p + 1)) : Nat) / 2 ^ (p + 2)⟩) (2 ^ (p + 2)) (fun k _ => ⟨_, hpt k, rfl⟩)
  have hll : (l ++ [(⟨1⟩ : Fl (ieeeRounding p))]).length = 2 ^ (p + 2) + 1 := by simp [h3]
  obtain ⟨t, t1, _⟩ := borrow_ok b v.data (2 ^ (p + 2) + 1) hb
  obtain ⟨rest, hrest⟩ := trade_ok b v.data (l ++ [⟨1⟩]) (by rw [hll]; exact hb)
  have hlen : v.len = 2 := by unfold len; exact hl
  have hq : linPointsFl [⟨0⟩, ⟨1⟩] (⟨2 ^ (p + 2)⟩ : Fl (ieeeRounding p)) ⟨0⟩ (2 ^ (p + 2) + 1) = some (l ++ [⟨1⟩]) := by
    unfold linPointsFl
    simp only [Nat.add_sub_cancel, h2, get, Option.bind_eq_bind, Option.bind_some]
    rfl
  have hlt : (2 : Nat) ^ (p + 1) < 2 ^ (p + 2) := Nat.pow_lt_pow_right (by omega) (by omega)
  refine ⟨_, (b.trade (l ++ [⟨1⟩]) v.data).1, l ++ [⟨1⟩], ?_,
    content_of_cells (v := { v with data := (b.trade (l ++ [⟨1⟩]) v.data).2, validLen := 2 ^ (p + 2) + 1 })
    (s := rest) (by simp only [hrest]) hll.symm, hll, fun k hk => ?_, fun k hk1 hk2 => ?_⟩
  · unfold interpolateLinFl
    simp only [hlen, h1, t1, hc, hdata, hq, Option.bind_eq_bind, Option.bind_some, Bool.false_eq_true, if_false]
  · obtain ⟨y, y1, rfl⟩ := h4 k (by omega)
    rw [List.getElem?_append_left (by omega), y1, min_eq_left (by omega)]
  · obtain ⟨y, y1, rfl⟩ := h4 k hk2
    rw [List.getElem?_append_left (by omega), y1, min_eq_right (by omega)]
    congr 2
    push_cast
    rw [pow_succ _ (p + 1)]; field_simp

theorem roundEven_near {z : ℝ} {n : Int} (h : |z - n| < 1 / 2) : roundEven z = n := by
  have h1 := abs_sub_roundEven z
  have h2 : |((roundEven z - n : Int) : ℝ)| < 1 := by
    have := abs_sub_le (roundEven z : ℝ) z n
    rw [abs_sub_comm (roundEven z : ℝ) z] at this
    push_cast
    linarith
  rw [← Int.cast_abs] at h2
  have h3 : |roundEven z - n| < 1 := by exact_mod_cast h2
  have := Int.abs_lt_one_iff.mp h3
  omega

/-- C98, violated: a panic because of a rounded position. The code interpolates four numbers with the factor `2^q + 1/2` and no delay. With
`q + 2` digits (`q = 22` for `f32`) the length is rounded up, the last position, less than `3`, is rounded to `3`, and the code reads
past the end. With exact numbers the call returns (`C42_interpolate_lin`). -/
theorem C98_panic_violated (q : Nat) (hq : 1 ≤ q) (v : DspVec (Fl (ieeeRounding (q + 1)))) (hc : v.isComplex = false)
    (data : List (Fl (ieeeRounding (q + 1)))) (hdata : v.content = some data) (hn : data.length = 4)
    (b : Buffer (Fl (ieeeRounding (q + 1)))) : v.interpolateLinFl b ⟨2 ^ q + 1 / 2⟩ ⟨0⟩ = none := by
  obtain ⟨_, hl⟩ := cells_of_content hdata
  have hq2 : (2 : ℝ) ≤ 2 ^ q := by
    calc (2 : ℝ) = 2 ^ 1 := by norm_num
      _ ≤ 2 ^ q := pow_le_pow_right₀ (by norm_num) hq
  have hqn : 2 ≤ 2 ^ q := by exact_mod_cast hq2
  have hu : (ieeeRounding (q + 1)).u ≤ 1 := by
    show (1 : ℝ) / 2 ^ (q + 1 + 1) ≤ 1
    rw [div_le_one (by positivity)]; exact one_le_pow₀ (by norm_num)
  have h3 : (ieeeRounding (q + 1)).rnd 3 = 3 := by
    have := ieee_nat (q + 1) 3 (by rw [pow_succ, pow_succ]; omega)
    exact_mod_cast this
  have hprod : (ieeeRounding (q + 1)).rnd (3 * (2 ^ q + 1 / 2)) = ((3 * 2 ^ q + 2 : Nat) : ℝ) := by
    show (roundEven (_ / (2 : ℝ) ^ (Int.log 2 |_| - ((q + 1 : Nat) : Int))) : ℝ) * (2 : ℝ) ^ (Int.log 2 |_| - ((q + 1 : Nat) : Int)) = _
    have hlog : Int.log 2 |(3 : ℝ) * (2 ^ q + 1 / 2)| = ((q + 1 : Nat) : Int) := by
      rw [abs_of_pos (by positivity)]
      have a1 : ((q + 1 : Nat) : Int) ≤ Int.log 2 ((3 : ℝ) * (2 ^ q + 1 / 2)) := by
        rw [← Int.zpow_le_iff_le_log (by norm_num) (by positivity), zpow_natCast]
        push_cast; rw [pow_succ]; linarith
      have a2 : Int.log 2 ((3 : ℝ) * (2 ^ q + 1 / 2)) < ((q + 2 : Nat) : Int) := by
        rw [← Int.lt_zpow_iff_log_lt (by norm_num) (by positivity), zpow_natCast]
        push_cast; rw [pow_succ, pow_succ]; linarith
      push_cast at a1 a2 ⊢; omega
    rw [hlog, sub_self, zpow_zero, div_one, mul_one]
    have hx : (3 : ℝ) * (2 ^ q + 1 / 2) = ((3 * 2 ^ q + 1 : Int) : ℝ) + 1 / 2 := by push_cast; ring
    have hfl : ⌊((3 * 2 ^ q + 1 : Int) : ℝ) + 1 / 2⌋ = 3 * 2 ^ q + 1 := by
      rw [Int.floor_intCast_add]; norm_num
    have hfr : Int.fract (((3 * 2 ^ q + 1 : Int) : ℝ) + 1 / 2) = 1 / 2 := by
      rw [Int.fract_intCast_add, Int.fract_eq_self.mpr (by norm_num)]
    have hodd : ¬ Even (3 * 2 ^ q + 1 : Int) := by
      rw [Int.not_even_iff_odd]
      exact (((even_two).pow_of_ne_zero (by omega)).mul_left 3).add_one
    rw [hx]
    unfold roundEven
    rw [hfr, hfl, if_pos rfl, if_neg hodd]
    push_cast; ring
  have h1 : interpDestLenFl 4 (⟨2 ^ q + 1 / 2⟩ : Fl (ieeeRounding (q + 1))) = some (3 * 2 ^ q + 2 + 1) := by
    refine interpDestLenFl_spec hu 4 (by omega) (by push_cast; exact_mod_cast h3) ⟨2 ^ q + 1 / 2⟩
      (by show (0 : ℝ) < 2 ^ q + 1 / 2; positivity) _ ?_
    show Rounded ((ieeeRounding (q + 1)).rnd (((4 - 1 : Nat) : ℝ) * (2 ^ q + 1 / 2))) _
    rw [show ((4 - 1 : Nat) : ℝ) = 3 by norm_num, hprod]
    constructor <;> linarith
  have hquot : (ieeeRounding (q + 1)).rnd (((3 * 2 ^ q + 1 : Nat) : ℝ) / (2 ^ q + 1 / 2)) = 3 := by
    have hy : ((3 * 2 ^ q + 1 : Nat) : ℝ) / (2 ^ q + 1 / 2) = 3 - 1 / (2 * 2 ^ q + 1) := by
      push_cast; field_simp; ring
    have hs : (1 : ℝ) / (2 * 2 ^ q + 1) ≤ 1 := by
      rw [div_le_one (by positivity)]; linarith
    have hs0 : (0 : ℝ) < 1 / (2 * 2 ^ q + 1) := by positivity
    rw [hy]
    show (roundEven (_ / (2 : ℝ) ^ (Int.log 2 |_| - ((q + 1 : Nat) : Int))) : ℝ) * (2 : ℝ) ^ (Int.log 2 |_| - ((q + 1 : Nat) : Int)) = _
    have hlog : Int.log 2 |(3 : ℝ) - 1 / (2 * 2 ^ q + 1)| = ((1 : Nat) : Int) := by
      rw [abs_of_pos (by linarith)]
      have a1 : ((1 : Nat) : Int) ≤ Int.log 2 ((3 : ℝ) - 1 / (2 * 2 ^ q + 1)) := by
        rw [← Int.zpow_le_iff_le_log (by norm_num) (by linarith), zpow_natCast]
        push_cast; linarith
      have a2 : Int.log 2 ((3 : ℝ) - 1 / (2 * 2 ^ q + 1)) < ((2 : Nat) : Int) := by
        rw [← Int.lt_zpow_iff_log_lt (by norm_num) (by linarith), zpow_natCast]
        push_cast; linarith
      omega
    rw [hlog, show (((1 : Nat) : Int) - ((q + 1 : Nat) : Int)) = -((q : Nat) : Int) by push_cast; ring, zpow_neg, zpow_natCast,
      div_inv_eq_mul]
    rw [roundEven_near (n := 3 * 2 ^ q)]
    · push_cast; field_simp
    · push_cast
      rw [show ((3 : ℝ) - 1 / (2 * 2 ^ q + 1)) * 2 ^ q - 3 * 2 ^ q = -(2 ^ q / (2 * 2 ^ q + 1)) by ring, abs_neg,
        abs_of_pos (by positivity), div_lt_div_iff₀ (by positivity) (by norm_num)]
      linarith
  have hval : (lineCounter (3 * 2 ^ q + 1) / ⟨2 ^ q + 1 / 2⟩ + ⟨0⟩ : Fl (ieeeRounding (q + 1))).val = ((3 : Nat) : ℝ) := by
    show (ieeeRounding (q + 1)).rnd ((ieeeRounding (q + 1)).rnd
      ((lineCounter (3 * 2 ^ q + 1) : Fl (ieeeRounding (q + 1))).val / (2 ^ q + 1 / 2)) + 0) = _
    rw [lineCounter_exact (N := 2 ^ (q + 1 + 1)) (fun k hk => ieee_nat (q + 1) k hk) (3 * 2 ^ q + 1)
      (by rw [pow_succ, pow_succ]; omega), hquot, add_zero, h3]
    norm_num
  have hpt : linPointFl data (⟨2 ^ q + 1 / 2⟩ : Fl (ieeeRounding (q + 1))) ⟨0⟩ (3 * 2 ^ q + 1) = none := by
    unfold linPointFl
    simp only [hval, floor_nat (x := ((3 : Nat) : ℝ)) (k := 3) (le_refl _) (lt_add_one _), Int.cast_natCast, toUsize_natCast, Option.bind_eq_bind,
      Option.bind_some, get]
    rw [List.getElem?_eq_none (by omega : data.length ≤ 3 + 1)]
    simp
  have hno : (List.range (3 * 2 ^ q + 2)).mapM (linPointFl data (⟨2 ^ q + 1 / 2⟩ : Fl (ieeeRounding (q + 1))) ⟨0⟩) = none := by
    have key : ∀ g : Nat → Option (Fl (ieeeRounding (q + 1))), g (3 * 2 ^ q + 1) = none → (List.range (3 * 2 ^ q + 2)).mapM g = none := by
      intro g hg
      cases hm : (List.range (3 * 2 ^ q + 2)).mapM g with
      | none => rfl
      | some l =>
        rw [show 3 * 2 ^ q + 2 = (3 * 2 ^ q + 1) + 1 from rfl, List.range_succ, List.mapM_append] at hm
        simp [hg] at hm
    exact key _ hpt
  have hlen : v.len = 4 := by unfold len; omega
  unfold interpolateLinFl
  simp only [hlen, h1, hc, hdata, linPointsFl, Nat.add_sub_cancel, hno, Option.bind_eq_bind, Option.bind_some,
    Bool.false_eq_true, if_false, Option.bind_none]
  cases b.borrow (3 * 2 ^ q + 2 + 1) <;> rfl

/-- The hypotheses of `C98_interpolate_lin` are met: `f64`, factor three. -/
example : let R := ieeeRounding 52
    let v : DspVec (Fl R) := ⟨⟨.vec, [⟨0⟩, ⟨3⟩, ⟨1⟩]⟩, some ⟨1⟩, .time, .real, 3⟩
    R.u ≤ 1 ∧ (∀ k : Nat, k ≤ 2 ^ 53 → R.rnd (k : ℝ) = k) ∧ v.isComplex = false ∧ v.content = some [⟨0⟩, ⟨3⟩, ⟨1⟩] ∧
    Rounded (R.rnd (((3 - 1 : Nat) : ℝ) * 3)) 6 ∧
    ∀ i : Nat, i < 6 → (1 + R.u) * ((1 + R.u) * ((i : ℝ) / 3) + 0) < ((3 - 1 : Nat) : ℝ) := by
  have h6 : (ieeeRounding 52).rnd 6 = 6 := by
    have := ieee_nat 52 6 (by norm_num)
    exact_mod_cast this
  refine ⟨?_, fun k hk => ieee_nat 52 k hk, rfl, rfl, ?_, fun i hi => ?_⟩
  · show (1 : ℝ) / 2 ^ (52 + 1) ≤ 1; norm_num
  · norm_num [h6, Rounded]
  · show (1 + (1 : ℝ) / 2 ^ (52 + 1)) * ((1 + 1 / 2 ^ (52 + 1)) * ((i : ℝ) / 3) + 0) < _
    have : (i : ℝ) ≤ 5 := by exact_mod_cast Nat.le_of_lt_succ hi
    norm_num
    linarith

/-- Those of `C98_counter_violated` and `C98_panic_violated`: `f32`. -/
example : let v : DspVec (Fl (ieeeRounding 23)) := ⟨⟨.vec, [⟨0⟩, ⟨1⟩]⟩, some ⟨1⟩, .time, .real, 2⟩
    let w : DspVec (Fl (ieeeRounding (22 + 1))) := ⟨⟨.vec, [⟨0⟩, ⟨1⟩, ⟨2⟩, ⟨3⟩]⟩, some ⟨1⟩, .time, .real, 4⟩
    v.isComplex = false ∧ v.content = some [⟨0⟩, ⟨1⟩] ∧ w.isComplex = false ∧ w.content = some [⟨0⟩, ⟨1⟩, ⟨2⟩, ⟨3⟩] :=
  ⟨rfl, rfl, rfl, rfl⟩

end
end Dsp
