import Verif.Props.Interp
import Verif.Spec.Interp
import Verif.Props.Fft
import Mathlib.Algebra.Order.Floor.Ring
import Mathlib.Data.Rat.Floor
import Mathlib.Tactic.Linarith
import Mathlib.Tactic.Positivity
/-
C42: linear interpolation of real vectors.
-/
namespace Dsp
open DspVec
variable {T : Type}

theorem mapM_range_exists (g : Nat → Option T) (P : Nat → T → Prop) (n : Nat)
    (h : ∀ i < n, ∃ y, g i = some y ∧ P i y) :
    ∃ l, (List.range n).mapM g = some l ∧ l.length = n ∧ ∀ i < n, ∃ y, l[i]? = some y ∧ P i y := by
  induction n with
  | zero => exact ⟨[], rfl, rfl, by simp⟩
  | succ n ih =>
    obtain ⟨l, h1, h2, h3⟩ := ih (fun i hi => h i (by omega))
    obtain ⟨y, y1, y2⟩ := h n (by omega)
    refine ⟨l ++ [y], ?_, by simp [h2], fun i hi => ?_⟩
    · rw [List.range_succ, List.mapM_append, h1]
      simp [y1]
    · by_cases hc : i < n
      · rw [List.getElem?_append_left (by omega)]
        exact h3 i hc
      · have : i = n := by omega
        subst this
        exact ⟨y, by rw [List.getElem?_append_right (by omega)]; simp [h2], y2⟩

variable [Field T] [LinearOrder T]

theorem floor_nat [FloorRing T] {x : T} {k : Nat} (h1 : (k : T) ≤ x) (h2 : x < k + 1) : ⌊x⌋ = (k : Int) := by
  rw [Int.floor_eq_iff]
  exact ⟨by simpa using h1, by simpa using h2⟩

variable [IsStrictOrderedRing T]

/-- The integer part of a number is unique. -/
theorem nat_between {x : T} {k j : Nat} (h1 : (k : T) ≤ x) (h2 : x < k + 1) (h3 : (j : T) ≤ x)
    (h4 : x < j + 1) : k = j := by
  have a : (k : T) < ((j + 1 : Nat) : T) := by push_cast; linarith
  have b : (j : T) < ((k + 1 : Nat) : T) := by push_cast; linarith
  have a' := Nat.cast_lt.mp a
  have b' := Nat.cast_lt.mp b
  omega

theorem Rounded.eq_of_nat {m R : Nat} (h : Rounded (m : T) R) : R = m := by
  obtain ⟨h1, h2⟩ := h
  have a : (R : T) < ((m + 1 : Nat) : T) := by push_cast; linarith
  have b : (m : T) < ((R + 1 : Nat) : T) := by push_cast; linarith
  have a' := Nat.cast_lt.mp a
  have b' := Nat.cast_lt.mp b
  omega

variable [FloorRing T]

theorem toUsize_natCast (k : Nat) : toUsize (k : T) = some k := by
  unfold toUsize
  have : ¬ ((k : T) ≤ -1) := by
    have : (0 : T) ≤ (k : T) := by positivity
    linarith
  rw [if_neg this]; simp

/-- Every number which is not negative lies between two natural numbers. -/
theorem exists_floor {x : T} (h : 0 ≤ x) : ∃ k : Nat, (k : T) ≤ x ∧ x < k + 1 :=
  ⟨⌊x⌋₊, Nat.floor_le h, Nat.lt_floor_add_one x⟩

/-- The length of the result is `R + 1`, where `R` is the integer next to `(n - 1) f`. -/
theorem interpDestLen_spec (n : Nat) (hn : n ≠ 0) (f : T) (hf : 0 < f) :
    ∃ R : Nat, interpDestLen n f = some (R + 1) ∧ Rounded (((n - 1 : Nat) : T) * f) R := by
  have h0 : (0 : T) ≤ ((n - 1 : Nat) : T) * f := by positivity
  obtain ⟨R, h1, h2⟩ := exists_floor (x := ((n - 1 : Nat) : T) * f + 1 / 2) (by linarith)
  refine ⟨R, ?_, by linarith, h1⟩
  unfold interpDestLen roundAway
  rw [if_neg hn, if_neg (not_lt.mpr h0), floor_nat h1 h2, Int.cast_natCast, toUsize_natCast]
  rfl

theorem linPoint_spec (data : List T) (f delay : T) (hf : 0 < f) (hd : 0 ≤ delay) (i : Nat)
    (hi : (i : T) / f + delay < ((data.length - 1 : Nat) : T)) :
    ∃ y, linPoint data f delay i = some y ∧ OnLine data ((i : T) / f + delay) y := by
  have h0 : 0 ≤ (i : T) / f + delay := by positivity
  obtain ⟨k, h1, h2⟩ := exists_floor h0
  have hk : k < data.length - 1 := by
    have : (k : T) < ((data.length - 1 : Nat) : T) := lt_of_le_of_lt h1 hi
    exact_mod_cast this
  have e0 : data[k]? = some data[k] := List.getElem?_eq_getElem (by omega)
  have e1 : data[k + 1]? = some data[k + 1] := List.getElem?_eq_getElem (by omega)
  refine ⟨_, ?_, k, data[k], data[k + 1], e0, e1, h1, h2, rfl⟩
  unfold linPoint
  simp only [floor_nat h1 h2, toUsize_natCast, Option.bind_eq_bind, Option.bind_some, get, e0, e1,
    Int.cast_natCast]

theorem linPoints_spec (data : List T) (hn : data ≠ []) (f delay : T) (hf : 0 < f) (hd : 0 ≤ delay)
    (hd2 : delay * f < 1 / 2) (R : Nat) (hR : Rounded (((data.length - 1 : Nat) : T) * f) R) :
    ∃ l, linPoints data f delay (R + 1) = some l ∧ l.length = R + 1 ∧ LinInterpolation data f delay l := by
  have hlen : 0 < data.length := List.length_pos_of_ne_nil hn
  obtain ⟨l, h1, h2, h3⟩ := mapM_range_exists (linPoint data f delay) (fun i y => OnLine data ((i : T) / f + delay) y)
    R (fun i hi => linPoint_spec data f delay hf hd i (by
      have hi' : ((i + 1 : Nat) : T) ≤ (R : T) := Nat.cast_le.mpr hi
      push_cast at hi'
      have := hR.2
      have e : (i : T) / f + delay = ((i : T) + delay * f) / f := by field_simp
      rw [e, div_lt_iff₀ hf]
      linarith))
  have e : data[data.length - 1]? = some data[data.length - 1] := List.getElem?_eq_getElem (by omega)
  refine ⟨l ++ [data[data.length - 1]], ?_, by simp [h2], R, hR, by simp [h2], fun i hi => ?_, ?_⟩
  · unfold linPoints
    simp only [Nat.add_sub_cancel, h1, get, e, Option.bind_eq_bind, Option.bind_some]
  · rw [List.getElem?_append_left (by omega)]; exact h3 i hi
  · rw [List.getElem?_append_right (by omega), h2, e]; simp

/-- C42, every factor `f > 0`: `interpolate_lin` of a real vector with at least one number computes
    the linear interpolation. The delay must be less than half a step of the output, otherwise the
    last positions may lie outside of the data (see `C42_delay_panics`). -/
theorem C42_interpolate_lin (v : DspVec T) (hc : v.isComplex = false) (data : List T)
    (hdata : v.content = some data) (hn : data ≠ []) (f delay : T) (hf : 0 < f) (hd : 0 ≤ delay)
    (hd2 : delay * f < 1 / 2) (b : Buffer T)
    (hb : ∀ R, Rounded (((data.length - 1 : Nat) : T) * f) R → BufferOk b v.data (R + 1)) :
    ∃ v' b' l, v.interpolateLin b f delay = some (v', b') ∧ v'.content = some l ∧
      LinInterpolation data f delay l ∧ v'.SameMeta v := by
  obtain ⟨_, hl⟩ := cells_of_content hdata
  obtain ⟨R, h1, h2⟩ := interpDestLen_spec data.length (by
    intro h; exact hn (List.length_eq_zero_iff.mp h)) f hf
  obtain ⟨l, h3, hll, h4⟩ := linPoints_spec data hn f delay hf hd hd2 R h2
  obtain ⟨t, t1, _⟩ := borrow_ok b v.data (R + 1) (hb R h2)
  obtain ⟨rest, hrest⟩ := trade_ok b v.data l (by rw [hll]; exact hb R h2)
  refine ⟨_, (b.trade l v.data).1, l, ?_, content_of_cells (v := { v with data := (b.trade l v.data).2, validLen := R + 1 })
    (s := rest) (by simp only [hrest]) hll.symm, h4, ⟨rfl, rfl, rfl, by simp only [hrest]⟩⟩
  · have hlen : v.len = data.length := by unfold len; omega
    unfold interpolateLin
    simp only [hlen, h1, t1, hc, hdata, h3, Option.bind_eq_bind, Option.bind_some, Bool.false_eq_true, if_false]

/-- C42, integer factor `m` and no delay: there are `(n - 1) m + 1` numbers; number `k m + r` is
    `y[k] + (y[k + 1] - y[k]) r / m`, in particular (`r = 0`) the given numbers are reproduced. -/
theorem C42_integer_factor (data l : List T) (hn : data ≠ []) (m : Nat) (hm : 1 ≤ m)
    (h : LinInterpolation data (m : T) 0 l) :
    l.length = (data.length - 1) * m + 1 ∧
    (∀ k r y0 y1, r < m → data[k]? = some y0 → data[k + 1]? = some y1 →
      l[k * m + r]? = some (y0 + (y1 - y0) * ((r : T) / m))) ∧
    (∀ k y, data[k]? = some y → l[k * m]? = some y) := by
  obtain ⟨R, h1, h2, h3, h4⟩ := h
  have hR : R = (data.length - 1) * m := by
    apply Rounded.eq_of_nat (T := T)
    push_cast; exact h1
  have hm0 : (0 : T) < m := by exact_mod_cast hm
  have key : ∀ k r y0 y1, r < m → data[k]? = some y0 → data[k + 1]? = some y1 →
      l[k * m + r]? = some (y0 + (y1 - y0) * ((r : T) / m)) := by
    intro k r y0 y1 hr e0 e1
    have hk : k + 1 < data.length := by
      by_contra hc
      rw [List.getElem?_eq_none (by omega)] at e1; cases e1
    have hlt : k * m + r < R := by
      have : (k + 1) * m ≤ (data.length - 1) * m := Nat.mul_le_mul_right _ (by omega)
      rw [Nat.add_mul] at this
      omega
    obtain ⟨y, a1, k', z0, z1, a2, a3, a4, a5, a6⟩ := h3 _ hlt
    have ex : ((k * m + r : Nat) : T) / m + 0 = k + (r : T) / m := by
      push_cast; field_simp; ring
    rw [ex] at a4 a5 a6
    have hr1 : (r : T) / m < 1 := by
      rw [div_lt_one hm0]; exact_mod_cast hr
    have hr0 : (0 : T) ≤ (r : T) / m := by positivity
    have : k' = k := nat_between a4 a5 (by linarith) (by linarith)
    subst this
    rw [e0] at a2
    rw [e1] at a3
    obtain rfl := Option.some.inj a2
    obtain rfl := Option.some.inj a3
    rw [a1, a6]
    congr 3; ring
  refine ⟨by rw [h2, hR], key, fun k y e => ?_⟩
  have hk : k < data.length := by
    by_contra hc
    rw [List.getElem?_eq_none (by omega)] at e; cases e
  by_cases hl : k + 1 < data.length
  · have := key k 0 y _ hm e (List.getElem?_eq_getElem hl)
    simpa using this
  · have : k = data.length - 1 := by omega
    subst this
    rw [← hR, h4, e]

/-- C42: with an integer factor `m` and a delay of a step of the output or more, `interpolate_lin`
    panics for every real vector with at least two numbers: it reads past the end. -/
theorem C42_delay_panics (v : DspVec T) (hc : v.isComplex = false) (data : List T)
    (hdata : v.content = some data) (hn : 2 ≤ data.length) (m : Nat) (hm : 1 ≤ m) (delay : T)
    (hd : 1 ≤ delay * m) (b : Buffer T) : v.interpolateLin b (m : T) delay = none := by
  obtain ⟨_, hl⟩ := cells_of_content hdata
  have hm0 : (0 : T) < m := by exact_mod_cast hm
  obtain ⟨R, h1, h2⟩ := interpDestLen_spec data.length (by omega) (m : T) hm0
  have hR : R = (data.length - 1) * m := by
    apply Rounded.eq_of_nat (T := T)
    push_cast; exact h2
  have hR1 : 1 ≤ R := by
    rw [hR]; exact Nat.mul_pos (by omega) (by omega)
  have hlen : v.len = data.length := by unfold len; omega
  have hpos : ((data.length - 1 : Nat) : T) ≤ ((R - 1 : Nat) : T) / m + delay := by
    have e : ((R - 1 : Nat) : T) = (data.length - 1 : Nat) * m - 1 := by
      rw [Nat.cast_sub hR1, hR]; push_cast; ring
    rw [e, ← sub_le_iff_le_add, le_div_iff₀ hm0]
    have : (((data.length - 1 : Nat) : T) - delay) * m = (data.length - 1 : Nat) * m - delay * m := by ring
    rw [this]; linarith
  have hpt : linPoint data (m : T) delay (R - 1) = none := by
    have h0 : (0 : T) ≤ ((R - 1 : Nat) : T) / m + delay := le_trans (by positivity) hpos
    obtain ⟨k, k1, k2⟩ := exists_floor h0
    have hk : data.length - 1 ≤ k := by
      have : ((data.length - 1 : Nat) : T) < ((k + 1 : Nat) : T) := by push_cast; linarith
      have := Nat.cast_lt.mp this
      omega
    unfold linPoint
    simp only [floor_nat k1 k2, toUsize_natCast, Option.bind_eq_bind, Option.bind_some, get, Int.cast_natCast]
    have e1 : data[k + 1]? = none := List.getElem?_eq_none (by omega)
    rw [e1]
    simp
  have hno : (List.range R).mapM (linPoint data (m : T) delay) = none := by
    cases hq : (List.range R).mapM (linPoint data (m : T) delay) with
    | none => rfl
    | some l =>
      have hR' : R = (R - 1) + 1 := by omega
      rw [hR', List.range_succ, List.mapM_append] at hq
      simp [hpt] at hq
  unfold interpolateLin
  simp only [hlen, h1, hc, hdata, linPoints, Nat.add_sub_cancel, hno, Option.bind_eq_bind, Option.bind_some,
    Bool.false_eq_true, if_false, Option.bind_none]
  cases b.borrow (R + 1) <;> rfl

/-- C42: complex vectors are marked as invalid. -/
theorem C42_complex_invalid (v : DspVec T) (hc : v.isComplex = true) (hn : v.len ≠ 0) (f delay : T)
    (hf : 0 < f) (b : Buffer T)
    (hb : ∀ R, Rounded (((v.len - 1 : Nat) : T) * f) R → BufferOk b v.data (R + 1)) :
    ∃ b', v.interpolateLin b f delay = some (v.markInvalid, b') := by
  obtain ⟨R, h1, h2⟩ := interpDestLen_spec v.len hn f hf
  obtain ⟨t, t1, _⟩ := borrow_ok b v.data (R + 1) (hb R h2)
  unfold interpolateLin
  simp only [h1, t1, hc, Option.bind_eq_bind, Option.bind_some, if_true]
  cases b <;> exact ⟨_, rfl⟩

/-- The hypotheses of `C42_interpolate_lin` are met, and the interpolation really computes the lines. -/
example : let v : DspVec ℚ := ⟨⟨.vec, [0, 3, 1]⟩, some 1, .time, .real, 3⟩
    v.isComplex = false ∧ v.content = some [0, 3, 1] ∧ (0 : ℚ) < 3 ∧ (0 : ℚ) * 3 < 1 / 2 ∧
    LinInterpolation [(0 : ℚ), 3, 1] 1 0 [0, 3, 1] := by
  refine ⟨rfl, rfl, by norm_num, by norm_num, 2, ⟨by norm_num, by norm_num⟩, rfl, ?_, rfl⟩
  intro i hi
  match i, hi with
  | 0, _ => exact ⟨0, rfl, 0, 0, 3, rfl, rfl, by norm_num, by norm_num, by norm_num⟩
  | 1, _ => exact ⟨3, rfl, 1, 3, 1, rfl, rfl, by norm_num, by norm_num, by norm_num⟩

end Dsp
