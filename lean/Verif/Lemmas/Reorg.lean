import Verif.Lemmas.Slice
import Mathlib.Data.Nat.ModEq
import Mathlib.Data.Int.GCD
import Mathlib.Tactic.Ring
/- Helper lemmas about reversing and rotating. -/
namespace Dsp
variable {α T : Type}

theorem length_swapZip (a b : List α) :
    (swapZip a b).1.length = a.length ∧ (swapZip a b).2.length = b.length := by
  induction a generalizing b with
  | nil => simp [swapZip]
  | cons x a ih => cases b with
    | nil => simp [swapZip]
    | cons y b => simp [swapZip, ih b]

theorem getElem?_swapZip (a b : List α) (i : Nat) :
    (swapZip a b).1[i]? = (if i < a.length ∧ i < b.length then b[i]? else a[i]?) ∧
    (swapZip a b).2[i]? = (if i < a.length ∧ i < b.length then a[i]? else b[i]?) := by
  induction a generalizing b i with
  | nil => simp [swapZip]
  | cons x a ih => cases b with
    | nil => simp [swapZip]
    | cons y b => cases i with
      | zero => simp [swapZip]
      | succ i => simpa [swapZip] using ih b i

theorem reverseArray_eq (l : List α) : reverseArray l = l.reverse := by
  apply List.ext_getElem?
  intro i
  have hl := length_swapZip (l.take ((l.length + 1) / 2)) (l.drop ((l.length + 1) / 2)).reverse
  have h1 := fun i => (getElem?_swapZip (l.take ((l.length + 1) / 2)) (l.drop ((l.length + 1) / 2)).reverse i).1
  have h2 := fun i => (getElem?_swapZip (l.take ((l.length + 1) / 2)) (l.drop ((l.length + 1) / 2)).reverse i).2
  simp only [List.length_take, List.length_reverse, List.length_drop] at hl h1 h2
  unfold reverseArray
  by_cases hi : i < l.length
  · rw [List.getElem?_append, hl.1]
    split
    · rw [h1]
      split
      · rw [List.getElem?_reverse (by simp; omega), List.getElem?_reverse hi]
        rw [List.getElem?_drop]; congr 1; simp; omega
      · rw [List.getElem?_reverse hi, List.getElem?_take_of_lt (by omega)]
        congr 1; omega
    · rw [List.getElem?_reverse (by rw [hl.2]; omega), h2, hl.2, if_pos (by omega),
        List.getElem?_reverse hi, List.getElem?_take_of_lt (by omega)]
      congr 1; omega
  · rw [List.getElem?_eq_none, List.getElem?_eq_none]
    · simpa using hi
    · simp [hl]; omega

/-- Rotation to the right by `k`, by index. -/
theorem getElem?_rotR (l : List α) (k : Nat) (hk : k ≤ l.length) (i : Nat) (hi : i < l.length) :
    (l.drop (l.length - k) ++ l.take (l.length - k))[i]? = l[(i + (l.length - k)) % l.length]? := by
  rw [List.getElem?_append, List.length_drop]
  split
  · rw [List.getElem?_drop, Nat.mod_eq_of_lt (by omega)]; congr 1; omega
  · rw [List.getElem?_take_of_lt (by omega)]
    congr 1
    rw [Nat.mod_eq_sub_mod (by omega), Nat.mod_eq_of_lt (by omega)]; omega

/-- The cycle of the odd branch of `swap_array_halves`. -/
theorem swapHalvesLoop_spec (orig : List α) (s : Nat) (hc : Nat.Coprime s orig.length)
    (n k : Nat) (hk : k + n = orig.length) (temp : α) (data : List α)
    (hlen : data.length = orig.length)
    (htemp : orig[(k * s) % orig.length]? = some temp)
    (hdone : ∀ i, i < k → data[((i + 1) * s) % orig.length]? = orig[(i * s) % orig.length]?)
    (htodo : ∀ i, k ≤ i → i < orig.length → data[((i + 1) * s) % orig.length]? = orig[((i + 1) * s) % orig.length]?) :
    ∃ r, swapHalvesLoop s n (((k + 1) * s) % orig.length) temp data = some r ∧ r.length = orig.length ∧
      ∀ i, i < orig.length → r[((i + 1) * s) % orig.length]? = orig[(i * s) % orig.length]? := by
  induction n generalizing k temp data with
  | zero => exact ⟨data, rfl, hlen, fun i hi => hdone i (by omega)⟩
  | succ n ih =>
    have hpos : 0 < orig.length := by omega
    have hlt : ((k + 1) * s) % orig.length < data.length := by rw [hlen]; exact Nat.mod_lt _ hpos
    have hne : ∀ i, i < orig.length → i ≠ k → ((i + 1) * s) % orig.length ≠ ((k + 1) * s) % orig.length := by
      intro i hi hne h
      have h1 : (i + 1) * s ≡ (k + 1) * s [MOD orig.length] := h
      have h2 := Nat.ModEq.cancel_right_of_coprime (by rw [Nat.gcd_comm]; exact hc) h1
      have h3 : i ≡ k [MOD orig.length] := Nat.ModEq.add_right_cancel' 1 h2
      have h4 : i % orig.length = k % orig.length := h3
      rw [Nat.mod_eq_of_lt hi, Nat.mod_eq_of_lt (by omega)] at h4
      exact hne h4
    have hx : orig[((k + 1) * s) % orig.length]? = some (data[((k + 1) * s) % orig.length]) := by
      rw [← htodo k (Nat.le_refl _) (by omega)]; simp [hlt]
    have hnew : (((k + 1) * s) % orig.length + s) % data.length = ((k + 1 + 1) * s) % orig.length := by
      rw [hlen, Nat.mod_add_mod]; congr 1; ring
    obtain ⟨r, h1, h2, h3⟩ := ih (k + 1) (by omega) (data[((k + 1) * s) % orig.length])
      (data.set (((k + 1) * s) % orig.length) temp) (by simpa using hlen) hx
      (by
        intro i hi
        by_cases hik : i = k
        · subst hik
          rw [List.getElem?_set_self hlt, htemp]
        · rw [List.getElem?_set_ne (Ne.symm (hne i (by omega) hik))]
          exact hdone i (by omega))
      (by
        intro i hi hi2
        rw [List.getElem?_set_ne (Ne.symm (hne i (by omega) (by omega)))]
        exact htodo i (by omega) hi2)
    refine ⟨r, ?_, h2, h3⟩
    simp only [swapHalvesLoop, get_eq hlt, put_eq hlt, hnew]
    exact h1

theorem swapArrayHalves_odd (l : List α) (s : Nat) (hpos : 0 < l.length)
    (hc : Nat.Coprime s l.length) (hs : s < l.length) :
    ∃ temp, get l 0 = some temp ∧
    swapHalvesLoop s l.length s temp l = some (l.drop (l.length - s) ++ l.take (l.length - s)) := by
  obtain ⟨r, h1, h2, h3⟩ := swapHalvesLoop_spec l s hc l.length 0 (by omega) l[0] l rfl
    (by simp [hpos]) (by omega) (fun _ _ _ => rfl)
  refine ⟨l[0], get_eq hpos, ?_⟩
  have hsm : ((0 + 1) * s) % l.length = s := by simp [Nat.mod_eq_of_lt hs]
  rw [hsm] at h1
  rw [h1]
  congr 1
  apply List.ext_getElem?
  intro p
  by_cases hp : p < l.length
  · rw [getElem?_rotR l s (by omega) p hp]
    -- find i with (i+1)*s ≡ p
    obtain ⟨m, hm⟩ : ∃ m, (m * s) % l.length = p := by
      obtain ⟨x, -, hx⟩ := Nat.exists_mul_mod_eq_of_coprime p hc (by omega)
      exact ⟨x, by rw [Nat.mul_comm, hx, Nat.mod_eq_of_lt hp]⟩
    have hi : (m + l.length - 1) % l.length < l.length := Nat.mod_lt _ hpos
    have e1 : ((m + l.length - 1) % l.length + 1) * s % l.length = p := by
      rw [← hm]
      have : ((m + l.length - 1) % l.length + 1) ≡ m [MOD l.length] := by
        have h : (m + l.length - 1) % l.length + 1 ≡ (m + l.length - 1) + 1 [MOD l.length] :=
          Nat.ModEq.add_right 1 (Nat.mod_modEq _ _)
        refine h.trans ?_
        have : m + l.length - 1 + 1 = m + l.length := by omega
        rw [this]; exact Nat.ModEq.symm (by simp [Nat.ModEq])
      exact Nat.ModEq.mul_right s this
    have := h3 _ hi
    rw [e1] at this
    rw [this]
    congr 1
    have e2 : (m + l.length - 1) % l.length * s + s ≡ p [MOD l.length] := by
      have : (m + l.length - 1) % l.length * s + s = ((m + l.length - 1) % l.length + 1) * s := by ring
      rw [this, Nat.ModEq, e1, Nat.mod_eq_of_lt hp]
    have e3 : p + (l.length - s) + s ≡ p [MOD l.length] := by
      have : p + (l.length - s) + s = p + l.length := by omega
      rw [this]; simp [Nat.ModEq]
    exact Nat.ModEq.add_right_cancel' s (e2.trans e3.symm)
  · rw [List.getElem?_eq_none (by omega), List.getElem?_eq_none (by simp; omega)]

theorem coprime_half (n : Nat) (h : n % 2 = 1) : Nat.Coprime (n / 2) n := by
  have h1 : n = 1 + 2 * (n / 2) := by omega
  have : Nat.Coprime (n / 2) (1 + 2 * (n / 2)) := by
    rw [Nat.coprime_add_mul_right_right]; exact Nat.coprime_one_right _
  rwa [← h1] at this

theorem coprime_half_succ (n : Nat) (h : n % 2 = 1) : Nat.Coprime (n / 2 + 1) n := by
  have h1 : 2 * (n / 2 + 1) = n + 1 := by omega
  have h2 : Nat.Coprime (2 * (n / 2 + 1)) n := by rw [h1]; simp
  exact Nat.Coprime.coprime_mul_left h2

theorem swapArrayHalves_even (l : List α) (f : Bool) (h : l.length % 2 = 0) :
    swapArrayHalves l f = some (l.drop (l.length / 2) ++ l.take (l.length / 2)) := by
  have hl := length_swapZip (l.take (l.length / 2)) (l.drop (l.length / 2))
  have h1 : (swapZip (l.take (l.length / 2)) (l.drop (l.length / 2))).1 = l.drop (l.length / 2) := by
    apply List.ext_getElem?
    intro i
    rw [(getElem?_swapZip _ _ i).1]
    split
    · rfl
    · rename_i hh
      simp only [List.length_take, List.length_drop] at hh
      rw [List.getElem?_eq_none (by simp; omega), List.getElem?_eq_none (by simp; omega)]
  have h2 : (swapZip (l.take (l.length / 2)) (l.drop (l.length / 2))).2 = l.take (l.length / 2) := by
    apply List.ext_getElem?
    intro i
    rw [(getElem?_swapZip _ _ i).2]
    split
    · rfl
    · rename_i hh
      simp only [List.length_take, List.length_drop] at hh
      rw [List.getElem?_eq_none (by simp; omega), List.getElem?_eq_none (by simp; omega)]
  simp [swapArrayHalves, h, h1, h2]

/-- `swap_array_halves` forward: rotation to the right by `⌊n/2⌋`. -/
theorem swapArrayHalves_true (l : List α) (hne : l ≠ []) : swapArrayHalves l true =
    some (l.drop (l.length - l.length / 2) ++ l.take (l.length - l.length / 2)) := by
  have hpos : 0 < l.length := List.length_pos_iff.mpr hne
  by_cases h : l.length % 2 = 0
  · rw [swapArrayHalves_even l _ h]
    have : l.length - l.length / 2 = l.length / 2 := by omega
    rw [this]
  · obtain ⟨t, h1, h2⟩ := swapArrayHalves_odd l (l.length / 2) hpos (coprime_half _ (by omega)) (by omega)
    simp [swapArrayHalves, h, h1, h2]

/-- `swap_array_halves` backward: rotation to the left by `⌊n/2⌋`, for at least two points. -/
theorem swapArrayHalves_false (l : List α) (hne : 2 ≤ l.length) : swapArrayHalves l false =
    some (l.drop (l.length / 2) ++ l.take (l.length / 2)) := by
  by_cases h : l.length % 2 = 0
  · rw [swapArrayHalves_even l _ h]
  · obtain ⟨t, h1, h2⟩ := swapArrayHalves_odd l (l.length / 2 + 1) (by omega) (coprime_half_succ _ (by omega)) (by omega)
    have : l.length - (l.length / 2 + 1) = l.length / 2 := by omega
    rw [this] at h2
    simp [swapArrayHalves, h, h1, h2]

end Dsp
