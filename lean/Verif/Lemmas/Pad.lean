import Verif.Spec.Storage
import Verif.Lemmas.Pts
/- Helper lemmas about zero padding and buffers. -/
namespace Dsp
open DspVec
variable {T : Type}

theorem memzero_ok [Zero T] (d : List T) (lo hi : Nat) (h1 : lo ≤ hi) (h2 : hi ≤ d.length) :
    memzero d lo hi = some (splice d lo (List.replicate (hi - lo) 0)) := by
  simp [memzero, h1, h2]

theorem memcpy_ok (d : List T) (a b t : Nat) (h1 : a ≤ b) (h2 : b ≤ d.length)
    (h3 : t ≤ d.length - (b - a)) :
    memcpy d a b t = some (splice d t ((d.drop a).take (b - a))) := by
  simp [memcpy, h1, h2, h3]

theorem slice_ok (d : List T) (a b : Nat) (h1 : a ≤ b) (h2 : b ≤ d.length) :
    slice d a b = some ((d.drop a).take (b - a)) := by
  simp [slice, h1, h2]

theorem copyFromSlice_ok (d : List T) (a b : Nat) (src : List T) (h1 : a ≤ b) (h2 : b ≤ d.length)
    (h3 : src.length = b - a) : copyFromSlice d a b src = some (splice d a src) := by
  simp [copyFromSlice, h1, h2, h3]

theorem splice_pre (a b c : List T) (hb : b.length = c.length) (s : List T) :
    splice (a ++ b ++ s) a.length c = a ++ c ++ s := by
  have e : a.length + b.length - a.length = b.length := by omega
  have e2 : b.length - (a.length + b.length - a.length) = 0 := by omega
  simp [splice, ← hb, List.drop_append]

/-- `splice` at a position given by an equation. -/
theorem splice_eq' {d a b s c : List T} {n : Nat} (hd : d = a ++ b ++ s) (hn : n = a.length)
    (hb : b.length = c.length) : splice d n c = a ++ c ++ s := by
  subst hd hn; exact splice_pre a b c hb s

theorem split3 (d : List T) (n m : Nat) (h : n + m ≤ d.length) :
    ∃ a b s, d = a ++ b ++ s ∧ a.length = n ∧ b.length = m ∧ s.length = d.length - n - m :=
  ⟨d.take n, (d.drop n).take m, d.drop (n + m), by
    rw [List.append_assoc, ← List.drop_drop, List.take_append_drop, List.take_append_drop],
    by simp; omega, by simp; omega, by simp; omega⟩

/-- The in-place `End` padding. -/
theorem padEnd_cells [Zero T] (c s : List T) (len : Nat) (h1 : c.length ≤ len)
    (h2 : len ≤ (c ++ s).length) :
    memzero (c ++ s) c.length len =
      some (c ++ List.replicate (len - c.length) 0 ++ s.drop (len - c.length)) := by
  rw [memzero_ok _ _ _ h1 h2]
  obtain ⟨a, b, hs⟩ : ∃ a b, s = a ++ b ∧ a.length = len - c.length :=
    ⟨s.take (len - c.length), s.drop (len - c.length), by simp, by simp at h2 ⊢; omega⟩
  obtain ⟨hs, ha⟩ := hs
  subst hs
  rw [splice_eq' (a := c) (b := a) (s := b) (by simp) rfl (by simp [ha])]
  simp [← ha]

/-- The in-place `Surround` padding. -/
theorem padSurround_cells [Zero T] (c s : List T) (len left right : Nat)
    (h1 : left + c.length + right = len) (h2 : len ≤ (c ++ s).length) :
    (do
      let data ← memcpy (c ++ s) 0 c.length left
      let data ← (if right > 0 then memzero data (len - right) len else some data)
      memzero data 0 left) =
      some (List.replicate left 0 ++ c ++ List.replicate right 0 ++ s.drop (len - c.length)) := by
  rw [memcpy_ok _ _ _ _ (by omega) (by simp) (by omega)]
  obtain ⟨a, b, s', hd, ha, hb, hs'⟩ := split3 (c ++ s) left c.length (by omega)
  have hc : ((c ++ s).drop 0).take (c.length - 0) = c := by simp
  rw [hc, splice_eq' hd ha.symm hb]
  have hs3 : ∃ r t, s' = r ++ t ∧ r.length = right :=
    ⟨s'.take right, s'.drop right, by simp, by simp; omega⟩
  obtain ⟨r, t, hs3, hr⟩ := hs3
  have ht : t = s.drop (len - c.length) := by
    have e : (c ++ s).drop len = t := by
      rw [hd, hs3]
      have : len = (a ++ b ++ r).length := by simp; omega
      rw [this, ← List.append_assoc, List.drop_left]
    rw [← e, List.drop_append, List.drop_of_length_le (by omega)]; simp
  have hz : (do
      let data ← (if right > 0 then memzero (a ++ c ++ s') (len - right) len else some (a ++ c ++ s'))
      memzero data 0 left) = memzero (a ++ c ++ (List.replicate right 0 ++ t)) 0 left := by
    by_cases hr0 : right > 0
    · rw [if_pos hr0, memzero_ok _ _ _ (by omega) (by simp; omega)]
      have : len - (len - right) = right := by omega
      rw [this, splice_eq' (a := a ++ c) (b := r) (s := t) (by simp [hs3]) (by simp; omega) (by simp [hr])]
      simp
    · have : right = 0 := by omega
      subst this
      have : r = [] := List.length_eq_zero_iff.mp hr
      simp [hs3, this]
  simp only [Option.bind_eq_bind, Option.bind_some] at hz ⊢
  rw [hz, memzero_ok _ _ _ (by omega) (by simp; omega)]
  rw [splice_eq' (n := 0) (a := []) (b := a) (s := c ++ (List.replicate right 0 ++ t)) (by simp) rfl (by simp [ha])]
  simp [ht]

/-- The in-place `Center` padding. -/
theorem padCenter_cells [Zero T] (c s : List T) (len left right : Nat)
    (h1 : left + right = c.length) (h3 : c.length < len) (h2 : len ≤ (c ++ s).length) :
    (do
      let data ← (if right > 0 then memcpy (c ++ s) left (left + right) (len - right) else some (c ++ s))
      memzero data left (len - right)) =
      some (c.take left ++ List.replicate (len - c.length) 0 ++ c.drop left ++ s.drop (len - c.length)) := by
  obtain ⟨a, b, s', hd, ha, hb, hs'⟩ := split3 (c ++ s) (len - right) right (by omega)
  have ht : s' = s.drop (len - c.length) := by
    have e : (c ++ s).drop len = s' := by
      rw [hd]
      have : len = (a ++ b).length := by simp; omega
      rw [this, List.drop_left]
    rw [← e, List.drop_append, List.drop_of_length_le (by omega)]; simp
  have hz : (if right > 0 then memcpy (c ++ s) left (left + right) (len - right) else some (c ++ s)) =
      some (a ++ c.drop left ++ s') := by
    by_cases hr0 : right > 0
    · rw [if_pos hr0, memcpy_ok _ _ _ _ (by omega) (by simp; omega) (by omega)]
      have : ((c ++ s).drop left).take (left + right - left) = c.drop left := by
        rw [List.drop_append_of_le_length (by omega), List.take_left' (by simp; omega)]
      rw [this, splice_eq' hd (by omega) (by simp; omega)]
    · have hr : right = 0 := by omega
      have hbn : b = [] := List.length_eq_zero_iff.mp (by omega)
      have : c.drop left = [] := List.drop_of_length_le (by omega)
      simp [hd, hr, hbn, this]
  rw [hz]
  have htk : c.take left = a.take left := by
    have : (c ++ s).take left = a.take left := by
      rw [hd, List.append_assoc, List.take_append_of_le_length (by omega)]
    rw [← this, List.take_append_of_le_length (by omega)]
  simp only [Option.bind_eq_bind, Option.bind_some]
  rw [memzero_ok _ _ _ (by omega) (by simp; omega)]
  rw [splice_eq' (a := a.take left) (b := a.drop left) (s := c.drop left ++ s') (by simp)
    (by simp; omega) (by simp; omega)]
  have : len - right - left = len - c.length := by omega
  simp [htk, ht, this]

theorem borrow_ok [Zero T] (b : Buffer T) (s : Storage T) (len : Nat) (h : BufferOk b s len) :
    ∃ t, b.borrow len = some t ∧ t.length = len := by
  cases b with
  | single temp => exact ⟨_, rfl, by simp⟩
  | noBuffer => exact ⟨_, rfl, by simp⟩
  | fixedLen mem =>
    have := h.1
    exact ⟨mem.take len, by simp [Buffer.borrow]; omega, by simp; omega⟩

theorem trade_ok (b : Buffer T) (s : Storage T) (res : List T) (h : BufferOk b s res.length) :
    ∃ rest, (b.trade res s).2 = ⟨s.kind, res ++ rest⟩ := by
  cases b with
  | single temp => exact ⟨[], by simp [Buffer.trade]⟩
  | noBuffer => exact ⟨[], by simp [Buffer.trade]⟩
  | fixedLen mem =>
    have := h.2
    refine ⟨s.cells.drop res.length, ?_⟩
    have e : min s.cells.length res.length = res.length := by omega
    simp [Buffer.trade, splice, e]

end Dsp
