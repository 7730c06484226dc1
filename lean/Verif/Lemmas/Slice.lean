import Verif.Spec.View
import Verif.Model.Reorg
/- Helper lemmas about slices, memory helpers and complex reinterpretation. -/
namespace Dsp
variable {T : Type}

theorem slice_append_left (a b : List T) : slice (a ++ b) 0 a.length = some a := by
  simp [slice]

theorem splice_append_left (a b c : List T) (h : c.length = a.length) :
    splice (a ++ b) 0 c = c ++ b := by
  simp [splice, h]

@[simp] theorem length_splice (a : List T) (lo : Nat) (b : List T) (h : lo + b.length ≤ a.length) :
    (splice a lo b).length = a.length := by
  simp [splice]; omega

theorem getElem?_splice (a : List T) (lo : Nat) (b : List T) (h : lo + b.length ≤ a.length)
    (i : Nat) : (splice a lo b)[i]? =
      if i < lo then a[i]? else if i < lo + b.length then b[i - lo]? else a[i]? := by
  simp only [splice, List.getElem?_append, List.length_append, List.length_take,
    List.getElem?_take, List.getElem?_drop]
  have : min lo a.length = lo := by omega
  rw [this]
  by_cases h1 : i < lo
  · have : i < lo + b.length := by omega
    simp [h1, this]
  · by_cases h2 : i < lo + b.length
    · simp [h1, h2]
    · simp [h1, h2]
      congr 1; omega

@[simp] theorem toComplex?_fromComplex (p : List (Cx T)) : toComplex? (fromComplex p) = some p := by
  induction p with
  | nil => rfl
  | cons c p ih => simp [fromComplex, toComplex?, ih]

theorem fromComplex_of_toComplex? {l : List T} {p : List (Cx T)} (h : toComplex? l = some p) :
    l = fromComplex p := by
  induction l using toComplex?.induct generalizing p with
  | case1 => simp [toComplex?] at h; subst h; rfl
  | case2 => simp [toComplex?] at h
  | case3 re im rest ih =>
    simp only [toComplex?, Option.map_eq_some_iff] at h
    obtain ⟨q, hq, rfl⟩ := h
    simp [fromComplex, ← ih hq]

@[simp] theorem length_fromComplex (p : List (Cx T)) : (fromComplex p).length = 2 * p.length := by
  induction p with
  | nil => rfl
  | cons c p ih => simp [fromComplex, ih]; omega

theorem exists_fromComplex {l : List T} (h : l.length % 2 = 0) : ∃ p, l = fromComplex p := by
  induction l using toComplex?.induct with
  | case1 => exact ⟨[], rfl⟩
  | case2 => simp at h
  | case3 re im rest ih =>
    obtain ⟨p, hp⟩ := ih (by simp at h; omega)
    exact ⟨⟨re, im⟩ :: p, by simp [fromComplex, hp]⟩

theorem toComplex?_eq_none {l : List T} (h : l.length % 2 = 1) : toComplex? l = none := by
  cases hc : toComplex? l with
  | none => rfl
  | some p => rw [fromComplex_of_toComplex? hc] at h; simp at h

@[simp] theorem fromComplex_append (p q : List (Cx T)) :
    fromComplex (p ++ q) = fromComplex p ++ fromComplex q := by
  induction p with
  | nil => rfl
  | cons c p ih => simp [fromComplex, ih]

theorem fromComplex_replicate (n : Nat) (x : T) :
    fromComplex (List.replicate n ⟨x, x⟩) = List.replicate (2 * n) x := by
  induction n with
  | zero => rfl
  | succ n ih => simp [List.replicate_succ, fromComplex, ih, Nat.mul_add]

theorem fromComplex_injective {p q : List (Cx T)} (h : fromComplex p = fromComplex q) : p = q := by
  have := congrArg toComplex? h
  simpa using this

theorem fromComplex_take (p : List (Cx T)) (n : Nat) :
    fromComplex (p.take n) = (fromComplex p).take (2 * n) := by
  induction p generalizing n with
  | nil => simp [fromComplex]
  | cons c p ih =>
    cases n with
    | zero => simp [fromComplex]
    | succ n => simp [fromComplex, ih, Nat.mul_add]

theorem fromComplex_drop (p : List (Cx T)) (n : Nat) :
    fromComplex (p.drop n) = (fromComplex p).drop (2 * n) := by
  induction p generalizing n with
  | nil => simp [fromComplex]
  | cons c p ih =>
    cases n with
    | zero => simp [fromComplex]
    | succ n => simp [fromComplex, ih, Nat.mul_add]

theorem getElem?_fromComplex_even (p : List (Cx T)) (i : Nat) :
    (fromComplex p)[2 * i]? = p[i]?.map Cx.re := by
  induction p generalizing i with
  | nil => simp [fromComplex]
  | cons c p ih =>
    cases i with
    | zero => simp [fromComplex]
    | succ n => simp [fromComplex, Nat.mul_add, ih]

theorem getElem?_fromComplex_odd (p : List (Cx T)) (i : Nat) :
    (fromComplex p)[2 * i + 1]? = p[i]?.map Cx.im := by
  induction p generalizing i with
  | nil => simp [fromComplex]
  | cons c p ih =>
    cases i with
    | zero => simp [fromComplex]
    | succ n => simp [fromComplex, Nat.mul_add, ih]

/-- A loop with an invariant. -/
theorem forRange_inv {S : Type} (P : Nat → S → Prop) (f : Nat → S → Option S) (start n : Nat) (s : S)
    (h0 : P start s)
    (hstep : ∀ i s, start ≤ i → i < start + n → P i s → ∃ s', f i s = some s' ∧ P (i + 1) s') :
    ∃ s', forRange start n f s = some s' ∧ P (start + n) s' := by
  induction n generalizing start s with
  | zero => exact ⟨s, rfl, h0⟩
  | succ n ih =>
    obtain ⟨s1, h1, h2⟩ := hstep start s (Nat.le_refl _) (by omega) h0
    obtain ⟨s', h3, h4⟩ := ih (start + 1) s1 h2
      (fun i s hi hi' => hstep i s (by omega) (by omega))
    refine ⟨s', ?_, ?_⟩
    · simp [forRange, h1, h3]
    · have : start + (n + 1) = start + 1 + n := by omega
      rw [this]; exact h4

theorem put_eq {a : List T} {i : Nat} (h : i < a.length) (x : T) : put a i x = some (a.set i x) := by
  simp [put, h]

theorem get_eq {a : List T} {i : Nat} (h : i < a.length) : get a i = some a[i] := by
  simp [get, h]

@[simp] theorem length_resizeCells [Zero T] (c : List T) (n : Nat) :
    (resizeCells c n).length = n := by
  simp [resizeCells]; omega

theorem resizeCells_of_le [Zero T] (c : List T) (n : Nat) (h : c.length ≤ n) :
    resizeCells c n = c ++ List.replicate (n - c.length) 0 := by
  simp [resizeCells, List.take_of_length_le h]

namespace DspVec

/-- Decomposition of a well formed real vector. -/
theorem WF.real {v : DspVec T} (h : v.WF) : ∃ c s, v.data.cells = c ++ s ∧ c.length = v.validLen :=
  ⟨v.data.cells.take v.validLen, v.data.cells.drop v.validLen, by simp, by
    have := h.1; simp; omega⟩

/-- Decomposition of a well formed complex vector. -/
theorem WF.complex {v : DspVec T} (h : v.WF) (hc : v.isComplex = true) :
    ∃ p s, v.data.cells = fromComplex p ++ s ∧ 2 * p.length = v.validLen := by
  obtain ⟨c, s, h1, h2⟩ := h.real
  obtain ⟨p, rfl⟩ := exists_fromComplex (l := c) (by rw [h2]; exact h.2 hc)
  exact ⟨p, s, h1, by simpa using h2⟩

theorem pts_real {v : DspVec T} {c s : List T} (hr : v.isComplex = false)
    (h1 : v.data.cells = c ++ s) (h2 : c.length = v.validLen) :
    v.pts = some (c.map (fun x => [x])) := by
  simp [pts, hr, h1, ← h2]

theorem pts_complex {v : DspVec T} {p : List (Cx T)} {s : List T} (hr : v.isComplex = true)
    (h1 : v.data.cells = fromComplex p ++ s) (h2 : 2 * p.length = v.validLen) :
    v.pts = some (p.map (fun c => [c.re, c.im])) := by
  have : (fromComplex p ++ s).take (2 * p.length) = fromComplex p := by
    rw [← length_fromComplex]; simp
  simp [pts, hr, h1, ← h2, this]

/-- What `onPoints` computes on a real vector. -/
theorem onPoints_real {v : DspVec T} {c s c' : List T} {f g} (hr : v.isComplex = false)
    (h1 : v.data.cells = c ++ s) (h2 : c.length = v.validLen) (hf : f c = some c')
    (hl : c'.length = c.length) :
    v.onPoints f g = some (v.withCells (c' ++ s)) := by
  simp [onPoints, hr, h1, ← h2, slice_append_left, hf, splice_append_left _ _ _ hl]

/-- What `onPoints` computes on a complex vector. -/
theorem onPoints_complex {v : DspVec T} {p p' : List (Cx T)} {s : List T} {f g}
    (hr : v.isComplex = true)
    (h1 : v.data.cells = fromComplex p ++ s) (h2 : 2 * p.length = v.validLen) (hf : g p = some p')
    (hl : p'.length = p.length) :
    v.onPoints f g = some (v.withCells (fromComplex p' ++ s)) := by
  have := slice_append_left (fromComplex p) s
  rw [length_fromComplex] at this
  simp [onPoints, hr, h1, ← h2, this, hf, splice_append_left (fromComplex p) s (fromComplex p') (by simp [hl])]

end DspVec
end Dsp
