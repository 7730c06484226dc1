import Verif.Lemmas.Points
/- A uniform treatment of the points of real and complex vectors. -/
namespace Dsp
open DspVec
variable {T : Type}

theorem flatten_pairs (p : List (Cx T)) : (p.map (fun c => [c.re, c.im])).flatten = fromComplex p := by
  induction p with
  | nil => rfl
  | cons c p ih => simp [fromComplex, ih]

theorem flatten_singles (c : List T) : (c.map (fun x => [x])).flatten = c := by
  induction c with
  | nil => rfl
  | cons x c ih => simp only [List.map_cons, List.flatten_cons, ih, List.singleton_append]

theorem length_flatten_of {L : List (List T)} {k : Nat} (h : ∀ p ∈ L, p.length = k) :
    L.flatten.length = k * L.length := by
  induction L with
  | nil => simp
  | cons x L ih =>
    have h1 := h x (by simp)
    have h2 := ih (fun p hp => h p (by simp [hp]))
    simp [h1, h2, Nat.mul_add]; omega

theorem take_flatten_of {L : List (List T)} {k : Nat} (h : ∀ p ∈ L, p.length = k) (n : Nat) :
    L.flatten.take (k * n) = (L.take n).flatten := by
  induction L generalizing n with
  | nil => simp
  | cons x L ih =>
    have h1 := h x (by simp)
    cases n with
    | zero => simp
    | succ n =>
      have h2 := ih (fun p hp => h p (by simp [hp])) n
      simp only [List.flatten_cons, List.take_succ_cons, List.take_append, h1]
      have : k * (n + 1) - k = k * n := by rw [Nat.mul_add]; omega
      rw [this, h2, List.take_of_length_le (by rw [h1, Nat.mul_add]; omega)]

theorem drop_flatten_of {L : List (List T)} {k : Nat} (h : ∀ p ∈ L, p.length = k) (n : Nat) :
    L.flatten.drop (k * n) = (L.drop n).flatten := by
  induction L generalizing n with
  | nil => simp
  | cons x L ih =>
    have h1 := h x (by simp)
    cases n with
    | zero => simp
    | succ n =>
      have h2 := ih (fun p hp => h p (by simp [hp])) n
      simp only [List.flatten_cons, List.drop_succ_cons, List.drop_append, h1]
      have : k * (n + 1) - k = k * n := by rw [Nat.mul_add]; omega
      rw [this, h2, List.drop_of_length_le (by rw [h1, Nat.mul_add]; omega)]
      rfl

theorem flatten_replicate_zero [Zero T] (n k : Nat) :
    (List.replicate n (List.replicate k (0 : T))).flatten = List.replicate (k * n) 0 := by
  induction n with
  | zero => simp
  | succ n ih =>
    rw [List.replicate_succ, List.flatten_cons, ih, List.replicate_append_replicate]
    congr 1; rw [Nat.mul_add]; omega

theorem exists_singles (L : List (List T)) (h : ∀ p ∈ L, p.length = 1) : ∃ c : List T, L = c.map (fun x => [x]) := by
  induction L with
  | nil => exact ⟨[], rfl⟩
  | cons x L ih =>
    obtain ⟨c, rfl⟩ := ih (fun p hp => h p (by simp [hp]))
    obtain ⟨a, rfl⟩ := List.length_eq_one_iff.mp (h x (by simp))
    exact ⟨a :: c, rfl⟩

theorem exists_pairs (L : List (List T)) (h : ∀ p ∈ L, p.length = 2) :
    ∃ c : List (Cx T), L = c.map (fun x => [x.re, x.im]) := by
  induction L with
  | nil => exact ⟨[], rfl⟩
  | cons x L ih =>
    obtain ⟨c, rfl⟩ := ih (fun p hp => h p (by simp [hp]))
    have hx := h x (by simp)
    match x, hx with
    | [a, b], _ => exact ⟨⟨a, b⟩ :: c, rfl⟩

namespace DspVec

theorem pts_iff (v : DspVec T) (L : List (List T)) : v.pts = some L ↔
    v.validLen ≤ v.data.cells.length ∧ v.data.cells.take v.validLen = L.flatten ∧
      ∀ p ∈ L, p.length = v.stride := by
  unfold pts stride
  cases hc : v.isComplex with
  | false =>
    by_cases hle : v.validLen ≤ v.data.cells.length
    · simp only [hle, if_true, Bool.false_eq_true, if_false, true_and, Option.some.injEq]
      constructor
      · rintro rfl
        exact ⟨(flatten_singles _).symm, by intro p hp; obtain ⟨x, _, rfl⟩ := List.mem_map.mp hp; rfl⟩
      · rintro ⟨h1, h2⟩
        obtain ⟨c, rfl⟩ := exists_singles L h2
        rw [h1, flatten_singles]
    · simp [hle]
  | true =>
    by_cases hle : v.validLen ≤ v.data.cells.length
    · simp only [hle, if_true, true_and, Option.map_eq_some_iff]
      constructor
      · rintro ⟨p, h1, rfl⟩
        exact ⟨by rw [flatten_pairs, ← fromComplex_of_toComplex? h1], by simp⟩
      · rintro ⟨h1, h2⟩
        obtain ⟨c, rfl⟩ := exists_pairs L h2
        exact ⟨c, by rw [h1, flatten_pairs, toComplex?_fromComplex], rfl⟩
    · simp [hle]

theorem stride_congr {v w : DspVec T} (h : v.numberSpace = w.numberSpace) : v.stride = w.stride := by
  unfold stride isComplex; rw [h]

theorem stride_pos (v : DspVec T) : 0 < v.stride := by unfold stride; split <;> omega

theorem WF.exists_pts {v : DspVec T} (h : v.WF) : ∃ L, v.pts = some L := by
  cases hc : v.isComplex with
  | false => obtain ⟨c, s, h1, h2⟩ := h.real; exact ⟨_, pts_real hc h1 h2⟩
  | true => obtain ⟨c, s, h1, h2⟩ := h.complex hc; exact ⟨_, pts_complex hc h1 h2⟩

/-- Full description of the cells of a vector with known points. -/
theorem cells_of_pts {v : DspVec T} {L : List (List T)} (h : v.pts = some L) :
    (∀ p ∈ L, p.length = v.stride) ∧ (∃ s, v.data.cells = L.flatten ++ s) ∧
      v.validLen = L.flatten.length ∧ v.validLen = v.stride * L.length ∧ L.length = v.points := by
  obtain ⟨h1, h2, h3⟩ := (pts_iff v L).mp h
  have h4 : v.validLen = L.flatten.length := by
    rw [← h2, List.length_take]; omega
  have h5 := length_flatten_of h3
  refine ⟨h3, ⟨v.data.cells.drop v.validLen, by rw [← h2, List.take_append_drop]⟩, h4, by omega, ?_⟩
  have h6 : v.points = v.validLen / v.stride := rfl
  rw [h6, h4, h5, Nat.mul_div_cancel_left _ v.stride_pos]

theorem wf_of_pts {v : DspVec T} {L : List (List T)} (h : v.pts = some L) : v.WF := by
  refine ⟨((pts_iff v L).mp h).1, fun hc => ?_⟩
  have := (cells_of_pts h).2.2.2.1
  rw [this]; simp [stride, hc]

theorem pts_of_cells {v : DspVec T} {L : List (List T)} {s : List T}
    (h1 : v.data.cells = L.flatten ++ s) (h2 : v.validLen = L.flatten.length)
    (h3 : ∀ p ∈ L, p.length = v.stride) : v.pts = some L := by
  rw [pts_iff, h1, h2]
  refine ⟨by simp, by simp, h3⟩

end DspVec
end Dsp
