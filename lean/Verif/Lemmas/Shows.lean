import Verif.Spec.Safe
import Verif.Lemmas.Pts
import Verif.Lemmas.Index
/- Helper lemmas about the signal which a vector shows. -/
namespace Dsp
open DspVec
variable {T : Type}

/-- The points of the numbers as lists. -/
def Numbers.pointLists : Numbers T → List (List T)
  | .real xs => xs.map fun x => [x]
  | .complex cs => cs.map fun c => [c.re, c.im]

theorem Numbers.flatten_pointLists (N : Numbers T) : N.pointLists.flatten = N.flat := by
  cases N with
  | real xs => exact flatten_singles xs
  | complex cs => exact flatten_pairs cs

/-- The number of values per point. -/
def Numbers.width (N : Numbers T) : Nat := if N.isComplex then 2 else 1

theorem Numbers.length_mem (N : Numbers T) : ∀ p ∈ N.pointLists, p.length = N.width := by
  cases N <;> intro p hp <;> simp only [Numbers.pointLists, List.mem_map] at hp <;>
    obtain ⟨x, _, rfl⟩ := hp <;> rfl

theorem Numbers.length_pointLists (N : Numbers T) : N.pointLists.length = N.count := by
  cases N <;> simp [pointLists, count]

theorem Numbers.length_flat (N : Numbers T) : N.flat.length = N.width * N.count := by
  rw [← flatten_pointLists, length_flatten_of N.length_mem, length_pointLists]

/-- Points which are as long as the points of complex respectively real numbers are the points of some
    numbers. -/
theorem Numbers.exists_of_pointLists (c : Bool) (L : List (List T)) (h : ∀ p ∈ L, p.length = if c then 2 else 1) :
    ∃ N : Numbers T, N.isComplex = c ∧ N.pointLists = L := by
  cases c with
  | false => obtain ⟨xs, rfl⟩ := exists_singles L h; exact ⟨.real xs, rfl, rfl⟩
  | true => obtain ⟨xs, rfl⟩ := exists_pairs L h; exact ⟨.complex xs, rfl, rfl⟩

theorem Numbers.pointLists_inj {N M : Numbers T} (hc : N.isComplex = M.isComplex)
    (h : N.pointLists = M.pointLists) : N = M := by
  cases N <;> cases M <;> simp only [isComplex] at hc <;> simp only [pointLists] at h
  · rename_i a b
    have := congrArg List.flatten h
    rw [flatten_singles, flatten_singles] at this
    rw [this]
  · cases hc
  · cases hc
  · rename_i a b
    have := congrArg List.flatten h
    rw [flatten_pairs, flatten_pairs] at this
    have := congrArg toComplex? this
    rw [toComplex?_fromComplex, toComplex?_fromComplex] at this
    rw [Option.some.inj this]

theorem Numbers.flat_inj {N M : Numbers T} (hc : N.isComplex = M.isComplex)
    (h : N.flat = M.flat) : N = M := by
  cases N <;> cases M <;> simp only [isComplex] at hc <;> simp only [flat] at h
  · rw [h]
  · cases hc
  · cases hc
  · have := congrArg toComplex? h
    rw [toComplex?_fromComplex, toComplex?_fromComplex] at this
    rw [Option.some.inj this]

theorem content_iff {v : DspVec T} {c : List T} : v.content = some c ↔
    v.validLen ≤ v.data.cells.length ∧ v.data.cells.take v.validLen = c := by
  unfold DspVec.content slice
  simp only [Nat.zero_le, true_and, List.drop_zero, Nat.sub_zero]
  split
  · simp [*]
  · simp [*]

namespace DspVec.Shows
variable {v w : DspVec T} {s : Signal T}

theorem isComplex (h : v.Shows s) : v.isComplex = s.numbers.isComplex := by
  unfold DspVec.isComplex
  rw [h.space]
  split
  · rfl
  · split
    · rename_i hc; rw [hc]; rfl
    · rename_i hc; simp only [Bool.not_eq_true] at hc; rw [hc]; rfl

theorem dom (h : v.Shows s) : v.dom = s.dom := by
  unfold DspVec.dom
  rw [h.domain]
  split
  · rfl
  · cases s.dom <;> rfl

theorem stride (h : v.Shows s) : v.stride = s.numbers.width := by
  unfold DspVec.stride Numbers.width; rw [h.isComplex]

theorem pts (h : v.Shows s) : v.pts = some s.numbers.pointLists := by
  obtain ⟨h1, h2⟩ := content_iff.1 h.content
  rw [pts_iff, Numbers.flatten_pointLists, h.stride]
  exact ⟨h1, h2, Numbers.length_mem _⟩

theorem wf (h : v.Shows s) : v.WF := wf_of_pts h.pts

theorem points (h : v.Shows s) : v.points = s.numbers.count := by
  rw [← (cells_of_pts h.pts).2.2.2.2, Numbers.length_pointLists]

theorem len (h : v.Shows s) : v.len = s.numbers.flat.length := by
  have := (cells_of_pts h.pts).2.2.1
  rw [Numbers.flatten_pointLists] at this
  exact this

theorem typed (h : v.Shows s) : v.Typed := by
  unfold Typed
  rw [h.space, h.domain]
  cases s.generic with
  | true => exact .inl ⟨_, _, rfl, rfl⟩
  | false =>
    right
    refine ⟨?_, ?_⟩
    · simp only [Bool.false_eq_true, if_false]; cases s.numbers.isComplex <;> simp
    · simp only [Bool.false_eq_true, if_false]; cases s.dom <;> simp

theorem generic_iff (h : v.Shows s) : v.Generic ↔ s.generic = true := by
  unfold Generic
  rw [h.space, h.domain]
  cases s.generic with
  | true => simp
  | false =>
    simp only [Bool.false_eq_true, if_false, iff_false]
    rintro ⟨b, d, h1, -⟩
    cases hcx : s.numbers.isComplex <;> simp [hcx] at h1

/-- Same meta data, other numbers of the same number space. -/
theorem of_content (h : v.Shows s) (hm : w.SameMeta v) {N : Numbers T} (hN : N.isComplex = s.numbers.isComplex)
    (hc : w.content = some N.flat) : w.Shows { s with numbers := N } := by
  obtain ⟨m1, m2, m3, -⟩ := hm
  exact ⟨hc, by rw [m3, h.space]; simp only [hN], by rw [m2, h.domain], by rw [m1, h.delta]⟩

theorem of_pts (h : v.Shows s) (hm : w.SameMeta v) {N : Numbers T} (hN : N.isComplex = s.numbers.isComplex)
    (hp : w.pts = some N.pointLists) : w.Shows { s with numbers := N } := by
  obtain ⟨h1, h2, -⟩ := (pts_iff _ _).1 hp
  exact h.of_content hm hN (content_iff.2 ⟨h1, by rw [h2, Numbers.flatten_pointLists]⟩)

theorem zeroPoint [Zero T] (h : v.Shows s) : v.zeroPoint = List.replicate s.numbers.width 0 := by
  unfold DspVec.zeroPoint; rw [h.stride]

end DspVec.Shows

/-- A function of lists which works in the same way for all types of elements. -/
def Natural (f : ∀ {α : Type}, α → List α → List α) : Prop :=
  ∀ {α β : Type} (g : α → β) (z : α) (l : List α), f (g z) (l.map g) = (f z l).map g

theorem Numbers.pointLists_rearrange [Zero T] (f : ∀ {α : Type}, α → List α → List α) (hf : Natural f)
    (N : Numbers T) : (N.rearrange f).pointLists = f (List.replicate N.width 0) N.pointLists := by
  cases N with
  | real xs => exact (hf (fun x : T => [x]) 0 xs).symm
  | complex cs => exact (hf (fun c : Cx T => [c.re, c.im]) ⟨0, 0⟩ cs).symm

theorem Numbers.isComplex_rearrange [Zero T] (f : ∀ {α : Type}, α → List α → List α) (N : Numbers T) :
    (N.rearrange f).isComplex = N.isComplex := by cases N <;> rfl

/-- An operation which rearranges the points. -/
theorem DspVec.Shows.rearrange [Zero T] {v w : DspVec T} {s : Signal T}
    (f : ∀ {α : Type}, α → List α → List α) (hf : Natural f) (h : v.Shows s) (hm : w.SameMeta v)
    (hp : w.pts = some (f v.zeroPoint s.numbers.pointLists)) :
    w.Shows { s with numbers := s.numbers.rearrange f } :=
  h.of_pts hm (Numbers.isComplex_rearrange f _) (by rw [Numbers.pointLists_rearrange f hf, hp, h.zeroPoint])

theorem natural_reverse : Natural fun _ l => l.reverse := fun g _ l => by simp
theorem natural_rotateRight : Natural fun _ l => rotateRight l (l.length / 2) := fun g _ l => by
  simp [rotateRight, List.map_drop, List.map_take]
theorem natural_rotateLeft : Natural fun _ l => rotateLeft l (l.length / 2) := fun g _ l => by
  simp [rotateLeft, List.map_drop, List.map_take]
theorem natural_pad (p : Nat) (o : PaddingOption) :
    Natural fun z l => padSpec z l p (surroundRight l.length p) o := fun g z l => by
  cases o <;> simp [padSpec, List.map_drop, List.map_take]
theorem natural_interleave (f : Nat) : Natural fun z l => interleaveSpec z f l := fun g z l => by
  simp [interleaveSpec, List.flatMap_map, List.map_flatMap]
theorem natural_everyNth (k d : Nat) : Natural fun _ l => everyNth k d l := fun g _ l => by
  simp only [everyNth, List.map_filterMap, List.length_map]
  congr 1
  funext t
  simp

/-- A list which is described position by position. -/
theorem eq_filterMap_range {α : Type} (L : List α) (g : Nat → Option α) (n : Nat) (hn : L.length ≤ n)
    (h : ∀ t, L[t]? = g t) : (List.range n).filterMap g = L := by
  induction L generalizing g n with
  | nil =>
    rw [List.filterMap_eq_nil_iff]
    intro t _
    rw [← h t]; rfl
  | cons x L ih =>
    obtain ⟨n, rfl⟩ : ∃ m, n = m + 1 := ⟨n - 1, by simp at hn; omega⟩
    rw [List.range_succ_eq_map, List.filterMap_cons, ← h 0]
    simp only [List.getElem?_cons_zero, List.filterMap_map]
    congr 1
    exact ih _ n (by simpa using hn) fun t => by rw [Function.comp, ← h (t + 1)]; simp

end Dsp
