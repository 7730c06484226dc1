import Verif.Spec.Stats
import Verif.Props.Sums
import Mathlib.Algebra.Order.Field.Rat
import Mathlib.Algebra.Order.Ring.Defs
import Mathlib.Data.List.Induction
/-
C24-C26: statistics. C28 (second part): precise statistics.
-/
namespace Dsp
open DspVec Statistics
variable {T E K : Type}

/-! ### The accumulator -/

theorem Ext.lt_irrefl [LinearOrder K] (norm : E → K) (x : Ext E) : Ext.lt norm x x = false := by
  cases x <;> simp [Ext.lt]

/-- What the accumulated fields mean, for data `l` whose first element has index `off`. -/
structure Acc [AddCommMonoid E] [Mul E] [LinearOrder K] (ops : StatOps E K) (off : Nat) (l : List E)
    (s : Statistics E) : Prop where
  count : s.count = l.length
  sum : s.sum = l.sum
  sq : s.rms = some (l.map fun x => x * x).sum
  min0 : l = [] → s.min = ops.initMin ∧ s.minIndex = 0
  max0 : l = [] → s.max = ops.initMax ∧ s.maxIndex = 0
  min : l ≠ [] → ∃ m i, s.min = .fin m ∧ s.minIndex = off + i ∧ IsFirstMin ops.norm l i m
  max : l ≠ [] → ∃ m i, s.max = .fin m ∧ s.maxIndex = off + i ∧ IsFirstMax ops.norm l i m

theorem Acc.empty [AddCommMonoid E] [Mul E] [LinearOrder K] (ops : StatOps E K) (off : Nat) :
    Acc ops off [] (Statistics.empty ops) :=
  ⟨rfl, rfl, rfl, fun _ => ⟨rfl, rfl⟩, fun _ => ⟨rfl, rfl⟩, fun h => absurd rfl h,
    fun h => absurd rfl h⟩

theorem isFirstMin_snoc_keep [LinearOrder K] {norm : E → K} {l : List E} {i : Nat} {m x : E}
    (h : IsFirstMin norm l i m) (hx : norm m ≤ norm x) : IsFirstMin norm (l ++ [x]) i m := by
  obtain ⟨h1, h2, h3⟩ := h
  have hi : i < l.length := (List.getElem?_eq_some_iff.mp h1).1
  refine ⟨by rw [List.getElem?_append_left hi]; exact h1, ?_, ?_⟩
  · intro y hy
    rcases List.mem_append.mp hy with hy | hy
    · exact h2 y hy
    · rw [List.mem_singleton.mp hy]; exact hx
  · intro j y hj hy
    rw [List.getElem?_append_left (by omega)] at hy
    exact h3 j y hj hy

theorem isFirstMin_snoc_new [LinearOrder K] {norm : E → K} {l : List E} {x : E}
    (h : ∀ y ∈ l, norm x < norm y) : IsFirstMin norm (l ++ [x]) l.length x := by
  refine ⟨by simp, ?_, ?_⟩
  · intro y hy
    rcases List.mem_append.mp hy with hy | hy
    · exact (h y hy).le
    · rw [List.mem_singleton.mp hy]
  · intro j y hj hy
    rw [List.getElem?_append_left hj] at hy
    exact h y (List.mem_of_getElem? hy)

theorem isFirstMax_snoc_keep [LinearOrder K] {norm : E → K} {l : List E} {i : Nat} {m x : E}
    (h : IsFirstMax norm l i m) (hx : norm x ≤ norm m) : IsFirstMax norm (l ++ [x]) i m := by
  obtain ⟨h1, h2, h3⟩ := h
  have hi : i < l.length := (List.getElem?_eq_some_iff.mp h1).1
  refine ⟨by rw [List.getElem?_append_left hi]; exact h1, ?_, ?_⟩
  · intro y hy
    rcases List.mem_append.mp hy with hy | hy
    · exact h2 y hy
    · rw [List.mem_singleton.mp hy]; exact hx
  · intro j y hj hy
    rw [List.getElem?_append_left (by omega)] at hy
    exact h3 j y hj hy

theorem isFirstMax_snoc_new [LinearOrder K] {norm : E → K} {l : List E} {x : E}
    (h : ∀ y ∈ l, norm y < norm x) : IsFirstMax norm (l ++ [x]) l.length x := by
  refine ⟨by simp, ?_, ?_⟩
  · intro y hy
    rcases List.mem_append.mp hy with hy | hy
    · exact (h y hy).le
    · rw [List.mem_singleton.mp hy]
  · intro j y hj hy
    rw [List.getElem?_append_left hj] at hy
    exact h y (List.mem_of_getElem? hy)

/-- The update of the minimum. -/
theorem addMinMax_min [LinearOrder K] (ops : StatOps E K) (hops : InitOk ops) (off : Nat) (l : List E)
    (s : Statistics E) (x : E)
    (h0 : l = [] → s.min = ops.initMin)
    (h1 : l ≠ [] → ∃ m i, s.min = .fin m ∧ s.minIndex = off + i ∧ IsFirstMin ops.norm l i m) :
    ∃ m i, (addMinMax ops s x (off + l.length)).min = .fin m ∧
      (addMinMax ops s x (off + l.length)).minIndex = off + i ∧
      IsFirstMin ops.norm (l ++ [x]) i m := by
  have key : ∀ s' : Statistics E, s'.min = s.min → s'.minIndex = s.minIndex →
      ∃ m i, (if Ext.lt ops.norm (.fin x) s'.min then
        { s' with min := .fin x, minIndex := off + l.length } else s').min = .fin m ∧
      (if Ext.lt ops.norm (.fin x) s'.min then
        { s' with min := .fin x, minIndex := off + l.length } else s').minIndex = off + i ∧
      IsFirstMin ops.norm (l ++ [x]) i m := by
    intro s' e1 e2
    rw [e1]
    by_cases hl : l = []
    · rw [h0 hl, hops.1]
      refine ⟨x, l.length, by simp [Ext.lt], by simp [Ext.lt], isFirstMin_snoc_new (by simp [hl])⟩
    · obtain ⟨m, i, m1, m2, m3⟩ := h1 hl
      rw [m1]
      by_cases hx : ops.norm x < ops.norm m
      · refine ⟨x, l.length, by simp [Ext.lt, hx], by simp [Ext.lt, hx], isFirstMin_snoc_new ?_⟩
        intro y hy; exact lt_of_lt_of_le hx (m3.2.1 y hy)
      · refine ⟨m, i, by simp [Ext.lt, hx, e1, m1], by simp [Ext.lt, hx, e2, m2],
          isFirstMin_snoc_keep m3 (not_lt.mp hx)⟩
  unfold addMinMax
  simp only
  apply key
  · split <;> rfl
  · split <;> rfl

/-- The update of the maximum. -/
theorem addMinMax_max [LinearOrder K] (ops : StatOps E K) (hops : InitOk ops) (off : Nat) (l : List E)
    (s : Statistics E) (x : E)
    (h0 : l = [] → s.max = ops.initMax ∧ (off ≠ 0 → ops.initMax = .negInf) ∧ s.maxIndex = 0)
    (h1 : l ≠ [] → ∃ m i, s.max = .fin m ∧ s.maxIndex = off + i ∧ IsFirstMax ops.norm l i m) :
    ∃ m i, (addMinMax ops s x (off + l.length)).max = .fin m ∧
      (addMinMax ops s x (off + l.length)).maxIndex = off + i ∧
      IsFirstMax ops.norm (l ++ [x]) i m := by
  have e : ∀ s' : Statistics E, (if Ext.lt ops.norm (.fin x) s'.min then
        { s' with min := .fin x, minIndex := off + l.length } else s').max = s'.max ∧
      (if Ext.lt ops.norm (.fin x) s'.min then
        { s' with min := .fin x, minIndex := off + l.length } else s').maxIndex = s'.maxIndex := by
    intro s'; split <;> exact ⟨rfl, rfl⟩
  unfold addMinMax
  simp only
  rw [(e _).1, (e _).2]
  by_cases hl : l = []
  · obtain ⟨a1, a2, a3⟩ := h0 hl
    rw [a1]
    have hnew : IsFirstMax ops.norm (l ++ [x]) l.length x := isFirstMax_snoc_new (by simp [hl])
    rcases hops.2 with hn | ⟨z, hz, hzx⟩
    · refine ⟨x, l.length, ?_, ?_, hnew⟩ <;> simp [hn, Ext.lt]
    · have hoff : off = 0 := by
        by_contra hne; rw [a2 hne] at hz; simp at hz
      by_cases hx : ops.norm z < ops.norm x
      · refine ⟨x, l.length, ?_, ?_, hnew⟩ <;> simp [hz, Ext.lt, hx]
      · have hxz : x = z := (hzx x).2 (le_antisymm (not_lt.mp hx) (hzx x).1)
        subst hxz
        refine ⟨x, l.length, ?_, ?_, hnew⟩ <;> simp [hz, Ext.lt, a1, a3, hoff, hl]
  · obtain ⟨m, i, m1, m2, m3⟩ := h1 hl
    rw [m1]
    by_cases hx : ops.norm m < ops.norm x
    · refine ⟨x, l.length, by simp [Ext.lt, hx], by simp [Ext.lt, hx], isFirstMax_snoc_new ?_⟩
      intro y hy; exact lt_of_le_of_lt (m3.2.1 y hy) hx
    · refine ⟨m, i, by simp [Ext.lt, hx, m1], by simp [Ext.lt, hx, m2],
        isFirstMax_snoc_keep m3 (not_lt.mp hx)⟩

/-- `addMinMax` leaves the other fields alone. -/
theorem addMinMax_rest [LT K] [DecidableLT K] (ops : StatOps E K) (s : Statistics E) (x : E) (j : Nat) :
    (addMinMax ops s x j).count = s.count ∧ (addMinMax ops s x j).sum = s.sum ∧
    (addMinMax ops s x j).rms = s.rms := by
  unfold addMinMax
  simp only
  refine ⟨?_, ?_, ?_⟩ <;> (split <;> split <;> rfl)

theorem Acc.add [AddCommMonoid E] [Mul E] [LinearOrder K] {ops : StatOps E K} (hops : InitOk ops)
    {off : Nat} (hoff : off ≠ 0 → ops.initMax = .negInf) {l : List E} {s : Statistics E}
    (h : Acc ops off l s) (x : E) :
    Acc ops off (l ++ [x]) (Statistics.add ops s x (off + l.length)) := by
  unfold Statistics.add
  obtain ⟨r1, r2, r3⟩ := addMinMax_rest ops { s with
    sum := s.sum + x, count := s.count + 1, rms := s.rms.map (· + x * x) } x (off + l.length)
  refine ⟨?_, ?_, ?_, by simp, by simp, fun _ => ?_, fun _ => ?_⟩
  · rw [r1]; simp [h.count]
  · rw [r2]; simp [h.sum]
  · rw [r3]; simp [h.sq]
  · exact addMinMax_min ops hops off l _ x (fun hl => (h.min0 hl).1) h.min
  · exact addMinMax_max ops hops off l _ x
      (fun hl => ⟨(h.max0 hl).1, hoff, (h.max0 hl).2⟩) h.max

theorem addAll_snoc [Add E] [Mul E] [LT K] [DecidableLT K] (ops : StatOps E K)
    (s : Statistics E) (j : Nat) (l : List E) (x : E) :
    addAll ops s j (l ++ [x]) = Statistics.add ops (addAll ops s j l) x (j + l.length) := by
  unfold addAll
  rw [List.zipIdx_append, List.foldl_append]
  simp

theorem addAll_acc [AddCommMonoid E] [Mul E] [LinearOrder K] (ops : StatOps E K) (hops : InitOk ops)
    (off : Nat) (hoff : off ≠ 0 → ops.initMax = .negInf) (l : List E) :
    Acc ops off l (addAll ops (Statistics.empty ops) off l) := by
  induction l using List.reverseRecOn with
  | nil => exact Acc.empty ops off
  | append_singleton l x ih => rw [addAll_snoc]; exact ih.add hops hoff x

/-! ### merge of one piece -/

theorem merge_one_of_irrefl [AddCommMonoid E] [Mul E] [LT K] [DecidableLT K] (ops : StatOps E K)
    (s : Statistics E) (hmin : Ext.lt ops.norm s.min s.min = false) (hmax : Ext.lt ops.norm s.max s.max = false) :
    (merge ops [s]).count = s.count ∧ (merge ops [s]).sum = s.sum ∧
    (merge ops [s]).min = s.min ∧ (merge ops [s]).minIndex = s.minIndex ∧
    (merge ops [s]).max = s.max ∧ (merge ops [s]).maxIndex = s.maxIndex ∧
    (merge ops [s]).average = (if s.count = 0 then none else some (ops.divN s.sum s.count)) ∧
    (merge ops [s]).rms =
      s.rms.bind fun x => if s.count = 0 then none else some (ops.sqrt (ops.divN x s.count)) := by
  have h : mergeLoop ops ⟨0, 0, none, some 0, s.min, s.minIndex, s.max, s.maxIndex⟩ [s] =
      ⟨s.sum, s.count, none, s.rms, s.min, s.minIndex, s.max, s.maxIndex⟩ := by
    simp only [mergeLoop, List.foldl_cons, List.foldl_nil, hmin, hmax, zero_add]
    cases hr : s.rms <;> simp
  unfold Statistics.merge
  simp only [h]
  exact ⟨trivial, trivial, trivial, trivial, trivial, trivial, trivial, trivial⟩

theorem merge_one_fields [AddCommMonoid E] [Mul E] [LinearOrder K] (ops : StatOps E K)
    (s : Statistics E) :
    (merge ops [s]).count = s.count ∧ (merge ops [s]).sum = s.sum ∧
    (merge ops [s]).min = s.min ∧ (merge ops [s]).minIndex = s.minIndex ∧
    (merge ops [s]).max = s.max ∧ (merge ops [s]).maxIndex = s.maxIndex ∧
    (merge ops [s]).average = (if s.count = 0 then none else some (ops.divN s.sum s.count)) ∧
    (merge ops [s]).rms =
      s.rms.bind fun x => if s.count = 0 then none else some (ops.sqrt (ops.divN x s.count)) :=
  merge_one_of_irrefl ops s (Ext.lt_irrefl _ _) (Ext.lt_irrefl _ _)

theorem Acc.describes [AddCommMonoid E] [Mul E] [LinearOrder K] {ops : StatOps E K}
    {l : List E} {s : Statistics E} (h : Acc ops 0 l s) (hl : l ≠ []) :
    Describes ops l (merge ops [s]) := by
  obtain ⟨h1, h2, h3, h4, h5, h6, h7, h8⟩ := merge_one_fields ops s
  have hc : l.length ≠ 0 := by
    intro hh; exact hl (List.eq_nil_of_length_eq_zero hh)
  refine ⟨by rw [h1, h.count], by rw [h2, h.sum], ?_, ?_, ?_, ?_⟩
  · rw [h7, h.count, h.sum, if_neg hc]
  · rw [h8, h.sq, h.count]; simp [hc]
  · obtain ⟨m, i, m1, m2, m3⟩ := h.min hl
    exact ⟨m, by rw [h3, m1], by rw [h4, m2, Nat.zero_add]; exact m3⟩
  · obtain ⟨m, i, m1, m2, m3⟩ := h.max hl
    exact ⟨m, by rw [h5, m1], by rw [h6, m2, Nat.zero_add]; exact m3⟩

theorem realStatOps_ok [Field T] [LinearOrder T] (sqrt : T → T) : InitOk (realStatOps sqrt) :=
  ⟨rfl, .inl rfl⟩

theorem complexStatOps_ok [Field T] [LinearOrder K] (norm : Cx T → K) (sqrt : Cx T → Cx T)
    (h : ∀ x, norm 0 ≤ norm x ∧ (norm x = norm 0 → x = 0)) : InitOk (complexStatOps norm sqrt) :=
  ⟨rfl, .inr ⟨0, rfl, h⟩⟩

/-! ### C24 -/

/-- C24: the statistics of a non-empty real vector describe exactly its valid data, for all settings
    and orders. `sqrt` is an arbitrary function. -/
theorem C24_real [Field T] [LinearOrder T] (sqrt : T → T) (st : MultiCoreSettings) (v : DspVec T)
    (a : List T) (ha : v.content = some a) (hne : a ≠ []) (order : List Nat) :
    ∃ s, v.statistics (realStatOps sqrt) st order = some s ∧ Describes (realStatOps sqrt) a s := by
  refine ⟨_, ?_, (addAll_acc _ (realStatOps_ok sqrt) 0 (fun h => absurd rfl h) a).describes hne⟩
  unfold statistics
  rw [ha]
  simp only [Option.bind_eq_bind, Option.bind_some, chunkedResults_small, if_neg hne]

/-- C24 for complex vectors; numbers are compared by their norm, which must vanish only at zero. -/
theorem C24_complex [Field T] [LinearOrder K] (norm : Cx T → K) (sqrt : Cx T → Cx T)
    (hnorm : ∀ x, norm 0 ≤ norm x ∧ (norm x = norm 0 → x = 0)) (st : MultiCoreSettings)
    (v : DspVec T) (cs : List (Cx T)) (ha : v.content = some (fromComplex cs)) (hne : cs ≠ [])
    (order : List Nat) :
    ∃ s, v.statisticsComplex (complexStatOps norm sqrt) st order = some s ∧
      Describes (complexStatOps norm sqrt) cs s := by
  refine ⟨_, ?_, (addAll_acc _ (complexStatOps_ok norm sqrt hnorm) 0 (fun h => absurd rfl h) cs).describes
    hne⟩
  have hne' : fromComplex cs ≠ [] := by
    intro h; apply hne; have := congrArg List.length h; simp at this; exact this
  unfold statisticsComplex
  rw [ha]
  simp only [Option.bind_eq_bind, Option.bind_some, chunkedResults_small, if_neg hne',
    toComplex?_fromComplex, Option.map_some, List.mapM_cons, List.mapM_nil, id, Option.pure_def]

/-- C24: the statistics of an empty vector have the sum and the count zero and no average, no root mean square, no minimum and no maximum. -/
theorem C24_empty [Field T] [LinearOrder T] (sqrt : T → T) (st : MultiCoreSettings) (v : DspVec T)
    (ha : v.content = some []) (order : List Nat) :
    v.statistics (realStatOps sqrt) st order =
      some { sum := 0, count := 0, average := none, rms := none, min := .nan, minIndex := 0, max := .nan, maxIndex := 0 } := by
  unfold statistics
  rw [ha]
  simp only [Option.bind_eq_bind, Option.bind_some, chunkedResults_small, if_true]
  rfl

/-- C24: the same for an empty complex vector. -/
theorem C24_empty_complex [Field T] [LinearOrder K] (norm : Cx T → K) (sqrt : Cx T → Cx T) (st : MultiCoreSettings) (v : DspVec T)
    (ha : v.content = some []) (order : List Nat) :
    v.statisticsComplex (complexStatOps norm sqrt) st order =
      some { sum := 0, count := 0, average := none, rms := none, min := .nan, minIndex := 0, max := .nan, maxIndex := 0 } := by
  unfold statisticsComplex
  rw [ha]
  simp only [Option.bind_eq_bind, Option.bind_some, chunkedResults_small, if_true]
  rfl

/-- The squared norm over an ordered field is a suitable norm. -/
theorem normSq_ok [Field T] [LinearOrder T] [IsStrictOrderedRing T] (x : Cx T) :
    (0 : Cx T).normSq ≤ x.normSq ∧ (x.normSq = (0 : Cx T).normSq → x = 0) := by
  have h0 : (0 : Cx T).normSq = 0 := by simp [Cx.normSq]
  rw [h0]
  have h1 := mul_self_nonneg x.re
  have h2 := mul_self_nonneg x.im
  refine ⟨add_nonneg h1 h2, fun h => ?_⟩
  have h' : x.re * x.re + x.im * x.im = 0 := h
  obtain ⟨h3, h4⟩ := (add_eq_zero_iff_of_nonneg h1 h2).mp h'
  exact Cx.ext (by simpa using h3) (by simpa using h4)

example :
    let v : DspVec ℚ := ⟨⟨.vec, [3, 1, 4, 1, 5, 9]⟩, some 1, .time, .real, 5⟩
    v.content = some [3, 1, 4, 1, 5] ∧ IsFirstMin (fun x => x) ([3, 1, 4, 1, 5] : List ℚ) 1 1 := by
  refine ⟨by decide, by decide, by decide, ?_⟩
  intro j x hj hx
  have : j = 0 := by omega
  subst this
  simp at hx; rw [← hx]; norm_num

/-! ### C25 -/

/-- The statistics of a piece `l` of the data, whose first element has index `off`: `add` is called
    for every element. -/
def pieceStats [Add E] [Mul E] [Zero E] [LT K] [DecidableLT K] (ops : StatOps E K) (off : Nat)
    (l : List E) : Statistics E := addAll ops (Statistics.empty ops) off l

/-- The statistics of consecutive pieces. -/
def piecesStats [Add E] [Mul E] [Zero E] [LT K] [DecidableLT K] (ops : StatOps E K) :
    Nat → List (List E) → List (Statistics E)
  | _, [] => []
  | off, l :: ls => pieceStats ops off l :: piecesStats ops (off + l.length) ls

/-- C25 is violated: with the pieces `[2]`, `[1, 3]` the minimum `1` is missed (`else if` in
    `merge`). -/
theorem C25_min_missed_violated :
    (merge (realStatOps id) (piecesStats (realStatOps (id : ℚ → ℚ)) 0 [[2], [1, 3]])).min = .fin 2 ∧
    (merge (realStatOps id) (piecesStats (realStatOps (id : ℚ → ℚ)) 0 [[2, 1, 3]])).min = .fin 1 := by
  exact ⟨by rfl, by rfl⟩

theorem isFirstMax_append [LinearOrder K] {norm : E → K} {L l : List E} {i j : Nat} {m m' : E}
    (h : IsFirstMax norm L i m) (h' : IsFirstMax norm l j m') :
    (norm m < norm m' → IsFirstMax norm (L ++ l) (L.length + j) m') ∧
    (¬ norm m < norm m' → IsFirstMax norm (L ++ l) i m) := by
  obtain ⟨a1, a2, a3⟩ := h
  obtain ⟨b1, b2, b3⟩ := h'
  have hi : i < L.length := (List.getElem?_eq_some_iff.mp a1).1
  refine ⟨fun hlt => ⟨?_, ?_, ?_⟩, fun hlt => ⟨?_, ?_, ?_⟩⟩
  · rw [List.getElem?_append_right (by omega)]; simpa using b1
  · intro x hx
    rcases List.mem_append.mp hx with hx | hx
    · exact (lt_of_le_of_lt (a2 x hx) hlt).le
    · exact b2 x hx
  · intro q x hq hx
    by_cases hql : q < L.length
    · rw [List.getElem?_append_left hql] at hx
      exact lt_of_le_of_lt (a2 x (List.mem_of_getElem? hx)) hlt
    · rw [List.getElem?_append_right (by omega)] at hx
      exact b3 _ x (by omega) hx
  · rw [List.getElem?_append_left hi]; exact a1
  · intro x hx
    rcases List.mem_append.mp hx with hx | hx
    · exact a2 x hx
    · exact le_trans (b2 x hx) (not_lt.mp hlt)
  · intro q x hq hx
    rw [List.getElem?_append_left (by omega)] at hx
    exact a3 q x hq hx

theorem isFirstMin_append [LinearOrder K] {norm : E → K} {L l : List E} {i j : Nat} {m m' : E}
    (h : IsFirstMin norm L i m) (h' : IsFirstMin norm l j m') :
    (norm m' < norm m → IsFirstMin norm (L ++ l) (L.length + j) m') ∧
    (¬ norm m' < norm m → IsFirstMin norm (L ++ l) i m) :=
  isFirstMax_append (K := Kᵒᵈ) (norm := fun x => OrderDual.toDual (norm x)) h h'

/-- State of the loop of `merge` after the pieces with the concatenation `L`. -/
structure Merged [AddCommMonoid E] [Mul E] [LinearOrder K] (ops : StatOps E K) (L : List E)
    (minOk : Prop) (s : Statistics E) : Prop where
  count : s.count = L.length
  sum : s.sum = L.sum
  sq : s.rms = some (L.map fun x => x * x).sum
  max : ∃ m, s.max = .fin m ∧ IsFirstMax ops.norm L s.maxIndex m
  min : minOk → ∃ m, s.min = .fin m ∧ IsFirstMin ops.norm L s.minIndex m

theorem mergeLoop_inv [AddCommMonoid E] [Mul E] [LinearOrder K] (ops : StatOps E K)
    (hpos : ops.initMin = .posInf) (hneg : ops.initMax = .negInf) (first : List E) : ∀ (ls : List (List E)) (L : List E) (s : Statistics E),
    (∀ l ∈ ls, l ≠ []) → (∀ x ∈ first, x ∈ L) →
    Merged ops L (∀ x ∈ L, ∃ y ∈ first, ops.norm x ≤ ops.norm y) s →
    Merged ops (L ++ ls.flatten) (∀ x ∈ L ++ ls.flatten, ∃ y ∈ first, ops.norm x ≤ ops.norm y)
      (mergeLoop ops s (piecesStats ops L.length ls))
  | [], L, s, _, _, h => by simpa [mergeLoop, piecesStats] using h
  | l :: ls, L, s, hne, hsub, h => by
    have hl : l ≠ [] := hne l (by simp)
    have hacc : Acc ops L.length l (pieceStats ops L.length l) :=
      addAll_acc ops ⟨hpos, .inl hneg⟩ L.length (fun _ => hneg) l
    obtain ⟨mM, jM, p1, p2, p3⟩ := hacc.max hl
    obtain ⟨mm, jm, q1, q2, q3⟩ := hacc.min hl
    obtain ⟨m, m1, m2⟩ := h.max
    have hstep : Merged ops (L ++ l) (∀ x ∈ L ++ l, ∃ y ∈ first, ops.norm x ≤ ops.norm y)
        (mergeLoop ops s [pieceStats ops L.length l]) := by
      have hmax := isFirstMax_append m2 p3
      have hcount := hacc.count
      have hsum := hacc.sum
      have hsq := hacc.sq
      generalize pieceStats ops L.length l = t at *
      have hff : ∀ a b : E, Ext.lt ops.norm (.fin a) (.fin b) = decide (ops.norm a < ops.norm b) :=
        fun _ _ => rfl
      simp only [mergeLoop, List.foldl_cons, List.foldl_nil, m1, p1, q1, hff, h.sq, hsq,
        Option.bind_eq_bind, Option.bind_some]
      by_cases hlt : ops.norm m < ops.norm mM
      · simp only [hlt, decide_true, if_true]
        refine ⟨by simp [h.count, hcount], by simp [h.sum, hsum], by simp, ⟨mM, p1 ▸ rfl, ?_⟩, ?_⟩
        · simp only; rw [p2]; exact hmax.1 hlt
        · intro hcon
          exfalso
          obtain ⟨y, y1, y2⟩ := hcon mM (by simp [List.mem_of_getElem? p3.1])
          exact absurd (le_trans y2 (m2.2.1 y (hsub y y1))) (not_le.mpr hlt)
      · simp only [hlt, decide_false, Bool.false_eq_true, if_false]
        have hmin : (∀ x ∈ L ++ l, ∃ y ∈ first, ops.norm x ≤ ops.norm y) →
            ∃ m, s.min = .fin m ∧ IsFirstMin ops.norm L s.minIndex m :=
          fun hcon => h.min (fun x hx => hcon x (by simp [hx]))
        by_cases hmlt : Ext.lt ops.norm (.fin mm) s.min = true
        · simp only [hmlt, if_true]
          refine ⟨by simp [h.count, hcount], by simp [h.sum, hsum], by simp, ⟨m, rfl, hmax.2 hlt⟩, ?_⟩
          intro hcon
          obtain ⟨n, n1, n2⟩ := hmin hcon
          rw [n1] at hmlt
          refine ⟨mm, rfl, ?_⟩
          simp only; rw [q2]
          exact (isFirstMin_append n2 q3).1 (by simpa [Ext.lt] using hmlt)
        · simp only [hmlt, Bool.false_eq_true, if_false]
          refine ⟨by simp [h.count, hcount], by simp [h.sum, hsum], by simp, ⟨m, rfl, hmax.2 hlt⟩, ?_⟩
          intro hcon
          obtain ⟨n, n1, n2⟩ := hmin hcon
          rw [n1] at hmlt
          exact ⟨n, n1, (isFirstMin_append n2 q3).2 (by simpa [Ext.lt] using hmlt)⟩
    have ih := mergeLoop_inv ops hpos hneg first ls (L ++ l) _ (fun x hx => hne x (by simp [hx]))
      (fun x hx => by simp [hsub x hx]) hstep
    have e1 : mergeLoop ops s (piecesStats ops L.length (l :: ls)) =
        mergeLoop ops (mergeLoop ops s [pieceStats ops L.length l])
          (piecesStats ops (L ++ l).length ls) := by
      rw [List.length_append]
      rfl
    rw [e1, List.flatten_cons, ← List.append_assoc]
    exact ih

/-- C25: merging the statistics of consecutive non-empty pieces of real data gives count, sum,
    average, rms and maximum of the whole; and the minimum as well if no element is larger than
    all elements of the first piece (see `C25_min_missed_violated`). -/
theorem C25_merge_partial [Field T] [LinearOrder T] (sqrt : T → T) (l0 : List T)
    (ls : List (List T)) (h0 : l0 ≠ []) (hls : ∀ l ∈ ls, l ≠ []) :
    let ops := realStatOps sqrt
    let all := (l0 :: ls).flatten
    let s := Statistics.merge ops (piecesStats ops 0 (l0 :: ls))
    s.count = all.length ∧ s.sum = all.sum ∧ s.average = some (all.sum / (all.length : T)) ∧
    s.rms = some (sqrt ((all.map fun x => x * x).sum / (all.length : T))) ∧
    (∃ m, s.max = .fin m ∧ IsFirstMax (fun x => x) all s.maxIndex m) ∧
    ((∀ x ∈ all, ∃ y ∈ l0, x ≤ y) → Describes ops all s) := by
  intro ops all s
  have hacc : Acc ops 0 l0 (pieceStats ops 0 l0) :=
    addAll_acc ops (realStatOps_ok sqrt) 0 (fun h => absurd rfl h) l0
  obtain ⟨mM, jM, p1, p2, p3⟩ := hacc.max h0
  obtain ⟨mm, jm, q1, q2, q3⟩ := hacc.min h0
  rw [Nat.zero_add] at p2 q2
  have hfirst : Merged ops l0 (∀ x ∈ l0, ∃ y ∈ l0, ops.norm x ≤ ops.norm y)
      (mergeLoop ops ⟨0, 0, none, some 0, (pieceStats ops 0 l0).min, (pieceStats ops 0 l0).minIndex,
        (pieceStats ops 0 l0).max, (pieceStats ops 0 l0).maxIndex⟩ [pieceStats ops 0 l0]) := by
    have hcount := hacc.count
    have hsum := hacc.sum
    have hsq := hacc.sq
    generalize pieceStats ops 0 l0 = t at *
    simp only [mergeLoop, List.foldl_cons, List.foldl_nil, Ext.lt_irrefl, hsq, Option.bind_eq_bind,
      Option.bind_some, Bool.false_eq_true, if_false]
    exact ⟨by simp [hcount], by simp [hsum], by simp, ⟨mM, p1, p2 ▸ p3⟩, fun _ => ⟨mm, q1, q2 ▸ q3⟩⟩
  have hall := mergeLoop_inv ops rfl rfl l0 ls l0 _ hls (fun x hx => hx) hfirst
  have hs : s = Statistics.merge ops (piecesStats ops 0 (l0 :: ls)) := rfl
  have e1 : mergeLoop ops ⟨0, 0, none, some 0, (pieceStats ops 0 l0).min,
      (pieceStats ops 0 l0).minIndex, (pieceStats ops 0 l0).max, (pieceStats ops 0 l0).maxIndex⟩
      (piecesStats ops 0 (l0 :: ls)) = mergeLoop ops (mergeLoop ops ⟨0, 0, none, some 0,
        (pieceStats ops 0 l0).min, (pieceStats ops 0 l0).minIndex,
        (pieceStats ops 0 l0).max, (pieceStats ops 0 l0).maxIndex⟩ [pieceStats ops 0 l0])
          (piecesStats ops l0.length ls) := by
    rw [← Nat.zero_add l0.length]
    rfl
  have hcount0 : all.length ≠ 0 := by
    show (l0 ++ ls.flatten).length ≠ 0
    have := List.length_pos_iff.mpr h0
    rw [List.length_append]; omega
  have hd : all = l0 ++ ls.flatten := rfl
  rw [← hd] at hall
  have hm : ∀ (s0 : Statistics T) (ss : List (Statistics T)), Statistics.merge ops (s0 :: ss) =
    let r := mergeLoop ops ⟨0, 0, none, some 0, s0.min, s0.minIndex, s0.max, s0.maxIndex⟩ (s0 :: ss)
    { r with
      average := if r.count = 0 then none else some (ops.divN r.sum r.count)
      rms := r.rms.bind fun x => if r.count = 0 then none else some (ops.sqrt (ops.divN x r.count)) } :=
    fun _ _ => rfl
  have hpc : piecesStats ops 0 (l0 :: ls) =
    pieceStats ops 0 l0 :: piecesStats ops (0 + l0.length) ls := rfl
  rw [hpc, hm, ← hpc] at hs
  simp only at hs
  rw [e1] at hs
  generalize mergeLoop ops (mergeLoop ops _ _) _ = r at hs hall
  have hav : s.average = some (ops.divN all.sum all.length) := by
    rw [hs]; simp only [hall.count, hall.sum, if_neg hcount0]
  have hrm : s.rms = some (ops.sqrt (ops.divN (all.map fun x => x * x).sum all.length)) := by
    rw [hs]; simp only [hall.count, hall.sq, if_neg hcount0, Option.bind_some]
  refine ⟨?_, ?_, hav, hrm, ?_, ?_⟩
  · rw [hs]; exact hall.count
  · rw [hs]; exact hall.sum
  · rw [hs]; exact hall.max
  · intro hcon
    refine ⟨?_, ?_, hav, hrm, ?_, ?_⟩
    · rw [hs]; exact hall.count
    · rw [hs]; exact hall.sum
    · rw [hs]; exact hall.min hcon
    · rw [hs]; exact hall.max

/-- Pieces which meet all hypotheses. -/
example : ([2, 5] : List ℚ) ≠ [] ∧ (∀ l ∈ ([[1], [3, 0]] : List (List ℚ)), l ≠ []) ∧
    (∀ x ∈ ([2, 5, 1, 3, 0] : List ℚ), ∃ y ∈ ([2, 5] : List ℚ), x ≤ y) := by
  refine ⟨by simp, by simp, fun x hx => ⟨5, by simp, ?_⟩⟩
  simp only [List.mem_cons, List.not_mem_nil, or_false] at hx
  rcases hx with rfl | rfl | rfl | rfl | rfl <;> norm_num

end Dsp
