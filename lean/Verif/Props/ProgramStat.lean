import Verif.Spec.ProgramSafe
import Verif.Props.StatsSplit
import Verif.Props.Mapping
import Verif.Props.Refinement
/-
C72: the statistics and map_aggregate as statements of a program.
-/
namespace Dsp
open DspVec
variable {T E K : Type}

/-- Where the first smallest number stands. -/
theorem IsFirstMin.firstWith [LinearOrder K] {norm : E → K} {l : List E} {i : Nat} {m : E} (h : IsFirstMin norm l i m) :
    Dsp.firstWith (fun x => l.all fun y => decide (norm x ≤ norm y)) l = (i, .fin m) := by
  obtain ⟨h1, h2, h3⟩ := h
  obtain ⟨hi, hm⟩ := List.getElem?_eq_some_iff.1 h1
  have hf : l.findIdx (fun x => l.all fun y => decide (norm x ≤ norm y)) = i := by
    rw [List.findIdx_eq hi]
    refine ⟨by rw [hm]; simpa using h2, fun j hj => ?_⟩
    have := h3 j _ hj (List.getElem?_eq_getElem (by omega))
    simp only [List.all_eq_false, decide_eq_true_eq, not_le]
    exact ⟨m, List.mem_of_getElem? h1, this⟩
  unfold Dsp.firstWith
  rw [hf, h1]
  rfl

/-- Where the first largest number stands. -/
theorem IsFirstMax.firstWith [LinearOrder K] {norm : E → K} {l : List E} {i : Nat} {m : E} (h : IsFirstMax norm l i m) :
    Dsp.firstWith (fun x => l.all fun y => decide (norm y ≤ norm x)) l = (i, .fin m) := by
  obtain ⟨h1, h2, h3⟩ := h
  obtain ⟨hi, hm⟩ := List.getElem?_eq_some_iff.1 h1
  have hf : l.findIdx (fun x => l.all fun y => decide (norm y ≤ norm x)) = i := by
    rw [List.findIdx_eq hi]
    refine ⟨by rw [hm]; simpa using h2, fun j hj => ?_⟩
    have := h3 j _ hj (List.getElem?_eq_getElem (by omega))
    simp only [List.all_eq_false, decide_eq_true_eq, not_le]
    exact ⟨m, List.mem_of_getElem? h1, this⟩
  unfold Dsp.firstWith
  rw [hf, h1]
  rfl

/-- There is only one statistics which describes the data. -/
theorem Describes.summary [AddCommMonoid E] [Mul E] [LinearOrder K] {ops : StatOps E K} {l : List E} {s : Statistics E}
    (hne : l ≠ []) (h : Describes ops l s) : s = Dsp.summary ops.norm ops.divN ops.sqrt l := by
  obtain ⟨m, m1, m2⟩ := h.min
  obtain ⟨M, M1, M2⟩ := h.max
  obtain ⟨sum, count, average, rms, min, minIndex, max, maxIndex⟩ := s
  have h1 := h.count
  have h2 := h.sum
  have h3 := h.average
  have h4 := h.rms
  simp only at h1 h2 h3 h4 m1 m2 M1 M2
  simp only [Dsp.summary, m2.firstWith, M2.firstWith, if_neg hne]
  rw [h1, h2, h3, h4, m1, M1]

theorem isEveryKth_everyNth {k i : Nat} (hk : 0 < k) (l s : List E) (h : IsEveryKth k i l s) : s = everyNth k i l := by
  unfold everyNth
  refine (eq_filterMap_range s _ _ ?_ fun q => by rw [h q]).symm
  by_contra hlt
  have h1 : s[l.length]? ≠ none := by
    rw [List.getElem?_eq_getElem (by omega)]; simp
  apply h1
  rw [h, List.getElem?_eq_none]
  nlinarith

/-- Every part of the split contains numbers. -/
theorem everyNth_ne_nil {k i : Nat} (hi : i < k) (l : List E) (hl : k ≤ l.length) : everyNth k i l ≠ [] := by
  unfold everyNth
  intro h
  rw [List.filterMap_eq_nil_iff] at h
  have := h 0 (List.mem_range.2 (by omega))
  simp at this
  omega

theorem SplitDescribes.parts [AddCommMonoid E] [Mul E] [LinearOrder K] {ops : StatOps E K} {k : Nat} {a : List E}
    {rs : List (Statistics E)} (h : SplitDescribes ops k a rs) (hk : 0 < k) (hl : k ≤ a.length) :
    rs = (List.range k).map fun i => summary ops.norm ops.divN ops.sqrt (everyNth k i a) := by
  obtain ⟨h1, h2⟩ := h
  refine List.ext_getElem (by simp [h1]) fun i hi hi' => ?_
  obtain ⟨s, t, g1, g2, g3, -⟩ := h2 i (by omega)
  have hs := isEveryKth_everyNth hk a s g1
  subst hs
  have hne := everyNth_ne_nil (by omega : i < k) a hl
  have ht := (g3 hne).summary hne
  rw [List.getElem?_eq_getElem hi] at g2
  rw [List.getElem_map, List.getElem_range, ← ht]
  exact Option.some.inj g2

section
variable [Field T] [LinearOrder T] [FloorRing T]

omit [FloorRing T] in
theorem statistics_summary (sqrt : T → T) (st : MultiCoreSettings) (v : DspVec T) (a : List T) (ha : v.content = some a) (order : List Nat) :
    v.statistics (realStatOps sqrt) st order = some (realSummary sqrt a) := by
  by_cases hne : a = []
  · subst hne
    rw [C24_empty sqrt st v ha order]; rfl
  · obtain ⟨s, h1, h2⟩ := C24_real sqrt st v a ha hne order
    rw [h1, h2.summary hne]; rfl

omit [FloorRing T] in
theorem statisticsComplex_summary (norm : Cx T → T) (sqrt : Cx T → Cx T) (hn : IsNorm norm) (st : MultiCoreSettings) (v : DspVec T)
    (cs : List (Cx T)) (ha : v.content = some (fromComplex cs)) (order : List Nat) :
    v.statisticsComplex (complexStatOps norm sqrt) st order = some (complexSummary norm sqrt cs) := by
  by_cases hne : cs = []
  · subst hne
    rw [C24_empty_complex norm sqrt st v ha order]; rfl
  · obtain ⟨s, h1, h2⟩ := C24_complex norm sqrt hn st v cs ha hne order
    rw [h1, h2.summary hne]; rfl

omit [FloorRing T] in
theorem statisticsSplit_parts (sqrt : T → T) (st : MultiCoreSettings) (v : DspVec T) (a : List T) (ha : v.content = some a) (k : Nat)
    (hk : k ≤ 16 → k ≤ a.length) (order : List Nat) :
    v.statisticsSplit (realStatOps sqrt) st k order = some (splitInParts k (realSummary sqrt) a) := by
  unfold splitInParts
  obtain ⟨b1, b2⟩ := C26_bounds sqrt st v k order
  by_cases h16 : k ≤ 16
  · rw [if_pos h16]
    rcases Nat.eq_zero_or_pos k with h0 | h0
    · rw [b1 h0, h0]; rfl
    · have hl := hk h16
      obtain ⟨rs, h1, h2⟩ := C26_real sqrt st v a ha (by rintro rfl; simp at hl; omega) k h0 h16 order
      rw [h1, h2.parts h0 hl]; rfl
  · rw [if_neg h16, b2 (by omega)]

omit [FloorRing T] in
theorem statisticsSplitComplex_parts (norm : Cx T → T) (sqrt : Cx T → Cx T) (hn : IsNorm norm) (st : MultiCoreSettings) (v : DspVec T)
    (cs : List (Cx T)) (ha : v.content = some (fromComplex cs)) (k : Nat) (hk : k ≤ 16 → k ≤ cs.length) (order : List Nat) :
    v.statisticsSplitComplex (complexStatOps norm sqrt) st k order = some (splitInParts k (complexSummary norm sqrt) cs) := by
  unfold splitInParts
  obtain ⟨b1, b2⟩ := C26_bounds_complex norm sqrt st v k order
  by_cases h16 : k ≤ 16
  · rw [if_pos h16]
    rcases Nat.eq_zero_or_pos k with h0 | h0
    · rw [b1 h0, h0]; rfl
    · have hl := hk h16
      obtain ⟨rs, h1, h2⟩ := C26_complex norm sqrt hn st v cs ha (by rintro rfl; simp at hl; omega) k h0 h16 order
      rw [h1, h2.parts h0 hl]; rfl
  · rw [if_neg h16, b2 (by omega)]

omit [LinearOrder T] [FloorRing T] in
theorem aggregate_numbers {R : Type} {v : DspVec T} {s : Signal T} (h : v.Shows s) (map : T → Nat → R) (agg : R → R → R)
    (st : MultiCoreSettings) (hf : v.isComplex = false → v.allocLen = v.len) (order : List Nat) :
    v.mapAggregate st map agg order = some (s.numbers.aggregateReal fun l => leftFold agg (l.mapIdx fun i x => map x i)) := by
  cases hc : v.isComplex with
  | true =>
    rw [(C27_map_aggregate_number_space st map (fun (_ : Cx T) => map 0) agg v order).1 hc]
    obtain ⟨cs, hN⟩ := shows_complex h hc
    rw [hN]; rfl
  | false =>
    obtain ⟨xs, hN⟩ := shows_real h hc
    have hcont := h.content
    rw [hN] at hcont ⊢
    exact C27_map_aggregate_partial st map agg v hc xs hcont (hf hc) order

omit [LinearOrder T] [FloorRing T] in
theorem aggregateComplex_numbers {R : Type} {v : DspVec T} {s : Signal T} (h : v.Shows s) (map : Cx T → Nat → R) (agg : R → R → R)
    (st : MultiCoreSettings) (hf : v.isComplex = true → v.allocLen = v.len) (order : List Nat) :
    v.mapAggregateComplex st map agg order =
      some (s.numbers.aggregateComplex fun l => leftFold agg (l.mapIdx fun i x => map x i)) := by
  cases hc : v.isComplex with
  | false =>
    rw [(C27_map_aggregate_number_space st (fun (_ : T) => map 0) map agg v order).2 hc]
    obtain ⟨cs, hN⟩ := shows_real h hc
    rw [hN]; rfl
  | true =>
    obtain ⟨cs, hN⟩ := shows_complex h hc
    have hcont := h.content
    rw [hN] at hcont ⊢
    exact C27_map_aggregate_complex_partial st map agg v hc cs hcont (hf hc) order

omit [FloorRing T] in
theorem stat_step {v : DspVec T} {s : Signal T} (h : v.Shows s) (op : StatOp T) (hs : op.Safe v) (order : List Nat) :
    op.run v order = some (op.call.meaning s) := by
  have cx : v.isComplex = true → v.content = some (fromComplex s.numbers.asCx) ∧ v.points = s.numbers.asCx.length := by
    intro hc
    obtain ⟨cs, hN⟩ := shows_complex h hc
    have h1 := h.content
    have h2 := h.points
    rw [hN] at h1 h2 ⊢
    exact ⟨h1, h2⟩
  cases op with
  | real prec sqrt st =>
    simp only [StatOp.run, C28_statistics, ite_self, statistics_summary sqrt st v _ h.content order]; rfl
  | complex prec norm sqrt st =>
    simp only [StatOp.run, C28_statistics_complex, ite_self, statisticsComplex_summary norm sqrt hs.2 st v _ (cx hs.1).1 order]; rfl
  | splitReal prec sqrt st k =>
    simp only [StatOp.run, C28_statistics_split, ite_self,
      statisticsSplit_parts sqrt st v _ h.content k (fun hk => by rw [← h.len]; exact hs hk) order]; rfl
  | splitComplex prec norm sqrt st k =>
    simp only [StatOp.run, C28_statistics_split_complex, ite_self,
      statisticsSplitComplex_parts norm sqrt hs.2.1 st v _ (cx hs.1).1 k (fun hk => by rw [← (cx hs.1).2]; exact hs.2.2 hk) order]; rfl
  | aggregate map agg st => simp only [StatOp.run, aggregate_numbers h map agg st hs order]; rfl
  | aggregateComplex map agg st => simp only [StatOp.run, aggregateComplex_numbers h map agg st hs order]; rfl
  | aggregatePtr map agg st => simp only [StatOp.run, aggregate_numbers h map agg st hs order]; rfl
  | aggregatePtrComplex map agg st => simp only [StatOp.run, aggregateComplex_numbers h map agg st hs order]; rfl

end
end Dsp
