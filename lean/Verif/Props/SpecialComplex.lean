import Verif.Spec.SpecialComplex
import Verif.Props.Special
/-
C90: the statistics of complex vectors with infinities and NaN.
-/
namespace Dsp
open DspVec Statistics
variable {T : Type} [Field T] [LinearOrder T]
set_option linter.unusedSectionVars false

theorem addMinMax_complex (norm : Cx (Wide T) → Wide T) (sqrt : Cx (Wide T) → Cx (Wide T)) (s : Statistics (Cx (Wide T)))
    (x : Cx (Wide T)) (j : Nat) :
    ((addMinMax (wideComplexOps norm sqrt) s x j).min, (addMinMax (wideComplexOps norm sqrt) s x j).minIndex) =
      (if Ext.lt norm (.fin x) s.min then (.fin x, j) else (s.min, s.minIndex)) ∧
    ((addMinMax (wideComplexOps norm sqrt) s x j).max, (addMinMax (wideComplexOps norm sqrt) s x j).maxIndex) =
      (if Ext.lt norm s.max (.fin x) then (.fin x, j) else (s.max, s.maxIndex)) := by
  unfold addMinMax wideComplexOps
  simp only
  constructor <;> split <;> split <;> simp_all

theorem complex_minimum_snoc {norm : Cx (Wide T) → Wide T} (hi : norm ⟨.posInf, .posInf⟩ = .posInf) (sqrt : Cx (Wide T) → Cx (Wide T))
    {l : List (Cx (Wide T))} {s : Statistics (Cx (Wide T))} (x : Cx (Wide T)) (h : ComplexMinimumIs norm l s.min s.minIndex) :
    ComplexMinimumIs norm (l ++ [x]) (addMinMax (wideComplexOps norm sqrt) s x l.length).min
      (addMinMax (wideComplexOps norm sqrt) s x l.length).minIndex := by
  have e := (addMinMax_complex norm sqrt s x l.length).1
  rw [Prod.mk.injEq] at e
  rw [e.1, e.2]
  have em : (l ++ [x]).map norm = l.map norm ++ [norm x] := by simp
  have en : (l.map norm).length = l.length := List.length_map norm
  unfold ComplexMinimumIs
  rw [em]
  by_cases hl : ∃ y ∈ l, norm y < .posInf
  · obtain ⟨m, h1, h0, h2⟩ := h.1 hl
    have hn : ∃ y ∈ l ++ [x], norm y < .posInf := by
      obtain ⟨y, hy, hy'⟩ := hl; exact ⟨y, by simp [hy], hy'⟩
    refine ⟨fun _ => ?_, fun hh => absurd hn hh⟩
    rw [h1]
    by_cases hx : norm x < norm m
    · rw [if_pos ((Ext.lt_fin _ _ _).mpr hx)]
      have key : IsFirstLeast (l.map norm ++ [norm x]) (l.map norm).length (norm x) := by
        refine least_snoc_new (Wide.ne_nan_of_lt hx).1 fun y hy => ?_
        by_cases hy0 : y = .nan
        · exact .inl hy0
        · right
          by_contra hc
          exact h2.2.2.1 y hy (Wide.lt_of_not hy0 hc hx)
      rw [en] at key
      exact ⟨x, rfl, by simp, key⟩
    · rw [if_neg (fun hh => hx ((Ext.lt_fin _ _ _).mp hh))]
      refine ⟨m, rfl, ?_, least_snoc_keep h2 hx⟩
      rw [List.getElem?_append_left (List.getElem?_eq_some_iff.mp h0).1]; exact h0
  · obtain ⟨h1, h2⟩ := h.2 hl
    rw [h1, h2]
    by_cases hx : norm x < .posInf
    · rw [if_pos ((Ext.lt_fin _ _ _).mpr (by rw [hi]; exact hx))]
      have key : IsFirstLeast (l.map norm ++ [norm x]) (l.map norm).length (norm x) := by
        refine least_snoc_new (Wide.ne_nan_of_lt hx).1 fun y hy => ?_
        obtain ⟨c, hc, rfl⟩ := List.mem_map.mp hy
        rcases Wide.eq_posInf_of_not (fun hh => hl ⟨c, hc, hh⟩) with h | h
        · exact .inl h
        · rw [h]; exact .inr hx
      rw [en] at key
      exact ⟨fun _ => ⟨x, rfl, by simp, key⟩, fun hh => absurd ⟨x, by simp, hx⟩ hh⟩
    · rw [if_neg (fun hh => hx (by rw [← hi]; exact (Ext.lt_fin _ _ _).mp hh))]
      refine ⟨fun ⟨y, hy, hy'⟩ => ?_, fun _ => ⟨rfl, rfl⟩⟩
      rcases List.mem_append.mp hy with hy | hy
      · exact absurd ⟨y, hy, hy'⟩ hl
      · rw [List.mem_singleton.mp hy] at hy'; exact absurd hy' hx

theorem complex_maximum_snoc {norm : Cx (Wide T) → Wide T} (hz : norm ⟨.num 0, .num 0⟩ = .num 0) (sqrt : Cx (Wide T) → Cx (Wide T))
    {l : List (Cx (Wide T))} {s : Statistics (Cx (Wide T))} (x : Cx (Wide T)) (h : ComplexMaximumIs norm l s.max s.maxIndex) :
    ComplexMaximumIs norm (l ++ [x]) (addMinMax (wideComplexOps norm sqrt) s x l.length).max
      (addMinMax (wideComplexOps norm sqrt) s x l.length).maxIndex := by
  have e := (addMinMax_complex norm sqrt s x l.length).2
  rw [Prod.mk.injEq] at e
  rw [e.1, e.2]
  have em : (l ++ [x]).map norm = l.map norm ++ [norm x] := by simp
  have en : (l.map norm).length = l.length := List.length_map norm
  unfold ComplexMaximumIs
  rw [em]
  by_cases hl : ∃ y ∈ l, .num 0 < norm y
  · obtain ⟨m, h1, h0, h2⟩ := h.1 hl
    have hn : ∃ y ∈ l ++ [x], .num 0 < norm y := by
      obtain ⟨y, hy, hy'⟩ := hl; exact ⟨y, by simp [hy], hy'⟩
    refine ⟨fun _ => ?_, fun hh => absurd hn hh⟩
    rw [h1]
    by_cases hx : norm m < norm x
    · rw [if_pos ((Ext.lt_fin _ _ _).mpr hx)]
      have key : IsFirstGreatest (l.map norm ++ [norm x]) (l.map norm).length (norm x) := by
        refine greatest_snoc_new (Wide.ne_nan_of_lt hx).2 fun y hy => ?_
        by_cases hy0 : y = .nan
        · exact .inl hy0
        · exact .inr (Wide.lt_of_not hy0 (h2.2.2.1 y hy) hx)
      rw [en] at key
      exact ⟨x, rfl, by simp, key⟩
    · rw [if_neg (fun hh => hx ((Ext.lt_fin _ _ _).mp hh))]
      refine ⟨m, rfl, ?_, greatest_snoc_keep h2 hx⟩
      rw [List.getElem?_append_left (List.getElem?_eq_some_iff.mp h0).1]; exact h0
  · obtain ⟨h1, h2⟩ := h.2 hl
    rw [h1, h2]
    by_cases hx : .num 0 < norm x
    · rw [if_pos ((Ext.lt_fin _ _ _).mpr (by rw [hz]; exact hx))]
      have key : IsFirstGreatest (l.map norm ++ [norm x]) (l.map norm).length (norm x) := by
        refine greatest_snoc_new (Wide.ne_nan_of_lt hx).2 fun y hy => ?_
        obtain ⟨c, hc, rfl⟩ := List.mem_map.mp hy
        by_cases hy0 : norm c = .nan
        · exact .inl hy0
        · exact .inr (Wide.lt_of_not hy0 (fun hh => hl ⟨c, hc, hh⟩) hx)
      rw [en] at key
      exact ⟨fun _ => ⟨x, rfl, by simp, key⟩, fun hh => absurd ⟨x, by simp, hx⟩ hh⟩
    · rw [if_neg (fun hh => hx (by rw [← hz]; exact (Ext.lt_fin _ _ _).mp hh))]
      refine ⟨fun ⟨y, hy, hy'⟩ => ?_, fun _ => ⟨rfl, rfl⟩⟩
      rcases List.mem_append.mp hy with hy | hy
      · exact absurd ⟨y, hy, hy'⟩ hl
      · rw [List.mem_singleton.mp hy] at hy'; exact absurd hy' hx

/-- State of the loop over the complex data `l`. -/
structure ComplexAcc (norm : Cx (Wide T) → Wide T) (l : List (Cx (Wide T))) (s : Statistics (Cx (Wide T))) : Prop where
  count : s.count = l.length
  min : ComplexMinimumIs norm l s.min s.minIndex
  max : ComplexMaximumIs norm l s.max s.maxIndex

theorem ComplexAcc.empty (norm : Cx (Wide T) → Wide T) (sqrt : Cx (Wide T) → Cx (Wide T)) :
    ComplexAcc norm [] (Statistics.empty (wideComplexOps norm sqrt)) :=
  ⟨rfl, ⟨by simp, fun _ => ⟨rfl, rfl⟩⟩, ⟨by simp, fun _ => ⟨rfl, rfl⟩⟩⟩

theorem ComplexAcc.addMinMax {norm : Cx (Wide T) → Wide T} (hi : norm ⟨.posInf, .posInf⟩ = .posInf)
    (hz : norm ⟨.num 0, .num 0⟩ = .num 0) (sqrt : Cx (Wide T) → Cx (Wide T)) {l : List (Cx (Wide T))} {s : Statistics (Cx (Wide T))}
    (h : ComplexAcc norm l s) (s' : Statistics (Cx (Wide T))) (hs : s'.count = s.count + 1 ∧ s'.min = s.min ∧ s'.minIndex = s.minIndex ∧
      s'.max = s.max ∧ s'.maxIndex = s.maxIndex) (x : Cx (Wide T)) :
    ComplexAcc norm (l ++ [x]) (Statistics.addMinMax (wideComplexOps norm sqrt) s' x l.length) := by
  obtain ⟨h1, h2, h3, h4, h5⟩ := hs
  refine ⟨?_, complex_minimum_snoc hi sqrt x (by rw [h2, h3]; exact h.min), complex_maximum_snoc hz sqrt x (by rw [h4, h5]; exact h.max)⟩
  rw [(addMinMax_rest _ _ _ _).1, h1, h.count]; simp

theorem complex_special_addAll {norm : Cx (Wide T) → Wide T} (hi : norm ⟨.posInf, .posInf⟩ = .posInf)
    (hz : norm ⟨.num 0, .num 0⟩ = .num 0) (sqrt : Cx (Wide T) → Cx (Wide T)) (l : List (Cx (Wide T))) :
    ComplexAcc norm l (addAll (wideComplexOps norm sqrt) (Statistics.empty (wideComplexOps norm sqrt)) 0 l) ∧
    (addAll (wideComplexOps norm sqrt) (Statistics.empty (wideComplexOps norm sqrt)) 0 l).sum = l.sum ∧
    (addAll (wideComplexOps norm sqrt) (Statistics.empty (wideComplexOps norm sqrt)) 0 l).rms = some (l.map fun x => x * x).sum := by
  induction l using List.reverseRecOn with
  | nil => exact ⟨ComplexAcc.empty norm sqrt, rfl, rfl⟩
  | append_singleton l x ih =>
    obtain ⟨i1, i2, i3⟩ := ih
    rw [addAll_snoc, Nat.zero_add]
    unfold Statistics.add
    refine ⟨by refine i1.addMinMax hi hz sqrt _ ?_ x; exact ⟨rfl, rfl, rfl, rfl, rfl⟩, ?_, ?_⟩
    · rw [(addMinMax_rest _ _ _ _).2.1]; simp [i2]
    · rw [(addMinMax_rest _ _ _ _).2.2]; simp [i3]

theorem complex_special_addAllPrec {norm : Cx (Wide T) → Wide T} (hi : norm ⟨.posInf, .posInf⟩ = .posInf)
    (hz : norm ⟨.num 0, .num 0⟩ = .num 0) (sqrt : Cx (Wide T) → Cx (Wide T)) (l : List (Cx (Wide T))) :
    ∃ s c q r, (l.zipIdx 0).foldl (fun s x => addPrec (wideComplexOps norm sqrt) s x.1 x.2)
        (Statistics.empty (wideComplexOps norm sqrt), 0, 0) = (s, c, r) ∧
      ComplexAcc norm l s ∧ (s.sum, c) = l.foldl (kahanStep (· + ·) (· - ·)) (0, 0) ∧ s.rms = some q ∧
      (q, r) = (l.map fun x => x * x).foldl (kahanStep (· + ·) (· - ·)) (0, 0) := by
  induction l using List.reverseRecOn with
  | nil => exact ⟨_, _, 0, _, rfl, ComplexAcc.empty norm sqrt, rfl, rfl, rfl⟩
  | append_singleton l x ih =>
    obtain ⟨s, c, q, r, e, i1, i2, i3, i4⟩ := ih
    rw [List.zipIdx_append, List.foldl_append, e]
    simp only [List.zipIdx_cons, List.zipIdx_nil, List.foldl_cons, List.foldl_nil, Nat.zero_add]
    unfold addPrec
    simp only [i3]
    refine ⟨_, _, _, _, rfl, by refine i1.addMinMax hi hz sqrt _ ?_ x; exact ⟨rfl, rfl, rfl, rfl, rfl⟩, ?_, (addMinMax_rest _ _ _ _).2.2, ?_⟩
    · rw [(addMinMax_rest _ _ _ _).2.1, List.foldl_append, ← i2]; rfl
    · rw [List.map_append, List.foldl_append, ← i4]; rfl

theorem complex_lt_irrefl (norm : Cx (Wide T) → Wide T) (x : Ext (Cx (Wide T))) : Ext.lt norm x x = false := by
  cases x with
  | fin x => exact Bool.eq_false_iff.mpr fun h => Wide.lt_irrefl' (norm x) ((Ext.lt_fin norm _ _).mp h)
  | _ => rfl

theorem ComplexAcc.merge {norm : Cx (Wide T) → Wide T} (sqrt : Cx (Wide T) → Cx (Wide T)) {l : List (Cx (Wide T))}
    {s : Statistics (Cx (Wide T))} (h : ComplexAcc norm l s) (hl : l ≠ []) {q : Cx (Wide T)} (hq : s.rms = some q) :
    ComplexSpecialReport norm sqrt l s.sum q (Statistics.merge (wideComplexOps norm sqrt) [s]) := by
  obtain ⟨h1, h2, h3, h4, h5, h6, h7, h8⟩ := merge_one_of_irrefl (wideComplexOps norm sqrt) s (complex_lt_irrefl norm _) (complex_lt_irrefl norm _)
  have hc : l.length ≠ 0 := fun hh => hl (List.eq_nil_of_length_eq_zero hh)
  refine ⟨by rw [h1, h.count], h2, ?_, ?_, by rw [h3, h4]; exact h.min, by rw [h5, h6]; exact h.max⟩
  · rw [h7, h.count, if_neg hc]; rfl
  · rw [h8, hq, h.count]; simp only [Option.bind_some, if_neg hc]; rfl

theorem isSum_squares_re (cs : List (Cx (Wide T))) : IsSum (cs.map fun x => x.re * x.re - x.im * x.im) (cs.map fun x => x * x).sum.re := by
  rw [Cx.sum_re, List.map_map]; exact isSum_sum _

theorem isSum_squares_im (cs : List (Cx (Wide T))) : IsSum (cs.map fun x => x.re * x.im + x.im * x.re) (cs.map fun x => x * x).sum.im := by
  rw [Cx.sum_im, List.map_map]; exact isSum_sum _

/-- C90: the statistics of a non-empty complex vector with infinities and NaN: every element is counted, real and imaginary parts are added
    separately, elements whose norm is NaN are passed over for minimum and maximum. -/
theorem C90_statistics_complex (norm : Cx (Wide T) → Wide T) (hi : norm ⟨.posInf, .posInf⟩ = .posInf) (hz : norm ⟨.num 0, .num 0⟩ = .num 0)
    (sqrt : Cx (Wide T) → Cx (Wide T)) (st : MultiCoreSettings) (v : DspVec (Wide T)) (cs : List (Cx (Wide T)))
    (ha : v.content = some (fromComplex cs)) (hne : cs ≠ []) (order : List Nat) :
    ∃ s total squares, v.statisticsComplex (wideComplexOps norm sqrt) st order = some s ∧
      IsSum (cs.map Cx.re) total.re ∧ IsSum (cs.map Cx.im) total.im ∧
      IsSum (cs.map fun x => x.re * x.re - x.im * x.im) squares.re ∧ IsSum (cs.map fun x => x.re * x.im + x.im * x.re) squares.im ∧
      ComplexSpecialReport norm sqrt cs total squares s := by
  obtain ⟨h1, h2, h3⟩ := complex_special_addAll hi hz sqrt cs
  have hne' : fromComplex cs ≠ [] := by
    intro h; apply hne; have := congrArg List.length h; simp at this; exact this
  refine ⟨_, cs.sum, (cs.map fun x => x * x).sum, ?_, ?_, ?_, isSum_squares_re cs, isSum_squares_im cs, h2 ▸ h1.merge sqrt hne h3⟩
  · unfold statisticsComplex
    rw [ha]
    simp only [Option.bind_eq_bind, Option.bind_some, chunkedResults_small, if_neg hne', toComplex?_fromComplex, Option.map_some,
      List.mapM_cons, List.mapM_nil, id, Option.pure_def, Nat.zero_div]
  · rw [Cx.sum_re]; exact isSum_sum _
  · rw [Cx.sum_im]; exact isSum_sum _

/-- C90: what `statistics_prec` of a complex `f64` vector gives: the same minimum and maximum, but the sums of `sum_prec` and `sum_sq_prec`. -/
theorem C90_statistics_prec_complex (norm : Cx (Wide T) → Wide T) (hi : norm ⟨.posInf, .posInf⟩ = .posInf)
    (hz : norm ⟨.num 0, .num 0⟩ = .num 0) (sqrt : Cx (Wide T) → Cx (Wide T)) (st : MultiCoreSettings) (v : DspVec (Wide T))
    (cs : List (Cx (Wide T))) (ha : v.content = some (fromComplex cs)) (hne : cs ≠ []) (order : List Nat) :
    ∃ s total squares, v.statisticsPrecComplex (wideComplexOps norm sqrt) st order = some s ∧ v.sumPrecComplex st order = some total ∧
      v.sumSqPrecComplex st order = some squares ∧ ComplexSpecialReport norm sqrt cs total squares s := by
  have ha' : slice v.data.cells 0 v.validLen = some (fromComplex cs) := ha
  have hne' : fromComplex cs ≠ [] := by
    intro h; apply hne; have := congrArg List.length h; simp at this; exact this
  obtain ⟨s, c, q, r, e, i1, i2, i3, i4⟩ := complex_special_addAllPrec hi hz sqrt cs
  refine ⟨Statistics.merge (wideComplexOps norm sqrt) [s], s.sum, q, ?_, ?_, ?_, i1.merge sqrt hne i3⟩
  · unfold statisticsPrecComplex addAllPrec
    rw [ha]
    simp only [Option.bind_eq_bind, Option.bind_some, chunkedResults_small, if_neg hne', toComplex?_fromComplex, Option.map_some,
      List.mapM_cons, List.mapM_nil, id, Option.pure_def, Nat.zero_div, e]
  · unfold sumPrecComplex sumPrecComplexWith kahanSum
    simp only [ha', Option.bind_eq_bind, Option.bind_some, chunkedResults_small, if_neg hne', toComplex?_fromComplex, Option.map_some,
      List.mapM_cons, List.mapM_nil, id, Option.pure_def, ← i2]
    exact congrArg some (zero_add _)
  · unfold sumSqPrecComplex sumPrecComplexWith kahanSum
    simp only [ha', Option.bind_eq_bind, Option.bind_some, chunkedResults_small, if_neg hne', toComplex?_fromComplex, Option.map_some,
      List.mapM_cons, List.mapM_nil, id, Option.pure_def, ← i4]
    exact congrArg some (zero_add _)

/-! ### The compensated sums of complex vectors -/

theorem kahan_parts (l : List (Cx (Wide T))) (c : Cx (Wide T) × Cx (Wide T)) :
    (let r := l.foldl (kahanStep (· + ·) (· - ·)) c
     ((r.1.re, r.2.re), (r.1.im, r.2.im))) =
      ((l.map Cx.re).foldl (kahanStep (· + ·) (· - ·)) (c.1.re, c.2.re),
        (l.map Cx.im).foldl (kahanStep (· + ·) (· - ·)) (c.1.im, c.2.im)) := by
  induction l generalizing c with
  | nil => rfl
  | cons x l ih => exact ih (kahanStep (· + ·) (· - ·) c x)

theorem kahan_special (l : List (Wide T)) : ((∀ x ∈ l.dropLast, ∃ t, x = .num t) → IsSum l (kahanSum (· + ·) (· - ·) 0 l)) ∧
    ((∃ x ∈ l.dropLast, ∀ t, x ≠ .num t) → kahanSum (· + ·) (· - ·) 0 l = .nan) := by
  rcases List.eq_nil_or_concat' l with rfl | ⟨l, y, rfl⟩
  · exact ⟨fun _ => isSum_sum [], by simp⟩
  · rw [List.dropLast_concat]
    refine ⟨fun h => ?_, fun ⟨x, hx, hn⟩ => ?_⟩
    · obtain ⟨xs, rfl⟩ : ∃ xs : List T, l = xs.map .num := by
        induction l with
        | nil => exact ⟨[], rfl⟩
        | cons x l ih =>
          obtain ⟨xs, rfl⟩ := ih fun y hy => h y (by simp [hy])
          obtain ⟨t, rfl⟩ := h x (by simp)
          exact ⟨t :: xs, rfl⟩
      rw [kahan_last]; exact isSum_sum _
    · obtain ⟨l1, l2, rfl⟩ := List.append_of_mem hx
      rw [List.append_assoc, List.cons_append]
      exact kahan_broken l1 _ x hn (by simp)

/-- C90: what `sum_prec` of a complex `f64` vector gives in each of the two parts: the sum of the parts if no part before the last one is an
    infinity or NaN, and NaN otherwise. -/
theorem C90_sum_prec_complex (st : MultiCoreSettings) (v : DspVec (Wide T)) (cs : List (Cx (Wide T)))
    (ha : v.content = some (fromComplex cs)) (order : List Nat) (part : Cx (Wide T) → Wide T) (hpart : part = Cx.re ∨ part = Cx.im) :
    ∃ s, v.sumPrecComplex st order = some s ∧
      ((∀ x ∈ (cs.map part).dropLast, ∃ t, x = .num t) → IsSum (cs.map part) (part s)) ∧
      ((∃ x ∈ (cs.map part).dropLast, ∀ t, x ≠ .num t) → part s = .nan) := by
  have ha' : slice v.data.cells 0 v.validLen = some (fromComplex cs) := ha
  have hk := kahan_parts cs (0, 0)
  have hfold : part (kahanSum (· + ·) (· - ·) 0 cs) = kahanSum (· + ·) (· - ·) 0 (cs.map part) := by
    rcases hpart with rfl | rfl
    · exact congrArg (fun x => x.1.1) hk
    · exact congrArg (fun x => x.2.1) hk
  refine ⟨kahanSum (· + ·) (· - ·) 0 cs, ?_, ?_⟩
  · unfold sumPrecComplex sumPrecComplexWith
    by_cases hne : cs = []
    · subst hne
      simp only [ha', Option.bind_eq_bind, Option.bind_some, chunkedResults_small]
      rfl
    · have hne' : fromComplex cs ≠ [] := by
        intro h; apply hne; have := congrArg List.length h; simp at this; exact this
      simp only [ha', Option.bind_eq_bind, Option.bind_some, chunkedResults_small, if_neg hne', toComplex?_fromComplex, Option.map_some,
        List.mapM_cons, List.mapM_nil, id, Option.pure_def]
      exact congrArg some (zero_add _)
  · rw [hfold]; exact kahan_special _

/-! ### The norm of the code -/

theorem Wide.hypot_inf (root : T → T) (x : Cx (Wide T)) (h : x.re = .posInf ∨ x.re = .negInf ∨ x.im = .posInf ∨ x.im = .negInf) :
    Wide.hypot root x = .posInf := by
  obtain ⟨r, i⟩ := x
  unfold Wide.hypot
  rcases h with h | h | h | h <;> simp only at h <;> subst h
  · rfl
  · rfl
  · cases r <;> rfl
  · cases r <;> rfl

theorem Wide.hypot_nan_iff (root : T → T) (x : Cx (Wide T)) : Wide.hypot root x = .nan ↔
    (x.re = .nan ∨ x.im = .nan) ∧ x.re ≠ .posInf ∧ x.re ≠ .negInf ∧ x.im ≠ .posInf ∧ x.im ≠ .negInf := by
  obtain ⟨r, i⟩ := x
  unfold Wide.hypot
  cases r <;> cases i <;> simp

/-- C90: with the norm `hypot`: an element with an infinite part is the maximum, the first of them, also if its other part is NaN. -/
theorem C90_complex_maximum_infinite (root : T → T) (hroot : root 0 = 0) (sqrt : Cx (Wide T) → Cx (Wide T)) (st : MultiCoreSettings)
    (v : DspVec (Wide T)) (l r : List (Cx (Wide T))) (c : Cx (Wide T)) (ha : v.content = some (fromComplex (l ++ c :: r)))
    (hc : c.re = .posInf ∨ c.re = .negInf ∨ c.im = .posInf ∨ c.im = .negInf)
    (hl : ∀ x ∈ l, x.re ≠ .posInf ∧ x.re ≠ .negInf ∧ x.im ≠ .posInf ∧ x.im ≠ .negInf) (order : List Nat) :
    ∃ s, v.statisticsComplex (wideComplexOps (Wide.hypot root) sqrt) st order = some s ∧ s.max = .fin c ∧ s.maxIndex = l.length := by
  obtain ⟨s, t, q, h1, -, -, -, -, h2⟩ := C90_statistics_complex (Wide.hypot root) (Wide.hypot_inf root _ (.inl rfl))
    (by simp [Wide.hypot, hroot]) sqrt st v _ ha (by simp) order
  have hcn := Wide.hypot_inf root c hc
  have hlt : ∀ x : Wide T, ¬ .posInf < x := by
    intro x h
    have h' : Wide.lt .posInf x = true := h
    cases x <;> simp [Wide.lt] at h'
  obtain ⟨d, e1, e2, e3, e4, e5, e6⟩ := h2.max.1 ⟨c, by simp, by rw [hcn]; rfl⟩
  have hd : Wide.hypot root d = .posInf := by
    have := e5 (Wide.hypot root c) (List.mem_map.mpr ⟨c, by simp, rfl⟩)
    rw [hcn] at this
    cases hh : Wide.hypot root d with
    | posInf => rfl
    | nan => exact absurd hh e4
    | negInf => rw [hh] at this; exact absurd rfl this
    | num x => rw [hh] at this; exact absurd rfl this
  have hnot : ∀ x ∈ l, Wide.hypot root x ≠ .posInf := by
    intro x hx
    obtain ⟨a1, a2, a3, a4⟩ := hl x hx
    obtain ⟨r, i⟩ := x
    unfold Wide.hypot
    cases r <;> cases i <;> simp_all
  have hi1 : ¬ s.maxIndex < l.length := by
    intro hlt'
    rw [List.getElem?_append_left hlt'] at e2
    exact hnot d (List.mem_of_getElem? e2) hd
  have hi2 : ¬ l.length < s.maxIndex := by
    intro hlt'
    rcases e6 l.length (Wide.hypot root c) hlt' (by simp) with h | h
    · rw [hcn] at h; exact absurd h (by simp)
    · rw [hcn] at h; exact hlt _ h
  have hi : s.maxIndex = l.length := by omega
  refine ⟨s, h1, ?_, hi⟩
  rw [hi, List.getElem?_append_right (Nat.le_refl _), Nat.sub_self, List.getElem?_cons_zero] at e2
  rw [e1, Option.some.inj e2]

/-- C90 is violated by the index: complex data which begin with an element with the norm NaN, followed by NaN and zeros only, have the maximum
    zero at index 0, where a NaN stands; if there is no zero, the minimum is `inf + inf i`, which does not occur. -/
theorem C90_complex_index_violated (root : T → T) (hroot : root 0 = 0) (sqrt : Cx (Wide T) → Cx (Wide T)) (st : MultiCoreSettings)
    (v : DspVec (Wide T)) (c : Cx (Wide T)) (cs : List (Cx (Wide T))) (ha : v.content = some (fromComplex (c :: cs)))
    (hc : Wide.hypot root c = .nan) (hcs : ∀ x ∈ cs, Wide.hypot root x = .nan ∨ x = ⟨.num 0, .num 0⟩) (order : List Nat) :
    ∃ s, v.statisticsComplex (wideComplexOps (Wide.hypot root) sqrt) st order = some s ∧ s.max = .fin ⟨.num 0, .num 0⟩ ∧ s.maxIndex = 0 ∧
      ((∀ x ∈ cs, Wide.hypot root x = .nan) → s.min = .fin ⟨.posInf, .posInf⟩ ∧ s.minIndex = 0) := by
  have hz : Wide.hypot root ⟨.num 0, .num 0⟩ = .num 0 := by simp [Wide.hypot, hroot]
  obtain ⟨s, t, q, h1, -, -, -, -, h2⟩ := C90_statistics_complex (Wide.hypot root) (Wide.hypot_inf root _ (.inl rfl)) hz sqrt st v _ ha
    (by simp) order
  have e := h2.max.2 (by
    rintro ⟨y, hy, hy'⟩
    rcases List.mem_cons.mp hy with rfl | hy
    · exact (Wide.ne_nan_of_lt hy').2 hc
    · rcases hcs y hy with h | rfl
      · exact (Wide.ne_nan_of_lt hy').2 h
      · rw [hz] at hy'; exact Wide.lt_irrefl' _ hy')
  refine ⟨s, h1, e.1, e.2, fun hn => h2.min.2 ?_⟩
  rintro ⟨y, hy, hy'⟩
  rcases List.mem_cons.mp hy with rfl | hy
  · exact (Wide.ne_nan_of_lt hy').1 hc
  · exact (Wide.ne_nan_of_lt hy').1 (hn y hy)

/-! ### Examples -/

/-- The points `NaN + i`, `3 + 4 i`, `1 - inf i`, `NaN + inf i` and `2`, with memory behind them. -/
def specialComplexVec : DspVec (Wide ℚ) :=
  ⟨⟨.vec, [.nan, .num 1, .num 3, .num 4, .num 1, .negInf, .nan, .posInf, .num 2, .num 0, .nan]⟩, some (.num 1), .time, .complex, 10⟩

/-- The parts of a reported minimum or maximum. -/
def extParts (x : Ext (Cx (Wide ℚ))) : Option (Wide ℚ × Wide ℚ) :=
  match x with
  | .fin c => some (c.re, c.im)
  | _ => none

/-- The hypotheses of the theorems: the norm is `hypot` (with the square root replaced by a monotone function). -/
example : specialComplexVec.content =
      some (fromComplex ([⟨.nan, .num 1⟩, ⟨.num 3, .num 4⟩] ++ ⟨.num 1, .negInf⟩ :: [⟨.nan, .posInf⟩, ⟨.num 2, .num 0⟩])) ∧
    Wide.hypot (fun x : ℚ => x) ⟨.posInf, .posInf⟩ = .posInf ∧ Wide.hypot (fun x : ℚ => x) ⟨.num 0, .num 0⟩ = .num 0 ∧
    (specialComplexVec.statisticsComplex (wideComplexOps (Wide.hypot fun x => x) fun x => x) (.withThresholds 1 0 0 0 0) []).map
      (fun s => (s.count, s.minIndex, s.maxIndex)) = some (5, 4, 2) ∧
    (specialComplexVec.statisticsComplex (wideComplexOps (Wide.hypot fun x => x) fun x => x) (.withThresholds 1 0 0 0 0) []).map
      (fun s => extParts s.min) = some (some (.num 2, .num 0)) ∧
    (specialComplexVec.statisticsComplex (wideComplexOps (Wide.hypot fun x => x) fun x => x) (.withThresholds 1 0 0 0 0) []).map
      (fun s => extParts s.max) = some (some (.num 1, .negInf)) := by
  refine ⟨by decide, by decide +kernel, by decide +kernel, by decide +kernel, by decide +kernel, by decide +kernel⟩

example : (⟨⟨.vec, [.nan, .num 2, .num 0, .num 0]⟩, some (.num 1), .time, .complex, 4⟩ : DspVec (Wide ℚ)).content =
      some (fromComplex (⟨.nan, .num 2⟩ :: [⟨.num 0, .num 0⟩])) ∧ Wide.hypot (fun x : ℚ => x) ⟨.nan, .num 2⟩ = .nan := by
  refine ⟨by decide, by decide +kernel⟩

end Dsp
