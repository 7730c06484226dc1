import Verif.Props.Special
import Verif.Props.StatsRounding
/-
C90: split statistics of vectors with infinities and NaN.
-/
namespace Dsp
open DspVec Statistics
variable {T : Type} [Field T] [LinearOrder T]
set_option linter.unusedSectionVars false

/-- C90: each column of `statistics_split(k)` reports the points `i`, `i + k`, ... as `C90_statistics` says: a special value has no influence
    on the other columns. -/
theorem C90_statistics_split (sqrt : Wide T → Wide T) (st : MultiCoreSettings) (v : DspVec (Wide T)) (a : List (Wide T))
    (ha : v.content = some a) (hne : a ≠ []) (k : Nat) (hk : 0 < k) (hk16 : k ≤ 16) (order : List Nat) :
    ∃ rs, v.statisticsSplit (wideStatOps sqrt) st k order = some (.ok rs) ∧ rs.length = k ∧
      ∀ i < k, ∀ s, IsEveryKth k i a s → s ≠ [] → ∃ r total squares, rs[i]? = some r ∧ IsSum s total ∧ IsSum (s.map fun x => x * x) squares ∧
        SpecialReport sqrt s total squares r := by
  obtain ⟨rs, h1, h2, h3⟩ := splitLoop_raw (wideStatOps sqrt) k hk a
  refine ⟨rs.map fun s => Statistics.merge (wideStatOps sqrt) [s], ?_, by simp [h2], fun i hi s hs hs0 => ?_⟩
  · unfold statisticsSplit
    rw [if_neg (by omega), if_neg (by unfold statsVecCapacity; omega), ha]
    simp only [Option.bind_eq_bind, Option.bind_some, chunkedResults_small, if_neg hne, h1,
      List.mapM_cons, List.mapM_nil, id, Option.pure_def, mergeCols_one]
  · obtain ⟨s', e1, e2⟩ := h3 i hi
    obtain rfl := isEveryKth_unique e1 hs
    obtain ⟨g1, g2, g3⟩ := special_addAll sqrt s'
    refine ⟨_, _, _, by rw [List.getElem?_map, e2]; rfl, isSum_sum s', isSum_sum _, g2 ▸ g1.merge sqrt hs0 g3⟩

/-! ### The shared compensation of `statistics_split_prec` -/

/-- One round of the loop. -/
def splitPrecStep (ops : StatOps (Wide T) (Wide T)) (k : Nat) (st : List (Statistics (Wide T)) × Wide T × Wide T) (x : Wide T × Nat) :
    Option (List (Statistics (Wide T)) × Wide T × Wide T) :=
  if k = 0 then none
  else do
    let s ← get st.1 (x.2 % k)
    let n := addPrec ops (s, st.2.1, st.2.2) x.1 (x.2 / k)
    let rs ← put st.1 (x.2 % k) n.1
    some (rs, n.2.1, n.2.2)

theorem splitPrecStep_some (ops : StatOps (Wide T) (Wide T)) {k : Nat} (hk : 0 < k) (rs : List (Statistics (Wide T))) (hrs : rs.length = k)
    (c q : Wide T) (x : Wide T × Nat) :
    ∃ s n, rs[x.2 % k]? = some s ∧ n = addPrec ops (s, c, q) x.1 (x.2 / k) ∧
      splitPrecStep ops k (rs, c, q) x = some (rs.set (x.2 % k) n.1, n.2.1, n.2.2) := by
  have hm : x.2 % k < k := Nat.mod_lt _ hk
  obtain ⟨s, hs⟩ : ∃ s, rs[x.2 % k]? = some s := ⟨_, List.getElem?_eq_getElem (by omega)⟩
  refine ⟨s, _, hs, rfl, ?_⟩
  unfold splitPrecStep
  simp only [if_neg (show k ≠ 0 by omega), get, hs, put, hrs, if_pos hm, Option.bind_eq_bind, Option.bind_some]

/-- After a special value the compensation is NaN. -/
theorem compensation_nan (s c x : Wide T) (hx : ∀ t, x ≠ .num t) : s + (x - c) - s - (x - c) = .nan := by
  rw [Wide.sub_def, Wide.sub_def, Wide.sub_def]
  change Wide.add (Wide.add (Wide.add s (Wide.add x (Wide.neg c))) (Wide.neg s)) (Wide.neg (Wide.add x (Wide.neg c))) = .nan
  cases x with
  | num t => exact absurd rfl (hx t)
  | _ => cases c <;> cases s <;> simp [Wide.add, Wide.neg]

/-- The numbers which are read before the loop reaches `j`. -/
theorem splitPrec_runs (ops : StatOps (Wide T) (Wide T)) {k : Nat} (hk : 0 < k) :
    ∀ (l : List (Wide T)) (j : Nat) (rs : List (Statistics (Wide T))) (c q : Wide T), rs.length = k →
      ∃ rs' c' q', (l.zipIdx j).foldlM (splitPrecStep ops k) (rs, c, q) = some (rs', c', q') ∧ rs'.length = k := by
  intro l
  induction l with
  | nil => intro j rs c q h; exact ⟨rs, c, q, rfl, h⟩
  | cons x l ih =>
    intro j rs c q h
    obtain ⟨s, n, -, -, h3⟩ := splitPrecStep_some ops hk rs h c q (x, j)
    rw [List.zipIdx_cons, List.foldlM_cons, h3]
    exact ih _ _ _ _ (by simp [h])

/-- With the compensation NaN every column which is reached gets the sum NaN. -/
theorem splitPrec_poison (ops : StatOps (Wide T) (Wide T)) {k : Nat} (hk : 0 < k) :
    ∀ (l : List (Wide T)) (j : Nat) (rs : List (Statistics (Wide T))) (q : Wide T), rs.length = k →
      ∃ rs' q', (l.zipIdx j).foldlM (splitPrecStep ops k) (rs, .nan, q) = some (rs', .nan, q') ∧ rs'.length = k ∧
        ∀ i s, rs'[i]? = some s → ((∃ s0, rs[i]? = some s0 ∧ s0.sum = .nan) ∨ ∃ p < l.length, (j + p) % k = i) → s.sum = .nan := by
  intro l
  induction l with
  | nil =>
    intro j rs q h
    refine ⟨rs, q, rfl, h, fun i s hs hor => ?_⟩
    rcases hor with ⟨s0, h0, h1⟩ | ⟨p, hp, -⟩
    · rw [hs] at h0; rw [Option.some.inj h0]; exact h1
    · exact absurd hp (by simp)
  | cons x l ih =>
    intro j rs q h
    obtain ⟨s0, n, h1, h2, h3⟩ := splitPrecStep_some ops hk rs h .nan q (x, j)
    obtain ⟨e1, e2⟩ := addPrec_sum ops s0 (.nan, q) x (j / k)
    have hn1 : n.1.sum = .nan := by rw [h2]; simpa using e1
    have hn2 : n.2.1 = .nan := by rw [h2]; simpa using e2
    rw [List.zipIdx_cons, List.foldlM_cons, h3, hn2]
    obtain ⟨rs', q', g1, g2, g3⟩ := ih (j + 1) (rs.set (j % k) n.1) n.2.2 (by simp [h])
    have hm : j % k < k := Nat.mod_lt _ hk
    refine ⟨rs', q', g1, g2, fun i s hs hor => g3 i s hs ?_⟩
    by_cases hi : i = j % k
    · subst hi
      exact .inl ⟨n.1, by rw [List.getElem?_set_self (by omega)], hn1⟩
    · rcases hor with ⟨s1, h1', h2'⟩ | ⟨p, hp, hpi⟩
      · exact .inl ⟨s1, by rw [List.getElem?_set_ne (by omega)]; exact h1', h2'⟩
      · cases p with
        | zero => exact absurd (by simpa using hpi.symm) hi
        | succ p => exact .inr ⟨p, by simpa using hp, by rw [← hpi]; congr 1; omega⟩

/-- C90 is violated by `statistics_split_prec` of `f64` vectors: all columns share one compensation, thus after an infinity or NaN in one
    column the sum and the average of every column with a later point are NaN, also of the columns with numbers only. -/
theorem C90_split_prec_violated (sqrt : Wide T → Wide T) (st : MultiCoreSettings) (v : DspVec (Wide T)) (l r : List (Wide T)) (x : Wide T)
    (hx : ∀ t, x ≠ .num t) (ha : v.content = some (l ++ x :: r)) (k : Nat) (hk : 0 < k) (hk16 : k ≤ 16) (order : List Nat) :
    ∃ rs, v.statisticsSplitPrec (wideStatOps sqrt) st k order = some (.ok rs) ∧ rs.length = k ∧
      ∀ p < r.length, ∃ s, rs[(l.length + 1 + p) % k]? = some s ∧ s.sum = .nan ∧ s.average ∈ [some .nan, none] := by
  let ops := wideStatOps sqrt
  have hne : l ++ x :: r ≠ [] := by simp
  obtain ⟨rs1, c1, q1, f1, f2⟩ := splitPrec_runs ops hk l 0 (List.replicate k (Statistics.empty ops)) 0 0 (by simp)
  obtain ⟨s0, n, g1, g2, g3⟩ := splitPrecStep_some ops hk rs1 f2 c1 q1 (x, l.length)
  have hn : n.2.1 = .nan := by
    rw [g2, (addPrec_sum ops s0 (c1, q1) x (l.length / k)).2]
    exact compensation_nan s0.sum c1 x hx
  obtain ⟨rs2, q2, p1, p2, p3⟩ := splitPrec_poison ops hk r (l.length + 1) (rs1.set (l.length % k) n.1) n.2.2 (by simp [f2])
  have hrun : splitLoopPrec ops k 0 (List.replicate k (Statistics.empty ops)) (l ++ x :: r) = some rs2 := by
    have : ((l ++ x :: r).zipIdx 0).foldlM (splitPrecStep ops k) (List.replicate k (Statistics.empty ops), 0, 0) = some (rs2, .nan, q2) := by
      rw [List.zipIdx_append, List.foldlM_append, f1]
      simp only [Option.bind_eq_bind, Option.bind_some, List.zipIdx_cons, List.foldlM_cons, Nat.zero_add, g3, hn]
      exact p1
    unfold splitLoopPrec
    change (((l ++ x :: r).zipIdx 0).foldlM (splitPrecStep ops k) (List.replicate k (Statistics.empty ops), 0, 0)).bind _ = _
    rw [this]; rfl
  refine ⟨rs2.map fun s => Statistics.merge ops [s], ?_, by simp [p2], fun p hp => ?_⟩
  · unfold statisticsSplitPrec
    rw [if_neg (by omega), if_neg (by unfold statsVecCapacity; omega), ha]
    simp only [Option.bind_eq_bind, Option.bind_some, chunkedResults_small, if_neg hne]
    rw [show splitLoopPrec (wideStatOps sqrt) k 0 _ _ = _ from hrun]
    simp only [List.mapM_cons, List.mapM_nil, id, Option.pure_def, Option.bind_eq_bind, Option.bind_some, mergeCols_one]
    rfl
  · have hm : (l.length + 1 + p) % k < k := Nat.mod_lt _ hk
    obtain ⟨s, hs⟩ : ∃ s, rs2[(l.length + 1 + p) % k]? = some s := ⟨_, List.getElem?_eq_getElem (by omega)⟩
    have hsum := p3 _ s hs (.inr ⟨p, hp, rfl⟩)
    obtain ⟨m1, m2, -, -, -, -, m7, -⟩ := merge_one_of_irrefl ops s (special_lt_irrefl _) (special_lt_irrefl _)
    refine ⟨Statistics.merge ops [s], by rw [List.getElem?_map, hs]; rfl, by rw [m2, hsum], ?_⟩
    rw [m7, hsum]
    by_cases hc : s.count = 0
    · rw [if_pos hc]; simp
    · rw [if_neg hc]
      have : ops.divN (.nan : Wide T) s.count = .nan := rfl
      rw [this]; simp

/-- An infinity in the first column, numbers in the second one: its sum is 5 for `statistics_split` and NaN for `statistics_split_prec`. -/
example :
    let v : DspVec (Wide ℚ) := ⟨⟨.vec, [.num 1, .num 2, .posInf, .num 3]⟩, some (.num 1), .time, .real, 4⟩
    v.content = some ([.num 1, .num 2] ++ .posInf :: [.num 3]) ∧ IsEveryKth 2 1 [.num 1, .num 2, .posInf, .num 3] [(.num 2 : Wide ℚ), .num 3] ∧
      ((v.statisticsSplit (wideStatOps fun x => x) (.withThresholds 1 0 0 0 0) 2 []).map fun r => r.toOption.map fun l => l.map (·.sum)) =
        some (some [.posInf, .num 5]) ∧
      ((v.statisticsSplitPrec (wideStatOps fun x => x) (.withThresholds 1 0 0 0 0) 2 []).map fun r => r.toOption.map fun l => l.map (·.sum)) =
        some (some [.posInf, .nan]) := by
  refine ⟨by decide, fun q => ?_, by decide +kernel, by decide +kernel⟩
  match q with
  | 0 => rfl
  | 1 => rfl
  | q + 2 => rw [List.getElem?_eq_none (by simp), List.getElem?_eq_none (by simp; omega)]

end Dsp
