import Verif.Props.Stats
/-
C26: statistics_split.
-/
namespace Dsp
open DspVec Statistics
variable {T E K : Type}

/-- `rs` holds the accumulated statistics of the `k` sub sequences of `l`. -/
def Buckets [AddCommMonoid E] [Mul E] [LinearOrder K] (ops : StatOps E K) (k : Nat) (l : List E)
    (rs : List (Statistics E)) : Prop :=
  rs.length = k ∧ ∀ i, i < k → ∃ s t, IsEveryKth k i l s ∧ rs[i]? = some t ∧ Acc ops 0 s t

theorem isEveryKth_length {k n i : Nat} {l s : List E} (hk : 0 < k) (hn : n = l.length)
    (hi : i = n % k) (h : IsEveryKth k i l s) : s.length = n / k := by
  have hdm : k * (n / k) + n % k = n := Nat.div_add_mod n k
  apply Nat.le_antisymm
  · have := h (n / k)
    rw [hi, show n % k + n / k * k = n by rw [Nat.mul_comm]; omega] at this
    rw [List.getElem?_eq_none (by omega : l.length ≤ n)] at this
    exact List.getElem?_eq_none_iff.mp this
  · by_contra hlt
    have hlt : s.length < n / k := by omega
    have := h s.length
    rw [List.getElem?_eq_none (Nat.le_refl _)] at this
    have hlen := List.getElem?_eq_none_iff.mp this.symm
    have : (s.length + 1) * k ≤ n / k * k := Nat.mul_le_mul_right k hlt
    have h2 : n % k < k := Nat.mod_lt n hk
    rw [Nat.mul_comm (n / k) k] at this
    rw [Nat.add_mul] at this
    omega

theorem isEveryKth_snoc {k i : Nat} {l s : List E} (x : E) (hk : 0 < k) (hi : i < k)
    (h : IsEveryKth k i l s) :
    (i = l.length % k → IsEveryKth k i (l ++ [x]) (s ++ [x])) ∧
    (i ≠ l.length % k → IsEveryKth k i (l ++ [x]) s) := by
  constructor
  · intro he q
    have hs := isEveryKth_length hk rfl he h
    have hdm : k * (l.length / k) + l.length % k = l.length := Nat.div_add_mod l.length k
    rcases Nat.lt_trichotomy q s.length with hq | hq | hq
    · rw [List.getElem?_append_left hq, h q]
      have hsome : (l[i + q * k]?).isSome := by
        rw [← h q, List.getElem?_eq_getElem hq]; rfl
      have : i + q * k < l.length := by
        by_contra hc
        rw [List.getElem?_eq_none (by omega)] at hsome; simp at hsome
      rw [List.getElem?_append_left this]
    · subst hq
      have : i + s.length * k = l.length := by rw [hs, he, Nat.mul_comm]; omega
      rw [this]; simp
    · rw [List.getElem?_eq_none (by simp; omega), List.getElem?_eq_none]
      have : (s.length + 1) * k ≤ q * k := Nat.mul_le_mul_right k hq
      rw [Nat.add_mul, hs, Nat.mul_comm (l.length / k)] at this
      simp only [List.length_append, List.length_singleton]
      omega
  · intro he q
    rw [h q]
    have : i + q * k ≠ l.length := by
      intro hh; apply he; rw [← hh, Nat.add_mul_mod_self_right, Nat.mod_eq_of_lt hi]
    by_cases hlt : i + q * k < l.length
    · rw [List.getElem?_append_left hlt]
    · rw [List.getElem?_eq_none (by omega), List.getElem?_eq_none (by simp; omega)]

theorem splitLoop_buckets [AddCommMonoid E] [Mul E] [LinearOrder K] (ops : StatOps E K)
    (hops : InitOk ops) (k : Nat) (hk : 0 < k) (l : List E) :
    ∃ rs, splitLoop ops k 0 (List.replicate k (Statistics.empty ops)) l = some rs ∧
      Buckets ops k l rs := by
  induction l using List.reverseRecOn with
  | nil =>
    refine ⟨_, rfl, by simp, fun i hi => ⟨[], Statistics.empty ops, ?_, ?_, Acc.empty ops 0⟩⟩
    · intro q; simp
    · simp [hi]
  | append_singleton l x ih =>
    obtain ⟨rs, h1, h2, h3⟩ := ih
    have hm : l.length % k < k := Nat.mod_lt _ hk
    obtain ⟨s, t, g1, g2, g3⟩ := h3 _ hm
    have hidx := isEveryKth_length hk rfl rfl g1
    refine ⟨rs.set (l.length % k) (Statistics.add ops t x (l.length / k)), ?_, by simp [h2], ?_⟩
    · unfold splitLoop at h1 ⊢
      rw [List.zipIdx_append, List.foldlM_append, h1]
      have hk0 : k ≠ 0 := by omega
      simp only [List.zipIdx_cons, List.zipIdx_nil, Nat.zero_add, Option.bind_eq_bind, Option.bind_some,
        List.foldlM_cons, List.foldlM_nil, if_neg hk0, get, g2, put, h2, if_pos hm, Option.pure_def]
    · intro i hi
      by_cases he : i = l.length % k
      · subst he
        refine ⟨s ++ [x], Statistics.add ops t x (l.length / k), (isEveryKth_snoc x hk hm g1).1 rfl, ?_, ?_⟩
        · exact List.getElem?_set_self (by omega)
        · have := g3.add hops (fun h => absurd rfl h) x
          rw [Nat.zero_add, hidx] at this
          exact this
      · obtain ⟨s', t', e1, e2, e3⟩ := h3 i hi
        exact ⟨s', t', (isEveryKth_snoc x hk hi e1).2 he,
          by rw [List.getElem?_set_ne (by omega)]; exact e2, e3⟩

theorem mergeCols_one [Add E] [Mul E] [Zero E] [LT K] [DecidableLT K] (ops : StatOps E K)
    (rs : List (Statistics E)) :
    mergeCols ops [rs] = some (rs.map fun s => Statistics.merge ops [s]) := by
  unfold mergeCols
  simp only
  have : ∀ (n : Nat), n ≤ rs.length →
      (List.range n).mapM (fun i => do
        let col ← [rs].mapM fun s => get s i
        some (Statistics.merge ops col)) =
      some ((rs.take n).map fun s => Statistics.merge ops [s]) := by
    intro n
    induction n with
    | zero => intro _; rfl
    | succ n ih =>
      intro hn
      rw [List.range_succ, List.mapM_append, ih (by omega)]
      have : rs[n]? = some rs[n] := List.getElem?_eq_getElem (by omega)
      simp only [get, List.mapM_cons, List.mapM_nil, Option.pure_def, Option.bind_eq_bind,
        Option.bind_some, this]
      rw [List.take_add_one, this]
      simp only [Option.toList_some, List.map_append, List.map_cons, List.map_nil]
  rw [this rs.length (Nat.le_refl _), List.take_length]

/-- Specification of C26: `rs` are the statistics of the `k` sub sequences `i, i + k, i + 2k, ...` of
    `a`; an empty sub sequence has the count 0 and no average. -/
def SplitDescribes [AddCommMonoid E] [Mul E] [LinearOrder K] (ops : StatOps E K) (k : Nat)
    (a : List E) (rs : List (Statistics E)) : Prop :=
  rs.length = k ∧ ∀ i, i < k → ∃ s t, IsEveryKth k i a s ∧ rs[i]? = some t ∧
    (s ≠ [] → Describes ops s t) ∧ (s = [] → t.count = 0 ∧ t.sum = 0 ∧ t.average = none ∧ t.rms = none)

theorem Buckets.split [AddCommMonoid E] [Mul E] [LinearOrder K] {ops : StatOps E K} {k : Nat}
    {a : List E} {rs : List (Statistics E)} (h : Buckets ops k a rs) :
    SplitDescribes ops k a (rs.map fun s => Statistics.merge ops [s]) := by
  obtain ⟨h1, h2⟩ := h
  refine ⟨by simp [h1], fun i hi => ?_⟩
  obtain ⟨s, t, g1, g2, g3⟩ := h2 i hi
  refine ⟨s, Statistics.merge ops [t], g1, by simp [g2], fun hs => g3.describes hs, ?_⟩
  rintro rfl
  obtain ⟨f1, f2, -, -, -, -, f3, f4⟩ := merge_one_fields ops t
  have hc : t.count = 0 := g3.count
  refine ⟨by rw [f1, hc], by rw [f2, g3.sum]; rfl, by rw [f3, if_pos hc], ?_⟩
  rw [f4, g3.sq]; simp [hc]

/-- C26: `statistics_split(k)` of a non-empty real vector, for `1 ≤ k ≤ 16`. -/
theorem C26_real [Field T] [LinearOrder T] (sqrt : T → T) (st : MultiCoreSettings)
    (v : DspVec T) (a : List T) (ha : v.content = some a) (hne : a ≠ []) (k : Nat) (hk : 0 < k)
    (hk16 : k ≤ 16) (order : List Nat) :
    ∃ rs, v.statisticsSplit (realStatOps sqrt) st k order = some (.ok rs) ∧
      SplitDescribes (realStatOps sqrt) k a rs := by
  obtain ⟨rs, h1, h2⟩ := splitLoop_buckets (realStatOps sqrt) (realStatOps_ok sqrt) k hk a
  refine ⟨_, ?_, h2.split⟩
  unfold statisticsSplit
  rw [if_neg (by omega), if_neg (by unfold statsVecCapacity; omega), ha]
  simp only [Option.bind_eq_bind, Option.bind_some, chunkedResults_small, if_neg hne, h1,
    List.mapM_cons, List.mapM_nil, id, Option.pure_def, mergeCols_one]

/-- C26 for complex vectors. -/
theorem C26_complex [Field T] [LinearOrder K] (norm : Cx T → K) (sqrt : Cx T → Cx T)
    (hnorm : ∀ x, norm 0 ≤ norm x ∧ (norm x = norm 0 → x = 0)) (st : MultiCoreSettings)
    (v : DspVec T) (cs : List (Cx T)) (ha : v.content = some (fromComplex cs)) (hne : cs ≠ [])
    (k : Nat) (hk : 0 < k) (hk16 : k ≤ 16) (order : List Nat) :
    ∃ rs, v.statisticsSplitComplex (complexStatOps norm sqrt) st k order = some (.ok rs) ∧
      SplitDescribes (complexStatOps norm sqrt) k cs rs := by
  obtain ⟨rs, h1, h2⟩ := splitLoop_buckets (complexStatOps norm sqrt)
    (complexStatOps_ok norm sqrt hnorm) k hk cs
  have hne' : fromComplex cs ≠ [] := by
    intro h; apply hne; have := congrArg List.length h; simp at this; exact this
  refine ⟨_, ?_, h2.split⟩
  unfold statisticsSplitComplex
  rw [if_neg (by omega), if_neg (by unfold statsVecCapacity; omega), ha]
  simp only [Option.bind_eq_bind, Option.bind_some, chunkedResults_small, if_neg hne', h1,
    List.mapM_cons, List.mapM_nil, id, Option.pure_def, mergeCols_one, toComplex?_fromComplex,
    Nat.zero_div]

/-- C26: `k = 0` and `k > 16`, for all vectors. -/
theorem C26_bounds [Field T] [LinearOrder T] (sqrt : T → T) (st : MultiCoreSettings) (v : DspVec T)
    (k : Nat) (order : List Nat) :
    (k = 0 → v.statisticsSplit (realStatOps sqrt) st k order = some (.ok [])) ∧
    (16 < k → v.statisticsSplit (realStatOps sqrt) st k order =
      some (.error .invalidArgumentLength)) := by
  unfold statisticsSplit statsVecCapacity
  constructor
  · intro h; rw [if_pos h]
  · intro h; rw [if_neg (by omega), if_pos h]

/-- C26: the same bounds for complex vectors. -/
theorem C26_bounds_complex [Field T] [LinearOrder K] (norm : Cx T → K) (sqrt : Cx T → Cx T)
    (st : MultiCoreSettings) (v : DspVec T) (k : Nat) (order : List Nat) :
    (k = 0 → v.statisticsSplitComplex (complexStatOps norm sqrt) st k order = some (.ok [])) ∧
    (16 < k → v.statisticsSplitComplex (complexStatOps norm sqrt) st k order =
      some (.error .invalidArgumentLength)) := by
  unfold statisticsSplitComplex statsVecCapacity
  constructor
  · intro h; rw [if_pos h]
  · intro h; rw [if_neg (by omega), if_pos h]

/-- C26 for empty vectors: the result is empty instead of `k` statistics. -/
theorem C26_empty [Field T] [LinearOrder T] (sqrt : T → T) (st : MultiCoreSettings)
    (v : DspVec T) (ha : v.content = some []) (k : Nat) (hk16 : k ≤ 16) (order : List Nat) :
    v.statisticsSplit (realStatOps sqrt) st k order = some (.ok []) := by
  unfold statisticsSplit
  by_cases hk : k = 0
  · rw [if_pos hk]
  rw [if_neg hk, if_neg (by unfold statsVecCapacity; omega), ha]
  simp only [Option.bind_eq_bind, Option.bind_some, chunkedResults_small, if_true, List.mapM_nil,
    Option.pure_def]
  rfl

/-- The sub sequences of a concrete vector. -/
example :
    let v : DspVec ℚ := ⟨⟨.vec, [3, 1, 4, 1, 5, 9]⟩, some 1, .time, .real, 5⟩
    v.content = some [3, 1, 4, 1, 5] ∧ IsEveryKth 3 1 ([3, 1, 4, 1, 5] : List ℚ) [1, 5] := by
  refine ⟨by decide, fun q => ?_⟩
  match q with
  | 0 => rfl
  | 1 => rfl
  | q + 2 =>
    rw [List.getElem?_eq_none (by simp), List.getElem?_eq_none (by simp; omega)]

/-! ### C28: precise statistics -/

theorem addPrec_exact [AddCommGroup E] [Mul E] [LT K] [DecidableLT K] (ops : StatOps E K)
    (s : Statistics E) (x : E) (j : Nat) :
    addPrec ops (s, 0, 0) x j = (Statistics.add ops s x j, 0, 0) := by
  have h : ∀ s x : E, kahanStep (· + ·) (· - ·) (s, 0) x = (s + x, 0) := by
    intro s x; simp [kahanStep]
  unfold addPrec Statistics.add
  simp only [h]
  cases hr : s.rms with
  | none => simp only [Option.map_none]
  | some q => simp only [Option.map_some]

theorem addAllPrec_exact [AddCommGroup E] [Mul E] [LT K] [DecidableLT K] (ops : StatOps E K)
    (j : Nat) (l : List E) : addAllPrec ops j l = addAll ops (Statistics.empty ops) j l := by
  have : ∀ (l : List (E × Nat)) (s : Statistics E),
      l.foldl (fun s x => addPrec ops s x.1 x.2) (s, 0, 0) =
        (l.foldl (fun s x => Statistics.add ops s x.1 x.2) s, 0, 0) := by
    intro l
    induction l with
    | nil => intro s; rfl
    | cons x l ih => intro s; rw [List.foldl_cons, List.foldl_cons, addPrec_exact, ih]
  unfold addAllPrec addAll
  rw [this]

theorem splitLoopPrec_exact [AddCommGroup E] [Mul E] [LT K] [DecidableLT K] (ops : StatOps E K)
    (k j : Nat) (rs : List (Statistics E)) (l : List E) :
    splitLoopPrec ops k j rs l = splitLoop ops k j rs l := by
  have : ∀ (l : List (E × Nat)) (rs : List (Statistics E)),
      (l.foldlM (fun (st : List (Statistics E) × E × E) x =>
        if k = 0 then none
        else do
          let s ← get st.1 (x.2 % k)
          let n := addPrec ops (s, st.2.1, st.2.2) x.1 (x.2 / k)
          let rs ← put st.1 (x.2 % k) n.1
          some (rs, n.2.1, n.2.2)) (rs, 0, 0)) =
      (l.foldlM (fun rs x =>
        if k = 0 then none
        else do
          let s ← get rs (x.2 % k)
          put rs (x.2 % k) (Statistics.add ops s x.1 (x.2 / k))) rs).map (fun r => (r, 0, 0)) := by
    intro l
    induction l with
    | nil => intro rs; rfl
    | cons x l ih =>
      intro rs
      rw [List.foldlM_cons, List.foldlM_cons]
      by_cases hk : k = 0
      · simp [hk]
      · simp only [if_neg hk, addPrec_exact]
        cases hg : get rs (x.2 % k) with
        | none => simp
        | some s =>
          simp only [Option.bind_eq_bind, Option.bind_some]
          cases hp : put rs (x.2 % k) (Statistics.add ops s x.1 (x.2 / k)) with
          | none => simp
          | some rs' =>
            simp only [Option.bind_some]
            have := ih rs'
            simp only [if_neg hk, Option.bind_eq_bind] at this
            exact this
  unfold splitLoopPrec splitLoop
  rw [this]
  generalize (List.foldlM _ rs (l.zipIdx j) : Option _) = o
  cases o <;> rfl

/-- C28: the precise statistics of real vectors are the plain statistics in exact arithmetic. -/
theorem C28_statistics [Field T] [LinearOrder T] (sqrt : T → T) (st : MultiCoreSettings)
    (v : DspVec T) (order : List Nat) :
    v.statisticsPrec (realStatOps sqrt) st order = v.statistics (realStatOps sqrt) st order := by
  unfold statisticsPrec statistics
  simp only [addAllPrec_exact]

/-- C28 for complex vectors. -/
theorem C28_statistics_complex [Field T] [LinearOrder K] (norm : Cx T → K) (sqrt : Cx T → Cx T)
    (st : MultiCoreSettings) (v : DspVec T) (order : List Nat) :
    v.statisticsPrecComplex (complexStatOps norm sqrt) st order =
      v.statisticsComplex (complexStatOps norm sqrt) st order := by
  have h : ∀ (j : Nat), addAllPrec (complexStatOps norm sqrt) j =
      addAll (complexStatOps norm sqrt) (Statistics.empty _) j := fun j => funext fun l =>
    addAllPrec_exact (complexStatOps norm sqrt) j l
  unfold statisticsPrecComplex statisticsComplex
  simp only [h]

/-- C28: the precise version of `statistics_split`, although all buckets share one compensation. -/
theorem C28_statistics_split [Field T] [LinearOrder T] (sqrt : T → T) (st : MultiCoreSettings)
    (v : DspVec T) (k : Nat) (order : List Nat) :
    v.statisticsSplitPrec (realStatOps sqrt) st k order =
      v.statisticsSplit (realStatOps sqrt) st k order := by
  unfold statisticsSplitPrec statisticsSplit
  simp only [splitLoopPrec_exact]

/-- C28: complex `statistics_split`. -/
theorem C28_statistics_split_complex [Field T] [LinearOrder K] (norm : Cx T → K) (sqrt : Cx T → Cx T)
    (st : MultiCoreSettings) (v : DspVec T) (k : Nat) (order : List Nat) :
    v.statisticsSplitPrecComplex (complexStatOps norm sqrt) st k order =
      v.statisticsSplitComplex (complexStatOps norm sqrt) st k order := by
  have h : ∀ (j : Nat) rs, splitLoopPrec (complexStatOps norm sqrt) k j rs =
      splitLoop (complexStatOps norm sqrt) k j rs := fun j rs => funext fun l =>
    splitLoopPrec_exact (complexStatOps norm sqrt) k j rs l
  unfold statisticsSplitPrecComplex statisticsSplitComplex
  simp only [h]

/-- Statistics of a concrete vector, computed by the precise version. -/
example :
    let v : DspVec ℚ := ⟨⟨.vec, [3, 1, 4, 1, 5, 9]⟩, some 1, .time, .real, 5⟩
    (v.statisticsPrec (realStatOps id) (.withThresholds 1 0 0 0 0) []).map (fun s => (s.count, s.max)) =
      some (5, .fin 5) := by rfl

end Dsp
