import Verif.Props.StatsSplit
import Verif.Props.Rounding
import Mathlib.Analysis.SpecialFunctions.Sqrt
import Mathlib.Tactic.LinearCombination
/-
C82: statistics with rounded arithmetic. Nothing is assumed about addition, multiplication and division, except that they are accurate
up to a relative error in the theorems about errors.
-/
namespace Dsp
open DspVec Statistics
variable {T E K : Type}

/-! ### The accumulators without laws -/

/-- What the fields of the accumulator are after the data `l`: `f` and `g` are how the sum and the sum of squares are computed. -/
structure RawAcc [LinearOrder K] (ops : StatOps E K) (f g : E) (l : List E) (s : Statistics E) : Prop where
  count : s.count = l.length
  sum : s.sum = f
  sq : s.rms = some g
  min0 : l = [] → s.min = ops.initMin ∧ s.minIndex = 0
  max0 : l = [] → s.max = ops.initMax ∧ s.maxIndex = 0
  min : l ≠ [] → ∃ m i, s.min = .fin m ∧ s.minIndex = 0 + i ∧ IsFirstMin ops.norm l i m
  max : l ≠ [] → ∃ m i, s.max = .fin m ∧ s.maxIndex = 0 + i ∧ IsFirstMax ops.norm l i m

theorem RawAcc.empty [Add E] [Mul E] [Zero E] [LinearOrder K] (ops : StatOps E K) : RawAcc ops 0 0 [] (Statistics.empty ops) :=
  ⟨rfl, rfl, rfl, fun _ => ⟨rfl, rfl⟩, fun _ => ⟨rfl, rfl⟩, fun h => absurd rfl h, fun h => absurd rfl h⟩

theorem RawAcc.next [LinearOrder K] {ops : StatOps E K} (hops : InitOk ops) {f g : E} {l : List E}
    {s : Statistics E} (h : RawAcc ops f g l s) (x f' g' : E) :
    RawAcc ops f' g' (l ++ [x])
      (addMinMax ops { s with sum := f', count := s.count + 1, rms := some g' } x (0 + l.length)) := by
  obtain ⟨r1, r2, r3⟩ := addMinMax_rest ops { s with
    sum := f', count := s.count + 1, rms := some g' } x (0 + l.length)
  refine ⟨?_, r2, r3, by simp, by simp, fun _ => ?_, fun _ => ?_⟩
  · rw [r1]; simp [h.count]
  · exact addMinMax_min ops hops 0 l _ x (fun hl => (h.min0 hl).1) h.min
  · exact addMinMax_max ops hops 0 l _ x (fun hl => ⟨(h.max0 hl).1, fun h => absurd rfl h, (h.max0 hl).2⟩) h.max

theorem addAll_raw [Add E] [Mul E] [Zero E] [LinearOrder K] (ops : StatOps E K) (hops : InitOk ops) (l : List E) :
    RawAcc ops (l.foldl (fun a x => a + x) 0) (l.foldl (fun a x => a + x * x) 0) l (addAll ops (Statistics.empty ops) 0 l) := by
  induction l using List.reverseRecOn with
  | nil => exact RawAcc.empty ops
  | append_singleton l x ih =>
    rw [addAll_snoc, List.foldl_append, List.foldl_append]
    have h := ih.next hops x (l.foldl (fun a x => a + x) 0 + x) (l.foldl (fun a x => a + x * x) 0 + x * x)
    unfold Statistics.add
    rw [ih.sum, ih.sq]
    exact h

theorem addAllPrec_raw [Add E] [Sub E] [Mul E] [Zero E] [LinearOrder K] (ops : StatOps E K) (hops : InitOk ops) (l : List E) :
    RawAcc ops (kahanSum (· + ·) (· - ·) 0 l) (kahanSum (· + ·) (· - ·) 0 (l.map fun x => x * x)) l (addAllPrec ops 0 l) := by
  unfold addAllPrec kahanSum
  suffices h : ∃ s, (l.zipIdx 0).foldl (fun s x => addPrec ops s x.1 x.2) (Statistics.empty ops, 0, 0) =
      (s, (l.foldl (kahanStep (· + ·) (· - ·)) (0, 0)).2,
        ((l.map fun x => x * x).foldl (kahanStep (· + ·) (· - ·)) (0, 0)).2) ∧
      RawAcc ops (l.foldl (kahanStep (· + ·) (· - ·)) (0, 0)).1
        ((l.map fun x => x * x).foldl (kahanStep (· + ·) (· - ·)) (0, 0)).1 l s by
    obtain ⟨s, h1, h2⟩ := h
    rw [h1]; exact h2
  induction l using List.reverseRecOn with
  | nil => exact ⟨_, rfl, RawAcc.empty ops⟩
  | append_singleton l x ih =>
    obtain ⟨s, h1, h2⟩ := ih
    rw [List.zipIdx_append, List.map_append, List.foldl_append, List.foldl_append, List.foldl_append, h1]
    generalize l.foldl (kahanStep (· + ·) (· - ·)) (0, 0) = p at *
    generalize (l.map fun x => x * x).foldl (kahanStep (· + ·) (· - ·)) (0, 0) = q at *
    simp only [List.zipIdx_cons, List.zipIdx_nil, List.foldl_cons, List.foldl_nil, List.map_cons, List.map_nil, addPrec, h2.sum, h2.sq]
    exact ⟨_, rfl, h2.next hops x _ _⟩

theorem merge_one_raw [Add E] [Zero E] [LinearOrder K] {ops : StatOps E K} {f g : E} {l : List E} {s : Statistics E}
    (h : RawAcc ops f g l s) (hl : l ≠ []) :
    Extremes ops l (Statistics.merge ops [s]) ∧ (Statistics.merge ops [s]).sum = 0 + f ∧
    (Statistics.merge ops [s]).average = some (ops.divN (0 + f) l.length) ∧
    (Statistics.merge ops [s]).rms = some (ops.sqrt (ops.divN (0 + g) l.length)) := by
  have hc : l.length ≠ 0 := fun hh => hl (List.eq_nil_of_length_eq_zero hh)
  have hm : mergeLoop ops ⟨0, 0, none, some 0, s.min, s.minIndex, s.max, s.maxIndex⟩ [s] =
      ⟨0 + f, l.length, none, some (0 + g), s.min, s.minIndex, s.max, s.maxIndex⟩ := by
    simp only [mergeLoop, List.foldl_cons, List.foldl_nil, Ext.lt_irrefl, h.sum, h.sq, h.count, Nat.zero_add]
    simp
  obtain ⟨m, i, m1, m2, m3⟩ := h.min hl
  obtain ⟨n, j, n1, n2, n3⟩ := h.max hl
  rw [Nat.zero_add] at m2 n2
  unfold Statistics.merge
  simp only [hm, if_neg hc, Option.bind_some]
  exact ⟨⟨rfl, ⟨m, m1, m2 ▸ m3⟩, n, n1, n2 ▸ n3⟩, trivial, trivial, trivial⟩

/-! ### What does not depend on rounding -/

section
variable [Add T] [Sub T] [Mul T] [Zero T] [Div T] [NatCast T]

omit [Div T] [NatCast T] in
theorem statistics_value [LinearOrder K] (ops : StatOps T K) (st : MultiCoreSettings) (v : DspVec T) (a : List T)
    (ha : v.content = some a) (hne : a ≠ []) (order : List Nat) :
    v.statistics ops st order = some (Statistics.merge ops [addAll ops (Statistics.empty ops) 0 a]) ∧
    v.statisticsPrec ops st order = some (Statistics.merge ops [addAllPrec ops 0 a]) := by
  unfold statistics statisticsPrec
  rw [ha]
  simp only [Option.bind_eq_bind, Option.bind_some, chunkedResults_small, if_neg hne, and_self]

omit [Div T] [NatCast T] in
theorem statisticsComplex_value [LinearOrder K] (ops : StatOps (Cx T) K) (st : MultiCoreSettings) (v : DspVec T) (cs : List (Cx T))
    (ha : v.content = some (fromComplex cs)) (hne : cs ≠ []) (order : List Nat) :
    v.statisticsComplex ops st order = some (Statistics.merge ops [addAll ops (Statistics.empty ops) 0 cs]) ∧
    v.statisticsPrecComplex ops st order = some (Statistics.merge ops [addAllPrec ops 0 cs]) := by
  have hne' : fromComplex cs ≠ [] := by
    intro h; apply hne; have := congrArg List.length h; simp at this; exact this
  unfold statisticsComplex statisticsPrecComplex
  rw [ha]
  simp only [Option.bind_eq_bind, Option.bind_some, chunkedResults_small, if_neg hne', toComplex?_fromComplex, Option.map_some,
    List.mapM_cons, List.mapM_nil, id, Option.pure_def, Nat.zero_div, and_self]

/-- C82: whatever the arithmetic operations do, `statistics` and `statistics_prec` of a non-empty real vector count its points and find the
    first smallest and the first largest one. -/
theorem C82_extremes [LinearOrder T] (sqrt : T → T) (st : MultiCoreSettings) (v : DspVec T) (a : List T) (ha : v.content = some a)
    (hne : a ≠ []) (order : List Nat) :
    (∃ s, v.statistics (realStatOps sqrt) st order = some s ∧ Extremes (realStatOps sqrt) a s) ∧
    (∃ s, v.statisticsPrec (realStatOps sqrt) st order = some s ∧ Extremes (realStatOps sqrt) a s) := by
  obtain ⟨h1, h2⟩ := statistics_value (realStatOps sqrt) st v a ha hne order
  exact ⟨⟨_, h1, (merge_one_raw (addAll_raw _ ⟨rfl, .inl rfl⟩ a) hne).1⟩, _, h2, (merge_one_raw (addAllPrec_raw _ ⟨rfl, .inl rfl⟩ a) hne).1⟩

/-- C82 for complex vectors: numbers are compared by their norm, as computed; it must be smallest at zero, and only there. -/
theorem C82_extremes_complex [LinearOrder K] (norm : Cx T → K) (sqrt : Cx T → Cx T)
    (hnorm : ∀ x, norm ⟨0, 0⟩ ≤ norm x ∧ (norm x = norm ⟨0, 0⟩ → x = ⟨0, 0⟩)) (st : MultiCoreSettings)
    (v : DspVec T) (cs : List (Cx T)) (ha : v.content = some (fromComplex cs)) (hne : cs ≠ []) (order : List Nat) :
    (∃ s, v.statisticsComplex (complexStatOps norm sqrt) st order = some s ∧ Extremes (complexStatOps norm sqrt) cs s) ∧
    (∃ s, v.statisticsPrecComplex (complexStatOps norm sqrt) st order = some s ∧ Extremes (complexStatOps norm sqrt) cs s) := by
  have hops : InitOk (complexStatOps norm sqrt) := ⟨rfl, .inr ⟨⟨0, 0⟩, rfl, hnorm⟩⟩
  obtain ⟨h1, h2⟩ := statisticsComplex_value (complexStatOps norm sqrt) st v cs ha hne order
  exact ⟨⟨_, h1, (merge_one_raw (addAll_raw _ hops cs) hne).1⟩, _, h2, (merge_one_raw (addAllPrec_raw _ hops cs) hne).1⟩

omit [Sub T] [Div T] [NatCast T] in
/-- The buckets of the loop of `statistics_split` are the accumulators of the sub sequences. -/
theorem splitLoop_raw [Add E] [Mul E] [Zero E] [LT K] [DecidableLT K] (ops : StatOps E K) (k : Nat) (hk : 0 < k) (l : List E) :
    ∃ rs, splitLoop ops k 0 (List.replicate k (Statistics.empty ops)) l = some rs ∧ rs.length = k ∧
      ∀ i, i < k → ∃ s, IsEveryKth k i l s ∧ rs[i]? = some (addAll ops (Statistics.empty ops) 0 s) := by
  induction l using List.reverseRecOn with
  | nil =>
    refine ⟨_, rfl, by simp, fun i hi => ⟨[], fun q => by simp, ?_⟩⟩
    simp [hi, addAll]
  | append_singleton l x ih =>
    obtain ⟨rs, h1, h2, h3⟩ := ih
    have hm : l.length % k < k := Nat.mod_lt _ hk
    obtain ⟨s, g1, g2⟩ := h3 _ hm
    have hidx := isEveryKth_length hk rfl rfl g1
    refine ⟨rs.set (l.length % k) (Statistics.add ops (addAll ops (Statistics.empty ops) 0 s) x (l.length / k)), ?_, by simp [h2], ?_⟩
    · unfold splitLoop at h1 ⊢
      rw [List.zipIdx_append, List.foldlM_append, h1]
      have hk0 : k ≠ 0 := by omega
      simp only [List.zipIdx_cons, List.zipIdx_nil, Nat.zero_add, Option.bind_eq_bind, Option.bind_some,
        List.foldlM_cons, List.foldlM_nil, if_neg hk0, get, g2, put, h2, if_pos hm, Option.pure_def]
    · intro i hi
      by_cases he : i = l.length % k
      · subst he
        refine ⟨s ++ [x], (isEveryKth_snoc x hk hm g1).1 rfl, ?_⟩
        rw [List.getElem?_set_self (by omega), addAll_snoc, Nat.zero_add, hidx]
      · obtain ⟨s', e1, e2⟩ := h3 i hi
        exact ⟨s', (isEveryKth_snoc x hk hi e1).2 he, by rw [List.getElem?_set_ne (by omega)]; exact e2⟩

omit [Add T] [Sub T] [Mul T] [Zero T] [Div T] [NatCast T] in
theorem isEveryKth_unique {k i : Nat} {l s t : List E} (h : IsEveryKth k i l s) (h' : IsEveryKth k i l t) : s = t :=
  List.ext_getElem? fun q => (h q).trans (h' q).symm

/-- C82: column `i` of `statistics_split(k)` is exactly `statistics` of a vector with the points `i`, `i + k`, ..., rounding errors
    included. -/
theorem C82_columns [LinearOrder T] (sqrt : T → T) (st st' : MultiCoreSettings) (v : DspVec T) (a : List T) (ha : v.content = some a)
    (k : Nat) (hk16 : k ≤ 16) (order order' : List Nat) (i : Nat) (hi : i < k) (w : DspVec T) (s : List T) (hs : IsEveryKth k i a s)
    (hne : s ≠ []) (hw : w.content = some s) :
    ∃ rs, v.statisticsSplit (realStatOps sqrt) st k order = some (.ok rs) ∧ rs.length = k ∧
      rs[i]? = w.statistics (realStatOps sqrt) st' order' := by
  have hane : a ≠ [] := by
    rintro rfl
    cases s with
    | nil => exact hne rfl
    | cons x s => have := hs 0; simp at this
  obtain ⟨rs, h1, h2, h3⟩ := splitLoop_raw (realStatOps sqrt) k (by omega) a
  obtain ⟨s', e1, e2⟩ := h3 i hi
  obtain rfl := isEveryKth_unique e1 hs
  refine ⟨rs.map fun s => Statistics.merge (realStatOps sqrt) [s], ?_, by simp [h2], ?_⟩
  · unfold statisticsSplit
    rw [if_neg (by omega), if_neg (by unfold statsVecCapacity; omega), ha]
    simp only [Option.bind_eq_bind, Option.bind_some, chunkedResults_small, if_neg hane, h1,
      List.mapM_cons, List.mapM_nil, id, Option.pure_def, mergeCols_one]
  · rw [(statistics_value (realStatOps sqrt) st' w s' hw hne order').1, List.getElem?_map, e2]; rfl

/-- C82: the columns of complex vectors. -/
theorem C82_columns_complex [LinearOrder K] (norm : Cx T → K) (sqrt : Cx T → Cx T) (st st' : MultiCoreSettings) (v : DspVec T)
    (a : List (Cx T)) (ha : v.content = some (fromComplex a)) (k : Nat) (hk16 : k ≤ 16) (order order' : List Nat) (i : Nat) (hi : i < k)
    (w : DspVec T) (s : List (Cx T)) (hs : IsEveryKth k i a s) (hne : s ≠ []) (hw : w.content = some (fromComplex s)) :
    ∃ rs, v.statisticsSplitComplex (complexStatOps norm sqrt) st k order = some (.ok rs) ∧ rs.length = k ∧
      rs[i]? = w.statisticsComplex (complexStatOps norm sqrt) st' order' := by
  have hane : fromComplex a ≠ [] := by
    intro h
    have h0 : a = [] := by have := congrArg List.length h; simp at this; exact this
    subst h0
    cases s with
    | nil => exact hne rfl
    | cons x s => have := hs 0; simp at this
  obtain ⟨rs, h1, h2, h3⟩ := splitLoop_raw (complexStatOps norm sqrt) k (by omega) a
  obtain ⟨s', e1, e2⟩ := h3 i hi
  obtain rfl := isEveryKth_unique e1 hs
  refine ⟨rs.map fun s => Statistics.merge (complexStatOps norm sqrt) [s], ?_, by simp [h2], ?_⟩
  · unfold statisticsSplitComplex
    rw [if_neg (by omega), if_neg (by unfold statsVecCapacity; omega), ha]
    simp only [Option.bind_eq_bind, Option.bind_some, chunkedResults_small, if_neg hane, h1, toComplex?_fromComplex, Nat.zero_div,
      List.mapM_cons, List.mapM_nil, id, Option.pure_def, mergeCols_one]
  · rw [(statisticsComplex_value (complexStatOps norm sqrt) st' w s' hw hne order').1, List.getElem?_map, e2]; rfl

end

/-- C82: the precise statistics of `f32` vectors are the plain statistics of the same numbers as `f64`. -/
theorem C82_f32 {S : Type} [Add T] [Mul T] [Zero T] [Div T] [NatCast T] [LinearOrder T] (conv : S → T) (sqrt : T → T)
    (st : MultiCoreSettings) (v : DspVec S) (w : DspVec T) (a : List S) (ha : v.content = some a) (hw : w.content = some (a.map conv))
    (k : Nat) (order : List Nat) :
    v.statisticsPrecF32 conv (realStatOps sqrt) st order = w.statistics (realStatOps sqrt) st order ∧
    v.statisticsSplitPrecF32 conv (realStatOps sqrt) st k order = w.statisticsSplit (realStatOps sqrt) st k order := by
  have hm : (a.map conv = []) ↔ a = [] := by simp
  unfold statisticsPrecF32 statistics statisticsSplitPrecF32 statisticsSplit
  rw [ha, hw]
  by_cases hne : a = []
  · subst hne
    simp only [Option.bind_eq_bind, Option.bind_some, chunkedResults_small, List.map_nil, and_self]
  · simp only [Option.bind_eq_bind, Option.bind_some, chunkedResults_small, hm, if_neg hne, and_self]

/-- C82 for complex `f32` vectors. -/
theorem C82_f32_complex {S : Type} [Add T] [Sub T] [Mul T] [Zero T] [Div T] [NatCast T] [LinearOrder K] (conv : S → T)
    (norm : Cx T → K) (sqrt : Cx T → Cx T) (st : MultiCoreSettings) (v : DspVec S) (w : DspVec T) (a : List (Cx S))
    (ha : v.content = some (fromComplex a)) (hw : w.content = some (fromComplex (a.map fun x => ⟨conv x.re, conv x.im⟩)))
    (k : Nat) (order : List Nat) :
    v.statisticsPrecF32Complex conv (complexStatOps norm sqrt) st order = w.statisticsComplex (complexStatOps norm sqrt) st order ∧
    v.statisticsSplitPrecF32Complex conv (complexStatOps norm sqrt) st k order =
      w.statisticsSplitComplex (complexStatOps norm sqrt) st k order := by
  have hl : ∀ {U : Type} (l : List (Cx U)), fromComplex l = [] ↔ l = [] := by
    intro U l; constructor
    · intro h; have := congrArg List.length h; simp at this; exact this
    · rintro rfl; rfl
  have hm : (fromComplex (a.map fun x => (⟨conv x.re, conv x.im⟩ : Cx T)) = []) ↔ a = [] := by rw [hl]; simp
  have hm' := hl a
  have hc : (convCx conv : Cx S → Cx T) = fun x => ⟨conv x.re, conv x.im⟩ := rfl
  unfold statisticsPrecF32Complex statisticsComplex statisticsSplitPrecF32Complex statisticsSplitComplex
  rw [ha, hw, hc]
  by_cases hne : a = []
  · subst hne
    simp only [Option.bind_eq_bind, Option.bind_some, chunkedResults_small, hm, hm', if_true, List.mapM_nil]
    exact ⟨trivial, trivial⟩
  · simp only [Option.bind_eq_bind, Option.bind_some, chunkedResults_small, hm, hm', if_neg hne, toComplex?_fromComplex, Option.map_some,
      Option.bind_some]
    exact ⟨trivial, trivial⟩

/-! ### Rounding errors -/

section
variable {R : Rounding}

/-- The division by a count, which is rounded itself. -/
theorem Approx.divN {B z m : ℝ} {x : Fl R} (h : Approx B x.val z m) (n : Nat) (hn : n ≠ 0) (hu : R.u < 1) :
    Approx (B * (1 + R.u) / (1 - R.u)) (x / (n : Fl R)).val (z / n) (m / n) := by
  obtain ⟨h1, h2, h3⟩ := h
  have hu0 := R.u_nonneg
  have hm := (abs_nonneg _).trans h2
  have hn' : (0 : ℝ) < n := by exact_mod_cast Nat.pos_of_ne_zero hn
  have hv : 0 < 1 - R.u := by linarith
  have hc := R.error (n : ℝ)
  rw [abs_of_pos hn'] at hc
  have key : Approx (B / (1 - R.u)) (x.val / R.rnd n) (z / n) (m / n) := by
    generalize R.rnd (n : ℝ) = c at hc
    have hc1 : (1 - R.u) * n ≤ c := by
      have := (abs_le.1 hc).1; linarith
    have hcp : 0 < c := lt_of_lt_of_le (by positivity) hc1
    refine ⟨?_, by rw [abs_div, abs_of_pos hn']; gcongr, by rw [le_div_iff₀ hv]; linarith⟩
    have hx : |x.val| ≤ B * m := by
      have := abs_add_le (x.val - z) z
      rw [sub_add_cancel] at this; linarith
    have e : x.val / c - z / n = x.val / c * ((n - c) / n) + (x.val - z) / n := by field_simp; ring
    have hnc : |((n : ℝ) - c) / n| ≤ R.u := by
      rw [abs_div, abs_of_pos hn', div_le_iff₀ hn', abs_sub_comm]; exact hc
    have hxc : |x.val / c| ≤ B * m / ((1 - R.u) * n) := by
      rw [abs_div, abs_of_pos hcp]
      exact div_le_div₀ (by nlinarith) hx (by positivity) hc1
    have hxz : |(x.val - z) / n| ≤ (B - 1) * m / n := by
      rw [abs_div, abs_of_pos hn']; gcongr
    calc |x.val / c - z / n| ≤ |x.val / c| * |((n : ℝ) - c) / n| + |(x.val - z) / n| := by
          rw [e, ← abs_mul]; exact abs_add_le _ _
      _ ≤ B * m / ((1 - R.u) * n) * R.u + (B - 1) * m / n := by
          refine add_le_add (mul_le_mul hxc hnc (abs_nonneg _) ?_) hxz
          have : 0 ≤ B * m := by nlinarith
          positivity
      _ = (B / (1 - R.u) - 1) * (m / n) := by field_simp; ring
  have := key.round (R := R)
  rwa [div_mul_eq_mul_div] at this

/-- The square root of an approximation. -/
theorem Approx.sqrt {B q Q : ℝ} (h : Approx B q Q Q) : Approx B (√q) (√Q) (√Q) := by
  obtain ⟨h1, h2, h3⟩ := h
  have hQ := (abs_nonneg _).trans h2
  refine ⟨?_, by rw [abs_of_nonneg (Real.sqrt_nonneg _)], h3⟩
  rcases hQ.eq_or_lt with h0 | hpos
  · subst h0
    have : q = 0 := by simpa using h1
    subst this; simp
  have hs : 0 < √Q := Real.sqrt_pos.2 hpos
  by_cases hq : 0 ≤ q
  · have e : (√q - √Q) * (√q + √Q) = q - Q := by
      have a1 := Real.mul_self_sqrt hq
      have a2 := Real.mul_self_sqrt hQ
      linear_combination a1 - a2
    have h4 : |√q - √Q| * √Q ≤ (B - 1) * √Q * √Q := by
      calc |√q - √Q| * √Q ≤ |√q - √Q| * |√q + √Q| := by
            refine mul_le_mul_of_nonneg_left ?_ (abs_nonneg _)
            rw [abs_of_nonneg (by positivity)]
            linarith [Real.sqrt_nonneg q]
        _ = |q - Q| := by rw [← abs_mul, e]
        _ ≤ (B - 1) * Q := h1
        _ = (B - 1) * √Q * √Q := by rw [mul_assoc, Real.mul_self_sqrt hQ]
    exact le_of_mul_le_mul_right h4 hs
  · have hq : q < 0 := not_le.1 hq
    rw [Real.sqrt_eq_zero_of_nonpos hq.le, zero_sub, abs_neg, abs_of_pos hs]
    have := (abs_le.1 h1).1
    have : 1 ≤ B - 1 := by
      by_contra hc
      nlinarith
    nlinarith

/-- A square root which is accurate up to `u`. -/
theorem Approx.sqrtFl {B Q : ℝ} {x : Fl R} (sqrt : Fl R → Fl R) (hsqrt : ∀ x, |(sqrt x).val - √x.val| ≤ R.u * √x.val)
    (h : Approx B x.val Q Q) : Approx (B * (1 + R.u)) (sqrt x).val (√Q) (√Q) := by
  have hs := h.sqrt
  have hu := R.u_nonneg
  have hQ := Real.sqrt_nonneg Q
  obtain ⟨h1, h2, h3⟩ := hs
  refine ⟨?_, h2, by nlinarith⟩
  have k1 : √x.val ≤ B * √Q := by
    have := (abs_le.1 h1).2; linarith
  have k2 := abs_add_le ((sqrt x).val - √x.val) (√x.val - √Q)
  rw [sub_add_sub_cancel] at k2
  have k3 := mul_le_mul_of_nonneg_left k1 hu
  have := hsqrt x
  nlinarith

/-- The common part of the error bounds. -/
theorem stat_errors {B C : ℝ} (sqrt : Fl R → Fl R) (hsqrt : ∀ x, |(sqrt x).val - √x.val| ≤ R.u * √x.val) (hu : R.u < 1)
    {a : List (Fl R)} (hne : a ≠ []) {f g : Fl R} {s : Statistics (Fl R)} (h : RawAcc (realStatOps sqrt) f g a s)
    (hf : Approx B f.val (exactSum a) (absSum a))
    (hg : Approx C g.val (a.map fun x => x.val * x.val).sum (a.map fun x => x.val * x.val).sum) :
    ∃ m q, (Statistics.merge (realStatOps sqrt) [s]).average = some m ∧ (Statistics.merge (realStatOps sqrt) [s]).rms = some q ∧
      |(Statistics.merge (realStatOps sqrt) [s]).sum.val - exactSum a| ≤ (B * (1 + R.u) - 1) * absSum a ∧
      |m.val - exactSum a / a.length| ≤ (B * (1 + R.u) * (1 + R.u) / (1 - R.u) - 1) * (absSum a / a.length) ∧
      |q.val - √((a.map fun x => x.val * x.val).sum / a.length)| ≤
        (C * (1 + R.u) * (1 + R.u) / (1 - R.u) * (1 + R.u) - 1) * √((a.map fun x => x.val * x.val).sum / a.length) := by
  obtain ⟨-, h1, h2, h3⟩ := merge_one_raw h hne
  have hl : a.length ≠ 0 := fun hh => hne (List.eq_nil_of_length_eq_zero hh)
  refine ⟨_, _, h2, h3, ?_, ?_, ?_⟩
  · rw [h1]
    have := ((Approx.zero (R := R)).mono hf.2.2).add hf
    rw [zero_add, zero_add] at this
    exact this.1
  · have := ((Approx.zero (R := R)).mono hf.2.2).add hf
    rw [zero_add, zero_add] at this
    exact (this.divN a.length hl hu).1
  · have := ((Approx.zero (R := R)).mono hg.2.2).add hg
    rw [zero_add] at this
    exact ((this.divN a.length hl hu).sqrtFl sqrt hsqrt).1

/-- C82: the errors of `statistics` for arithmetic with a relative error of at most `u` (which is used for the conversion of the count and the
    square root as well): they grow with the number `n` of points. -/
theorem C82_errors (sqrt : Fl R → Fl R) (hsqrt : ∀ x, |(sqrt x).val - √x.val| ≤ R.u * √x.val) (hu : R.u < 1) (st : MultiCoreSettings)
    (v : DspVec (Fl R)) (a : List (Fl R)) (ha : v.content = some a) (hne : a ≠ []) (order : List Nat) :
    ∃ s average rms, v.statistics (realStatOps sqrt) st order = some s ∧ s.average = some average ∧ s.rms = some rms ∧
      |s.sum.val - exactSum a| ≤ ((1 + R.u) ^ (a.length + 1) - 1) * absSum a ∧
      |average.val - exactSum a / a.length| ≤ ((1 + R.u) ^ (a.length + 2) / (1 - R.u) - 1) * (absSum a / a.length) ∧
      |rms.val - √((a.map fun x => x.val * x.val).sum / a.length)| ≤
        ((1 + R.u) ^ (a.length + 4) / (1 - R.u) - 1) * √((a.map fun x => x.val * x.val).sum / a.length) := by
  have hu0 := R.u_nonneg
  have hf : Approx ((1 + R.u) ^ a.length) (a.foldl (fun s x => s + x) 0).val (exactSum a) (absSum a) := by
    have := SumOf.foldl_leaves (d := 0) (fun x : Fl R => x) a (SumOf.zero 0)
    simp only [List.map_id', zero_add] at this
    exact this.approx
  have hg : Approx ((1 + R.u) ^ a.length * (1 + R.u)) (a.foldl (fun s x => s + x * x) 0).val (a.map fun x => x.val * x.val).sum
      (a.map fun x => x.val * x.val).sum := by
    have := SumOf.foldl_leaves (d := 0) (fun x : Fl R => x * x) a (SumOf.zero 0)
    simp only [zero_add] at this
    have hm : (a.map fun x : Fl R => |x.val * x.val|) = a.map fun x => x.val * x.val :=
      List.map_congr_left fun x _ => abs_mul_self _
    have := Approx.leaves a (fun x => x * x) (fun x => x.val * x.val) (fun x => |x.val * x.val|) this.approx
      (fun x _ => Approx.mul x x) (by linarith)
    rwa [hm] at this
  obtain ⟨m, q, e1, e2, e3, e4, e5⟩ := stat_errors sqrt hsqrt hu hne (addAll_raw (realStatOps sqrt) ⟨rfl, .inl rfl⟩ a) hf hg
  refine ⟨_, m, q, (statistics_value (realStatOps sqrt) st v a ha hne order).1, e1, e2, ?_, ?_, ?_⟩
  · rw [pow_succ]; exact e3
  · rw [pow_add, pow_two, ← mul_assoc]; exact e4
  · refine e5.trans (le_of_eq ?_)
    rw [pow_add]; ring

/-- C82: the errors of `statistics_prec` do not depend on the number of points, as long as `n u` is at most one percent. -/
theorem C82_prec_errors (sqrt : Fl R → Fl R) (hsqrt : ∀ x, |(sqrt x).val - √x.val| ≤ R.u * √x.val) (st : MultiCoreSettings)
    (v : DspVec (Fl R)) (a : List (Fl R)) (ha : v.content = some a) (hne : a ≠ []) (hn : (a.length : ℝ) * R.u ≤ 1 / 100)
    (order : List Nat) :
    ∃ s average rms, v.statisticsPrec (realStatOps sqrt) st order = some s ∧ s.average = some average ∧ s.rms = some rms ∧
      |s.sum.val - exactSum a| ≤ 10 * R.u * absSum a ∧
      |average.val - exactSum a / a.length| ≤ 12 * R.u * (absSum a / a.length) ∧
      |rms.val - √((a.map fun x => x.val * x.val).sum / a.length)| ≤
        14 * R.u * √((a.map fun x => x.val * x.val).sum / a.length) := by
  have hu0 := R.u_nonneg
  have hu1 : R.u ≤ 1 / 100 := by
    have : (1 : ℝ) ≤ a.length := by exact_mod_cast List.length_pos_iff.2 hne
    nlinarith
  have hf := kahan_approx a hn
  have hg : Approx ((1 + 8 * R.u) * (1 + R.u)) (kahanSum (· + ·) (· - ·) 0 (a.map fun x => x * x)).val
      (a.map fun x => x.val * x.val).sum (a.map fun x => x.val * x.val).sum := by
    have hm : (a.map fun x : Fl R => |x.val * x.val|) = a.map fun x => x.val * x.val :=
      List.map_congr_left fun x _ => abs_mul_self _
    have := Approx.leaves a (fun x => x * x) (fun x => x.val * x.val) (fun x => |x.val * x.val|)
      (kahan_approx (a.map fun x => x * x) (by simpa using hn)) (fun x _ => Approx.mul x x) (by linarith)
    rwa [hm] at this
  obtain ⟨m, q, e1, e2, e3, e4, e5⟩ := stat_errors sqrt hsqrt (by linarith) hne (addAllPrec_raw (realStatOps sqrt) ⟨rfl, .inl rfl⟩ a) hf hg
  have hab : 0 ≤ absSum a := (abs_nonneg _).trans (exactSum_le a)
  have hv : 0 < 1 - R.u := by linarith
  have p2 : 0 ≤ R.u * R.u := mul_nonneg hu0 hu0
  have p2' : R.u * R.u ≤ 1 / 100 * R.u := mul_le_mul_of_nonneg_right hu1 hu0
  have p3 : R.u * R.u * R.u ≤ 1 / 100 * R.u := by nlinarith
  have p3' : 0 ≤ R.u * R.u * R.u := mul_nonneg p2 hu0
  have p4 : R.u * R.u * R.u * R.u ≤ 1 / 10000 * R.u := by nlinarith
  have p4' : 0 ≤ R.u * R.u * R.u * R.u := mul_nonneg p3' hu0
  have p5 : R.u * R.u * R.u * R.u * R.u ≤ 1 / 10000 * R.u := by nlinarith
  refine ⟨_, m, q, (statistics_value (realStatOps sqrt) st v a ha hne order).2, e1, e2, ?_, ?_, ?_⟩
  · refine e3.trans (mul_le_mul_of_nonneg_right ?_ hab)
    nlinarith
  · refine e4.trans (mul_le_mul_of_nonneg_right ?_ (by positivity))
    rw [sub_le_iff_le_add, div_le_iff₀ hv]
    nlinarith
  · refine e5.trans (mul_le_mul_of_nonneg_right ?_ (Real.sqrt_nonneg _))
    rw [sub_le_iff_le_add, div_mul_eq_mul_div, div_le_iff₀ hv]
    nlinarith

theorem foldl_components (l : List (Cx (Fl R))) (c : Cx (Fl R)) :
    (l.foldl (fun s x => s + x) c).re = (l.map Cx.re).foldl (fun s x => s + x) c.re ∧
    (l.foldl (fun s x => s + x) c).im = (l.map Cx.im).foldl (fun s x => s + x) c.im := by
  induction l generalizing c with
  | nil => exact ⟨rfl, rfl⟩
  | cons x l ih =>
    obtain ⟨h1, h2⟩ := ih (c + x)
    exact ⟨h1, h2⟩

/-- C82: the errors of the sum and the average of complex vectors, for both components. -/
theorem C82_complex_errors [LinearOrder K] (norm : Cx (Fl R) → K) (sqrt : Cx (Fl R) → Cx (Fl R)) 
    (hnorm : ∀ x, norm ⟨0, 0⟩ ≤ norm x ∧ (norm x = norm ⟨0, 0⟩ → x = ⟨0, 0⟩)) (hu : R.u < 1) (st : MultiCoreSettings)
    (v : DspVec (Fl R)) (cs : List (Cx (Fl R))) (ha : v.content = some (fromComplex cs)) (hne : cs ≠ []) (order : List Nat)
    (comp : Cx (Fl R) → Fl R) (hcomp : comp = Cx.re ∨ comp = Cx.im) :
    ∃ s average, v.statisticsComplex (complexStatOps norm sqrt) st order = some s ∧ s.average = some average ∧
      |(comp s.sum).val - exactSum (cs.map comp)| ≤ ((1 + R.u) ^ (cs.length + 1) - 1) * absSum (cs.map comp) ∧
      |(comp average).val - exactSum (cs.map comp) / cs.length| ≤
        ((1 + R.u) ^ (cs.length + 2) / (1 - R.u) - 1) * (absSum (cs.map comp) / cs.length) := by
  have hops : InitOk (complexStatOps norm sqrt) := ⟨rfl, .inr ⟨⟨0, 0⟩, rfl, hnorm⟩⟩
  have hl : cs.length ≠ 0 := fun hh => hne (List.eq_nil_of_length_eq_zero hh)
  obtain ⟨-, h1, h2, -⟩ := merge_one_raw (addAll_raw (complexStatOps norm sqrt) hops cs) hne
  have hfold : comp (cs.foldl (fun s x => s + x) 0) = (cs.map comp).foldl (fun s x => s + x) 0 := by
    rcases hcomp with rfl | rfl
    · exact (foldl_components cs 0).1
    · exact (foldl_components cs 0).2
  have hadd : ∀ x : Cx (Fl R), comp (0 + x) = 0 + comp x := by
    rcases hcomp with rfl | rfl <;> exact fun _ => rfl
  have hdiv : ∀ (x : Cx (Fl R)) (n : Nat), comp ((complexStatOps norm sqrt).divN x n) = comp x / (n : Fl R) := by
    rcases hcomp with rfl | rfl <;> exact fun _ _ => rfl
  have hf : Approx ((1 + R.u) ^ (cs.map comp).length) ((cs.map comp).foldl (fun s x => s + x) 0).val (exactSum (cs.map comp))
      (absSum (cs.map comp)) := by
    have := SumOf.foldl_leaves (d := 0) (fun x : Fl R => x) (cs.map comp) (SumOf.zero 0)
    simp only [List.map_id', zero_add] at this
    exact this.approx
  rw [List.length_map] at hf
  have hz := ((Approx.zero (R := R)).mono hf.2.2).add hf
  rw [zero_add, zero_add] at hz
  refine ⟨_, _, (statisticsComplex_value (complexStatOps norm sqrt) st v cs ha hne order).1, h2, ?_, ?_⟩
  · rw [h1, hadd, hfold, pow_succ]; exact hz.1
  · rw [hdiv, hadd, hfold, pow_add, pow_two, ← mul_assoc]; exact (hz.divN cs.length hl hu).1

end

/-! ### The compensations of `statistics_split_prec` -/

theorem addPrec_sum [Add E] [Sub E] [Mul E] [LT K] [DecidableLT K] (ops : StatOps E K) (s : Statistics E) (c : E × E) (x : E) (j : Nat) :
    (addPrec ops (s, c) x j).1.sum = s.sum + (x - c.1) ∧ (addPrec ops (s, c) x j).2.1 = s.sum + (x - c.1) - s.sum - (x - c.1) := by
  obtain ⟨s1, s2, s3, s4, s5, s6, s7, s8⟩ := s
  cases s4 <;> simp only [addPrec, (addMinMax_rest ops _ x j).2.1, kahanStep, and_self]

theorem add_sum [Add E] [Mul E] [LT K] [DecidableLT K] (ops : StatOps E K) (s : Statistics E) (x : E) (j : Nat) :
    (Statistics.add ops s x j).sum = s.sum + x := (addMinMax_rest ops _ x j).2.1

theorem merge_one_sum [Add E] [Zero E] [LinearOrder K] (ops : StatOps E K) (s : Statistics E) :
    (Statistics.merge ops [s]).sum = 0 + s.sum := by
  unfold Statistics.merge
  simp only [mergeLoop, List.foldl_cons, List.foldl_nil, Ext.lt_irrefl]
  simp

section
variable [Add T] [Sub T] [Mul T] [Zero T] [Div T] [NatCast T] [LinearOrder T]

/-- The second column of four points. -/
theorem split_prec_four (sqrt : T → T) (st : MultiCoreSettings) (v : DspVec T) (x0 x1 x2 x3 : T) (ha : v.content = some [x0, x1, x2, x3])
    (order : List Nat) :
    (∃ rs s, v.statisticsSplitPrec (realStatOps sqrt) st 2 order = some (.ok rs) ∧ rs[1]? = some s ∧
      let y0 := x0 - 0
      let c0 := 0 + y0 - 0 - y0
      let y1 := x1 - c0
      let c1 := 0 + y1 - 0 - y1
      let y2 := x2 - c1
      let c2 := 0 + y0 + y2 - (0 + y0) - y2
      s.sum = 0 + (0 + y1 + (x3 - c2))) ∧
    (∃ rs s, v.statisticsSplit (realStatOps sqrt) st 2 order = some (.ok rs) ∧ rs[1]? = some s ∧ s.sum = 0 + (0 + x1 + x3)) := by
  have hne : [x0, x1, x2, x3] ≠ [] := by simp
  constructor
  · let ops := realStatOps sqrt
    let a0 := addPrec ops (Statistics.empty ops, 0, 0) x0 0
    let a1 := addPrec ops (Statistics.empty ops, a0.2) x1 0
    let a2 := addPrec ops (a0.1, a1.2) x2 1
    let a3 := addPrec ops (a1.1, a2.2) x3 1
    have h : splitLoopPrec ops 2 0 (List.replicate 2 (Statistics.empty ops)) [x0, x1, x2, x3] = some [a2.1, a3.1] := by
      simp [splitLoopPrec, List.replicate, get, put, List.zipIdx_cons, a0, a1, a2, a3]
    refine ⟨[a2.1, a3.1].map fun s => Statistics.merge ops [s], Statistics.merge ops [a3.1], ?_, rfl, ?_⟩
    · unfold statisticsSplitPrec
      rw [if_neg (by omega), if_neg (by unfold statsVecCapacity; omega), ha]
      simp only [Option.bind_eq_bind, Option.bind_some, chunkedResults_small, if_neg hne]
      rw [show splitLoopPrec (realStatOps sqrt) 2 0 _ _ = _ from h]
      simp only [List.mapM_cons, List.mapM_nil, id, Option.pure_def, Option.bind_eq_bind, Option.bind_some, mergeCols_one]
      rfl
    · have e0 := addPrec_sum ops (Statistics.empty ops) (0, 0) x0 0
      have e1 := addPrec_sum ops (Statistics.empty ops) a0.2 x1 0
      have e2 := addPrec_sum ops a0.1 a1.2 x2 1
      have e3 := addPrec_sum ops a1.1 a2.2 x3 1
      have es : (Statistics.empty ops).sum = 0 := rfl
      rw [es] at e0 e1
      change a0.1.sum = _ ∧ a0.2.1 = _ at e0
      change a1.1.sum = _ ∧ a1.2.1 = _ at e1
      change a2.1.sum = _ ∧ a2.2.1 = _ at e2
      change a3.1.sum = _ ∧ _ at e3
      rw [merge_one_sum, e3.1, e2.2, e1.1, e1.2, e0.1, e0.2]
  · let ops := realStatOps sqrt
    let a0 := Statistics.add ops (Statistics.empty ops) x0 0
    let a1 := Statistics.add ops (Statistics.empty ops) x1 0
    let a2 := Statistics.add ops a0 x2 1
    let a3 := Statistics.add ops a1 x3 1
    have h : splitLoop ops 2 0 (List.replicate 2 (Statistics.empty ops)) [x0, x1, x2, x3] = some [a2, a3] := by
      simp [splitLoop, List.replicate, get, put, List.zipIdx_cons, a0, a1, a2, a3]
    refine ⟨[a2, a3].map fun s => Statistics.merge ops [s], Statistics.merge ops [a3], ?_, rfl, ?_⟩
    · unfold statisticsSplit
      rw [if_neg (by omega), if_neg (by unfold statsVecCapacity; omega), ha]
      simp only [Option.bind_eq_bind, Option.bind_some, chunkedResults_small, if_neg hne]
      rw [show splitLoop (realStatOps sqrt) 2 0 _ _ = _ from h]
      simp only [List.mapM_cons, List.mapM_nil, id, Option.pure_def, Option.bind_eq_bind, Option.bind_some, mergeCols_one]
      rfl
    · rw [merge_one_sum, add_sum, add_sum]; rfl

end

/-- Numbers with at most `p + 1` binary digits are not rounded. -/
theorem binary_exact (p : Nat) (x : ℝ) (n : Int) (hn : x = n * (2 : ℝ) ^ (Int.log 2 |x| - p)) : (binaryRounding p).rnd x = x := by
  show (round (x / (2 : ℝ) ^ (Int.log 2 |x| - p)) : ℝ) * (2 : ℝ) ^ (Int.log 2 |x| - p) = x
  have hb : (0 : ℝ) < (2 : ℝ) ^ (Int.log 2 |x| - p) := zpow_pos (by norm_num) _
  generalize (2 : ℝ) ^ (Int.log 2 |x| - p) = b at *
  rw [hn, mul_div_cancel_right₀ _ hb.ne', round_intCast]

theorem binary_zero (p : Nat) : (binaryRounding p).rnd 0 = 0 := binary_exact p 0 0 (by simp)

/-- Powers of two. -/
theorem binary_pow (p : Nat) (e : Int) : (binaryRounding p).rnd ((2 : ℝ) ^ e) = 2 ^ e := by
  have h : Int.log 2 |(2 : ℝ) ^ e| = e := by
    rw [abs_of_pos (zpow_pos (by norm_num) _)]
    exact_mod_cast Int.log_zpow (R := ℝ) (b := 2) (by norm_num) e
  refine binary_exact p _ (2 ^ p) ?_
  rw [h]; push_cast
  rw [← zpow_natCast (2 : ℝ) p, ← zpow_add₀ (by norm_num)]
  congr 1; ring

theorem binary_neg_pow (p : Nat) (e : Int) : (binaryRounding p).rnd (-(2 : ℝ) ^ e) = -2 ^ e := by
  have h : Int.log 2 |-(2 : ℝ) ^ e| = e := by
    rw [abs_neg, abs_of_pos (zpow_pos (by norm_num) _)]
    exact_mod_cast Int.log_zpow (R := ℝ) (b := 2) (by norm_num) e
  refine binary_exact p _ (-2 ^ p) ?_
  rw [h]; push_cast
  rw [← zpow_natCast (2 : ℝ) p, neg_mul, ← zpow_add₀ (by norm_num)]
  congr 2; ring

/-- A summand of less than half of the last digit is lost. -/
theorem binary_lost (p : Nat) : (binaryRounding p).rnd ((2 : ℝ) ^ ((p : Int) + 1) + 1 / 2) = 2 ^ ((p : Int) + 1) := by
  have hN : (2 : ℝ) ≤ 2 ^ ((p : Int) + 1) := by
    have : (2 : ℝ) ^ (1 : Int) ≤ 2 ^ ((p : Int) + 1) := zpow_le_zpow_right₀ (by norm_num) (by omega)
    simpa using this
  have h : Int.log 2 |(2 : ℝ) ^ ((p : Int) + 1) + 1 / 2| = p + 1 := by
    rw [abs_of_pos (by linarith)]
    apply le_antisymm
    · rw [← Int.lt_add_one_iff, ← Int.lt_zpow_iff_log_lt (by norm_num) (by linarith)]
      push_cast
      rw [zpow_add_one₀ (by norm_num) ((p : Int) + 1)]; linarith
    · rw [← Int.zpow_le_iff_le_log (by norm_num) (by linarith)]
      push_cast; linarith
  show (round (_ / (2 : ℝ) ^ (Int.log 2 _ - p)) : ℝ) * (2 : ℝ) ^ (Int.log 2 _ - p) = _
  rw [h, show (p : Int) + 1 - p = 1 by ring, zpow_one]
  have hr : round (((2 : ℝ) ^ ((p : Int) + 1) + 1 / 2) / 2) = 2 ^ p := by
    rw [round_eq, Int.floor_eq_iff]
    push_cast
    rw [zpow_add_one₀ (by norm_num), zpow_natCast]
    constructor <;> linarith
  rw [hr, zpow_add_one₀ (by norm_num), zpow_natCast]
  push_cast; ring

/-- C82 is violated: `statistics_split_prec` uses one compensation for all columns. With every number of binary digits, the second column
    of `2^(p+1), 0, 1/2, 0` consists of zeros, but its sum is reported as `1/2`: what is missing in the first column is added to the
    second. `statistics_split` reports zero. -/
theorem C82_split_prec_violated (p : Nat) (sqrt : Fl (binaryRounding p) → Fl (binaryRounding p)) (st : MultiCoreSettings)
    (v : DspVec (Fl (binaryRounding p))) (ha : v.content = some [⟨2 ^ ((p : Int) + 1)⟩, ⟨0⟩, ⟨1 / 2⟩, ⟨0⟩]) (order : List Nat) :
    (∃ rs s, v.statisticsSplitPrec (realStatOps sqrt) st 2 order = some (.ok rs) ∧ rs[1]? = some s ∧ s.sum.val = 1 / 2) ∧
    (∃ rs s, v.statisticsSplit (realStatOps sqrt) st 2 order = some (.ok rs) ∧ rs[1]? = some s ∧ s.sum.val = 0) := by
  obtain ⟨⟨rs, s, h1, h2, h3⟩, rs', s', k1, k2, k3⟩ := split_prec_four sqrt st v _ _ _ _ ha order
  refine ⟨⟨rs, s, h1, h2, ?_⟩, rs', s', k1, k2, ?_⟩
  · rw [h3]
    have hadd : ∀ x y : Fl (binaryRounding p), (x + y).val = (binaryRounding p).rnd (x.val + y.val) := fun _ _ => rfl
    have hsub : ∀ x y : Fl (binaryRounding p), (x - y).val = (binaryRounding p).rnd (x.val - y.val) := fun _ _ => rfl
    have h0 : (0 : Fl (binaryRounding p)).val = 0 := rfl
    have hh : (binaryRounding p).rnd (1 / 2) = 1 / 2 := by
      have := binary_pow p (-1); norm_num at this ⊢; exact this
    have hh' : (binaryRounding p).rnd (-(1 / 2)) = -(1 / 2) := by
      have := binary_neg_pow p (-1); norm_num at this ⊢; exact this
    have hN := binary_pow p ((p : Int) + 1)
    have hL := binary_lost p
    generalize (2 : ℝ) ^ ((p : Int) + 1) = N at *
    simp only [hadd, hsub, h0, sub_zero, zero_add, hN, sub_self, binary_zero, hh, hL, zero_sub, hh', sub_neg_eq_add]
  · rw [k3]
    show (binaryRounding p).rnd (0 + (binaryRounding p).rnd ((binaryRounding p).rnd (0 + 0) + 0)) = 0
    simp [binary_zero]

/-- `f64` numbers in a vector with a part of the storage which is not valid. -/
example :
    let v : DspVec (Fl (binaryRounding 52)) := ⟨⟨.vec, [⟨2 ^ ((52 : Nat) + 1 : Int)⟩, ⟨0⟩, ⟨1 / 2⟩, ⟨0⟩, ⟨7⟩]⟩, some ⟨1⟩, .time, .real, 4⟩
    v.content = some [⟨2 ^ ((52 : Nat) + 1 : Int)⟩, ⟨0⟩, ⟨1 / 2⟩, ⟨0⟩] := rfl

/-- A square root, a vector and its columns which meet the hypotheses. -/
example :
    let R := binaryRounding 52
    let v : DspVec (Fl R) := ⟨⟨.vec, [⟨1⟩, ⟨1 / 3⟩, ⟨2⟩, ⟨-5⟩, ⟨0⟩, ⟨9⟩]⟩, some ⟨1⟩, .time, .real, 5⟩
    let w : DspVec (Fl R) := ⟨⟨.vec, [⟨1 / 3⟩, ⟨-5⟩]⟩, some ⟨1⟩, .time, .real, 2⟩
    (∀ x : Fl R, |(⟨R.rnd (√x.val)⟩ : Fl R).val - √x.val| ≤ R.u * √x.val) ∧ R.u < 1 ∧
      v.content = some [⟨1⟩, ⟨1 / 3⟩, ⟨2⟩, ⟨-5⟩, ⟨0⟩] ∧ ((5 : Nat) : ℝ) * R.u ≤ 1 / 100 ∧
      IsEveryKth 2 1 ([⟨1⟩, ⟨1 / 3⟩, ⟨2⟩, ⟨-5⟩, ⟨0⟩] : List (Fl R)) [⟨1 / 3⟩, ⟨-5⟩] ∧ w.content = some [⟨1 / 3⟩, ⟨-5⟩] := by
  refine ⟨fun x => ?_, ?_, rfl, ?_, fun q => ?_, rfl⟩
  · have := (binaryRounding 52).error (√x.val)
    rwa [abs_of_nonneg (Real.sqrt_nonneg x.val)] at this
  · norm_num [binaryRounding]
  · norm_num [binaryRounding]
  · match q with
    | 0 => rfl
    | 1 => rfl
    | q + 2 =>
      rw [List.getElem?_eq_none (by simp), List.getElem?_eq_none (by simp; omega)]

/-- A norm of rounded complex numbers which meets the hypothesis. -/
example (R : Rounding) : ∃ norm : Cx (Fl R) → ℝ, ∀ x, norm ⟨0, 0⟩ ≤ norm x ∧ (norm x = norm ⟨0, 0⟩ → x = ⟨0, 0⟩) := by
  refine ⟨fun x => |x.re.val| + |x.im.val|, fun x => ?_⟩
  obtain ⟨⟨a⟩, ⟨b⟩⟩ := x
  have h0 : (0 : Fl R).val = 0 := rfl
  simp only [h0, abs_zero, add_zero]
  refine ⟨by positivity, fun h => ?_⟩
  have ha : |a| = 0 := by linarith [abs_nonneg a, abs_nonneg b]
  have hb : |b| = 0 := by linarith [abs_nonneg a, abs_nonneg b]
  rw [abs_eq_zero] at ha hb
  subst ha hb; rfl

end Dsp
