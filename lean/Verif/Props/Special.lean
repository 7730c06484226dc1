import Verif.Spec.Special
import Verif.Props.Sums
import Verif.Props.Stats
import Verif.Props.DiffSum
import Verif.Props.Elementary
import Mathlib.Algebra.Order.Ring.Rat
/-
C90: infinities and NaN.
-/
namespace Dsp
open DspVec Statistics
variable {T : Type} [Field T] [LinearOrder T]
set_option linter.unusedSectionVars false

/-! ### The arithmetic -/

namespace Wide

instance : AddCommMonoid (Wide T) where
  add_assoc x y z := by
    change add (add x y) z = add x (add y z)
    cases x <;> cases y <;> cases z <;> simp [add, add_assoc]
  zero_add x := by
    change add (.num 0) x = x
    cases x <;> simp [add]
  add_zero x := by
    change add x (.num 0) = x
    cases x <;> simp [add]
  add_comm x y := by
    change add x y = add y x
    cases x <;> cases y <;> simp [add, add_comm]
  nsmul := nsmulRec

instance : CommMagma (Wide T) where
  mul_comm x y := by
    change mul x y = mul y x
    cases x <;> cases y <;> simp [mul, mul_comm]

theorem inf_eq_nan (x : T) : inf x = .nan ↔ x = 0 := by
  unfold inf
  rcases lt_trichotomy 0 x with h | h | h
  · simp [h, h.ne']
  · simp [← h]
  · simp [h, h.not_gt, h.ne]

@[simp] theorem nan_add (x : Wide T) : .nan + x = (.nan : Wide T) := by cases x <;> rfl
@[simp] theorem add_nan (x : Wide T) : x + .nan = (.nan : Wide T) := by cases x <;> rfl
@[simp] theorem num_add (x y : T) : (.num x + .num y : Wide T) = .num (x + y) := rfl
theorem sub_def (x y : Wide T) : x - y = add x (neg y) := rfl
@[simp] theorem nan_sub (x : Wide T) : .nan - x = (.nan : Wide T) := by cases x <;> rfl
@[simp] theorem sub_nan (x : Wide T) : x - .nan = (.nan : Wide T) := by cases x <;> rfl
@[simp] theorem sub_zero' (x : Wide T) : x - 0 = x := by
  change add x (neg (.num 0)) = x
  cases x <;> simp [add, neg]
theorem zero_def : (0 : Wide T) = .num 0 := rfl
theorem lt_def (x y : Wide T) : x < y ↔ lt x y = true := Iff.rfl
theorem lt_irrefl' (x : Wide T) : ¬ x < x := by cases x <;> simp [lt_def, lt]

theorem lt_trans' {x y z : Wide T} (h1 : x < y) (h2 : y < z) : x < z := by
  cases x <;> cases y <;> cases z <;> simp_all [lt_def, lt]
  exact lt_trans h1 h2

/-- Two values which are not NaN can be compared. -/
theorem lt_of_not {x y z : Wide T} (hx : x ≠ .nan) (h1 : ¬ y < x) (h2 : y < z) : x < z := by
  cases x <;> cases y <;> cases z <;> simp_all [lt_def, lt]
  exact lt_of_le_of_lt h1 h2

theorem ne_nan_of_lt {x y : Wide T} (h : x < y) : x ≠ .nan ∧ y ≠ .nan := by
  cases x <;> cases y <;> simp_all [lt_def, lt]

theorem eq_posInf_of_not {x : Wide T} (h : ¬ x < .posInf) : x = .nan ∨ x = .posInf := by
  cases x <;> simp_all [lt_def, lt]

theorem eq_negInf_of_not {x : Wide T} (h : ¬ .negInf < x) : x = .nan ∨ x = .negInf := by
  cases x <;> simp_all [lt_def, lt]

end Wide

/-- What a sum says about the numbers it was formed of. -/
def SumMeans (l : List (Wide T)) : Wide T → Prop
  | .nan => Wide.Undefined l
  | .posInf => ¬ Wide.Undefined l ∧ .posInf ∈ l
  | .negInf => ¬ Wide.Undefined l ∧ .negInf ∈ l
  | .num s => ∃ xs, Wide.Finite l xs ∧ s = xs.sum

theorem sumMeans (l : List (Wide T)) : SumMeans l l.sum := by
  induction l with
  | nil => exact ⟨[], rfl, rfl⟩
  | cons x l ih =>
    rw [List.sum_cons]
    generalize l.sum = s at ih
    cases x <;> cases s <;> simp only [SumMeans, Wide.Undefined] at ih
    case num.num x s =>
      obtain ⟨xs, h1, h2⟩ := ih
      exact ⟨x :: xs, by simp [Wide.Finite, show l = xs.map .num from h1], by simp [h2]⟩
    case posInf.num s =>
      obtain ⟨xs, h1, h2⟩ := ih
      have h1' : l = xs.map .num := h1
      exact ⟨by simp [Wide.Undefined, h1'], by simp⟩
    case negInf.num s =>
      obtain ⟨xs, h1, h2⟩ := ih
      have h1' : l = xs.map .num := h1
      exact ⟨by simp [Wide.Undefined, h1'], by simp⟩
    all_goals
      first
      | (change Wide.Undefined _; simp [Wide.Undefined] <;> tauto; done)
      | (refine ⟨?_, ?_⟩ <;> simp [Wide.Undefined] <;> tauto)

theorem isSum_sum (l : List (Wide T)) : IsSum l l.sum := by
  have h := sumMeans l
  refine ⟨?_, ?_, ?_, ?_⟩
  · intro hu
    cases hs : l.sum with
    | nan => rfl
    | posInf => rw [hs] at h; exact absurd hu h.1
    | negInf => rw [hs] at h; exact absurd hu h.1
    | num s =>
      rw [hs] at h
      obtain ⟨xs, h1, -⟩ := h
      have h1' : l = xs.map .num := h1
      simp [Wide.Undefined, h1'] at hu
  · intro hu hp
    cases hs : l.sum with
    | nan => rw [hs] at h; exact absurd h hu
    | posInf => rfl
    | negInf => rw [hs] at h; exact absurd (.inr ⟨hp, h.2⟩) hu
    | num s =>
      rw [hs] at h
      obtain ⟨xs, h1, -⟩ := h
      have h1' : l = xs.map .num := h1
      simp [h1'] at hp
  · intro hu hp
    cases hs : l.sum with
    | nan => rw [hs] at h; exact absurd h hu
    | negInf => rfl
    | posInf => rw [hs] at h; exact absurd (.inr ⟨h.2, hp⟩) hu
    | num s =>
      rw [hs] at h
      obtain ⟨xs, h1, -⟩ := h
      have h1' : l = xs.map .num := h1
      simp [h1'] at hp
  · intro xs hx
    have hx' : l = xs.map .num := hx
    rw [hx']
    clear hx hx' h
    induction xs with
    | nil => rfl
    | cons x xs ih => rw [List.map_cons, List.sum_cons, ih]; simp

/-! ### Compensated summation -/

theorem kahan_num (xs : List T) (s : T) :
    (xs.map .num).foldl (kahanStep (· + ·) (· - ·)) (.num s, (0 : Wide T)) = (.num (s + xs.sum), 0) := by
  induction xs generalizing s with
  | nil => simp
  | cons x xs ih =>
    rw [List.map_cons, List.foldl_cons]
    have : kahanStep (· + ·) (· - ·) (.num s, (0 : Wide T)) (.num x) = (.num (s + x), 0) := by
      simp only [kahanStep, Wide.sub_zero', Wide.num_add]
      rw [Wide.sub_def, Wide.sub_def]
      simp [Wide.add, Wide.neg, Wide.zero_def]
    rw [this, ih]; simp [add_assoc]

theorem kahan_nan (l : List (Wide T)) (hl : l ≠ []) (s : Wide T) :
    (l.foldl (kahanStep (· + ·) (· - ·)) (s, .nan)).1 = .nan := by
  induction l generalizing s with
  | nil => exact absurd rfl hl
  | cons x l ih =>
    rw [List.foldl_cons]
    have : kahanStep (· + ·) (· - ·) (s, (.nan : Wide T)) x = (.nan, .nan) := by simp [kahanStep]
    rw [this]
    cases l with
    | nil => rfl
    | cons y l => exact ih (by simp) _

/-- The compensated sum of numbers of which only the last one may be special. -/
theorem kahan_last (xs : List T) (y : Wide T) :
    kahanSum (· + ·) (· - ·) (0 : Wide T) (xs.map Wide.num ++ [y]) = (xs.map Wide.num ++ [y]).sum := by
  unfold kahanSum
  rw [List.foldl_append]
  change (List.foldl _ (List.foldl _ (Wide.num 0, (0 : Wide T)) _) _).1 = _
  rw [kahan_num, List.sum_append, (isSum_sum (xs.map Wide.num)).2.2.2 xs rfl]
  simp [kahanStep]

/-- An infinity or NaN which is not the last element destroys the compensated sum. -/
theorem kahan_broken (l r : List (Wide T)) (y : Wide T) (hy : ∀ x, y ≠ .num x) (hr : r ≠ []) :
    kahanSum (· + ·) (· - ·) (0 : Wide T) (l ++ y :: r) = .nan := by
  have key : ∀ (l : List (Wide T)) (s c : Wide T), (c = 0 ∧ ∃ x, s = .num x) ∨ c = .nan →
      ((l ++ y :: r).foldl (kahanStep (· + ·) (· - ·)) (s, c)).1 = .nan := by
    intro l
    induction l with
    | nil =>
      intro s c h
      rcases h with ⟨rfl, x, rfl⟩ | rfl
      · rw [List.nil_append, List.foldl_cons]
        have : (kahanStep (· + ·) (· - ·) (.num x, (0 : Wide T)) y).2 = .nan := by
          simp only [kahanStep, Wide.sub_zero']
          cases y with
          | num z => exact absurd rfl (hy z)
          | nan => simp
          | posInf => rfl
          | negInf => rfl
        rw [← Prod.eta (kahanStep (· + ·) (· - ·) (.num x, (0 : Wide T)) y), this]
        exact kahan_nan r hr _
      · exact kahan_nan _ (by simp) _
    | cons z l ih =>
      intro s c h
      rcases h with ⟨rfl, x, rfl⟩ | rfl
      · rw [List.cons_append, List.foldl_cons]
        have hz : ((kahanStep (· + ·) (· - ·) (.num x, (0 : Wide T)) z).2 = 0 ∧
            ∃ w, (kahanStep (· + ·) (· - ·) (.num x, (0 : Wide T)) z).1 = .num w) ∨
            (kahanStep (· + ·) (· - ·) (.num x, (0 : Wide T)) z).2 = .nan := by
          cases z with
          | num z =>
            have := kahan_num [z] x
            rw [List.map_cons, List.map_nil, List.foldl_cons, List.foldl_nil] at this
            exact .inl ⟨by rw [this], _, by rw [this]⟩
          | nan => exact .inr (by simp [kahanStep])
          | posInf => exact .inr (by simp only [kahanStep, Wide.sub_zero']; rfl)
          | negInf => exact .inr (by simp only [kahanStep, Wide.sub_zero']; rfl)
        rw [← Prod.eta (kahanStep (· + ·) (· - ·) (.num x, (0 : Wide T)) z)]
        exact ih _ _ hz
      · exact kahan_nan _ (by simp) _
  exact key l _ _ (.inl ⟨rfl, 0, rfl⟩)

/-! ### Minimum and maximum -/

theorem Ext.lt_fin {E K : Type} [LT K] [DecidableLT K] (norm : E → K) (x y : E) :
    (Ext.lt norm (.fin x) (.fin y) = true) ↔ norm x < norm y := by
  show decide (norm x < norm y) = true ↔ _
  exact decide_eq_true_iff

theorem least_snoc_keep {l : List (Wide T)} {i : Nat} {m x : Wide T} (h : IsFirstLeast l i m) (hx : ¬ x < m) :
    IsFirstLeast (l ++ [x]) i m := by
  obtain ⟨h1, h2, h3, h4⟩ := h
  have hi : i < l.length := (List.getElem?_eq_some_iff.mp h1).1
  refine ⟨by rw [List.getElem?_append_left hi]; exact h1, h2, ?_, ?_⟩
  · intro y hy
    rcases List.mem_append.mp hy with hy | hy
    · exact h3 y hy
    · rw [List.mem_singleton.mp hy]; exact hx
  · intro j y hj hy
    rw [List.getElem?_append_left (by omega)] at hy
    exact h4 j y hj hy

theorem greatest_snoc_keep {l : List (Wide T)} {i : Nat} {m x : Wide T} (h : IsFirstGreatest l i m) (hx : ¬ m < x) :
    IsFirstGreatest (l ++ [x]) i m := by
  obtain ⟨h1, h2, h3, h4⟩ := h
  have hi : i < l.length := (List.getElem?_eq_some_iff.mp h1).1
  refine ⟨by rw [List.getElem?_append_left hi]; exact h1, h2, ?_, ?_⟩
  · intro y hy
    rcases List.mem_append.mp hy with hy | hy
    · exact h3 y hy
    · rw [List.mem_singleton.mp hy]; exact hx
  · intro j y hj hy
    rw [List.getElem?_append_left (by omega)] at hy
    exact h4 j y hj hy

theorem least_snoc_new {l : List (Wide T)} {x : Wide T} (hx : x ≠ .nan) (h : ∀ y ∈ l, y = .nan ∨ x < y) :
    IsFirstLeast (l ++ [x]) l.length x := by
  refine ⟨by simp, hx, ?_, ?_⟩
  · intro y hy hyx
    rcases List.mem_append.mp hy with hy | hy
    · rcases h y hy with rfl | h
      · exact (Wide.ne_nan_of_lt hyx).1 rfl
      · exact Wide.lt_irrefl' _ (Wide.lt_trans' h hyx)
    · rw [List.mem_singleton.mp hy] at hyx; exact Wide.lt_irrefl' _ hyx
  · intro j y hj hy
    rw [List.getElem?_append_left (by omega)] at hy
    exact h y (List.mem_of_getElem? hy)

theorem greatest_snoc_new {l : List (Wide T)} {x : Wide T} (hx : x ≠ .nan) (h : ∀ y ∈ l, y = .nan ∨ y < x) :
    IsFirstGreatest (l ++ [x]) l.length x := by
  refine ⟨by simp, hx, ?_, ?_⟩
  · intro y hy hyx
    rcases List.mem_append.mp hy with hy | hy
    · rcases h y hy with rfl | h
      · exact (Wide.ne_nan_of_lt hyx).2 rfl
      · exact Wide.lt_irrefl' _ (Wide.lt_trans' h hyx)
    · rw [List.mem_singleton.mp hy] at hyx; exact Wide.lt_irrefl' _ hyx
  · intro j y hj hy
    rw [List.getElem?_append_left (by omega)] at hy
    exact h y (List.mem_of_getElem? hy)

theorem addMinMax_values (sqrt : Wide T → Wide T) (s : Statistics (Wide T)) (x : Wide T) (j : Nat) :
    ((addMinMax (wideStatOps sqrt) s x j).min, (addMinMax (wideStatOps sqrt) s x j).minIndex) =
      (if Ext.lt (fun x => x) (.fin x) s.min then (.fin x, j) else (s.min, s.minIndex)) ∧
    ((addMinMax (wideStatOps sqrt) s x j).max, (addMinMax (wideStatOps sqrt) s x j).maxIndex) =
      (if Ext.lt (fun x => x) s.max (.fin x) then (.fin x, j) else (s.max, s.maxIndex)) := by
  unfold addMinMax wideStatOps
  simp only
  constructor <;> split <;> split <;> simp_all

theorem minimum_snoc (sqrt : Wide T → Wide T) {l : List (Wide T)} {s : Statistics (Wide T)} (x : Wide T)
    (h : MinimumIs l s.min s.minIndex) :
    MinimumIs (l ++ [x]) (addMinMax (wideStatOps sqrt) s x l.length).min (addMinMax (wideStatOps sqrt) s x l.length).minIndex := by
  have e := (addMinMax_values sqrt s x l.length).1
  rw [Prod.mk.injEq] at e
  rw [e.1, e.2]
  by_cases hl : ∃ y ∈ l, y < .posInf
  · obtain ⟨m, h1, h2⟩ := h.1 hl
    have hn : ∃ y ∈ l ++ [x], y < .posInf := by
      obtain ⟨y, hy, hy'⟩ := hl; exact ⟨y, by simp [hy], hy'⟩
    refine ⟨fun _ => ?_, fun hh => absurd hn hh⟩
    rw [h1]
    by_cases hx : x < m
    · rw [if_pos ((Ext.lt_fin _ _ _).mpr hx)]
      refine ⟨x, rfl, least_snoc_new (Wide.ne_nan_of_lt hx).1 fun y hy => ?_⟩
      by_cases hy0 : y = .nan
      · exact .inl hy0
      · right
        by_contra hc
        exact h2.2.2.1 y hy (Wide.lt_of_not hy0 hc hx)
    · rw [if_neg (fun hh => hx ((Ext.lt_fin _ _ _).mp hh))]
      exact ⟨m, rfl, least_snoc_keep h2 hx⟩
  · obtain ⟨h1, h2⟩ := h.2 hl
    rw [h1, h2]
    by_cases hx : x < .posInf
    · rw [if_pos ((Ext.lt_fin _ _ _).mpr hx)]
      refine ⟨fun _ => ⟨x, rfl, least_snoc_new (Wide.ne_nan_of_lt hx).1 fun y hy => ?_⟩, fun hh => absurd ⟨x, by simp, hx⟩ hh⟩
      rcases Wide.eq_posInf_of_not (fun hc => hl ⟨y, hy, hc⟩) with rfl | rfl
      · exact .inl rfl
      · exact .inr hx
    · rw [if_neg (fun hh => hx ((Ext.lt_fin _ _ _).mp hh))]
      refine ⟨fun ⟨y, hy, hy'⟩ => ?_, fun _ => ⟨rfl, rfl⟩⟩
      rcases List.mem_append.mp hy with hy | hy
      · exact absurd ⟨y, hy, hy'⟩ hl
      · rw [List.mem_singleton.mp hy] at hy'; exact absurd hy' hx

theorem maximum_snoc (sqrt : Wide T → Wide T) {l : List (Wide T)} {s : Statistics (Wide T)} (x : Wide T)
    (h : MaximumIs l s.max s.maxIndex) :
    MaximumIs (l ++ [x]) (addMinMax (wideStatOps sqrt) s x l.length).max (addMinMax (wideStatOps sqrt) s x l.length).maxIndex := by
  have e := (addMinMax_values sqrt s x l.length).2
  rw [Prod.mk.injEq] at e
  rw [e.1, e.2]
  by_cases hl : ∃ y ∈ l, .negInf < y
  · obtain ⟨m, h1, h2⟩ := h.1 hl
    have hn : ∃ y ∈ l ++ [x], .negInf < y := by
      obtain ⟨y, hy, hy'⟩ := hl; exact ⟨y, by simp [hy], hy'⟩
    refine ⟨fun _ => ?_, fun hh => absurd hn hh⟩
    rw [h1]
    by_cases hx : m < x
    · rw [if_pos ((Ext.lt_fin _ _ _).mpr hx)]
      refine ⟨x, rfl, greatest_snoc_new (Wide.ne_nan_of_lt hx).2 fun y hy => ?_⟩
      by_cases hy0 : y = .nan
      · exact .inl hy0
      · exact .inr (Wide.lt_of_not hy0 (h2.2.2.1 y hy) hx)
    · rw [if_neg (fun hh => hx ((Ext.lt_fin _ _ _).mp hh))]
      exact ⟨m, rfl, greatest_snoc_keep h2 hx⟩
  · obtain ⟨h1, h2⟩ := h.2 hl
    rw [h1, h2]
    by_cases hx : .negInf < x
    · rw [if_pos ((Ext.lt_fin _ _ _).mpr hx)]
      refine ⟨fun _ => ⟨x, rfl, greatest_snoc_new (Wide.ne_nan_of_lt hx).2 fun y hy => ?_⟩, fun hh => absurd ⟨x, by simp, hx⟩ hh⟩
      rcases Wide.eq_negInf_of_not (fun hc => hl ⟨y, hy, hc⟩) with rfl | rfl
      · exact .inl rfl
      · exact .inr hx
    · rw [if_neg (fun hh => hx ((Ext.lt_fin _ _ _).mp hh))]
      refine ⟨fun ⟨y, hy, hy'⟩ => ?_, fun _ => ⟨rfl, rfl⟩⟩
      rcases List.mem_append.mp hy with hy | hy
      · exact absurd ⟨y, hy, hy'⟩ hl
      · rw [List.mem_singleton.mp hy] at hy'; exact absurd hy' hx

/-! ### Statistics -/

/-- State of the loop of `statistics` over the data `l`. -/
structure SpecialAcc (l : List (Wide T)) (s : Statistics (Wide T)) : Prop where
  count : s.count = l.length
  min : MinimumIs l s.min s.minIndex
  max : MaximumIs l s.max s.maxIndex

theorem SpecialAcc.empty (sqrt : Wide T → Wide T) : SpecialAcc [] (Statistics.empty (wideStatOps sqrt)) :=
  ⟨rfl, ⟨by simp, fun _ => ⟨rfl, rfl⟩⟩, ⟨by simp, fun _ => ⟨rfl, rfl⟩⟩⟩

theorem SpecialAcc.addMinMax (sqrt : Wide T → Wide T) {l : List (Wide T)} {s : Statistics (Wide T)} (h : SpecialAcc l s)
    (s' : Statistics (Wide T)) (hs : s'.count = s.count + 1 ∧ s'.min = s.min ∧ s'.minIndex = s.minIndex ∧ s'.max = s.max ∧
      s'.maxIndex = s.maxIndex) (x : Wide T) :
    SpecialAcc (l ++ [x]) (Statistics.addMinMax (wideStatOps sqrt) s' x l.length) := by
  obtain ⟨h1, h2, h3, h4, h5⟩ := hs
  refine ⟨?_, minimum_snoc sqrt x (by rw [h2, h3]; exact h.min), maximum_snoc sqrt x (by rw [h4, h5]; exact h.max)⟩
  rw [(addMinMax_rest _ _ _ _).1, h1, h.count]; simp

theorem special_addAll (sqrt : Wide T → Wide T) (l : List (Wide T)) :
    SpecialAcc l (addAll (wideStatOps sqrt) (Statistics.empty (wideStatOps sqrt)) 0 l) ∧
    (addAll (wideStatOps sqrt) (Statistics.empty (wideStatOps sqrt)) 0 l).sum = l.sum ∧
    (addAll (wideStatOps sqrt) (Statistics.empty (wideStatOps sqrt)) 0 l).rms = some (l.map fun x => x * x).sum := by
  induction l using List.reverseRecOn with
  | nil => exact ⟨SpecialAcc.empty sqrt, rfl, rfl⟩
  | append_singleton l x ih =>
    obtain ⟨i1, i2, i3⟩ := ih
    rw [addAll_snoc, Nat.zero_add]
    unfold Statistics.add
    refine ⟨by refine i1.addMinMax sqrt _ ?_ x; exact ⟨rfl, rfl, rfl, rfl, rfl⟩, ?_, ?_⟩
    · rw [(addMinMax_rest _ _ _ _).2.1]; simp [i2]
    · rw [(addMinMax_rest _ _ _ _).2.2]; simp [i3]

theorem addAllPrec_snoc (sqrt : Wide T → Wide T) (l : List (Wide T)) (x : Wide T) :
    ((l ++ [x]).zipIdx 0).foldl (fun s x => addPrec (wideStatOps sqrt) s x.1 x.2) (Statistics.empty (wideStatOps sqrt), 0, 0) =
    addPrec (wideStatOps sqrt)
      ((l.zipIdx 0).foldl (fun s x => addPrec (wideStatOps sqrt) s x.1 x.2) (Statistics.empty (wideStatOps sqrt), 0, 0)) x l.length := by
  rw [List.zipIdx_append, List.foldl_append]
  simp

theorem special_addAllPrec (sqrt : Wide T → Wide T) (l : List (Wide T)) :
    ∃ s c q r, (l.zipIdx 0).foldl (fun s x => addPrec (wideStatOps sqrt) s x.1 x.2) (Statistics.empty (wideStatOps sqrt), 0, 0) = (s, c, r) ∧
      SpecialAcc l s ∧ (s.sum, c) = l.foldl (kahanStep (· + ·) (· - ·)) (0, 0) ∧ s.rms = some q ∧
      (q, r) = (l.map fun x => x * x).foldl (kahanStep (· + ·) (· - ·)) (0, 0) := by
  induction l using List.reverseRecOn with
  | nil => exact ⟨_, _, 0, _, rfl, SpecialAcc.empty sqrt, rfl, rfl, rfl⟩
  | append_singleton l x ih =>
    obtain ⟨s, c, q, r, e, i1, i2, i3, i4⟩ := ih
    rw [addAllPrec_snoc, e]
    unfold addPrec
    simp only [i3]
    refine ⟨_, _, _, _, rfl, by refine i1.addMinMax sqrt _ ?_ x; exact ⟨rfl, rfl, rfl, rfl, rfl⟩, ?_, (addMinMax_rest _ _ _ _).2.2, ?_⟩
    · rw [(addMinMax_rest _ _ _ _).2.1, List.foldl_append, ← i2]; rfl
    · rw [List.map_append, List.foldl_append, ← i4]; rfl

theorem special_lt_irrefl (x : Ext (Wide T)) : Ext.lt (fun x : Wide T => x) x x = false := by
  cases x with
  | fin x => exact Bool.eq_false_iff.mpr fun h => Wide.lt_irrefl' x ((Ext.lt_fin _ _ _).mp h)
  | _ => rfl

theorem SpecialAcc.merge (sqrt : Wide T → Wide T) {l : List (Wide T)} {s : Statistics (Wide T)} (h : SpecialAcc l s) (hl : l ≠ [])
    {q : Wide T} (hq : s.rms = some q) : SpecialReport sqrt l s.sum q (Statistics.merge (wideStatOps sqrt) [s]) := by
  obtain ⟨h1, h2, h3, h4, h5, h6, h7, h8⟩ := merge_one_of_irrefl (wideStatOps sqrt) s (special_lt_irrefl _) (special_lt_irrefl _)
  have hc : l.length ≠ 0 := fun hh => hl (List.eq_nil_of_length_eq_zero hh)
  refine ⟨by rw [h1, h.count], h2, ?_, ?_, by rw [h3, h4]; exact h.min, by rw [h5, h6]; exact h.max⟩
  · rw [h7, h.count, if_neg hc]; rfl
  · rw [h8, hq, h.count]; simp only [Option.bind_some, if_neg hc]; rfl

/-! ### The properties -/

/-- C90: the sum and the sum of squares of a real vector with infinities and NaN: NaN if there is a NaN or infinities of both signs, otherwise
    the infinity which occurs, and the sum of the numbers if all elements are numbers, for every register type, settings and order. -/
theorem C90_sum (k : RegKind) (addr : Nat) (st : MultiCoreSettings) (v : DspVec (Wide T)) (hv : v.WF) (a : List (Wide T))
    (ha : v.content = some a) (hal : AlignmentAccepted addr k.len v.len) (order : List Nat) :
    ∃ s q, v.sum k addr st order = some s ∧ IsSum a s ∧ v.sumSq k addr st order = some q ∧ IsSum (a.map fun x => x * x) q ∧
      (q = .nan ↔ .nan ∈ a) ∧ (q = .posInf ↔ .nan ∉ a ∧ (.posInf ∈ a ∨ .negInf ∈ a)) := by
  obtain ⟨h1, h2⟩ := C21_sum k addr st v hv a ha hal order
  have hm := sumMeans (a.map fun x : Wide T => x * x)
  have hs := isSum_sum (a.map fun x : Wide T => x * x)
  have m1 : ∀ x : Wide T, x * x = .nan ↔ x = .nan := by
    intro x; change Wide.mul x x = .nan ↔ _; cases x <;> simp [Wide.mul]
  have m2 : ∀ x : Wide T, x * x = .posInf ↔ x = .posInf ∨ x = .negInf := by
    intro x; change Wide.mul x x = .posInf ↔ _; cases x <;> simp [Wide.mul]
  have m3 : ∀ x : Wide T, x * x ≠ .negInf := by
    intro x; change Wide.mul x x ≠ .negInf; cases x <;> simp [Wide.mul]
  have e1 : .nan ∈ (a.map fun x : Wide T => x * x) ↔ .nan ∈ a := by
    rw [List.mem_map]
    exact ⟨fun ⟨x, hx, he⟩ => (m1 x).mp he ▸ hx, fun hx => ⟨_, hx, (m1 _).mpr rfl⟩⟩
  have e2 : .posInf ∈ (a.map fun x : Wide T => x * x) ↔ .posInf ∈ a ∨ .negInf ∈ a := by
    rw [List.mem_map]
    constructor
    · rintro ⟨x, hx, he⟩
      rcases (m2 x).mp he with rfl | rfl
      · exact .inl hx
      · exact .inr hx
    · rintro (hx | hx)
      · exact ⟨_, hx, (m2 _).mpr (.inl rfl)⟩
      · exact ⟨_, hx, (m2 _).mpr (.inr rfl)⟩
  have e3 : .negInf ∉ (a.map fun x : Wide T => x * x) := by
    rw [List.mem_map]; rintro ⟨x, -, he⟩; exact m3 x he
  have e4 : Wide.Undefined (a.map fun x : Wide T => x * x) ↔ .nan ∈ a := by
    unfold Wide.Undefined; rw [e1]
    exact ⟨fun h => h.resolve_right fun h => e3 h.2, .inl⟩
  refine ⟨_, _, h1, isSum_sum a, h2, hs, ?_, ?_⟩
  · constructor
    · intro h; rw [h] at hm; exact e4.mp hm
    · intro h; exact hs.1 (e4.mpr h)
  · constructor
    · intro h; rw [h] at hm; exact ⟨fun hh => hm.1 (e4.mpr hh), e2.mp hm.2⟩
    · intro h; exact hs.2.1 (fun hh => h.1 (e4.mp hh)) (e2.mpr h.2)

/-- C90: the sum of a complex vector is formed for the real and the imaginary parts separately: a NaN in the one does not reach the other. -/
theorem C90_sum_complex (k : RegKind) (addr : Nat) (st : MultiCoreSettings) (v : DspVec (Wide T)) (hv : v.WF) (cs : List (Cx (Wide T)))
    (ha : v.content = some (fromComplex cs)) (heven : v.allocLen % 2 = 0) (hal : ComplexAlignmentAccepted addr k.len v.len) (order : List Nat) :
    ∃ s, v.sumComplex k addr st order = some s ∧ IsSum (cs.map Cx.re) s.re ∧ IsSum (cs.map Cx.im) s.im := by
  refine ⟨_, (C21_sum_complex k addr st v hv cs ha heven hal order).1, ?_, ?_⟩
  · rw [Cx.sum_re]; exact isSum_sum _
  · rw [Cx.sum_im]; exact isSum_sum _

/-- A vector with numbers, an infinity and memory behind the valid data which holds a NaN. -/
def specialVec : DspVec (Wide ℚ) := ⟨⟨.vec, [.num 1, .posInf, .num (-3), .nan]⟩, some (.num 1), .time, .real, 3⟩

example : specialVec.WF ∧ specialVec.content = some [.num 1, .posInf, .num (-3)] ∧ AlignmentAccepted 0 RegKind.sseF64x2.len specialVec.len ∧
    specialVec.sum .sseF64x2 0 (.withThresholds 1 0 0 0 0) [] = some .posInf :=
  ⟨⟨by decide, by decide⟩, by decide, .inl (by decide), by decide +kernel⟩

/-- C90: `dot_product` of real vectors of equal length is the sum of the products: NaN as soon as a zero meets an infinity. -/
theorem C90_dot (k : RegKind) (addr : Nat) (st : MultiCoreSettings) (v o : DspVec (Wide T)) (hv : v.WF) (hr : v.isComplex = false)
    (a b : List (Wide T)) (ha : v.content = some a) (hb : o.content = some b) (hlen : b.length = a.length)
    (hal : AlignmentAccepted addr k.len v.len) (order : List Nat) :
    ∃ s, v.dotProduct false k addr st o order = some (.ok s) ∧ IsSum (List.zipWith (· * ·) a b) s := by
  obtain ⟨h1, h2⟩ := hv.cells_eq ha
  refine ⟨_, ?_, isSum_sum _⟩
  unfold dotProduct
  rw [if_neg (by simp [hr]), hb]
  simp only [Option.bind_eq_bind, Option.bind_some, Bool.false_eq_true, if_false]
  rw [h1, ← h2, dotRealWith_acc (plainRegSum k) k addr st (fun _ _ => rfl) a _ b hlen order (by rw [h2]; exact hal)]
  rfl

/-- C90 for the dot product of complex vectors: both parts of the products are added separately. -/
theorem C90_dot_complex (k : RegKind) (addr : Nat) (st : MultiCoreSettings) (v o : DspVec (Wide T)) (hv : v.WF) (hc : v.isComplex = true)
    (hoc : o.isComplex = true) (hd : v.dom = o.dom) (a b : List (Cx (Wide T))) (ha : v.content = some (fromComplex a))
    (hb : o.content = some (fromComplex b)) (hlen : b.length = a.length) (heven : v.allocLen % 2 = 0)
    (hal : ComplexAlignmentAccepted addr k.len v.len) (order : List Nat) :
    ∃ s, v.dotProductComplex false k addr st o order = some (.ok s) ∧
      IsSum (List.zipWith (fun x y => x.re * y.re - x.im * y.im) a b) s.re ∧
      IsSum (List.zipWith (fun x y => x.re * y.im + x.im * y.re) a b) s.im := by
  obtain ⟨h1, h2⟩ := hv.cells_eq ha
  have hlen' : v.validLen = 2 * a.length := by rw [← h2]; simp
  obtain ⟨ss, hs⟩ := exists_fromComplex (l := v.data.cells.drop v.validLen) (by
    have : v.data.cells.length % 2 = 0 := heven
    have := hv.1
    simp only [List.length_drop]; omega)
  refine ⟨(List.zipWith (· * ·) a b).sum, ?_, ?_, ?_⟩
  · unfold dotProductComplex
    rw [if_neg (by simp [hc]), if_neg (by simp [hoc, hd]), hb]
    simp only [Option.bind_eq_bind, Option.bind_some, Bool.false_eq_true, if_false]
    rw [h1, hs, hlen', dotComplexWith_acc (plainRegSum k) k addr st (fun _ _ => rfl) a ss b hlen order (by rw [← hlen']; exact hal)]
    rfl
  · rw [Cx.sum_re, List.map_zipWith]; exact isSum_sum _
  · rw [Cx.sum_im, List.map_zipWith]; exact isSum_sum _

example :
    let v : DspVec (Wide ℚ) := ⟨⟨.vec, [.num 0, .num 1, .num 2]⟩, some (.num 1), .time, .real, 3⟩
    v.WF ∧ v.isComplex = false ∧ v.content = some [.num 0, .num 1, .num 2] ∧ v.len = specialVec.len ∧
      specialVec.dotProduct false .sseF64x2 0 (.withThresholds 1 0 0 0 0) v [] = some (.ok .posInf) :=
  ⟨⟨by decide, by decide⟩, by decide, by decide, by decide, by decide +kernel⟩

/-- C90: what `sum_prec` and `sum_sq_prec` of an `f64` vector give: the sum if there is no infinity and no NaN before the last element, and
    NaN otherwise. -/
theorem C90_sum_prec (st : MultiCoreSettings) (v : DspVec (Wide T)) (a : List (Wide T)) (ha : v.content = some a) (order : List Nat) :
    ∃ s q, v.sumPrec st order = some s ∧ v.sumSqPrec st order = some q ∧
      ((∀ x ∈ a.dropLast, ∃ t, x = .num t) → IsSum a s ∧ IsSum (a.map fun x => x * x) q) ∧
      ((∃ x ∈ a.dropLast, ∀ t, x ≠ .num t) → s = .nan ∧ q = .nan) := by
  have ha' : slice v.data.cells 0 v.validLen = some a := ha
  have key : ∀ l : List (Wide T), ((∀ x ∈ l.dropLast, ∃ t, x = .num t) → IsSum l (kahanSum (· + ·) (· - ·) 0 l)) ∧
      ((∃ x ∈ l.dropLast, ∀ t, x ≠ .num t) → kahanSum (· + ·) (· - ·) 0 l = .nan) := by
    intro l
    rcases List.eq_nil_or_concat' l with rfl | ⟨l, y, rfl⟩
    · exact ⟨fun _ => isSum_sum [], by simp⟩
    · rw [List.dropLast_concat]
      refine ⟨fun h => ?_, fun ⟨x, hx, hn⟩ => ?_⟩
      · obtain ⟨xs, rfl⟩ : ∃ xs : List T, l = xs.map .num := by
          induction l with
          | nil => exact ⟨[], rfl⟩
          | cons x l ih =>
            obtain ⟨xs, rfl⟩ := ih fun y hy => h y (by simp [hy])
            obtain ⟨t, rfl⟩ := h x (by simp)
            exact ⟨t :: xs, rfl⟩
        rw [kahan_last]; exact isSum_sum _
      · obtain ⟨l1, l2, rfl⟩ := List.append_of_mem hx
        rw [List.append_assoc, List.cons_append]
        exact kahan_broken l1 _ x hn (by simp)
  have hsq : ∀ x : Wide T, (∃ t, x = .num t) ↔ ∃ t, x * x = .num t := by
    intro x
    change _ ↔ ∃ t, Wide.mul x x = .num t
    cases x <;> simp [Wide.mul]
  have hd : (a.map fun x => x * x).dropLast = a.dropLast.map fun x => x * x := by
    rw [List.map_dropLast]
  have e : ∀ f : List (Wide T) → Wide T, (f [] = 0) →
      (if a = [] then ([] : List (Wide T)) else [f a]).foldl (· + ·) 0 = f a := by
    intro f hf
    by_cases h : a = []
    · rw [if_pos h, h, hf]; rfl
    · rw [if_neg h]; exact zero_add _
  refine ⟨kahanSum (· + ·) (· - ·) 0 a, kahanSum (· + ·) (· - ·) 0 (a.map fun x => x * x), ?_, ?_, fun h => ⟨(key a).1 h, ?_⟩,
    fun ⟨x, hx, hn⟩ => ⟨(key a).2 ⟨x, hx, hn⟩, (key _).2 ?_⟩⟩
  · unfold sumPrec sumPrecWith
    simp only [ha', Option.bind_eq_bind, Option.bind_some, chunkedResults_small]
    rw [e _ rfl]
  · unfold sumSqPrec sumPrecWith
    simp only [ha', Option.bind_eq_bind, Option.bind_some, chunkedResults_small]
    rw [e (fun l => kahanSum (· + ·) (· - ·) 0 (l.map fun x => x * x)) rfl]
  · refine (key _).1 fun y hy => ?_
    rw [hd] at hy
    obtain ⟨x, hx, rfl⟩ := List.mem_map.mp hy
    exact (hsq x).mp (h x hx)
  · refine ⟨x * x, by rw [hd]; exact List.mem_map.mpr ⟨x, hx, rfl⟩, fun t ht => ?_⟩
    obtain ⟨u, hu⟩ := (hsq x).mpr ⟨t, ht⟩
    exact hn u hu

/-- C90 is violated by the compensated sums: an infinity, which is not the last element, and numbers have the sum infinity, and `sum` says so,
    but `sum_prec` gives NaN. -/
theorem C90_sum_prec_violated (k : RegKind) (addr : Nat) (st : MultiCoreSettings) (v : DspVec (Wide T)) (hv : v.WF) (l r : List T) (y : T)
    (ha : v.content = some (l.map .num ++ .posInf :: (r.map .num ++ [.num y]))) (hal : AlignmentAccepted addr k.len v.len) (order : List Nat) :
    v.sum k addr st order = some .posInf ∧ v.sumPrec st order = some .nan := by
  obtain ⟨s, q, h1, -, -, h2⟩ := C90_sum_prec st v _ ha order
  obtain ⟨s', q', h3, h4, -⟩ := C90_sum k addr st v hv _ ha hal order
  have hd : (l.map Wide.num ++ Wide.posInf :: (r.map Wide.num ++ [Wide.num y])).dropLast = l.map Wide.num ++ Wide.posInf :: r.map Wide.num := by
    rw [← List.cons_append, ← List.append_assoc, List.dropLast_concat]
  rw [hd] at h2
  rw [h3, h1, (h2 ⟨.posInf, by simp, fun t h => by cases h⟩).1]
  refine ⟨congrArg some (h4.2.1 ?_ (by simp)), rfl⟩
  simp [Wide.Undefined]

example : specialVec.content = some ([1].map .num ++ .posInf :: (([] : List ℚ).map .num ++ [.num (-3)])) ∧
    specialVec.sumPrec (.withThresholds 1 0 0 0 0) [] = some .nan := ⟨by decide, by decide +kernel⟩

/-- C90: `sum_prec` and `sum_sq_prec` of an `f32` vector add plainly: the sums are right (`conv` is the conversion to `f64`). -/
theorem C90_sum_prec_f32 {U : Type} (conv : U → Wide T) (st : MultiCoreSettings) (v : DspVec U) (a : List U) (ha : v.content = some a)
    (order : List Nat) :
    ∃ s q, v.sumPrecF32 conv st order = some s ∧ IsSum (a.map conv) s ∧ v.sumSqPrecF32 conv st order = some q ∧
      IsSum (a.map fun x => conv x * conv x) q := by
  obtain ⟨h1, h2⟩ := C28_sum_prec_f32 conv st v a ha order
  exact ⟨_, _, h1, isSum_sum _, h2, isSum_sum _⟩

/-- C90: the statistics of a non-empty real vector with infinities and NaN: every element is counted, the sums are as in `C90_sum`, NaN is
    passed over for minimum and maximum. -/
theorem C90_statistics (sqrt : Wide T → Wide T) (st : MultiCoreSettings) (v : DspVec (Wide T)) (a : List (Wide T)) (ha : v.content = some a)
    (hne : a ≠ []) (order : List Nat) :
    ∃ s total squares, v.statistics (wideStatOps sqrt) st order = some s ∧ IsSum a total ∧ IsSum (a.map fun x => x * x) squares ∧
      SpecialReport sqrt a total squares s := by
  obtain ⟨h1, h2, h3⟩ := special_addAll sqrt a
  refine ⟨_, _, _, ?_, isSum_sum a, isSum_sum _, h2 ▸ h1.merge sqrt hne h3⟩
  unfold statistics
  rw [ha]
  simp only [Option.bind_eq_bind, Option.bind_some, chunkedResults_small, if_neg hne]

/-- C90: what `statistics_prec` of an `f64` vector gives: the same minimum and maximum, but the sums of `C90_sum_prec`. -/
theorem C90_statistics_prec (sqrt : Wide T → Wide T) (st : MultiCoreSettings) (v : DspVec (Wide T)) (a : List (Wide T))
    (ha : v.content = some a) (hne : a ≠ []) (order : List Nat) :
    ∃ s total squares, v.statisticsPrec (wideStatOps sqrt) st order = some s ∧ v.sumPrec st order = some total ∧
      v.sumSqPrec st order = some squares ∧ SpecialReport sqrt a total squares s := by
  have ha' : slice v.data.cells 0 v.validLen = some a := ha
  obtain ⟨s, c, q, r, e, i1, i2, i3, i4⟩ := special_addAllPrec sqrt a
  refine ⟨merge (wideStatOps sqrt) [s], s.sum, q, ?_, ?_, ?_, i1.merge sqrt hne i3⟩
  · unfold statisticsPrec addAllPrec
    rw [ha]
    simp only [Option.bind_eq_bind, Option.bind_some, chunkedResults_small, if_neg hne, e]
  · unfold sumPrec sumPrecWith kahanSum
    simp only [ha', Option.bind_eq_bind, Option.bind_some, chunkedResults_small, if_neg hne, ← i2]
    exact congrArg some (zero_add _)
  · unfold sumSqPrec sumPrecWith kahanSum
    simp only [ha', Option.bind_eq_bind, Option.bind_some, chunkedResults_small, if_neg hne, ← i4]
    exact congrArg some (zero_add _)

example : specialVec.content = some [.num 1, .posInf, .num (-3)] ∧
    (specialVec.statistics (wideStatOps fun x => x) (.withThresholds 1 0 0 0 0) []).map (fun s => (s.min, s.minIndex, s.max, s.maxIndex)) =
      some (.fin (.num (-3)), 2, .fin .posInf, 1) := ⟨by decide, by decide +kernel⟩

/-- C90 is violated by the index: if only NaN precede infinities, the reported minimum is infinity at index 0, where a NaN stands; data
    which consist of NaN have the minimum infinity and the maximum minus infinity, which do not occur. -/
theorem C90_statistics_index_violated (sqrt : Wide T → Wide T) (st : MultiCoreSettings) (v : DspVec (Wide T)) (a : List (Wide T))
    (ha : v.content = some (.nan :: a)) (hn : ∀ x ∈ a, x = .nan ∨ x = .posInf) (order : List Nat) :
    ∃ s, v.statistics (wideStatOps sqrt) st order = some s ∧ s.min = .fin .posInf ∧ s.minIndex = 0 ∧
      (.posInf ∉ a → s.max = .fin .negInf ∧ s.maxIndex = 0) := by
  obtain ⟨s, t, q, h1, -, -, h2⟩ := C90_statistics sqrt st v _ ha (by simp) order
  have hlt : ¬ (.posInf : Wide T) < .posInf := Wide.lt_irrefl' _
  have e := h2.min.2 (by
    rintro ⟨y, hy, hy'⟩
    rcases List.mem_cons.mp hy with rfl | hy
    · exact (Wide.ne_nan_of_lt hy').1 rfl
    · rcases hn y hy with rfl | rfl
      · exact (Wide.ne_nan_of_lt hy').1 rfl
      · exact hlt hy')
  refine ⟨s, h1, e.1, e.2, fun hp => h2.max.2 ?_⟩
  rintro ⟨y, hy, hy'⟩
  rcases List.mem_cons.mp hy with rfl | hy
  · exact (Wide.ne_nan_of_lt hy').2 rfl
  · rcases hn y hy with rfl | rfl
    · exact (Wide.ne_nan_of_lt hy').2 rfl
    · exact hp hy

example : (⟨⟨.vec, [.nan, .posInf]⟩, some (.num 1), .time, .real, 2⟩ : DspVec (Wide ℚ)).content = some (.nan :: [.posInf]) := by decide

/-- C90: `offset` with a number and `scale` with a number act on each element: the result has a NaN exactly where the vector has one; scaling
    with zero gives NaN for the infinities as well. -/
theorem C90_offset_scale (k : RegKind) (addr : Nat) (st : MultiCoreSettings) (x : T) (v : DspVec (Wide T)) (hv : v.WF)
    (hr : v.isComplex = false) (hal : AlignmentAccepted addr k.len v.len) (a : List (Wide T)) (ha : v.content = some a) :
    (∃ v' b, Always (v.offset k addr st (.num x)) v' ∧ v'.content = some b ∧ b.length = a.length ∧
      ∀ (i : Nat), (b[i]? = some .nan ↔ a[i]? = some .nan) ∧ (b[i]? = some .posInf ↔ a[i]? = some .posInf) ∧
        (b[i]? = some .negInf ↔ a[i]? = some .negInf)) ∧
    (∃ v' b, Always (v.scale k addr st (.num x)) v' ∧ v'.content = some b ∧ b.length = a.length ∧
      ∀ (i : Nat), (b[i]? = some .nan ↔ a[i]? = some .nan ∨ x = 0 ∧ (a[i]? = some .posInf ∨ a[i]? = some .negInf))) := by
  obtain ⟨a', ha', ⟨v1, h1, r1⟩, ⟨v2, h2, r2⟩⟩ := C20_real_vector k addr st (.num x) v hv hr hal
  obtain rfl : a = a' := Option.some.inj (ha.symm.trans ha')
  refine ⟨⟨v1, _, h1, r1.1, by simp, fun i => ?_⟩, ⟨v2, _, h2, r2.1, by simp, fun i => ?_⟩⟩
  · rw [List.getElem?_map]
    cases h : a[i]? with
    | none => simp
    | some y =>
      simp only [Option.map_some, Option.some.injEq]
      change (Wide.add y (.num x) = _ ↔ _) ∧ (Wide.add y (.num x) = _ ↔ _) ∧ (Wide.add y (.num x) = _ ↔ _)
      cases y <;> simp [Wide.add]
  · rw [List.getElem?_map]
    cases h : a[i]? with
    | none => simp
    | some y =>
      simp only [Option.map_some, Option.some.injEq]
      change Wide.mul y (.num x) = _ ↔ _
      cases y <;> simp [Wide.mul, Wide.inf_eq_nan]

example : specialVec.WF ∧ specialVec.isComplex = false ∧ AlignmentAccepted 0 RegKind.sseF64x2.len specialVec.len :=
  ⟨⟨by decide, by decide⟩, by decide, .inl (by decide)⟩

/-- C90: scaling a complex vector with the real number `x` keeps the parts apart; scaling with the complex number `x + 0i` does not: an
    infinite real part makes the imaginary part NaN. Both agree for numbers (C20). -/
theorem C90_scale_complex_violated (k : RegKind) (addr : Nat) (st : MultiCoreSettings) (x : T) (hx : 0 < x) (v : DspVec (Wide T)) (hv : v.WF)
    (hc : v.isComplex = true) (hal : ComplexAlignmentAccepted addr k.len v.len) (cs : List (Cx (Wide T)))
    (ha : v.content = some (fromComplex cs)) :
    ∃ v1 v2 b1 b2, Always (v.scale k addr st (.num x)) v1 ∧ Always (v.scaleComplex k addr st ⟨.num x, .num 0⟩) v2 ∧
      v1.content = some (fromComplex b1) ∧ v2.content = some (fromComplex b2) ∧
      ∀ (i : Nat) y, cs[i]? = some ⟨.posInf, .num y⟩ → b1[i]? = some ⟨.posInf, .num (y * x)⟩ ∧ b2[i]? = some ⟨.posInf, .nan⟩ := by
  obtain ⟨ds, hd, -, ⟨v1, h1, r1⟩, -, v2, h2, r2⟩ := C20_complex_vector k addr st (.num x) ⟨.num x, .num 0⟩ v hv hc hal
  have hds : cs = ds := by
    have := ha.symm.trans hd
    have h := congrArg toComplex? (Option.some.inj this)
    rw [toComplex?_fromComplex, toComplex?_fromComplex] at h
    exact Option.some.inj h
  subst hds
  refine ⟨v1, v2, _, _, h1, h2, r1.1, r2.1, fun i y hi => ?_⟩
  rw [List.getElem?_map, List.getElem?_map, hi]
  have e1 : (Wide.posInf * .num x : Wide T) = .posInf := by
    change Wide.inf x = _; simp [Wide.inf, hx]
  have e2 : (Wide.posInf * .num 0 : Wide T) = .nan := by
    change Wide.inf (0 : T) = _; simp [Wide.inf]
  have e3 : (Wide.posInf - .num y * .num 0 : Wide T) = .posInf := rfl
  simp only [Option.map_some, Cx.mul, e1, e2, e3, Wide.nan_add]
  exact ⟨rfl, trivial⟩

example : let v : DspVec (Wide ℚ) := ⟨⟨.vec, [.posInf, .num 1]⟩, some (.num 1), .time, .complex, 2⟩
    v.WF ∧ v.isComplex = true ∧ v.content = some (fromComplex [⟨.posInf, .num 1⟩]) ∧ ComplexAlignmentAccepted 0 RegKind.sseF64x2.len v.len :=
  ⟨⟨by decide, by decide⟩, by decide, by decide, .inl (by decide), by decide⟩

/-- C90: the cumulative sum contains at each position the sum of the values so far (part by part): after the first NaN everything is NaN. -/
theorem C90_cum_sum (v : DspVec (Wide T)) (h : v.WF) :
    ∃ v' l l', v.cumSum = some v' ∧ v.pts = some l ∧ v'.pts = some l' ∧ v'.SameMeta v ∧ l'.length = l.length ∧
      ∀ i c, i < l.length → c < v.stride →
        ∃ s, (l'[i]?).bind (fun p => p[c]?) = some s ∧ IsSum ((l.take (i + 1)).filterMap (fun p => p[c]?)) s := by
  obtain ⟨v', l, l', h1, h2, h3, h4, h5, h6⟩ := C11_cum_sum v h
  exact ⟨v', l, l', h1, h2, h3, h4, h5, fun i c hi hc => ⟨_, h6 i c hi hc, isSum_sum _⟩⟩

/-- C90 is violated by `diff_with_start` and `cum_sum`, which undo each other for numbers (C11): the element after an infinity becomes NaN. -/
theorem C90_diff_cum_sum_violated :
    let v : DspVec (Wide ℚ) := ⟨⟨.vec, [.posInf, .num 1]⟩, some (.num 1), .time, .real, 2⟩
    v.WF ∧ (v.diffWithStart.bind cumSum).map (fun w => w.content) = some (some [.posInf, .nan]) ∧
      (v.cumSum.bind diffWithStart).map (fun w => w.content) = some (some [.posInf, .nan]) :=
  ⟨⟨by decide, by decide⟩, by decide +kernel, by decide +kernel⟩

end Dsp
