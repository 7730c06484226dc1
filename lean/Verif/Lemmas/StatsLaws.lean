import Verif.Props.ProgramStat
import Verif.Spec.StatsLaws
import Mathlib.Algebra.Order.Chebyshev
import Mathlib.Tactic.Linarith
import Mathlib.Tactic.FieldSimp
/-
Lists of real numbers: sums, means, extreme values.
-/
namespace Dsp
open DspVec

theorem sum_map_add_const (xs : List ℝ) (c : ℝ) : (xs.map (· + c)).sum = xs.sum + xs.length * c := by
  induction xs with
  | nil => simp
  | cons x xs ih => simp only [List.map_cons, List.sum_cons, ih, List.length_cons]; push_cast; ring

theorem sum_map_mul_const (xs : List ℝ) (c : ℝ) : (xs.map (· * c)).sum = xs.sum * c := by
  induction xs with
  | nil => simp
  | cons x xs ih => simp only [List.map_cons, List.sum_cons, ih]; ring

theorem sumSq_add_const (xs : List ℝ) (c : ℝ) : ((xs.map (· + c)).map fun x => x * x).sum =
    (xs.map fun x => x * x).sum + 2 * c * xs.sum + xs.length * c ^ 2 := by
  induction xs with
  | nil => simp
  | cons x xs ih => simp only [List.map_cons, List.sum_cons, ih, List.length_cons]; push_cast; ring

theorem sumSq_mul_const (xs : List ℝ) (c : ℝ) : ((xs.map (· * c)).map fun x => x * x).sum =
    (xs.map fun x => x * x).sum * c ^ 2 := by
  induction xs with
  | nil => simp
  | cons x xs ih => simp only [List.map_cons, List.sum_cons, ih]; ring

theorem sumSq_nonneg (xs : List ℝ) : 0 ≤ (xs.map fun x => x * x).sum := by
  induction xs with
  | nil => simp
  | cons x xs ih => simp only [List.map_cons, List.sum_cons]; nlinarith [mul_self_nonneg x]

/-- The sum of squares is zero only for zeros. -/
theorem sumSq_eq_zero (xs : List ℝ) (h : (xs.map fun x => x * x).sum = 0) : ∀ x ∈ xs, x = 0 := by
  induction xs with
  | nil => simp
  | cons x xs ih =>
    simp only [List.map_cons, List.sum_cons] at h
    have h1 := sumSq_nonneg xs
    have h2 := mul_self_nonneg x
    intro y hy
    rcases List.mem_cons.1 hy with rfl | hy
    · exact mul_self_eq_zero.1 (by linarith)
    · exact ih (by linarith) y hy

theorem sum_lower (xs : List ℝ) (c : ℝ) (h : ∀ x ∈ xs, c ≤ x) : xs.length * c ≤ xs.sum := by
  induction xs with
  | nil => simp
  | cons x xs ih =>
    simp only [List.sum_cons, List.length_cons]
    have := ih fun y hy => h y (List.mem_cons_of_mem _ hy)
    have := h x (by simp)
    push_cast; linarith

theorem sum_upper (xs : List ℝ) (c : ℝ) (h : ∀ x ∈ xs, x ≤ c) : xs.sum ≤ xs.length * c := by
  induction xs with
  | nil => simp
  | cons x xs ih =>
    simp only [List.sum_cons, List.length_cons]
    have := ih fun y hy => h y (List.mem_cons_of_mem _ hy)
    have := h x (by simp)
    push_cast; linarith

theorem length_pos_real {xs : List ℝ} (h : xs ≠ []) : (0 : ℝ) < xs.length := by
  exact_mod_cast List.length_pos_iff.2 h

/-- The mean of the squares exceeds the square of the mean by the mean square of the deviations. -/
theorem variance_identity {xs : List ℝ} (h : xs ≠ []) :
    ((xs.map (· + -(xs.sum / xs.length))).map fun x => x * x).sum / xs.length =
      (xs.map fun x => x * x).sum / xs.length - (xs.sum / xs.length) ^ 2 := by
  have hn := length_pos_real h
  rw [sumSq_add_const]
  field_simp
  ring

theorem mean_sq_le {xs : List ℝ} (h : xs ≠ []) : (xs.sum / xs.length) ^ 2 ≤ (xs.map fun x => x * x).sum / xs.length := by
  have h1 := variance_identity h
  have h2 : 0 ≤ ((xs.map (· + -(xs.sum / xs.length))).map fun x => x * x).sum / xs.length :=
    div_nonneg (sumSq_nonneg _) (length_pos_real h).le
  linarith

theorem slice_full {α : Type} (xs : List α) : slice xs 0 xs.length = some xs := by
  unfold slice
  simp

/-- Every list which is not empty has a first smallest and a first largest number. -/
theorem exists_extremes {xs : List ℝ} (h : xs ≠ []) :
    ∃ lo i hi j, IsFirstMin (fun x => x) xs i lo ∧ IsFirstMax (fun x => x) xs j hi := by
  obtain ⟨s, -, hs⟩ := C24_real Real.sqrt (MultiCoreSettings.withThresholds 1 0 0 0 0) ⟨⟨.vec, xs⟩, some 1, .time, .real, xs.length⟩ xs
    (slice_full xs) h []
  obtain ⟨m, -, hm⟩ := hs.min
  obtain ⟨M, -, hM⟩ := hs.max
  exact ⟨m, _, M, _, hm, hM⟩

/-- The statistics of a list in terms of its extreme values. -/
theorem summary_report {xs : List ℝ} (h : xs ≠ []) {lo hi : ℝ} {i j : Nat} (h1 : IsFirstMin (fun x => x) xs i lo)
    (h2 : IsFirstMax (fun x => x) xs j hi) : Out.stats (realSummary Real.sqrt xs) =
      report xs.sum xs.length (xs.sum / xs.length) (Real.sqrt ((xs.map fun x => x * x).sum / xs.length)) lo i hi j := by
  have h1' := h1.firstWith
  have h2' := h2.firstWith
  simp only [realSummary, summary, h1', h2', if_neg h, report]

theorem IsFirstMin.map_mono {xs : List ℝ} {i : Nat} {lo : ℝ} (h : IsFirstMin (fun x => x) xs i lo) {f : ℝ → ℝ} (hf : StrictMono f) :
    IsFirstMin (fun x => x) (xs.map f) i (f lo) := by
  obtain ⟨h1, h2, h3⟩ := h
  refine ⟨by rw [List.getElem?_map, h1]; rfl, fun x hx => ?_, fun j x hj hx => ?_⟩
  · obtain ⟨y, hy, rfl⟩ := List.mem_map.1 hx
    exact hf.monotone (h2 y hy)
  · rw [List.getElem?_map, Option.map_eq_some_iff] at hx
    obtain ⟨y, hy, rfl⟩ := hx
    exact hf (h3 j y hj hy)

theorem IsFirstMax.map_mono {xs : List ℝ} {i : Nat} {hi : ℝ} (h : IsFirstMax (fun x => x) xs i hi) {f : ℝ → ℝ} (hf : StrictMono f) :
    IsFirstMax (fun x => x) (xs.map f) i (f hi) := by
  obtain ⟨h1, h2, h3⟩ := h
  refine ⟨by rw [List.getElem?_map, h1]; rfl, fun x hx => ?_, fun j x hj hx => ?_⟩
  · obtain ⟨y, hy, rfl⟩ := List.mem_map.1 hx
    exact hf.monotone (h2 y hy)
  · rw [List.getElem?_map, Option.map_eq_some_iff] at hx
    obtain ⟨y, hy, rfl⟩ := hx
    exact hf (h3 j y hj hy)

theorem IsFirstMin.map_anti {xs : List ℝ} {i : Nat} {lo : ℝ} (h : IsFirstMin (fun x => x) xs i lo) {f : ℝ → ℝ} (hf : StrictAnti f) :
    IsFirstMax (fun x => x) (xs.map f) i (f lo) := by
  obtain ⟨h1, h2, h3⟩ := h
  refine ⟨by rw [List.getElem?_map, h1]; rfl, fun x hx => ?_, fun j x hj hx => ?_⟩
  · obtain ⟨y, hy, rfl⟩ := List.mem_map.1 hx
    exact hf.antitone (h2 y hy)
  · rw [List.getElem?_map, Option.map_eq_some_iff] at hx
    obtain ⟨y, hy, rfl⟩ := hx
    exact hf (h3 j y hj hy)

theorem IsFirstMax.map_anti {xs : List ℝ} {i : Nat} {hi : ℝ} (h : IsFirstMax (fun x => x) xs i hi) {f : ℝ → ℝ} (hf : StrictAnti f) :
    IsFirstMin (fun x => x) (xs.map f) i (f hi) := by
  obtain ⟨h1, h2, h3⟩ := h
  refine ⟨by rw [List.getElem?_map, h1]; rfl, fun x hx => ?_, fun j x hj hx => ?_⟩
  · obtain ⟨y, hy, rfl⟩ := List.mem_map.1 hx
    exact hf.antitone (h2 y hy)
  · rw [List.getElem?_map, Option.map_eq_some_iff] at hx
    obtain ⟨y, hy, rfl⟩ := hx
    exact hf (h3 j y hj hy)

/-- The values of the extremes do not depend on the order of the numbers. -/
theorem extremes_perm {xs ys : List ℝ} (hp : xs.Perm ys) {lo hi lo' hi' : ℝ} {i j i' j' : Nat}
    (h1 : IsFirstMin (fun x => x) xs i lo) (h2 : IsFirstMax (fun x => x) xs j hi)
    (h1' : IsFirstMin (fun x => x) ys i' lo') (h2' : IsFirstMax (fun x => x) ys j' hi') : lo = lo' ∧ hi = hi' :=
  ⟨le_antisymm (h1.2.1 _ (hp.mem_iff.2 (List.mem_of_getElem? h1'.1))) (h1'.2.1 _ (hp.mem_iff.1 (List.mem_of_getElem? h1.1))),
    le_antisymm (h2'.2.1 _ (hp.mem_iff.1 (List.mem_of_getElem? h2.1))) (h2.2.1 _ (hp.mem_iff.2 (List.mem_of_getElem? h2'.1)))⟩

theorem rotateRight_perm {α : Type} (l : List α) (k : Nat) : (rotateRight l k).Perm l := by
  unfold rotateRight
  exact List.perm_append_comm.trans (by rw [List.take_append_drop])

/-- The inequality of Cauchy and Schwarz. -/
theorem cauchy_lists : ∀ (xs ys : List ℝ), (List.zipWith (· * ·) xs ys).sum ^ 2 ≤ (xs.map fun x => x * x).sum * (ys.map fun x => x * x).sum
  | [], ys => by simp
  | x :: xs, [] => by simp
  | x :: xs, y :: ys => by
    have h := cauchy_lists xs ys
    have hA := sumSq_nonneg xs
    have hB := sumSq_nonneg ys
    simp only [List.zipWith_cons_cons, List.map_cons, List.sum_cons]
    generalize (List.zipWith (· * ·) xs ys).sum = P at *
    generalize (xs.map fun x => x * x).sum = A at *
    generalize (ys.map fun x => x * x).sum = B at *
    have key : 2 * (x * y * P) ≤ x ^ 2 * B + y ^ 2 * A := by
      refine le_of_abs_le (abs_le_of_sq_le_sq ?_ (by positivity))
      nlinarith [sq_nonneg (x ^ 2 * B - y ^ 2 * A), mul_le_mul_of_nonneg_left h (by positivity : 0 ≤ 4 * (x * y) ^ 2)]
    nlinarith

/-- Minkowski's inequality for the mean squares. -/
theorem minkowski (xs ys : List ℝ) (hl : xs.length = ys.length) :
    Real.sqrt (((List.zipWith (· + ·) xs ys).map fun x => x * x).sum / xs.length) ≤
      Real.sqrt ((xs.map fun x => x * x).sum / xs.length) + Real.sqrt ((ys.map fun x => x * x).sum / ys.length) := by
  have hsum : ∀ (xs ys : List ℝ), xs.length = ys.length → ((List.zipWith (· + ·) xs ys).map fun x => x * x).sum =
      (xs.map fun x => x * x).sum + 2 * (List.zipWith (· * ·) xs ys).sum + (ys.map fun x => x * x).sum := by
    intro xs
    induction xs with
    | nil => intro ys h; cases ys <;> simp_all
    | cons x xs ih =>
      intro ys h
      cases ys with
      | nil => simp at h
      | cons y ys =>
        simp only [List.zipWith_cons_cons, List.map_cons, List.sum_cons, ih ys (by simpa using h)]
        ring
  rw [hsum xs ys hl, ← hl]
  have h := cauchy_lists xs ys
  have hA := sumSq_nonneg xs
  have hB := sumSq_nonneg ys
  have hn : (0 : ℝ) ≤ xs.length := Nat.cast_nonneg _
  generalize (List.zipWith (· * ·) xs ys).sum = P at *
  generalize (xs.map fun x => x * x).sum = A at *
  generalize (ys.map fun x => x * x).sum = B at *
  generalize (xs.length : ℝ) = n at *
  have hP : P ≤ Real.sqrt A * Real.sqrt B := by
    rw [← Real.sqrt_mul hA]
    exact Real.le_sqrt_of_sq_le h
  rw [Real.sqrt_div hA, Real.sqrt_div hB, ← add_div]
  rw [Real.sqrt_le_iff]
  refine ⟨by positivity, ?_⟩
  rw [div_pow, Real.sq_sqrt hn]
  refine div_le_div_of_nonneg_right ?_ hn
  nlinarith [Real.sq_sqrt hA, Real.sq_sqrt hB]

/-! ### Every `k`-th number -/

theorem getElem?_filterMap_range {α : Type} (g : Nat → Option α) (hg : ∀ s t, s ≤ t → g s = none → g t = none) (n : Nat) :
    ∀ q : Nat, ((List.range n).filterMap g)[q]? = if q < n then g q else none := by
  induction n with
  | zero => simp
  | succ n ih =>
    intro q
    rw [List.range_succ, List.filterMap_append]
    have hle : ((List.range n).filterMap g).length ≤ n := by
      simpa using List.length_filterMap_le g (List.range n)
    cases hn : g n with
    | none =>
      have h1 : [n].filterMap g = [] := by simp [hn]
      rw [h1, List.append_nil, ih]
      by_cases hq : q < n
      · rw [if_pos hq, if_pos (by omega)]
      · rw [if_neg hq]
        by_cases hq' : q < n + 1
        · rw [if_pos hq', hg n q (by omega) hn]
        · rw [if_neg hq']
    | some y =>
      have h1 : [n].filterMap g = [y] := by simp [hn]
      have hlen : ((List.range n).filterMap g).length = n := by
        refine le_antisymm hle ?_
        by_contra hlt
        push Not at hlt
        have hlast : ((List.range n).filterMap g)[((List.range n).filterMap g).length]? = none := by simp
        have h2 : g ((List.range n).filterMap g).length = none := by
          rw [ih, if_pos hlt] at hlast
          exact hlast
        rw [hg _ n (by omega) h2] at hn
        cases hn
      rw [h1]
      by_cases hq : q < n
      · rw [List.getElem?_append_left (by omega), ih, if_pos hq, if_pos (by omega)]
      · rw [List.getElem?_append_right (by omega), hlen]
        by_cases hq' : q < n + 1
        · obtain rfl : q = n := by omega
          simp [hn]
        · rw [if_neg hq']
          simp; omega

theorem getElem?_everyNth {α : Type} {k : Nat} (hk : 0 < k) (i : Nat) (l : List α) (q : Nat) :
    (everyNth k i l)[q]? = l[i + q * k]? := by
  unfold everyNth
  rw [getElem?_filterMap_range]
  · split
    · rfl
    · rw [List.getElem?_eq_none]
      nlinarith
  · intro s t hst h
    simp only [List.getElem?_eq_none_iff] at h ⊢
    nlinarith [Nat.mul_le_mul_right k hst]

theorem sum_everyNth {M : Type} [AddCommMonoid M] (k i : Nat) (l : List M) :
    (everyNth k i l).sum = ∑ t ∈ Finset.range l.length, l.getD (i + t * k) 0 := by
  unfold everyNth
  rw [Finset.sum_range, ← List.sum_ofFn]
  have : ∀ L : List Nat, (L.filterMap fun t => l[i + t * k]?).sum = (L.map fun t => l.getD (i + t * k) 0).sum := by
    intro L
    induction L with
    | nil => rfl
    | cons t L ih =>
      rw [List.filterMap_cons, List.map_cons, List.sum_cons, List.getD_eq_getElem?_getD]
      cases h : l[i + t * k]? with
      | none => simp [ih]
      | some x => simp [ih]
  rw [this]
  congr 1
  apply List.ext_getElem <;> simp

theorem sum_getD {M : Type} [AddCommMonoid M] (l : List M) (n : Nat) (hn : l.length ≤ n) :
    ∑ q ∈ Finset.range n, l.getD q 0 = l.sum := by
  induction l generalizing n with
  | nil => simp
  | cons x l ih =>
    cases n with
    | zero => simp at hn
    | succ n =>
      rw [Finset.sum_range_succ', List.sum_cons, add_comm]
      congr 1
      exact ih n (by simpa using hn)

/-- Every number belongs to one of the parts. -/
theorem sum_parts {M : Type} [AddCommMonoid M] {k : Nat} (hk : 0 < k) (l : List M) :
    ((List.range k).map fun i => (everyNth k i l).sum).sum = l.sum := by
  have h1 : ∀ (f : Nat → M) (n : Nat), ∑ i ∈ Finset.range k, ∑ t ∈ Finset.range n, f (i + t * k) = ∑ q ∈ Finset.range (n * k), f q := by
    intro f n
    induction n with
    | zero => simp
    | succ n ih =>
      rw [Nat.succ_mul, Finset.sum_range_add, ← ih]
      simp only [Finset.sum_range_succ, Finset.sum_add_distrib]
      congr 1
      exact Finset.sum_congr rfl fun i _ => by rw [Nat.add_comm]
  simp only [sum_everyNth]
  rw [← sum_getD l (l.length * k) (Nat.le_mul_of_pos_right _ hk), ← h1 (fun q => l.getD q 0) l.length]
  rw [Finset.sum_range, ← List.sum_ofFn]
  congr 1
  apply List.ext_getElem <;> simp

theorem length_parts {α : Type} {k : Nat} (hk : 0 < k) (l : List α) :
    ((List.range k).map fun i => (everyNth k i l).length).sum = l.length := by
  have h := sum_parts hk (l.map fun _ => 1)
  rw [List.map_const', List.sum_replicate, smul_eq_mul, mul_one] at h
  rw [← h]
  congr 1
  refine List.map_congr_left fun i _ => ?_
  have e : everyNth k i (List.replicate l.length 1) = (everyNth k i l).map fun _ => 1 := by
    refine List.ext_getElem? fun q => ?_
    rw [getElem?_everyNth hk, List.getElem?_map, getElem?_everyNth hk, ← List.getElem?_map, List.map_const']
  rw [e, List.map_const', List.sum_replicate, smul_eq_mul, mul_one]

/-- The first smallest number is the first smallest one of its part. -/
theorem IsFirstMin.part {xs : List ℝ} {p : Nat} {lo : ℝ} (h : IsFirstMin (fun x => x) xs p lo) {k : Nat} (hk : 0 < k) :
    IsFirstMin (fun x => x) (everyNth k (p % k) xs) (p / k) lo := by
  obtain ⟨h1, h2, h3⟩ := h
  have hp : p % k + p / k * k = p := Nat.mod_add_div' p k
  refine ⟨by rw [getElem?_everyNth hk, hp, h1], fun x hx => ?_, fun q x hq hx => ?_⟩
  · obtain ⟨q, hq⟩ := List.mem_iff_getElem?.1 hx
    rw [getElem?_everyNth hk] at hq
    exact h2 x (List.mem_of_getElem? hq)
  · rw [getElem?_everyNth hk] at hx
    refine h3 _ x ?_ hx
    have : (q + 1) * k ≤ p / k * k := Nat.mul_le_mul_right k hq
    nlinarith

theorem IsFirstMax.part {xs : List ℝ} {p : Nat} {hi : ℝ} (h : IsFirstMax (fun x => x) xs p hi) {k : Nat} (hk : 0 < k) :
    IsFirstMax (fun x => x) (everyNth k (p % k) xs) (p / k) hi := by
  obtain ⟨h1, h2, h3⟩ := h
  have hp : p % k + p / k * k = p := Nat.mod_add_div' p k
  refine ⟨by rw [getElem?_everyNth hk, hp, h1], fun x hx => ?_, fun q x hq hx => ?_⟩
  · obtain ⟨q, hq⟩ := List.mem_iff_getElem?.1 hx
    rw [getElem?_everyNth hk] at hq
    exact h2 x (List.mem_of_getElem? hq)
  · rw [getElem?_everyNth hk] at hx
    refine h3 _ x ?_ hx
    have : (q + 1) * k ≤ p / k * k := Nat.mul_le_mul_right k hq
    nlinarith

end Dsp
