import Verif.Lemmas.Chunk
import Verif.Spec.Schedule
import Mathlib.Algebra.BigOperators.Group.List.Basic
import Mathlib.Data.List.Induction
/-
C12 - C15: chunks and ranges, schedule independence, reductions, number of workers.
-/
namespace Dsp
variable {T : Type}

/-! ### C12 -/

/-- Specification: the pieces `cs` together with the announced ranges `rs` tile `a`: the pieces are
    non-empty and give `a` when put together, there is one range per piece, range `i` is exactly the
    position of piece `i`, begins at a multiple of `step`, and the ranges are consecutive from the
    beginning to the end of `a`. -/
def TilesArray (a : List T) (step : Nat) (cs : List (List T)) (rs : List (Nat × Nat)) : Prop :=
  cs.flatten = a ∧ (∀ c ∈ cs, c ≠ []) ∧ rs.length = cs.length ∧
  ∀ i, i < cs.length → ∃ lo hi, rs[i]? = some (lo, hi) ∧ cs[i]? = slice a lo hi ∧
    lo < hi ∧ hi ≤ a.length ∧ lo % step = 0 ∧ (i = 0 → lo = 0) ∧
    (i + 1 = cs.length → hi = a.length) ∧ (∀ r, rs[i + 1]? = some r → r.1 = hi)

theorem slice_blk (a : List T) (c k : Nat) (h : k * c < a.length) :
    slice a (k * c) (min ((k + 1) * c) a.length) = some (blk c a k) := by
  have e : (k + 1) * c = k * c + c := by ring
  unfold slice blk
  rw [if_pos ⟨by omega, by omega⟩]
  congr 1
  rw [show min ((k + 1) * c) a.length - k * c = min c (a.length - k * c) by omega]
  rcases Nat.le_total c (a.length - k * c) with h1 | h1
  · rw [Nat.min_eq_left h1]
  · rw [Nat.min_eq_right h1, List.take_of_length_le (by simp),
      List.take_of_length_le (by simpa using h1)]

/-- C12: for every non-empty array, step size and number of requested chunks: the chunks handed
    to the workers tile the array, the announced ranges are their positions, and there are at most
    as many chunks as requested. -/
theorem C12_chunks_tile (a : List T) (step n : Nat) (ha : a ≠ []) (hs : 0 < step)
    (hn : 0 < n) :
    ∃ cs, partition a step n = some cs ∧
      TilesArray a step cs (partitionInRanges a.length step cs.length) ∧
      0 < cs.length ∧ cs.length ≤ n := by
  have hl : 0 < a.length := List.length_pos_iff.mpr ha
  have hc := calcChunkSize_pos hl hs hn
  have hm := numChunks_pos hl hs hn
  refine ⟨_, partition_eq a ha hs hn, ?_, by simpa using hm, by simpa using numChunks_le hl hs hn⟩
  rw [List.length_map, List.length_range, partitionInRanges_eq, calcChunkSize_numChunks hl hs hn]
  have hlast : ∀ k, k < numChunks a.length step n →
      (if k < numChunks a.length step n - 1 then (k + 1) * calcChunkSize a.length step n
        else a.length) = min ((k + 1) * calcChunkSize a.length step n) a.length := by
    intro k hk
    split
    · have : k + 1 < numChunks a.length step n := by omega
      have := (lt_ceilDiv_iff hc).mp this
      omega
    · have h1 := le_ceilDiv_mul (x := a.length) hc
      have h2 : ceilDiv a.length (calcChunkSize a.length step n) = k + 1 := by
        show numChunks a.length step n = k + 1
        omega
      rw [h2] at h1
      omega
  refine ⟨flatten_blocks_all hc a, ?_, by simp, ?_⟩
  · intro c hmem
    simp only [List.mem_map, List.mem_range] at hmem
    obtain ⟨k, hk, rfl⟩ := hmem
    have := (lt_ceilDiv_iff hc).mp hk
    apply List.ne_nil_of_length_pos
    rw [blk_length]; omega
  · intro i hi
    simp only [List.length_map, List.length_range] at hi
    have hlt := (lt_ceilDiv_iff hc).mp hi
    have e : (i + 1) * calcChunkSize a.length step n =
      i * calcChunkSize a.length step n + calcChunkSize a.length step n := by ring
    refine ⟨i * calcChunkSize a.length step n, min ((i + 1) * calcChunkSize a.length step n) a.length,
      ?_, ?_, by omega, by omega, ?_, ?_, ?_, ?_⟩
    · rw [List.getElem?_map, List.getElem?_range hi, Option.map_some, hlast i hi]
    · rw [slice_blk _ _ _ hlt, List.getElem?_map, List.getElem?_range hi, Option.map_some]
    · rw [calcChunkSize_eq hs hn, Nat.mul_left_comm]; exact Nat.mul_mod_right _ _
    · intro h0; rw [h0, Nat.zero_mul]
    · intro h1
      simp only [List.length_map, List.length_range] at h1
      rw [← hlast i hi, if_neg (by omega)]
    · intro r hr
      rw [List.getElem?_map] at hr
      by_cases h2 : i + 1 < numChunks a.length step n
      · rw [List.getElem?_range h2] at hr
        simp only [Option.map_some, Option.some.injEq] at hr
        have := hlast i hi
        rw [if_pos (by omega)] at this
        rw [← hr]; exact this
      · rw [List.getElem?_eq_none (by simpa using Nat.le_of_not_lt h2)] at hr
        simp at hr

/-- A concrete case: 1023 cells in steps of 4 on 8 workers. -/
example : (List.replicate 1023 (0 : Int)) ≠ [] ∧ 0 < 4 ∧ 0 < 8 ∧
    partitionInRanges 10 4 2 = [(0, 8), (8, 10)] := by decide

/-- C12 for operations which read a source and write a target: a source of `b` and a target of `t`
    cells per point, `m` points, cut in units of `s` points: chunk `i` of the target holds the
    points `lo .. hi` exactly when range `i` of the source holds these points. -/
theorem C12_source_target_agree (target : List T) (srcLen t b m s n : Nat)
    (ht : 0 < t) (hb : 0 < b) (hm : 0 < m) (hs : 0 < s) (hn : 0 < n)
    (htl : target.length = t * m) (hsl : srcLen = b * m) :
    ∃ cs, partition target (t * s) n = some cs ∧ cs.flatten = target ∧
      (partitionInRanges srcLen (b * s) cs.length).length = cs.length ∧
      ∀ i, i < cs.length → ∃ lo hi, lo < hi ∧ hi ≤ m ∧
        (partitionInRanges srcLen (b * s) cs.length)[i]? = some (b * lo, b * hi) ∧
        cs[i]? = slice target (t * lo) (t * hi) := by
  have hne : target ≠ [] := by
    apply List.ne_nil_of_length_pos; rw [htl]; exact Nat.mul_pos ht hm
  obtain ⟨cs, h1, ⟨h2, h3, h4, h5⟩, h6, h7⟩ :=
    C12_chunks_tile target (t * s) n hne (Nat.mul_pos ht hs) hn
  have hcs : cs.length = numChunks m s n := by
    rw [partition_eq _ hne (Nat.mul_pos ht hs) hn] at h1
    simp only [Option.some.injEq] at h1
    rw [← h1]; simp only [List.length_map, List.length_range, htl, numChunks_scale hm ht hs hn]
  have hk := numChunks_pos hm hs hn
  refine ⟨cs, h1, h2, by simp [partitionInRanges_eq], ?_⟩
  intro i hi
  obtain ⟨lo, hi', r1, r2, r3, r4, r5, r6, r7, r8⟩ := h5 i hi
  rw [partitionInRanges_eq, List.getElem?_map, List.getElem?_range hi, Option.map_some,
    Option.some.injEq, Prod.mk.injEq] at r1
  have c1 : calcChunkSize target.length (t * s) cs.length = t * calcChunkSize m s n := by
    rw [htl, hcs, calcChunkSize_scale ht hs hk, calcChunkSize_numChunks hm hs hn]
  have c2 : calcChunkSize srcLen (b * s) cs.length = b * calcChunkSize m s n := by
    rw [hsl, hcs, calcChunkSize_scale hb hs hk, calcChunkSize_numChunks hm hs hn]
  rw [c1] at r1
  refine ⟨i * calcChunkSize m s n,
    if i < cs.length - 1 then (i + 1) * calcChunkSize m s n else m, ?_, ?_, ?_, ?_⟩
  · apply Nat.lt_of_mul_lt_mul_left (a := t)
    calc t * (i * calcChunkSize m s n) = lo := by rw [← r1.1]; ring
      _ < hi' := r3
      _ = _ := by
        rw [← r1.2]; split
        · ring
        · exact htl
  · apply Nat.le_of_mul_le_mul_left _ ht
    rw [← htl]
    refine Nat.le_trans (Nat.le_of_eq ?_) r4
    rw [← r1.2]; split
    · ring
    · exact htl.symm
  · rw [partitionInRanges_eq, List.getElem?_map, List.getElem?_range hi, Option.map_some, c2]
    congr 1
    refine Prod.ext (by simp only; ring) ?_
    simp only
    split
    · ring
    · exact hsl
  · rw [r2, ← r1.1, ← r1.2]
    congr 1
    · ring
    · split
      · ring
      · exact htl

/-- complex to real on 5 points and 2 workers: source ranges are twice the target chunks. -/
example : partition [1, 2, 3, 4, 5] (1 * 1) 2 = some [[1, 2, 3], [4, 5]] ∧
    partitionInRanges 10 (2 * 1) 2 = [(0, 6), (6, 10)] := by decide

/-- C12 is violated for empty data: a request for more than one worker panics (`chunks_mut(0)`);
    such a request is made for an empty vector if the dual core threshold is zero. -/
theorem C51_empty_chunks_violated :
    partition ([] : List Int) 1 2 = none ∧
    determineNumberOfChunks 0 .medium (.withThresholds 2 0 0 0 0) = 2 ∧
    executeWithRange .medium (.withThresholds 2 0 0 0 0) ([] : List Int) 1
      (blockLoop 1 1 (fun _ b => b)) [] = .panic := by decide

/-! ### C13 -/

/-- Specification of an element-wise operation on a flat array whose elements have `s` cells:
    element `k` of the result is `g (index of its first cell) (element k)`. -/
def ElementWise (s : Nat) (g : Nat → List T → List T) (a r : List T) : Prop :=
  r.length = a.length ∧ ∀ k, k * s < a.length → blk s r k = g (k * s) (blk s a k)

theorem blockMap_unique {s p st : Nat} {g : Nat → List T → List T} (hs : 0 < s) {a r r' : List T}
    (h : IsBlockMap s p g st a r) (h' : IsBlockMap s p g st a r') : r = r' := by
  rw [← flatten_blocks_all hs r, ← flatten_blocks_all hs r', h.1, h'.1]
  congr 1
  apply List.map_congr_left
  intro k hk
  have := (lt_ceilDiv_iff hs).mp (List.mem_range.mp hk)
  rw [h.2 k this, h'.2 k this]

/-- C13: an element-wise operation executed on chunks gives one and the same result `r`, the
    element-wise one, for every complexity, every multi core setting and every interleaving of the
    workers, and there is always an interleaving in which all workers terminate. Restricted to
    non-empty data, see `C51_empty_chunks_violated`. The elements may be real (`s = 1`), complex (`s = 2`)
    or SIMD registers, the chunk step must be a multiple of `s`. -/
theorem C13_schedule_independent (a : List T) (ha : a ≠ []) (s step : Nat) (hs : 0 < s)
    (hstep : 0 < step) (hdvd : s ∣ step) (g : Nat → List T → List T)
    (hg : ∀ i b, b.length ≤ s → (g i b).length = b.length) :
    ∃ r, ElementWise s g a r ∧ ∀ (c : Complexity) (st : MultiCoreSettings),
      Always (executeWithRange c st a step (blockLoop s s g)) r := by
  refine ⟨runAll (blockLoop s s g 0 a.length) a, ?_, ?_⟩
  · have := runAll_blockLoop (p := s) hs hg 0 a
    exact ⟨this.1, fun k hk => by rw [this.2 k hk, Nat.zero_add]⟩
  · intro c st
    have hl : 0 < a.length := List.length_pos_iff.mpr ha
    have main : ∀ sched, executeWithRange c st a step (blockLoop s s g) sched = .running ∨
        executeWithRange c st a step (blockLoop s s g) sched =
          .finished (runAll (blockLoop s s g 0 a.length) a) := by
      intro sched
      unfold executeWithRange
      simp only
      split
      · rename_i hn
        generalize determineNumberOfChunks a.length c st = n at hn
        rw [partition_eq a ha hstep (by omega)]
        simp only [List.length_map, List.length_range]
        have hc := calcChunkSize_pos hl hstep (show 0 < n by omega)
        obtain ⟨q, hq⟩ := hdvd
        obtain ⟨r, hr, ho⟩ := chunks_outcome (p := s) (c := calcChunkSize a.length step n)
          (m := q * ceilDiv a.length (n * step)) (n := numChunks a.length step n) hs hg a
          (by rw [calcChunkSize_eq hstep (by omega), hq]; ring) (le_ceilDiv_mul hc)
          (partitionInRanges a.length step (numChunks a.length step n))
          (by simp [partitionInRanges_eq]) (by
            intro i hi
            simp only [partitionInRanges_eq, List.getElem_map, List.getElem_range]
            rw [calcChunkSize_numChunks hl hstep (by omega), calcChunkSize_eq hstep (by omega), hq]
            ring) sched
        rw [blockMap_unique hs (runAll_blockLoop (p := s) hs hg 0 a) hr]
        exact ho
      · right; rfl
    refine ⟨main, ?_⟩
    by_cases hn : determineNumberOfChunks a.length c st > 1
    · have hp := partition_eq a ha hstep (show 0 < determineNumberOfChunks a.length c st by omega)
      obtain ⟨sched, hd⟩ := exists_finish
        (⟨a, spawn (blockLoop s s g) 0
          ((List.range (numChunks a.length step (determineNumberOfChunks a.length c st))).map
            (blk (calcChunkSize a.length step (determineNumberOfChunks a.length c st)) a))
          (partitionInRanges a.length step
            (numChunks a.length step (determineNumberOfChunks a.length c st)))⟩ : Par T)
      refine ⟨sched, (main sched).resolve_left ?_⟩
      unfold executeWithRange
      simp only [hn, if_true, hp, List.length_map, List.length_range, Par.outcome, hd]
      exact nofun
    · refine ⟨[], (main []).resolve_left ?_⟩
      unfold executeWithRange
      simp only [hn, if_false]
      exact nofun

/-- Two workers, interleaved: the schedule alternates, the result is complete. -/
example : executeWithRange .medium (.withThresholds 2 0 0 0 0) ([1, 2, 3, 4, 5] : List Int) 1
    (blockLoop 1 1 (fun i b => b.map (fun x => x * 10 + i))) [1, 0, 0, 1, 0, 7] =
    .finished [10, 21, 32, 43, 54] := by decide

/-- C13 for operations which read a source and write a target (`from_src_to_dest`): target point
    `k` (`t` cells) becomes `g (index of the first cell of source point k) (old target point k)` in
    every interleaving. `g` has access to the whole source. -/
theorem C13_source_target (target : List T) (srcLen t b m s : Nat) (ht : 0 < t) (hb : 0 < b)
    (hm : 0 < m) (hs : 0 < s) (htl : target.length = t * m) (hsl : srcLen = b * m)
    (g : Nat → List T → List T) (hg : ∀ i x, x.length ≤ t → (g i x).length = x.length) :
    ∃ r : List T, r.length = target.length ∧ (∀ k, k < m → blk t r k = g (k * b) (blk t target k)) ∧
      ∀ (c : Complexity) (st : MultiCoreSettings),
        Always (fromSrcToDest c st srcLen (b * s) target (t * s) (blockLoop t b g)) r := by
  have hne : target ≠ [] := by
    apply List.ne_nil_of_length_pos; rw [htl]; exact Nat.mul_pos ht hm
  have h0 := runAll_blockLoop (p := b) ht hg 0 target
  refine ⟨runAll (blockLoop t b g 0 target.length) target, h0.1, ?_, ?_⟩
  · intro k hk
    rw [h0.2 k (by rw [htl, Nat.mul_comm]; exact Nat.mul_lt_mul_of_pos_left hk ht), Nat.zero_add]
  · intro c st
    by_cases hn : determineNumberOfChunks srcLen c st > 1
    · have hdef : ∀ sched, fromSrcToDest c st srcLen (b * s) target (t * s) (blockLoop t b g) sched =
          match partition target (t * s) (determineNumberOfChunks srcLen c st) with
          | none => .panic
          | some cs => Par.outcome ⟨target, spawn (blockLoop t b g) 0 cs
              (partitionInRanges srcLen (b * s) cs.length)⟩ sched := by
        intro sched; unfold fromSrcToDest; simp only [hn, if_true]; rfl
      refine Always.congr ?_ hdef
      generalize determineNumberOfChunks srcLen c st = n at hn
      have hts : 0 < t * s := Nat.mul_pos ht hs
      have hl : 0 < target.length := List.length_pos_iff.mpr hne
      have hn0 : 0 < n := by omega
      rw [partition_eq target hne hts hn0]
      simp only [List.length_map, List.length_range]
      have hc := calcChunkSize_pos hl hts hn0
      have hnc : numChunks target.length (t * s) n = numChunks m s n := by
        rw [htl, numChunks_scale hm ht hs hn0]
      have ho := fun sched => chunks_outcome (p := b) (c := calcChunkSize target.length (t * s) n)
        (m := calcChunkSize m s n) (n := numChunks target.length (t * s) n) ht hg target
        (by rw [htl, calcChunkSize_scale ht hs hn0]; ring) (le_ceilDiv_mul hc)
        (partitionInRanges srcLen (b * s) (numChunks target.length (t * s) n))
        (by simp [partitionInRanges_eq]) (by
          intro i hi
          simp only [partitionInRanges_eq, List.getElem_map, List.getElem_range]
          rw [hsl, hnc, calcChunkSize_scale hb hs (numChunks_pos hm hs hn0),
            calcChunkSize_numChunks hm hs hn0]
          ring) sched
      have hall : ∀ sched, _ ∨ _ := fun sched => by
        obtain ⟨r, hr, ho⟩ := ho sched
        rw [← blockMap_unique ht h0 hr] at ho
        exact ho
      refine ⟨hall, ?_⟩
      obtain ⟨sched, hd⟩ := exists_finish
        (⟨target, spawn (blockLoop t b g) 0
          ((List.range (numChunks target.length (t * s) n)).map
            (blk (calcChunkSize target.length (t * s) n) target))
          (partitionInRanges srcLen (b * s) (numChunks target.length (t * s) n))⟩ : Par T)
      refine ⟨sched, (hall sched).resolve_left ?_⟩
      simp only [Par.outcome, hd, if_true]
      exact nofun
    · have hdef : ∀ sched, fromSrcToDest c st srcLen (b * s) target (t * s) (blockLoop t b g) sched =
          .finished (runAll (blockLoop t b g 0 target.length) target) := by
        intro sched; unfold fromSrcToDest; simp only [hn, if_false]; rfl
      exact (Always.const _).congr hdef

example : fromSrcToDest .large (.withThresholds 3 0 0 0 0) 8 (2 * 1) [0, 0, 0, 0] (1 * 1)
    (blockLoop 1 2 (fun i _ => [([1, 2, 3, 4, 5, 6, 7, 8] : List Int).getD i 0])) [1, 0, 1, 0] =
    .finished [1, 3, 5, 7] := by decide

/-! ### C14 -/

theorem sum_blocks {R : Type} [AddCommMonoid R] (F : Nat → List T → R) (step q c : Nat)
    (hc : c = q * step)
    (hF : ∀ st x y, step ∣ x.length → F st (x ++ y) = F st x + F (st + x.length) y) (a : List T) :
    ∀ n, n * c ≤ a.length →
      ((List.range (n + 1)).map (fun i => F (i * c) (blk c a i))).sum = F 0 (a.take ((n + 1) * c))
  | 0, _ => by simp [blk]
  | n + 1, h => by
    have e : (n + 1) * c = n * c + c := by ring
    rw [List.range_succ, List.map_append, List.sum_append, sum_blocks F step q c hc hF a n (by omega),
      show (n + 1 + 1) * c = (n + 1) * c + c by ring, List.take_add, hF]
    · simp [blk, Nat.min_eq_left h]
    · rw [List.length_take, Nat.min_eq_left h, hc]
      exact ⟨(n + 1) * q, by ring⟩

/-- Specification: a quantity `F first_index numbers` which is additive over consecutive pieces, if
    these are cut at multiples of `step` (for complex data: between points). -/
def Additive {R : Type} [AddCommMonoid R] (step : Nat) (F : Nat → List T → R) : Prop :=
  ∀ st x y, step ∣ x.length → F st (x ++ y) = F st x + F (st + x.length) y

theorem filterMap_range {R : Type} (rs : List R) :
    (List.range rs.length).filterMap (fun i => rs[i]?) = rs := by
  induction rs using List.reverseRecOn with
  | nil => rfl
  | append_singleton rs x ih =>
    rw [List.length_append, List.length_singleton, List.range_succ, List.filterMap_append]
    have h1 : (List.range rs.length).filterMap (fun i => (rs ++ [x])[i]?) = rs := by
      rw [List.filterMap_congr (g := fun i => rs[i]?)]
      · exact ih
      · intro i hi
        rw [List.getElem?_append_left (List.mem_range.mp hi)]
    rw [h1]; simp

theorem filterMap_perm {R : Type} (rs : List R) (order : List Nat)
    (h : order.Perm (List.range rs.length)) :
    (order.filterMap (fun i => rs[i]?)).Perm rs := by
  have := h.filterMap (fun i => rs[i]?)
  rwa [filterMap_range] at this

/-- C14: a reduction of an additive quantity in a commutative monoid gives the sequential result,
    for every complexity, multi core setting and completion order of the workers. -/
theorem C14_reduction_order_independent {R : Type} [AddCommMonoid R] (a : List T) (ha : a ≠ [])
    (step : Nat) (hs : 0 < step) (F : Nat → List T → R) (hF : Additive step F)
    (emptyCheck : Bool) (c : Complexity) (st : MultiCoreSettings) (order : List Nat)
    (horder : order.Perm (List.range (workerCount a.length step c st))) :
    ∃ rs, chunkedResults emptyCheck c st a step (fun x r => F r.1 x) order = some rs ∧
      rs ≠ [] ∧ rs.sum = F 0 a := by
  have hl : 0 < a.length := List.length_pos_iff.mpr ha
  unfold chunkedResults
  rw [if_neg (by simp [ha])]
  simp only
  unfold workerCount at horder
  simp only at horder
  split
  · rename_i hn
    rw [if_pos hn] at horder
    generalize determineNumberOfChunks a.length c st = n at hn horder
    have hn0 : 0 < n := by omega
    rw [partition_eq a ha hs hn0]
    have hc := calcChunkSize_pos hl hs hn0
    have hz : List.zipWith (fun x (r : Nat × Nat) => F r.1 x)
        ((List.range (numChunks a.length step n)).map (blk (calcChunkSize a.length step n) a))
        (partitionInRanges a.length step (numChunks a.length step n)) =
        (List.range (numChunks a.length step n)).map
          (fun i => F (i * calcChunkSize a.length step n) (blk (calcChunkSize a.length step n) a i)) := by
      rw [partitionInRanges_eq, calcChunkSize_numChunks hl hs hn0]
      apply List.ext_getElem
      · simp
      · intro i h1 h2; simp
    simp only [Option.bind_eq_bind, Option.bind_some, List.length_map, List.length_range, hz]
    have hperm := filterMap_perm ((List.range (numChunks a.length step n)).map
          (fun i => F (i * calcChunkSize a.length step n) (blk (calcChunkSize a.length step n) a i)))
          order (by simpa [numChunks] using horder)
    refine ⟨_, rfl, ?_, ?_⟩
    · apply List.ne_nil_of_length_pos
      rw [hperm.length_eq]
      simpa using numChunks_pos hl hs hn0
    · rw [hperm.sum_eq]
      have hm := numChunks_pos hl hs hn0
      have e1 : numChunks a.length step n = numChunks a.length step n - 1 + 1 := by omega
      have hlt := (lt_ceilDiv_iff hc).mp (show numChunks a.length step n - 1 < numChunks a.length step n by omega)
      rw [e1, sum_blocks F step (ceilDiv a.length (n * step)) _
        (by rw [calcChunkSize_eq hs hn0]; ring) hF a _ (by omega), ← e1,
        List.take_of_length_le (by exact le_ceilDiv_mul hc)]
  · exact ⟨[F 0 a], rfl, by simp, by simp⟩

/-- The sum of all numbers is such a quantity, as is the sum of a function of index and number. -/
theorem additive_sum {R : Type} [AddCommMonoid R] (m : Nat → T → R) (step : Nat) :
    Additive step (fun st (x : List T) => (x.mapIdx (fun j v => m (st + j) v)).sum) := by
  intro st x y _
  simp only [List.mapIdx_append, List.sum_append]
  congr 3
  funext j v; congr 1; omega

example : ∃ rs, chunkedResults true .large (.withThresholds 3 0 0 0 0) ([1, 2, 3, 4, 5] : List Int) 1
    (fun x r => (x.mapIdx (fun j v => ((r.1 + j : Nat) : Int) * v)).sum) [2, 0, 1] = some rs ∧
    rs = [20, 2, 18] := ⟨_, rfl, by decide⟩

/-- `map_on_array_chunks` (used by `map_aggregate`) has no guard for empty data and panics on it
    when the thresholds ask for two workers. -/
theorem C51_empty_reduction_violated :
    chunkedResults false .medium (.withThresholds 2 0 0 0 0) ([] : List Int) 1
      (fun x _ => x.sum) [] = none := by decide

/-! ### C15 -/

/-- Specification: all settings objects which the public constructors can return, for every outcome
    of the calibration measurements and every number of CPUs. -/
inductive Constructible : MultiCoreSettings → Prop
  | new (measured : Option (Nat × Nat)) (coreLimit : Nat) :
      Constructible (.new (calibrate measured) coreLimit)
  | single (measured : Option (Nat × Nat)) : Constructible (.singleThreaded (calibrate measured))
  | parallel (measured : Option (Nat × Nat)) (cores : Nat) :
      Constructible (.parallel (calibrate measured) cores)
  | withThresholds (l a b c d : Nat) : Constructible (.withThresholds l a b c d)

theorem calibrate_ordered (m : Option (Nat × Nat)) :
    (calibrate m).medDual < (calibrate m).medMulti ∧
    (calibrate m).largeDual < (calibrate m).largeMulti := by
  unfold calibrate
  cases m with
  | none => simp
  | some p =>
    obtain ⟨d, m⟩ := p
    simp only [limit]
    constructor <;> (repeat' split) <;> omega

theorem new_ordered (m : Option (Nat × Nat)) (l : Nat) :
    (MultiCoreSettings.new (calibrate m) l).medDual < (MultiCoreSettings.new (calibrate m) l).medMulti ∧
    (MultiCoreSettings.new (calibrate m) l).largeDual <
      (MultiCoreSettings.new (calibrate m) l).largeMulti := by
  unfold MultiCoreSettings.new
  split
  · simp
  · exact calibrate_ordered m

/-- C15: in every settings object the dual core thresholds lie below the multi core thresholds. -/
theorem C15_thresholds_ordered (s : MultiCoreSettings) (h : Constructible s) :
    s.medDual < s.medMulti ∧ s.largeDual < s.largeMulti := by
  cases h with
  | new m l => exact new_ordered m l
  | single m => exact new_ordered m 1
  | parallel m n =>
    unfold MultiCoreSettings.parallel
    split
    · exact new_ordered m 1
    · split <;> exact new_ordered _ _
  | withThresholds l a b c d =>
    simp only [MultiCoreSettings.withThresholds]; omega

/-- C15: the number of workers never exceeds the core limit, is one for simple operations and for
    the core limit one, and is at least one. Holds for every settings object with a positive core
    limit, and for empty data only if at most one worker is requested (otherwise the code panics). -/
theorem C15_worker_limit (s : MultiCoreSettings) (hl : 0 < s.coreLimit) (len step : Nat)
    (hlen : 0 < len) (hs : 0 < step) (c : Complexity) :
    1 ≤ workerCount len step c s ∧ workerCount len step c s ≤ s.coreLimit ∧
    (s.coreLimit = 1 → workerCount len step c s = 1) ∧
    (c = .small → workerCount len step c s = 1) := by
  have hd : 1 ≤ determineNumberOfChunks len c s ∧ determineNumberOfChunks len c s ≤ s.coreLimit ∧
      (s.coreLimit = 1 → determineNumberOfChunks len c s = 1) ∧
      (c = .small → determineNumberOfChunks len c s = 1) := by
    unfold determineNumberOfChunks
    split
    · rename_i h; simp [h]
    · refine ⟨?_, ?_, fun h => absurd h (by assumption), ?_⟩
      · cases c <;> simp only <;> (repeat' split) <;> omega
      · cases c <;> simp only <;> (repeat' split) <;> omega
      · rintro rfl; rfl
  unfold workerCount
  simp only
  generalize determineNumberOfChunks len c s = n at hd
  split
  · have h1 := numChunks_pos hlen hs (show 0 < n by omega)
    have h2 := numChunks_le hlen hs (show 0 < n by omega)
    unfold numChunks at h1 h2
    refine ⟨h1, by omega, ?_, ?_⟩
    · intro h; have := hd.2.2.1 h; omega
    · intro h; have := hd.2.2.2 h; omega
  · exact ⟨by omega, by omega, fun _ => rfl, fun _ => rfl⟩

/-- Every constructor but `with_thresholds(0, ..)` gives a positive core limit. -/
theorem C15_core_limit_positive (s : MultiCoreSettings) (h : Constructible s) :
    0 < s.coreLimit ∨ ∃ a b c d, s = .withThresholds 0 a b c d := by
  have hn : ∀ m l, 0 < (MultiCoreSettings.new (calibrate m) l).coreLimit := by
    intro m l; unfold MultiCoreSettings.new; split <;> simp; omega
  cases h with
  | new m l => exact .inl (hn m l)
  | single m => exact .inl (hn m 1)
  | parallel m n =>
    left; unfold MultiCoreSettings.parallel
    split
    · exact hn _ _
    · split <;> exact hn _ _
  | withThresholds l a b c d =>
    rcases Nat.eq_zero_or_pos l with h0 | h0
    · subst h0; exact .inr ⟨a, b, c, d, rfl⟩
    · exact .inl h0

example : 0 < (MultiCoreSettings.withThresholds 4 0 10 0 10).coreLimit ∧
    workerCount 100 1 .medium (.withThresholds 4 0 10 0 10) = 4 ∧
    workerCount 5 1 .medium (.withThresholds 4 0 10 0 10) = 2 := by decide

/-- C15 is violated for a core limit of zero: two workers are used between the thresholds. -/
theorem C15_zero_limit :
    Constructible (.withThresholds 0 10 20 10 20) ∧
    workerCount 15 1 .medium (.withThresholds 0 10 20 10 20) = 2 := ⟨.withThresholds .., by decide⟩

end Dsp
