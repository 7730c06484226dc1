import Verif.Lemmas.FreqResponse
import Verif.Lemmas.SymScale
/-
The symmetric path for every number of points and workers: which cells belong to a pair of chunks and which ones have
no partner.
-/
namespace Dsp
variable {α : Type}

theorem CellInv.init_some {a : List α} {F : Nat → α → α} {r : CellProg α} (cells : List Nat) (hn : cells.Nodup)
    (hp : ∀ q ∈ cells, q ∈ r.map Prod.fst) (hl : r.length = cells.length)
    (hu : ∀ u ∈ r, ∀ x, u.2 x = F u.1 x) (hid : ∀ q < a.length, q ∉ cells → ∀ x, F q x = x) : CellInv a F a r := by
  have hsp := List.subperm_of_subset hn (fun q hq => hp q hq)
  have hperm := hsp.perm_of_length_le (by simp [hl])
  refine ⟨(hperm.nodup_iff).1 hn, hu, fun q => ?_⟩
  split
  · rfl
  · next h =>
    rw [← hperm.mem_iff] at h
    by_cases hq : q < a.length
    · rw [List.getElem?_eq_getElem hq, Option.map_some, hid q hq h]
    · rw [List.getElem?_eq_none (by omega)]; rfl

theorem CellPar.always_inv {a : List α} {F : Nat → α → α} {ps : List (CellProg α)} (hi : CellInv a F a ps.flatten) :
    Always (CellPar.outcome ⟨a, ps⟩) (a.mapIdx F) := by
  have key : ∀ sched, (CellPar.run ⟨a, ps⟩ sched).isDone = true →
      (CellPar.run ⟨a, ps⟩ sched).mem = a.mapIdx F := fun sched hd => by
    have := CellPar.inv_run sched ⟨a, ps⟩ hi
    have he : (CellPar.run ⟨a, ps⟩ sched).progs.flatten = [] := by
      rw [List.flatten_eq_nil_iff]
      intro l hl
      have := List.all_eq_true.1 hd l hl
      simpa using this
    rw [he] at this
    exact this.done
  refine ⟨fun sched => ?_, ?_⟩
  · unfold CellPar.outcome
    split
    · next hd => right; rw [key sched hd]
    · exact .inl rfl
  · obtain ⟨s, hs⟩ := CellPar.exists_finish _ ⟨a, ps⟩ rfl
    exact ⟨s, by unfold CellPar.outcome; rw [if_pos hs, key s hs]⟩

/-- The pairs of `m` chunks: chunks with an index below `n` which have a partner at or above `n`. -/
theorem symPairs_any (n m c : Nat) (hm : m ≤ 2 * n) (len : Nat → Nat) (r : Nat → Nat × Nat) :
    symPairs (2 * n) ((List.range m).map fun k => (k * c, len k)) ((List.range m).map r) =
    (List.range (m - n)).map (fun i => ⟨i * c, len i, r i, (m - 1 - i) * c, len (m - 1 - i), r (m - 1 - i)⟩) := by
  have e : 2 * n / 2 = n := by omega
  unfold symPairs
  rw [e]
  apply List.ext_getElem
  · simp; omega
  · intro i h1 h2
    simp at h2
    simp only [List.getElem_zipWith, List.getElem_zip, List.getElem_take, List.getElem_map, List.getElem_range,
      List.getElem_reverse, List.getElem_drop, List.length_drop, List.length_map, List.length_range]
    have : n + (m - n - 1 - i) = m - 1 - i := by omega
    rw [this]

/-- The chunks of pair `i` of `m` chunks with `c` cells, `L` cells in total. -/
def pairOf (L c m i : Nat) : SymPair :=
  ⟨i * c, min c (L - i * c), (i * c, if i < m - 1 then (i + 1) * c else L), (m - 1 - i) * c, min c (L - (m - 1 - i) * c),
    ((m - 1 - i) * c, if m - 1 - i < m - 1 then (m - 1 - i + 1) * c else L)⟩

theorem workers_pos {L : Nat} {st : MultiCoreSettings} (hcl : st.coreLimit ≠ 0) : 0 < determineNumberOfChunks L .medium st := by
  unfold determineNumberOfChunks
  split
  · omega
  · simp only
    repeat' split
    all_goals omega

/-- The symmetric path, if the closure treats every cell of its chunks once. -/
theorem executeSymPairs_exact (st : MultiCoreSettings) (hcl : st.coreLimit ≠ 0) (a : List α) (hL : 2 ≤ a.length)
    (closure : SymPair → Option (CellProg α)) (F : Nat → α → α) (n c m : Nat)
    (hN : determineNumberOfChunks a.length .medium st = n) (hc : calcChunkSize a.length 1 (2 * n) = c)
    (hm : numChunks a.length 1 (2 * n) = m)
    (hpair : ∀ i < m - n, ∃ us, closure (pairOf a.length c m i) = some us ∧
      us.length = (pairOf a.length c m i).len1 + (pairOf a.length c m i).len2 ∧
      (∀ q, ((pairOf a.length c m i).lo1 ≤ q ∧ q < (pairOf a.length c m i).lo1 + (pairOf a.length c m i).len1) ∨
        ((pairOf a.length c m i).lo2 ≤ q ∧ q < (pairOf a.length c m i).lo2 + (pairOf a.length c m i).len2) → q ∈ us.map Prod.fst) ∧
      ∀ u ∈ us, ∀ x, u.2 x = F u.1 x)
    (hid : ∀ q, (m - n) * c ≤ q → q < n * c → ∀ x, F q x = x) :
    Always (executeSymPairs .medium st a 1 closure) (a.mapIdx F) := by
  have hne : a ≠ [] := by rintro rfl; simp at hL
  have hn0 : 0 < n := hN ▸ workers_pos hcl
  have hn2 : 0 < 2 * n := by omega
  have hpart := partition_eq a (step := 1) (n := 2 * n) hne (by omega) hn2
  have hcp := calcChunkSize_pos (len := a.length) (step := 1) (n := 2 * n) (by omega) (by omega) hn2
  have hm2 := numChunks_le (len := a.length) (step := 1) (n := 2 * n) (by omega) (by omega) hn2
  have hm0 := numChunks_pos (len := a.length) (step := 1) (n := 2 * n) (by omega) (by omega) hn2
  have hcm := calcChunkSize_numChunks (len := a.length) (step := 1) (n := 2 * n) (by omega) (by omega) hn2
  have hm1 : ∀ k, k < m ↔ k * c < a.length := by
    intro k
    rw [← hm, ← hc]; unfold numChunks
    exact lt_ceilDiv_iff hcp
  have hpr := partitionInRanges_eq a.length 1 m
  rw [hm] at hm2 hm0 hcm
  rw [hc] at hcp hcm
  rw [hcm] at hpr
  rw [hm, hc] at hpart
  have hE : (m - 1) * c < a.length := (hm1 _).1 (by omega)
  have hE2 : a.length ≤ (m - 1) * c + c := by
    have h := mt (hm1 m).2 (by omega)
    have : m * c = (m - 1) * c + c := by
      rw [← Nat.succ_mul]; congr 1; omega
    omega
  set L := a.length with hLdef
  choose! prog k1 k2 k3 k4 using hpair
  have hl1 : ∀ i < m - n, (pairOf L c m i).len1 = c := by
    intro i hi
    have : i * c + c ≤ (m - 1) * c := by rw [← Nat.succ_mul]; exact Nat.mul_le_mul_right _ (by omega)
    simp only [pairOf]; omega
  have hl2 : ∀ i < m - n, (pairOf L c m i).len2 = if i = 0 then L - (m - 1) * c else c := by
    intro i hi
    simp only [pairOf]
    split
    · next h => subst h; rw [Nat.sub_zero]; omega
    · have : (m - 1 - i) * c + c ≤ (m - 1) * c := by rw [← Nat.succ_mul]; exact Nat.mul_le_mul_right _ (by omega)
      omega
  have hmap : ((List.range (m - n)).map (pairOf L c m)).mapM closure = some ((List.range (m - n)).map prog) :=
    mapM_map_some _ (pairOf L c m) prog _ fun i hi => k1 i (List.mem_range.1 hi)
  have hlenAll : ((List.range (m - n)).map prog).flatten.length = (m - n) * c + (L - n * c) := by
    have : ∀ k < m - n, ((List.range (k + 1)).map prog).flatten.length = 2 * k * c + (c + (L - (m - 1) * c)) := by
      intro k
      induction k with
      | zero => intro h; simp [k2 0 h, hl1 0 h, hl2 0 h]
      | succ k ih =>
        intro h
        rw [List.range_succ, List.map_append, List.flatten_append, List.length_append, ih (by omega)]
        simp only [List.map_cons, List.map_nil, List.flatten_cons, List.flatten_nil, List.append_nil]
        rw [k2 (k + 1) h, hl1 _ h, hl2 _ h, if_neg (by omega)]
        ring
    by_cases h0 : m ≤ n
    · have : m - n = 0 := by omega
      rw [this]
      have : L ≤ n * c := by
        have : m * c ≤ n * c := Nat.mul_le_mul_right _ h0
        have : m * c = (m - 1) * c + c := by
          rw [← Nat.succ_mul]; congr 1; omega
        omega
      simp; omega
    · have h := this (m - n - 1) (by omega)
      rw [show m - n - 1 + 1 = m - n by omega] at h
      rw [h]
      have e1 : (m - n) * c = (m - n - 1) * c + c := by
        rw [← Nat.succ_mul]; congr 1; omega
      have e2 : (m - 1) * c = (m - n - 1) * c + n * c := by
        rw [← Nat.add_mul]; congr 1; omega
      have e3 : 2 * (m - n - 1) * c = (m - n - 1) * c + (m - n - 1) * c := by ring
      omega
  have hcov : ∀ q ∈ List.range' 0 ((m - n) * c) ++ List.range' (n * c) (L - n * c), q ∈ ((List.range (m - n)).map prog).flatten.map Prod.fst := by
    intro q hq
    have aux : ∀ i < m - n, q ∈ (prog i).map Prod.fst → q ∈ ((List.range (m - n)).map prog).flatten.map Prod.fst := by
      intro i hi h
      obtain ⟨u, hu, hu'⟩ := List.mem_map.1 h
      exact List.mem_map.2 ⟨u, List.mem_flatten.2 ⟨prog i, List.mem_map_of_mem (List.mem_range.2 hi), hu⟩, hu'⟩
    have d1 := Nat.div_add_mod q c
    have d2 := Nat.mod_lt q hcp
    rw [Nat.mul_comm] at d1
    rw [List.mem_append, List.mem_range'_1, List.mem_range'_1] at hq
    rcases hq with ⟨_, hq⟩ | ⟨hq1, hq2⟩
    · have hk : q / c < m - n := by rw [Nat.div_lt_iff_lt_mul hcp]; omega
      refine aux _ hk (k3 _ hk q (.inl ?_))
      rw [hl1 _ hk]
      simp only [pairOf]; omega
    · have hqL : q < L := by omega
      have hk1 : n ≤ q / c := by rw [Nat.le_div_iff_mul_le hcp]; exact hq1
      have hk2 : q / c < m := (hm1 _).2 (by omega)
      refine aux (m - 1 - q / c) (by omega) (k3 _ (by omega) q (.inr ?_))
      simp only [pairOf]
      rw [show m - 1 - (m - 1 - q / c) = q / c by omega]
      omega
  have hinv : CellInv a F a ((List.range (m - n)).map prog).flatten := by
    refine CellInv.init_some _ ?_ hcov ?_ ?_ ?_
    · have : (m - n) * c ≤ n * c := Nat.mul_le_mul_right _ (by omega)
      rw [List.nodup_append]
      refine ⟨List.nodup_range', List.nodup_range', fun x hx y hy => ?_⟩
      rw [List.mem_range'_1] at hx hy
      omega
    · rw [hlenAll]; simp
    · intro u hu x
      obtain ⟨l, hl, hu⟩ := List.mem_flatten.1 hu
      obtain ⟨i, hi, rfl⟩ := List.mem_map.1 hl
      exact k4 i (List.mem_range.1 hi) u hu x
    · intro q hq hni x
      rw [List.mem_append, List.mem_range'_1, List.mem_range'_1] at hni
      exact hid q (by omega) (by omega) x
  by_cases h1 : n = 1
  · subst h1
    have hmm : m = 2 := by
      have : c = (L + 1) / 2 := by
        rw [← hc, calcChunkSize_eq (by omega) hn2]; unfold ceilDiv; omega
      have := (hm1 1).2 (by omega)
      omega
    subst hmm
    have hb0 : (blk c a 0).length = min c (L - 0 * c) := by rw [blk_length]
    have hb1 : (blk c a 1).length = min c (L - 1 * c) := by rw [blk_length]
    have hcc : min c (L - 0 * c) = c := by omega
    have hP0 : (⟨0, min c (L - 0 * c), (0, min c (L - 0 * c)), min c (L - 0 * c), min c (L - 1 * c), (min c (L - 0 * c), L)⟩ : SymPair) =
        pairOf L c 2 0 := by
      rw [hcc]
      simp only [pairOf]
      norm_num
      omega
    refine (Always.const _).congr (fun s => ?_)
    unfold executeSymPairs
    simp only [← hLdef, hN, hpart]
    rw [if_neg (by omega)]
    simp only [show List.range 2 = [0, 1] from rfl, List.map_cons, List.map_nil, hb0, hb1]
    rw [hP0, k1 0 (by omega)]
    simp only
    congr 1
    have : ((List.range (2 - 1)).map prog).flatten = prog 0 := by simp
    rw [this] at hinv
    exact runCells_inv _ _ hinv
  · have hsp : spansFrom 0 ((List.range m).map (blk c a)) = (List.range m).map (fun k => (k * c, min c (L - k * c))) := by
      have := spansFrom_general c a m 0 (by rw [Nat.zero_add]; exact hE.le)
      rw [Nat.zero_mul] at this
      rw [List.range_eq_range']; exact this
    have hsym := symPairs_any n m c hm2 (fun k => min c (L - k * c)) (fun k => (k * c, if k < m - 1 then (k + 1) * c else L))
    refine (CellPar.always_inv hinv).congr (fun s => ?_)
    unfold executeSymPairs
    simp only [← hLdef, hN, hpart, List.length_map, List.length_range]
    rw [if_pos (by omega), hsp, hpr, hsym]
    have := hmap
    unfold pairOf at this
    rw [this]

end Dsp
