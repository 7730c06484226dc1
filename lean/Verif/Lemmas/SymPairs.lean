import Verif.Model.SymPairs
import Verif.Spec.Schedule
import Verif.Lemmas.Chunk
import Mathlib.Data.List.Nodup
import Mathlib.Data.List.Perm.Subperm
/-
Lemmas on workers which update cells.
-/
namespace Dsp
variable {α : Type}

theorem perm_flatten_set {β : Type} (ps : List (List β)) (i : Nat) (u : β) (us : List β)
    (h : ps[i]? = some (u :: us)) : ps.flatten.Perm (u :: (ps.set i us).flatten) := by
  induction ps generalizing i with
  | nil => simp at h
  | cons p ps ih =>
    cases i with
    | zero =>
      simp only [List.getElem?_cons_zero, Option.some.injEq] at h
      subst h; simp
    | succ i =>
      simp only [List.getElem?_cons_succ] at h
      have := ih i h
      simp only [List.flatten_cons, List.set_cons_succ]
      exact (List.Perm.append_left p this).trans List.perm_middle

/-- Invariant: the cells which are still to be updated hold the old value, the others hold the new
    one. -/
structure CellInv (a : List α) (F : Nat → α → α) (mem : List α) (rest : CellProg α) : Prop where
  nodup : (rest.map Prod.fst).Nodup
  upd : ∀ u ∈ rest, ∀ x, u.2 x = F u.1 x
  cell : ∀ q, mem[q]? = if q ∈ rest.map Prod.fst then a[q]? else (a[q]?).map (F q)

theorem CellInv.perm {a mem : List α} {F : Nat → α → α} {r r' : CellProg α}
    (h : CellInv a F mem r) (hp : r.Perm r') : CellInv a F mem r' := by
  have hm := hp.map Prod.fst
  refine ⟨(hm.nodup_iff).1 h.nodup, fun u hu => h.upd u (hp.mem_iff.2 hu), fun q => ?_⟩
  rw [h.cell q]
  simp only [hm.mem_iff]

theorem CellInv.next {a mem : List α} {F : Nat → α → α} {u : Nat × (α → α)} {us : CellProg α}
    (h : CellInv a F mem (u :: us)) : CellInv a F (mem.modify u.1 u.2) us := by
  have hn := h.nodup
  rw [List.map_cons, List.nodup_cons] at hn
  refine ⟨hn.2, fun v hv => h.upd v (List.mem_cons_of_mem _ hv), fun q => ?_⟩
  rw [List.getElem?_modify]
  have hc := h.cell q
  by_cases hq : u.1 = q
  · subst hq
    rw [if_neg hn.1, hc, if_pos (by simp)]
    rw [Option.map_eq_map]
    congr 1
    funext x
    rw [if_pos rfl]; exact h.upd u (by simp) x
  · simp only [List.map_cons, List.mem_cons, Ne.symm hq, false_or] at hc
    simp only [hq, if_false]
    rw [hc]
    simp

theorem CellInv.done {a mem : List α} {F : Nat → α → α} (h : CellInv a F mem []) :
    mem = a.mapIdx F := by
  apply List.ext_getElem?
  intro q
  rw [h.cell q, List.getElem?_mapIdx]
  simp

theorem CellInv.init {a : List α} {F : Nat → α → α} {r : CellProg α}
    (hp : ∀ q, q < a.length → q ∈ r.map Prod.fst) (hl : r.length = a.length)
    (hu : ∀ u ∈ r, ∀ x, u.2 x = F u.1 x) : CellInv a F a r := by
  have hs : (List.range a.length) ⊆ r.map Prod.fst := fun q hq => hp q (by simpa using hq)
  have hsp := List.subperm_of_subset List.nodup_range hs
  have hperm := hsp.perm_of_length_le (by simp [hl])
  refine ⟨(hperm.nodup_iff).1 List.nodup_range, hu, fun q => ?_⟩
  split
  · rfl
  · next h =>
    rw [List.getElem?_eq_none (by by_contra hc; exact h (hp q (by omega)))]
    rfl

theorem runCells_inv {a : List α} {F : Nat → α → α} : ∀ (r : CellProg α) (mem : List α),
    CellInv a F mem r → runCells r mem = a.mapIdx F
  | [], _, h => h.done
  | _ :: r, _, h => runCells_inv r _ h.next

theorem CellPar.inv_run {a : List α} {F : Nat → α → α} : ∀ (sched : List Nat) (p : CellPar α),
    CellInv a F p.mem p.progs.flatten → CellInv a F (p.run sched).mem (p.run sched).progs.flatten
  | [], _, h => h
  | i :: s, p, h => by
    refine inv_run s (p.step i) ?_
    unfold CellPar.step
    split
    · next q f us e =>
      exact (h.perm (perm_flatten_set _ _ _ _ e)).next
    · exact h

theorem CellPar.exists_finish : ∀ (n : Nat) (p : CellPar α), p.progs.flatten.length = n →
    ∃ sched, (p.run sched).isDone = true
  | 0, p, h => by
    refine ⟨[], ?_⟩
    show p.progs.all List.isEmpty = true
    rw [List.length_eq_zero_iff, List.flatten_eq_nil_iff] at h
    rw [List.all_eq_true]
    intro l hl
    rw [h l hl]; rfl
  | n + 1, p, h => by
    have : ∃ l ∈ p.progs, l ≠ [] := by
      by_contra hc
      push Not at hc
      have := List.flatten_eq_nil_iff.2 hc
      rw [this] at h; simp at h
    obtain ⟨l, hl, hne⟩ := this
    obtain ⟨i, hi⟩ := List.getElem?_of_mem hl
    obtain ⟨u, us, rfl⟩ := List.exists_cons_of_ne_nil hne
    have hp := (perm_flatten_set _ _ _ _ hi).length_eq
    obtain ⟨s, hs⟩ := exists_finish n (p.step i) (by
      unfold CellPar.step
      rw [hi]
      show (p.progs.set i us).flatten.length = n
      simp only [List.length_cons] at hp
      omega)
    exact ⟨i :: s, hs⟩

/-- Workers whose updates hit every cell exactly once. -/
theorem CellPar.always {a : List α} {F : Nat → α → α} {ps : List (CellProg α)}
    (hp : ∀ q, q < a.length → q ∈ ps.flatten.map Prod.fst) (hl : ps.flatten.length = a.length)
    (hu : ∀ u ∈ ps.flatten, ∀ x, u.2 x = F u.1 x) :
    Always (CellPar.outcome ⟨a, ps⟩) (a.mapIdx F) := by
  have hi : CellInv a F a ps.flatten := CellInv.init hp hl hu
  have key : ∀ sched, (CellPar.run ⟨a, ps⟩ sched).isDone = true →
      (CellPar.run ⟨a, ps⟩ sched).mem = a.mapIdx F := fun sched hd => by
    have := CellPar.inv_run sched ⟨a, ps⟩ hi
    have he : (CellPar.run ⟨a, ps⟩ sched).progs.flatten = [] := by
      rw [List.flatten_eq_nil_iff]
      intro l hl
      have := List.all_eq_true.1 hd l hl
      simpa using this
    rw [he] at this
    exact this.done
  refine ⟨fun sched => ?_, ?_⟩
  · unfold CellPar.outcome
    split
    · next hd => right; rw [key sched hd]
    · exact .inl rfl
  · obtain ⟨s, hs⟩ := CellPar.exists_finish _ ⟨a, ps⟩ rfl
    exact ⟨s, by unfold CellPar.outcome; rw [if_pos hs, key s hs]⟩

theorem runCells_eq {a : List α} {F : Nat → α → α} {r : CellProg α}
    (hp : ∀ q, q < a.length → q ∈ r.map Prod.fst) (hl : r.length = a.length)
    (hu : ∀ u ∈ r, ∀ x, u.2 x = F u.1 x) : runCells r a = a.mapIdx F :=
  runCells_inv r a (CellInv.init hp hl hu)

/-! ### Windows -/

theorem windowZip_length [Mul α] (w : Nat → α) (p : SymPair) : (windowZip w p).length = 2 * p.len2 := by
  simp [windowZip, List.length_flatMap, Nat.mul_comm]

theorem windowTail_length [Mul α] (w : Nat → α) (p : SymPair) :
    (windowTail w p).length = p.len1 - p.len2 := by
  simp [windowTail]

theorem mem_windowZip [Mul α] {w : Nat → α} {p : SymPair} {u : Nat × (α → α)} :
    u ∈ windowZip w p ↔ ∃ k < p.len2, u = (p.lo1 + k, (· * w (p.range1.1 + k))) ∨
      u = (p.lo2 + (p.len2 - 1 - k), (· * w (p.range1.1 + k))) := by
  simp [windowZip]

theorem mem_windowTail [Mul α] {w : Nat → α} {p : SymPair} {u : Nat × (α → α)} :
    u ∈ windowTail w p ↔ ∃ k < p.len1 - p.len2,
      u = (p.lo1 + (p.len2 + k), (· * w (p.range1.1 + (p.len2 + k)))) := by
  simp [windowTail, eq_comm]

theorem spansFrom_blocks (c : Nat) (a : List α) : ∀ (m lo : Nat), (lo + m) * c ≤ a.length →
    spansFrom (lo * c) ((List.range' lo m).map (blk c a)) = (List.range' lo m).map (fun k => (k * c, c))
  | 0, _, _ => rfl
  | m + 1, lo, h => by
    have hl : (blk c a lo).length = c := by
      rw [blk_length]
      have : (lo + 1) * c ≤ (lo + (m + 1)) * c := Nat.mul_le_mul_right _ (by omega)
      have : (lo + 1) * c = lo * c + c := by ring
      omega
    rw [List.range'_succ, List.map_cons, List.map_cons, spansFrom, hl]
    have := spansFrom_blocks c a m (lo + 1) (by rw [show lo + 1 + m = lo + (m + 1) by ring]; exact h)
    rw [show (lo + 1) * c = lo * c + c by ring] at this
    rw [this]

theorem symPairs_even (n c L : Nat) :
    symPairs (2 * n) ((List.range (2 * n)).map fun k => (k * c, c))
      ((List.range (2 * n)).map (fun k => (k * c, if k < 2 * n - 1 then (k + 1) * c else L))) =
    (List.range n).map (fun i => ⟨i * c, c, (i * c, if i < 2 * n - 1 then (i + 1) * c else L),
      (2 * n - 1 - i) * c, c, ((2 * n - 1 - i) * c, if 2 * n - 1 - i < 2 * n - 1 then (2 * n - 1 - i + 1) * c else L)⟩) := by
  have e : 2 * n / 2 = n := by omega
  unfold symPairs
  rw [e]
  apply List.ext_getElem
  · simp; omega
  · intro i h1 h2
    simp at h2
    simp only [List.getElem_zipWith, List.getElem_zip, List.getElem_take, List.getElem_map, List.getElem_range,
      List.getElem_reverse, List.getElem_drop, List.length_drop, List.length_map, List.length_range]
    have : n + (2 * n - n - 1 - i) = 2 * n - 1 - i := by omega
    rw [this]

/-- Core of C16 on slices. -/
theorem multiplyWindow_symmetric [Mul α] (st : MultiCoreSettings) (w : Nat → α) (a : List α)
    (hL : 2 ≤ a.length) (hw : ∀ i < a.length, w i = w (a.length - 1 - i))
    (hn : determineNumberOfChunks a.length .medium st = 1 ∨
      (1 < determineNumberOfChunks a.length .medium st ∧
        a.length % (2 * determineNumberOfChunks a.length .medium st) = 0)) :
    Always (multiplyWindow st true w a) (a.mapIdx (fun i x => x * w i)) := by
  generalize hN : determineNumberOfChunks a.length .medium st = n at hn
  have hne : a ≠ [] := by rintro rfl; simp at hL
  have hn0 : 0 < 2 * n := by omega
  have hcs : calcChunkSize a.length 1 (2 * n) = ceilDiv a.length (2 * n) := by
    rw [calcChunkSize_eq (by omega) hn0]; simp
  have hpart := partition_eq a (step := 1) (n := 2 * n) hne (by omega) hn0
  rcases hn with rfl | ⟨hn1, hmod⟩
  · -- one worker
    have hc : ceilDiv a.length (2 * 1) = (a.length + 1) / 2 := by unfold ceilDiv; omega
    have hnc : numChunks a.length 1 (2 * 1) = 2 := by
      unfold numChunks
      rw [hcs, hc]
      apply Nat.le_antisymm
      · rw [ceilDiv_le_iff (by omega)]; omega
      · apply Nat.succ_le_of_lt
        rw [lt_ceilDiv_iff (by omega)]; omega
    rw [hnc, hcs, hc, show List.range 2 = [0, 1] from rfl] at hpart
    simp only [List.map_cons, List.map_nil] at hpart
    have h1 : (blk ((a.length + 1) / 2) a 0).length = (a.length + 1) / 2 := by rw [blk_length]; omega
    have h2 : (blk ((a.length + 1) / 2) a 1).length = a.length / 2 := by rw [blk_length]; omega
    have hrun : ∀ s, multiplyWindow st true w a s = .finished (runCells
        (windowZip w ⟨0, (a.length + 1) / 2, (0, (a.length + 1) / 2), (a.length + 1) / 2, a.length / 2,
          ((a.length + 1) / 2, a.length)⟩ ++
         windowTail w ⟨0, (a.length + 1) / 2, (0, (a.length + 1) / 2), (a.length + 1) / 2, a.length / 2,
          ((a.length + 1) / 2, a.length)⟩) a) := by
      intro s
      unfold multiplyWindow executeSymPairs
      simp only [hN, if_true, hpart]
      rw [if_neg (by omega)]
      simp only [h1, h2, windowClosure]
      rw [if_pos (by omega)]
    refine (Always.const _).congr (fun s => (hrun s).trans ?_)
    congr 1
    apply runCells_eq
    · intro q hq
      rw [List.mem_map]
      by_cases c1 : q < a.length / 2
      · exact ⟨_, List.mem_append_left _ (mem_windowZip.2 ⟨q, c1, .inl rfl⟩), by simp⟩
      by_cases c2 : q < (a.length + 1) / 2
      · exact ⟨_, List.mem_append_right _ (mem_windowTail.2 ⟨q - a.length / 2, by simp; omega, rfl⟩),
          by simp; omega⟩
      · exact ⟨_, List.mem_append_left _ (mem_windowZip.2 ⟨a.length - 1 - q, by simp; omega, .inr rfl⟩),
          by simp; omega⟩
    · rw [List.length_append, windowZip_length, windowTail_length]
      simp; omega
    · intro u hu x
      rw [List.mem_append, mem_windowZip, mem_windowTail] at hu
      rcases hu with ⟨k, hk, rfl | rfl⟩ | ⟨k, hk, rfl⟩
      · simp
      · simp only at hk ⊢
        rw [hw _ (by omega)]
        congr 2; omega
      · simp
  · -- several workers
    obtain ⟨c, hc⟩ := Nat.dvd_of_mod_eq_zero hmod
    have hc0 : 0 < c := by
      rcases Nat.eq_zero_or_pos c with rfl | h
      · rw [Nat.mul_zero] at hc; omega
      · exact h
    have hcd : ceilDiv a.length (2 * n) = c := by
      apply ceilDiv_eq_of hn0
      intro m
      rw [hc, Nat.mul_comm m]
      exact Nat.mul_le_mul_left_iff hn0
    have hnc : numChunks a.length 1 (2 * n) = 2 * n := by
      unfold numChunks
      rw [hcs, hcd]
      apply ceilDiv_eq_of hc0
      intro m
      rw [hc]
      exact Nat.mul_le_mul_right_iff hc0
    rw [hnc, hcs, hcd] at hpart
    have hsp : spansFrom 0 ((List.range (2 * n)).map (blk c a)) =
        (List.range (2 * n)).map (fun k => (k * c, c)) := by
      have := spansFrom_blocks c a (2 * n) 0 (by rw [hc, Nat.zero_add])
      rw [Nat.zero_mul] at this
      rw [List.range_eq_range']; exact this
    have hpr := partitionInRanges_eq a.length 1 (2 * n)
    rw [hcs, hcd] at hpr
    have hsym := symPairs_even n c a.length
    set P : Nat → SymPair := fun i => ⟨i * c, c, (i * c, if i < 2 * n - 1 then (i + 1) * c else a.length),
      (2 * n - 1 - i) * c, c, ((2 * n - 1 - i) * c,
        if 2 * n - 1 - i < 2 * n - 1 then (2 * n - 1 - i + 1) * c else a.length)⟩ with hP
    have hmapM : ((List.range n).map P).mapM (windowClosure w) =
        some ((List.range n).map (fun i => windowZip w (P i) ++ windowTail w (P i))) := by
      have : ∀ l : List Nat, (l.map P).mapM (windowClosure w) =
          some (l.map (fun i => windowZip w (P i) ++ windowTail w (P i))) := by
        intro l
        induction l with
        | nil => rfl
        | cons x l ih =>
          rw [List.map_cons, List.mapM_cons, ih]
          simp [windowClosure, hP]
      exact this _
    have hrun : ∀ s, multiplyWindow st true w a s =
        CellPar.outcome ⟨a, (List.range n).map (fun i => windowZip w (P i) ++ windowTail w (P i))⟩ s := by
      intro s
      unfold multiplyWindow executeSymPairs
      simp only [hN, if_true, hpart, List.length_map, List.length_range]
      rw [if_pos (by omega), hsp, hpr, hsym, hmapM]
    have key : ∀ i k, i < n → k < c → (2 * n - 1 - i) * c + (c - 1 - k) = a.length - 1 - (i * c + k) ∧
        i * c + k < a.length := by
      intro i k hi hk
      obtain ⟨j, rfl⟩ : ∃ j, n = i + 1 + j := ⟨n - (i + 1), by omega⟩
      have e1 : 2 * (i + 1 + j) - 1 - i = i + 1 + 2 * j := by omega
      rw [e1, hc]
      have e2 : 2 * (i + 1 + j) * c = i * c + (i + 1 + 2 * j) * c + c := by ring
      rw [e2]
      omega
    refine (CellPar.always (F := fun i x => x * w i) ?_ ?_ ?_).congr hrun
    · intro q hq
      have hq1 : q / c < 2 * n := by
        rw [Nat.div_lt_iff_lt_mul hc0, ← hc]; exact hq
      have hq2 := Nat.mod_lt q hc0
      have hq3 := Nat.div_add_mod q c
      rw [List.mem_map]
      by_cases h : q / c < n
      · refine ⟨(q, (· * w ((P (q / c)).range1.1 + q % c))), ?_, rfl⟩
        rw [List.mem_flatten]
        refine ⟨_, List.mem_map.2 ⟨q / c, by simpa using h, rfl⟩, List.mem_append_left _ ?_⟩
        rw [mem_windowZip]
        refine ⟨q % c, hq2, .inl ?_⟩
        rw [hP]; simp only; congr 1
        rw [Nat.mul_comm]; omega
      · have hi : 2 * n - 1 - q / c < n := by omega
        refine ⟨((P (2 * n - 1 - q / c)).lo2 + ((P (2 * n - 1 - q / c)).len2 - 1 - (c - 1 - q % c)),
          (· * w ((P (2 * n - 1 - q / c)).range1.1 + (c - 1 - q % c)))), ?_, ?_⟩
        · rw [List.mem_flatten]
          refine ⟨_, List.mem_map.2 ⟨2 * n - 1 - q / c, by simpa using hi, rfl⟩, List.mem_append_left _ ?_⟩
          rw [mem_windowZip]
          exact ⟨c - 1 - q % c, by simp [hP]; omega, .inr rfl⟩
        · simp only [hP]
          have : 2 * n - 1 - (2 * n - 1 - q / c) = q / c := by omega
          rw [this, Nat.mul_comm]; omega
    · have : ((List.range n).map (fun i => windowZip w (P i) ++ windowTail w (P i))).flatten.length = n * (2 * c) := by
        have : ∀ l : List Nat, (l.map (fun i => windowZip w (P i) ++ windowTail w (P i))).flatten.length = l.length * (2 * c) := by
          intro l
          induction l with
          | nil => simp
          | cons x l ih =>
            rw [List.map_cons, List.flatten_cons, List.length_append, ih, List.length_append, windowZip_length, windowTail_length]
            simp [hP]; ring
        rw [this]; simp
      rw [this, hc]; ring
    · intro u hu x
      rw [List.mem_flatten] at hu
      obtain ⟨l, hl, hu⟩ := hu
      obtain ⟨i, hi, rfl⟩ := List.mem_map.1 hl
      rw [List.mem_range] at hi
      rw [List.mem_append, mem_windowZip, mem_windowTail] at hu
      rcases hu with ⟨k, hk, rfl | rfl⟩ | ⟨k, hk, rfl⟩
      · rfl
      · obtain ⟨k1, k2⟩ := key i k hi hk
        show x * w (i * c + k) = x * w ((2 * n - 1 - i) * c + (c - 1 - k))
        rw [k1, ← hw _ k2]
      · simp [hP] at hk

end Dsp
