import Verif.Lemmas.SymPairs
import Mathlib.Algebra.BigOperators.Group.List.Basic
/-
The symmetric path multiplies every cell with a product of window values, also where its pairing is
wrong. Which values are taken depends on the length and the settings only.
-/
namespace Dsp
variable {α : Type}

/-- The product of the factors of cell `q`. -/
def prodAt [CommMonoid α] (q : Nat) (us : List (Nat × α)) : α :=
  ((us.filter (fun u => u.1 = q)).map Prod.snd).prod

theorem prodAt_cons [CommMonoid α] (q : Nat) (u : Nat × α) (us : List (Nat × α)) :
    prodAt q (u :: us) = (if u.1 = q then u.2 else 1) * prodAt q us := by
  unfold prodAt
  by_cases h : u.1 = q <;> simp [h]

theorem prodAt_perm [CommMonoid α] (q : Nat) {us vs : List (Nat × α)} (h : us.Perm vs) :
    prodAt q us = prodAt q vs := ((h.filter _).map _).prod_eq

/-- The program which multiplies cells with factors. -/
def scaleProg [Mul α] (us : List (Nat × α)) : CellProg α := us.map (fun u => (u.1, (· * u.2)))

def ScaleInv [CommMonoid α] (a : List α) (all : List (Nat × α)) (mem : List α) (rest : List (Nat × α)) : Prop :=
  ∀ q, (mem[q]?).map (· * prodAt q rest) = (a[q]?).map (· * prodAt q all)

theorem ScaleInv.next [CommMonoid α] {a mem : List α} {all us : List (Nat × α)} {u : Nat × α}
    (h : ScaleInv a all mem (u :: us)) : ScaleInv a all (mem.modify u.1 (· * u.2)) us := by
  intro q
  rw [← h q, List.getElem?_modify]
  cases hm : mem[q]? with
  | none => rfl
  | some x =>
    simp only [Option.map_eq_map, Option.map_some, prodAt_cons, Option.some.injEq]
    by_cases e : u.1 = q
    · simp only [e, if_true, mul_assoc]
    · simp [e]

theorem ScaleInv.done [CommMonoid α] {a mem : List α} {all : List (Nat × α)}
    (h : ScaleInv a all mem []) : mem = a.mapIdx (fun q x => x * prodAt q all) := by
  apply List.ext_getElem?
  intro q
  rw [List.getElem?_mapIdx, ← h q]
  simp [prodAt]

theorem runCells_scale [CommMonoid α] {a : List α} {all : List (Nat × α)} :
    ∀ (us : List (Nat × α)) (mem : List α), ScaleInv a all mem us →
      runCells (scaleProg us) mem = a.mapIdx (fun q x => x * prodAt q all)
  | [], _, h => h.done
  | _ :: us, _, h => runCells_scale us _ h.next

theorem CellPar.scale_run [CommMonoid α] {a : List α} {all : List (Nat × α)} :
    ∀ (sched : List Nat) (mem : List α) (ps : List (List (Nat × α))),
      ScaleInv a all mem ps.flatten →
      ∃ (mem' : List α) (ps' : List (List (Nat × α))), CellPar.run ⟨mem, ps.map scaleProg⟩ sched = ⟨mem', ps'.map scaleProg⟩ ∧
        ScaleInv a all mem' ps'.flatten
  | [], mem, ps, h => ⟨mem, ps, rfl, h⟩
  | i :: s, mem, ps, h => by
    have hs : ∃ (mem1 : List α) (ps1 : List (List (Nat × α))), CellPar.step ⟨mem, ps.map scaleProg⟩ i = ⟨mem1, ps1.map scaleProg⟩ ∧
        ScaleInv a all mem1 ps1.flatten := by
      unfold CellPar.step
      simp only [List.getElem?_map]
      cases hp : ps[i]? with
      | none => exact ⟨mem, ps, rfl, h⟩
      | some l =>
        cases l with
        | nil => exact ⟨mem, ps, rfl, h⟩
        | cons u us =>
          refine ⟨mem.modify u.1 (· * u.2), ps.set i us, ?_, ?_⟩
          · simp only [Option.map_some, scaleProg, List.map_cons, List.map_set]
          · have hperm := perm_flatten_set _ _ _ _ hp
            refine ScaleInv.next (u := u) fun q => ?_
            rw [← prodAt_perm q hperm]; exact h q
    obtain ⟨mem1, ps1, e, h1⟩ := hs
    obtain ⟨m', p', e', h'⟩ := scale_run s mem1 ps1 h1
    refine ⟨m', p', ?_, h'⟩
    rw [← e', ← e]; rfl

theorem CellPar.scale_always [CommMonoid α] (a : List α) (ps : List (List (Nat × α))) :
    Always (CellPar.outcome ⟨a, ps.map scaleProg⟩) (a.mapIdx (fun q x => x * prodAt q ps.flatten)) := by
  have key : ∀ sched, (CellPar.run ⟨a, ps.map scaleProg⟩ sched).isDone = true →
      (CellPar.run ⟨a, ps.map scaleProg⟩ sched).mem = a.mapIdx (fun q x => x * prodAt q ps.flatten) :=
    fun sched hd => by
      obtain ⟨m', p', e, h⟩ := CellPar.scale_run (a := a) (all := ps.flatten) sched a ps (fun q => rfl)
      rw [e] at hd ⊢
      have he : p'.flatten = [] := by
        rw [List.flatten_eq_nil_iff]
        intro l hl
        have := List.all_eq_true.1 hd (scaleProg l) (List.mem_map_of_mem hl)
        simpa [scaleProg] using this
      rw [he] at h
      exact h.done
  refine ⟨fun sched => ?_, ?_⟩
  · unfold CellPar.outcome
    split
    · next hd => right; rw [key sched hd]
    · exact .inl rfl
  · obtain ⟨s, hs⟩ := CellPar.exists_finish _ ⟨a, ps.map scaleProg⟩ rfl
    exact ⟨s, by unfold CellPar.outcome; rw [if_pos hs, key s hs]⟩

/-- Cell and index of the window value for the cells of a pair of chunks. -/
def pairIdx (p : SymPair) : List (Nat × Nat) :=
  (List.range p.len2).flatMap (fun k =>
    [(p.lo1 + k, p.range1.1 + k), (p.lo2 + (p.len2 - 1 - k), p.range1.1 + k)]) ++
  (List.range (p.len1 - p.len2)).map (fun k => (p.lo1 + (p.len2 + k), p.range1.1 + (p.len2 + k)))

/-- Window values for indices. -/
def withWeights (w : Nat → α) (us : List (Nat × Nat)) : List (Nat × α) :=
  us.map (fun u => (u.1, w u.2))

theorem windowProg_eq [Mul α] (w : Nat → α) (p : SymPair) :
    windowZip w p ++ windowTail w p = scaleProg (withWeights w (pairIdx p)) := by
  simp [windowZip, windowTail, scaleProg, withWeights, pairIdx, List.map_flatMap, Function.comp_def]

theorem mapM_windowClosure [Mul α] (w : Nat → α) : ∀ ps : List SymPair, (∀ p ∈ ps, p.len2 ≤ p.len1) →
    ps.mapM (windowClosure w) = some ((ps.map (fun p => withWeights w (pairIdx p))).map scaleProg)
  | [], _ => rfl
  | p :: ps, h => by
    rw [List.mapM_cons, mapM_windowClosure w ps (fun q hq => h q (by simp [hq]))]
    simp [windowClosure, h p (by simp), windowProg_eq]

theorem spansFrom_general (c : Nat) (a : List α) : ∀ (m lo : Nat), (lo + m - 1) * c ≤ a.length →
    spansFrom (lo * c) ((List.range' lo m).map (blk c a)) =
      (List.range' lo m).map (fun k => (k * c, min c (a.length - k * c)))
  | 0, _, _ => rfl
  | 1, lo, h => by simp [spansFrom, blk_length]
  | m + 2, lo, h => by
    have hl : (blk c a lo).length = c := by
      rw [blk_length]
      have : (lo + 1) * c ≤ (lo + (m + 2) - 1) * c := Nat.mul_le_mul_right _ (by omega)
      have : (lo + 1) * c = lo * c + c := by ring
      omega
    rw [List.range'_succ, List.map_cons, List.map_cons, spansFrom, blk_length]
    rw [blk_length] at hl
    have := spansFrom_general c a (m + 1) (lo + 1) (by
      rw [show lo + 1 + (m + 1) - 1 = lo + (m + 2) - 1 by omega]; exact h)
    rw [show (lo + 1) * c = lo * c + c by ring] at this
    rw [hl, this]

/-- The pairs of the multi threaded path. -/
theorem mem_symPairs {n m c : Nat} {len : Nat → Nat} {r : Nat → Nat × Nat} {p : SymPair}
    (h : p ∈ symPairs n ((List.range m).map fun k => (k * c, len k)) ((List.range m).map r)) :
    ∃ i j, i < j ∧ j < m ∧ p = ⟨i * c, len i, r i, j * c, len j, r j⟩ := by
  obtain ⟨i, hi⟩ := List.getElem?_of_mem h
  have hlt : i < (symPairs n ((List.range m).map fun k => (k * c, len k)) ((List.range m).map r)).length := by
    by_contra hc
    rw [List.getElem?_eq_none (by omega)] at hi; cases hi
  rw [List.getElem?_eq_getElem hlt, Option.some.injEq] at hi
  have hlt' := hlt
  simp only [symPairs, List.length_zipWith, List.length_zip, List.length_take, List.length_map,
    List.length_range, List.length_reverse, List.length_drop] at hlt'
  refine ⟨i, m - 1 - i, by omega, by omega, ?_⟩
  rw [← hi]
  simp only [symPairs, List.getElem_zipWith, List.getElem_zip, List.getElem_take, List.getElem_map,
    List.getElem_range, List.getElem_reverse, List.getElem_drop, List.length_drop, List.length_map,
    List.length_range]
  have : n / 2 + (m - n / 2 - 1 - i) = m - 1 - i := by omega
  rw [this]

/-- Whatever the pairing, the symmetric path multiplies cell `q` with the product of the window
    values of a list of indices which depends on length and settings only. -/
theorem multiplyWindow_product (st : MultiCoreSettings) (L : Nat) (hL : 2 ≤ L) (hc : st.coreLimit ≠ 0) :
    ∃ us : List (Nat × Nat), (∀ u ∈ us, u.2 < L) ∧
      ∀ {α : Type} [CommMonoid α] (w : Nat → α) (a : List α), a.length = L →
        Always (multiplyWindow st true w a)
          (a.mapIdx (fun q x => x * prodAt q (withWeights w us))) := by
  generalize hN : determineNumberOfChunks L .medium st = n
  have hn0 : 0 < n := by
    rw [← hN]; unfold determineNumberOfChunks
    split
    · omega
    · simp only
      repeat' split
      all_goals omega
  have hn2 : 0 < 2 * n := by omega
  by_cases h1 : n = 1
  · subst h1
    have hcs : calcChunkSize L 1 (2 * 1) = (L + 1) / 2 := by
      rw [calcChunkSize_eq (by omega) hn2]; unfold ceilDiv; omega
    have hnc : numChunks L 1 (2 * 1) = 2 := by
      unfold numChunks
      rw [hcs]
      apply Nat.le_antisymm
      · rw [ceilDiv_le_iff (by omega)]; omega
      · apply Nat.succ_le_of_lt
        rw [lt_ceilDiv_iff (by omega)]; omega
    refine ⟨pairIdx ⟨0, (L + 1) / 2, (0, (L + 1) / 2), (L + 1) / 2, L / 2, ((L + 1) / 2, L)⟩, ?_, ?_⟩
    · intro u hu
      simp only [pairIdx, List.mem_append, List.mem_flatMap, List.mem_range, List.mem_map,
        List.mem_cons, List.not_mem_nil, or_false] at hu
      rcases hu with ⟨k, hk, rfl | rfl⟩ | ⟨k, hk, rfl⟩ <;> simp only <;> omega
    · intro α _ w a ha
      subst ha
      have hne : a ≠ [] := by rintro rfl; simp at hL
      have hpart := partition_eq a (step := 1) (n := 2 * 1) hne (by omega) hn2
      rw [hnc, hcs, show List.range 2 = [0, 1] from rfl] at hpart
      simp only [List.map_cons, List.map_nil] at hpart
      have h1 : (blk ((a.length + 1) / 2) a 0).length = (a.length + 1) / 2 := by rw [blk_length]; omega
      have h2 : (blk ((a.length + 1) / 2) a 1).length = a.length / 2 := by rw [blk_length]; omega
      refine (Always.const _).congr (fun s => ?_)
      unfold multiplyWindow executeSymPairs
      simp only [hN, if_true, hpart]
      rw [if_neg (by omega)]
      simp only [h1, h2, windowClosure]
      rw [if_pos (by omega)]
      simp only
      rw [windowProg_eq, runCells_scale _ _ (fun q => rfl)]
  · have hcp := calcChunkSize_pos (len := L) (step := 1) (n := 2 * n) (by omega) (by omega) hn2
    have hcm := calcChunkSize_numChunks (len := L) (step := 1) (n := 2 * n) (by omega) (by omega) hn2
    set c := calcChunkSize L 1 (2 * n) with hcdef
    set m := numChunks L 1 (2 * n) with hmdef
    have hm1 : ∀ k, k < m → k * c < L := by
      intro k hk
      rw [hmdef] at hk; unfold numChunks at hk
      rwa [lt_ceilDiv_iff hcp] at hk
    have hm0 : 0 < m := numChunks_pos (by omega) (by omega) hn2
    refine ⟨((symPairs (2 * n) ((List.range m).map fun k => (k * c, min c (L - k * c)))
      ((List.range m).map fun k => (k * c, if k < m - 1 then (k + 1) * c else L))).map pairIdx).flatten, ?_, ?_⟩
    · intro u hu
      rw [List.mem_flatten] at hu
      obtain ⟨l, hl, hu⟩ := hu
      obtain ⟨p, hp, rfl⟩ := List.mem_map.1 hl
      obtain ⟨i, j, hij, hj, rfl⟩ := mem_symPairs hp
      have hi := hm1 i (by omega)
      have hle : min c (L - j * c) ≤ min c (L - i * c) := by
        have : i * c ≤ j * c := Nat.mul_le_mul_right _ (by omega)
        omega
      simp only [pairIdx, List.mem_append, List.mem_flatMap, List.mem_range, List.mem_map,
        List.mem_cons, List.not_mem_nil, or_false] at hu
      rcases hu with ⟨k, hk, rfl | rfl⟩ | ⟨k, hk, rfl⟩ <;> simp only <;> omega
    · intro α _ w a ha
      subst ha
      have hne : a ≠ [] := by rintro rfl; simp at hL
      have hpart := partition_eq a (step := 1) (n := 2 * n) hne (by omega) hn2
      rw [← hcdef, ← hmdef] at hpart
      have hsp : spansFrom 0 ((List.range m).map (blk c a)) =
          (List.range m).map (fun k => (k * c, min c (a.length - k * c))) := by
        have := spansFrom_general c a m 0 (by rw [Nat.zero_add]; exact (hm1 (m - 1) (by omega)).le)
        rw [Nat.zero_mul] at this
        rw [List.range_eq_range']; exact this
      have hpr := partitionInRanges_eq a.length 1 m
      have hcc : calcChunkSize a.length 1 m = c := hcm
      rw [hcc] at hpr
      have hlen : ∀ p ∈ symPairs (2 * n) ((List.range m).map fun k => (k * c, min c (a.length - k * c)))
          ((List.range m).map fun k => (k * c, if k < m - 1 then (k + 1) * c else a.length)),
          p.len2 ≤ p.len1 := by
        intro p hp
        obtain ⟨i, j, hij, hj, rfl⟩ := mem_symPairs hp
        have : i * c ≤ j * c := Nat.mul_le_mul_right _ (by omega)
        simp only; omega
      have hrun : ∀ s, multiplyWindow st true w a s = CellPar.outcome ⟨a,
          ((symPairs (2 * n) ((List.range m).map fun k => (k * c, min c (a.length - k * c)))
            ((List.range m).map fun k => (k * c, if k < m - 1 then (k + 1) * c else a.length))).map
              (fun p => withWeights w (pairIdx p))).map scaleProg⟩ s := by
        intro s
        unfold multiplyWindow executeSymPairs
        simp only [hN, if_true, hpart, List.length_map, List.length_range]
        rw [if_pos (by omega), hsp, hpr, mapM_windowClosure w _ hlen]
      have := (CellPar.scale_always a _).congr hrun
      have e : ∀ l : List SymPair, (l.map (fun p => withWeights w (pairIdx p))).flatten =
          withWeights w (l.map pairIdx).flatten := by
        intro l
        induction l with
        | nil => rfl
        | cons x l ih =>
          rw [List.map_cons, List.flatten_cons, ih]
          simp [withWeights]
      rw [e] at this
      exact this

end Dsp
