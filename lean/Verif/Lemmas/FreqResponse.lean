import Verif.Model.FreqResponse
import Verif.Lemmas.SymScale
import Verif.Lemmas.BlockMap
import Mathlib.Tactic.LinearCombination
/-
The symmetric path of `multiply_function_priv`.
-/
set_option linter.unusedSectionVars false
namespace Dsp
variable {T α : Type} [Field T] [LinearOrder T]

theorem length_tailCells : ∀ (cs : List Nat) (j : T), (tailCells cs j).length = cs.length
  | [], _ => rfl
  | _ :: cs, j => by simp [tailCells, length_tailCells cs (j + 1)]

theorem tailCells_fst : ∀ (cs : List Nat) (j : T), (tailCells cs j).map Prod.fst = cs
  | [], _ => rfl
  | _ :: cs, j => by simp [tailCells, tailCells_fst cs (j + 1)]

theorem mem_tailCells : ∀ (cs : List Nat) (j : T) (u : Nat × T), u ∈ tailCells cs j → ∃ k : Nat, cs[k]? = some u.1 ∧ u.2 = j + (k : T)
  | [], _, u, h => by simp [tailCells] at h
  | c :: cs, j, u, h => by
    rw [tailCells, List.mem_cons] at h
    rcases h with rfl | h
    · exact ⟨0, rfl, by simp⟩
    · obtain ⟨k, h1, h2⟩ := mem_tailCells cs (j + 1) u h
      exact ⟨k + 1, h1, by rw [h2]; push_cast; ring⟩

theorem length_zipCells : ∀ (as bs : List Nat) (j : T), (zipCells as bs j).length = 2 * min as.length bs.length
  | [], _, _ => by simp [zipCells]
  | _ :: _, [], _ => by simp [zipCells]
  | _ :: as, _ :: bs, j => by simp [zipCells, length_zipCells as bs (j + 1)]; omega

theorem zipCells_covers : ∀ (as bs : List Nat) (j : T) (q : Nat),
    q ∈ as.take (min as.length bs.length) ∨ q ∈ bs.take (min as.length bs.length) → q ∈ (zipCells as bs j).map Prod.fst
  | [], bs, _, q, h => by simp at h
  | _ :: _, [], _, q, h => by simp at h
  | a :: as, b :: bs, j, q, h => by
    rw [List.length_cons, List.length_cons, Nat.succ_min_succ, List.take_succ_cons, List.take_succ_cons, List.mem_cons, List.mem_cons] at h
    rw [zipCells, List.map_cons, List.map_cons, List.mem_cons, List.mem_cons]
    rcases h with (h | h) | (h | h)
    · exact .inl h
    · exact .inr (.inr (zipCells_covers as bs (j + 1) q (.inl h)))
    · exact .inr (.inl h)
    · exact .inr (.inr (zipCells_covers as bs (j + 1) q (.inr h)))

theorem mem_zipCells : ∀ (as bs : List Nat) (j : T) (u : Nat × T), u ∈ zipCells as bs j →
    ∃ k : Nat, (as[k]? = some u.1 ∨ bs[k]? = some u.1) ∧ u.2 = j + (k : T)
  | [], _, _, u, h => by simp [zipCells] at h
  | _ :: _, [], _, u, h => by simp [zipCells] at h
  | a :: as, b :: bs, j, u, h => by
    rw [zipCells, List.mem_cons, List.mem_cons] at h
    rcases h with rfl | rfl | h
    · exact ⟨0, .inl rfl, by simp⟩
    · exact ⟨0, .inr rfl, by simp⟩
    · obtain ⟨k, h1, h2⟩ := mem_zipCells as bs (j + 1) u h
      exact ⟨k + 1, h1, by rw [h2]; push_cast; ring⟩

theorem catchUp_eq [IsStrictOrderedRing T] : ∀ (cs : List Nat) (j : T) (n : Nat), n ≤ cs.length →
    catchUp cs j (j + (n : T)) = some (tailCells (cs.take n) j, cs.drop n, j + (n : T))
  | [], j, n, h => by
    have : n = 0 := by simpa using h
    subst this
    simp [catchUp, tailCells]
  | c :: cs, j, 0, _ => by simp [catchUp, tailCells]
  | c :: cs, j, n + 1, h => by
    have hlt : j < j + ((n + 1 : Nat) : T) := lt_add_of_pos_right j (Nat.cast_pos.2 (Nat.succ_pos n))
    have e : j + ((n + 1 : Nat) : T) = j + 1 + (n : T) := by push_cast; ring
    rw [catchUp, if_pos hlt, e, catchUp_eq cs (j + 1) n (by simpa using h)]
    simp [tailCells]

/-- The loop has nothing to do. -/
theorem catchUp_none (cs : List Nat) (j lim : T) (h : lim ≤ j) : catchUp cs j lim = some ([], cs, j) := by
  cases cs with
  | nil => rw [catchUp, if_neg (not_lt.2 h)]
  | cons c cs => rw [catchUp, if_neg (not_lt.2 h)]

/-- One pair of chunks: every cell is multiplied exactly once, with the factor which belongs to it or to its mirror image. -/
theorem responseClosure_spec [IsStrictOrderedRing T] [Semigroup α] (m : Nat) (scale : α) (g : T → α) (p : SymPair)
    (h1 : p.range1.1 = p.lo1) (h2 : p.range1.2 ≤ p.range2.1) (h3 : p.range2.2 = p.lo2 + p.len2) (h4 : p.len2 ≤ p.len1)
    (h5 : 2 * m ≤ p.lo1 + p.range2.2) (h6 : p.lo1 + p.range2.2 ≤ 2 * m + 1 + p.len2) (h7 : 1 ≤ p.len1) (h8 : 1 ≤ p.range2.2) :
    ∃ us, responseClosure (m : T) scale g p = some us ∧ us.length = p.len1 + p.len2 ∧
      (∀ q, (p.lo1 ≤ q ∧ q < p.lo1 + p.len1) ∨ (p.lo2 ≤ q ∧ q < p.lo2 + p.len2) → q ∈ us.map Prod.fst) ∧
      ∀ u ∈ us, ∃ j : T, ((j = -(m : T) + (u.1 : T) ∧ u.1 < p.lo1 + p.len1) ∨ (j = (m : T) - (u.1 : T) ∧ p.lo2 ≤ u.1)) ∧
        ∀ x, u.2 x = x * (scale * g j) := by
  obtain ⟨lo1, len1, ⟨s1, e1⟩, lo2, len2, ⟨s2, e2⟩⟩ := p
  simp only at *
  subst h1 h3
  -- the numbers of cells which are consumed first
  obtain ⟨i1, i2, hi⟩ : ∃ i1 i2 : Nat, (i1 = 0 ∨ i2 = 0) ∧ s1 + i1 + (lo2 + len2) = 2 * m + 1 + i2 ∧ i1 ≤ 1 ∧ i2 ≤ len2 := by
    by_cases h : s1 + (lo2 + len2) ≤ 2 * m + 1
    · exact ⟨2 * m + 1 - (s1 + (lo2 + len2)), 0, .inr rfl, by omega, by omega, by omega⟩
    · exact ⟨0, s1 + (lo2 + len2) - (2 * m + 1), .inl rfl, by omega, by omega, by omega⟩
  obtain ⟨hi0, hi3, hi4, hi5⟩ := hi
  have hj : (m : T) - ((lo2 + len2 - 1 : Nat) : T) + (i2 : T) = -(m : T) + (s1 : T) + (i1 : T) := by
    have : ((lo2 + len2 - 1 : Nat) : T) = (lo2 : T) + (len2 : T) - 1 := by
      rw [Nat.cast_sub h8]; push_cast; ring
    rw [this]
    have h : ((s1 + i1 + (lo2 + len2) : Nat) : T) = ((2 * m + 1 + i2 : Nat) : T) := by rw [hi3]
    push_cast at h
    linear_combination (-1 : T) * h
  have c1 : catchUp (List.range' s1 len1) (-(m : T) + (s1 : T)) ((m : T) - ((lo2 + len2 - 1 : Nat) : T)) =
      some (tailCells ((List.range' s1 len1).take i1) (-(m : T) + (s1 : T)), (List.range' s1 len1).drop i1, -(m : T) + (s1 : T) + (i1 : T)) := by
    rcases hi0 with h | h
    · subst h
      have : (m : T) - ((lo2 + len2 - 1 : Nat) : T) ≤ -(m : T) + (s1 : T) := by
        have e : (0 : T) ≤ (i2 : T) := Nat.cast_nonneg _
        have := hj
        simp only [Nat.cast_zero, add_zero] at this
        rw [← this]
        exact le_add_of_nonneg_right e
      rw [catchUp_none _ _ _ this]
      simp [tailCells]
    · subst h
      rw [Nat.cast_zero, add_zero] at hj
      rw [hj]
      exact catchUp_eq _ _ i1 (by simp; omega)
  have c2 : catchUp (List.range' lo2 len2).reverse ((m : T) - ((lo2 + len2 - 1 : Nat) : T)) (-(m : T) + (s1 : T) + (i1 : T)) =
      some (tailCells ((List.range' lo2 len2).reverse.take i2) ((m : T) - ((lo2 + len2 - 1 : Nat) : T)),
        (List.range' lo2 len2).reverse.drop i2, (m : T) - ((lo2 + len2 - 1 : Nat) : T) + (i2 : T)) := by
    rw [← hj]
    exact catchUp_eq _ _ i2 (by simp; omega)
  -- the value of j for the cells of both chunks
  have v1 : ∀ (k q : Nat), (List.range' s1 len1)[k]? = some q →
      -(m : T) + (s1 : T) + (k : T) = -(m : T) + (q : T) ∧ q < s1 + len1 := by
    intro k q h
    have hk : k < len1 := by
      by_contra hc
      rw [List.getElem?_eq_none (by simp; omega)] at h; cases h
    rw [List.getElem?_range' hk, Option.some.injEq] at h
    exact ⟨by rw [← h]; push_cast; ring, by omega⟩
  have v2 : ∀ (k q : Nat), (List.range' lo2 len2).reverse[k]? = some q →
      (m : T) - ((lo2 + len2 - 1 : Nat) : T) + (k : T) = (m : T) - (q : T) ∧ lo2 ≤ q := by
    intro k q h
    have hk : k < len2 := by
      by_contra hc
      rw [List.getElem?_eq_none (by simp; omega)] at h; cases h
    rw [List.getElem?_reverse (by simpa using hk), List.length_range', List.getElem?_range' (by omega), Option.some.injEq] at h
    have : lo2 + len2 - 1 = q + k := by omega
    exact ⟨by rw [this]; push_cast; ring, by omega⟩
  have hfin : ∀ u : Nat × T, ((u.2 = -(m : T) + (u.1 : T) ∧ u.1 < s1 + len1) ∨ (u.2 = (m : T) - (u.1 : T) ∧ lo2 ≤ u.1)) →
      (∃ j : T, ((j = -(m : T) + (u.1 : T) ∧ u.1 < s1 + len1) ∨ (j = (m : T) - (u.1 : T) ∧ lo2 ≤ u.1)) ∧ ∀ x : α, x * scale * g u.2 = x * (scale * g j)) :=
    fun u h => ⟨u.2, h, fun x => mul_assoc _ _ _⟩
  set r1 := (List.range' s1 len1).drop i1 with hr1
  set r2 := (List.range' lo2 len2).reverse.drop i2 with hr2
  have l1 : r1.length = len1 - i1 := by rw [hr1]; simp
  have l2 : r2.length = len2 - i2 := by rw [hr2]; simp
  set t1 := tailCells ((List.range' s1 len1).take i1) (-(m : T) + (s1 : T)) with ht1
  set t2 := tailCells ((List.range' lo2 len2).reverse.take i2) ((m : T) - ((lo2 + len2 - 1 : Nat) : T)) with ht2
  set jj := -(m : T) + (s1 : T) + (i1 : T) with hjj
  refine ⟨(t1 ++ t2).map (fun u => (u.1, fun x => x * scale * g u.2)) ++
      (zipCells r1 r2 jj).map (fun u => (u.1, fun x => x * (scale * g u.2))) ++
      (tailCells (r1.drop (min r1.length r2.length)) (jj + (min r1.length r2.length : Nat)) ++
        tailCells (r2.drop (min r1.length r2.length)).reverse (jj + (min r1.length r2.length : Nat))).map
        (fun u => (u.1, fun x => x * scale * g u.2)), ?_, ?_, ?_, ?_⟩
  · unfold responseClosure
    rw [if_neg (by simp only; omega), if_neg (by simp only; omega)]
    simp only [c1, c2, Option.bind_eq_bind, Option.bind_some]
  · simp only [ht1, ht2, List.length_append, List.length_map, length_tailCells, length_zipCells, List.length_take, List.length_drop,
      List.length_reverse, List.length_range', l1, l2]
    omega
  · intro q hq
    simp only [List.map_append, List.map_map, List.mem_append]
    have hid : ∀ (l : List (Nat × T)) (f : Nat × T → α → α), List.map (Prod.fst ∘ fun u => (u.1, f u)) l = l.map Prod.fst :=
      fun l f => rfl
    simp only [ht1, ht2, hid, tailCells_fst]
    rcases hq with hq | hq
    · have hm : q ∈ List.range' s1 len1 := by rw [List.mem_range'_1]; exact hq
      rw [← List.take_append_drop i1 (List.range' s1 len1), List.mem_append, ← hr1] at hm
      rcases hm with hm | hm
      · exact .inl (.inl (.inl hm))
      · rw [← List.take_append_drop (min r1.length r2.length) r1, List.mem_append] at hm
        rcases hm with hm | hm
        · exact .inl (.inr (zipCells_covers _ _ _ _ (.inl hm)))
        · exact .inr (.inl hm)
    · have hm : q ∈ (List.range' lo2 len2).reverse := by rw [List.mem_reverse, List.mem_range'_1]; exact hq
      rw [← List.take_append_drop i2 (List.range' lo2 len2).reverse, List.mem_append, ← hr2] at hm
      rcases hm with hm | hm
      · exact .inl (.inl (.inr hm))
      · rw [← List.take_append_drop (min r1.length r2.length) r2, List.mem_append] at hm
        rcases hm with hm | hm
        · exact .inl (.inr (zipCells_covers _ _ _ _ (.inr hm)))
        · exact .inr (.inr (by rw [List.mem_reverse]; exact hm))
  · intro u hu
    have d1 : ∀ (k q : Nat), r1[k]? = some q →
        -(m : T) + (s1 : T) + (i1 : T) + (k : T) = -(m : T) + (q : T) ∧ q < s1 + len1 := by
      intro k q h
      rw [hr1, List.getElem?_drop] at h
      exact ⟨by rw [← (v1 _ _ h).1]; push_cast; ring, (v1 _ _ h).2⟩
    have d2 : ∀ (k q : Nat), r2[k]? = some q →
        -(m : T) + (s1 : T) + (i1 : T) + (k : T) = (m : T) - (q : T) ∧ lo2 ≤ q := by
      intro k q h
      rw [hr2, List.getElem?_drop] at h
      exact ⟨by rw [← (v2 _ _ h).1, ← hjj, ← hj]; push_cast; ring, (v2 _ _ h).2⟩
    simp only [List.mem_append, List.mem_map] at hu
    rcases hu with (⟨w, hw, rfl⟩ | ⟨w, hw, rfl⟩) | ⟨w, hw, rfl⟩
    · apply hfin
      rcases hw with hw | hw
      · obtain ⟨k, hk1, hk2⟩ := mem_tailCells _ _ _ hw
        rw [List.getElem?_take] at hk1
        split at hk1
        · exact .inl ⟨by rw [hk2, (v1 _ _ hk1).1], (v1 _ _ hk1).2⟩
        · cases hk1
      · obtain ⟨k, hk1, hk2⟩ := mem_tailCells _ _ _ hw
        rw [List.getElem?_take] at hk1
        split at hk1
        · exact .inr ⟨by rw [hk2, (v2 _ _ hk1).1], (v2 _ _ hk1).2⟩
        · cases hk1
    · obtain ⟨k, hk1, hk2⟩ := mem_zipCells _ _ _ _ hw
      refine ⟨w.2, ?_, fun x => rfl⟩
      rcases hk1 with hk1 | hk1
      · exact .inl ⟨by rw [hk2, (d1 _ _ hk1).1], (d1 _ _ hk1).2⟩
      · exact .inr ⟨by rw [hk2, (d2 _ _ hk1).1], (d2 _ _ hk1).2⟩
    · apply hfin
      rcases hw with hw | hw
      · obtain ⟨k, hk1, hk2⟩ := mem_tailCells _ _ _ hw
        rw [List.getElem?_drop] at hk1
        refine .inl ⟨?_, (d1 _ _ hk1).2⟩
        rw [hk2, ← (d1 _ _ hk1).1]; push_cast; ring
      · -- at most one cell of the second chunk is left
        obtain ⟨k, hk1, hk2⟩ := mem_tailCells _ _ _ hw
        have hlen : (r2.drop (min r1.length r2.length)).length ≤ 1 := by
          rw [List.length_drop, l1, l2]; omega
        have hk0 : k < (r2.drop (min r1.length r2.length)).reverse.length := by
          by_contra hc
          rw [List.getElem?_eq_none (by omega)] at hk1; cases hk1
        rw [List.length_reverse] at hk0
        have hk : k = 0 := by omega
        subst hk
        rw [List.getElem?_reverse hk0, show (r2.drop (min r1.length r2.length)).length - 1 - 0 = 0 by omega, List.getElem?_drop] at hk1
        refine .inr ⟨?_, (d2 _ _ hk1).2⟩
        rw [hk2, ← (d2 _ _ hk1).1]; push_cast; ring

/-- The pairs of chunks if there are twice as many chunks as workers. -/
theorem symPairs_full (n c : Nat) (len : Nat → Nat) (r : Nat → Nat × Nat) :
    symPairs (2 * n) ((List.range (2 * n)).map fun k => (k * c, len k)) ((List.range (2 * n)).map r) =
    (List.range n).map (fun i => ⟨i * c, len i, r i, (2 * n - 1 - i) * c, len (2 * n - 1 - i), r (2 * n - 1 - i)⟩) := by
  have e : 2 * n / 2 = n := by omega
  unfold symPairs
  rw [e]
  apply List.ext_getElem
  · simp; omega
  · intro i h1 h2
    simp at h2
    simp only [List.getElem_zipWith, List.getElem_zip, List.getElem_take, List.getElem_map, List.getElem_range,
      List.getElem_reverse, List.getElem_drop, List.length_drop, List.length_map, List.length_range]
    have : n + (2 * n - n - 1 - i) = 2 * n - 1 - i := by omega
    rw [this]

theorem mapM_map_some {β γ δ : Type} (f : β → Option γ) (P : δ → β) (prog : δ → γ) : ∀ l : List δ, (∀ x ∈ l, f (P x) = some (prog x)) →
    (l.map P).mapM f = some (l.map prog)
  | [], _ => rfl
  | x :: l, h => by
    rw [List.map_cons, List.mapM_cons, h x (by simp), mapM_map_some f P prog l (fun z hz => h z (by simp [hz]))]
    rfl

/-- The symmetric path multiplies every point exactly once, if the points are cut into twice as many chunks as there are
    workers. -/
theorem executeResponse [IsStrictOrderedRing T] [Semigroup α] (st : MultiCoreSettings) (a : List α) (hL : 2 ≤ a.length)
    (scale : α) (g : T → α) (hcl : st.coreLimit ≠ 0)
    (hn : numChunks a.length 1 (2 * determineNumberOfChunks a.length .medium st) = 2 * determineNumberOfChunks a.length .medium st)
    (F : Nat → α) (hF : ∀ i < a.length,
      (i < determineNumberOfChunks a.length .medium st * calcChunkSize a.length 1 (2 * determineNumberOfChunks a.length .medium st) →
        scale * g (-((a.length / 2 : Nat) : T) + (i : T)) = F i) ∧
      (determineNumberOfChunks a.length .medium st * calcChunkSize a.length 1 (2 * determineNumberOfChunks a.length .medium st) ≤ i →
        scale * g (((a.length / 2 : Nat) : T) - (i : T)) = F i)) :
    Always (executeSymPairs .medium st a 1 (responseClosure ((a.length / 2 : Nat) : T) scale g)) (a.mapIdx fun i x => x * F i) := by
  generalize hN : determineNumberOfChunks a.length .medium st = n at hn hF
  have hne : a ≠ [] := by rintro rfl; simp at hL
  have hn0 : 0 < n := by
    rw [← hN]; unfold determineNumberOfChunks
    split
    · omega
    · simp only
      repeat' split
      all_goals omega
  have hn2 : 0 < 2 * n := by omega
  have hpart := partition_eq a (step := 1) (n := 2 * n) hne (by omega) hn2
  have hcp := calcChunkSize_pos (len := a.length) (step := 1) (n := 2 * n) (by omega) (by omega) hn2
  have hm1 : ∀ k, k < 2 * n ↔ k * calcChunkSize a.length 1 (2 * n) < a.length := by
    intro k
    have := lt_ceilDiv_iff (x := a.length) (k := k) hcp
    unfold numChunks at hn
    rw [hn] at this
    exact this
  have hpr := partitionInRanges_eq a.length 1 (2 * n)
  rw [hn] at hpart
  generalize calcChunkSize a.length 1 (2 * n) = c at *
  have hE : (2 * n - 1) * c < a.length := (hm1 _).1 (by omega)
  have hE2 : a.length ≤ (2 * n - 1) * c + c := by
    have h := mt (hm1 (2 * n)).2 (by omega)
    have : (2 * n) * c = (2 * n - 1) * c + c := by
      rw [← Nat.succ_mul]; congr 1; omega
    omega
  set L := a.length with hLdef
  set len : Nat → Nat := fun k => min c (L - k * c) with hlen
  set P : Nat → SymPair := fun i => ⟨i * c, len i, (i * c, if i < 2 * n - 1 then (i + 1) * c else L), (2 * n - 1 - i) * c,
    len (2 * n - 1 - i), ((2 * n - 1 - i) * c, if 2 * n - 1 - i < 2 * n - 1 then (2 * n - 1 - i + 1) * c else L)⟩ with hP
  -- one pair
  have key : ∀ i < n, (∃ us, responseClosure ((L / 2 : Nat) : T) scale g (P i) = some us ∧ us.length = (if i = 0 then c + (L - (2 * n - 1) * c) else 2 * c) ∧
      (∀ q < L, (i = q / c ∨ i = 2 * n - 1 - q / c) → q ∈ us.map Prod.fst) ∧
      ∀ u ∈ us, ∀ x, u.2 x = x * F u.1) := by
    intro i hi
    have e1 : (2 * n - 1 - i) * c + i * c = (2 * n - 1) * c := by rw [← Nat.add_mul]; congr 1; omega
    have e2 : (i + 1) * c = i * c + c := by ring
    have e3 : (2 * n - 1 - i + 1) * c = (2 * n - 1 - i) * c + c := by ring
    have e4 : (i + 1) * c ≤ (2 * n - 1 - i) * c := Nat.mul_le_mul_right _ (by omega)
    have e5 : i ≠ 0 → c ≤ i * c := fun h => Nat.le_mul_of_pos_left _ (Nat.pos_of_ne_zero h)
    have l1 : len i = c := by simp only [hlen]; omega
    have l2 : len (2 * n - 1 - i) = if i = 0 then L - (2 * n - 1) * c else c := by
      by_cases h : i = 0
      · subst h; simp only [hlen, if_true, Nat.sub_zero]; omega
      · rw [if_neg h]; have := e5 h; simp only [hlen]; omega
    have r2 : (P i).range2.2 = (2 * n - 1 - i) * c + len (2 * n - 1 - i) := by
      simp only [hP]
      rw [l2]
      by_cases h : i = 0
      · subst h; rw [if_neg (by omega), if_pos rfl, Nat.sub_zero]; omega
      · rw [if_pos (by omega), if_neg h, e3]
    have r2' : (P i).lo1 + (P i).range2.2 = if i = 0 then L else (2 * n - 1) * c + c := by
      rw [r2, l2]
      simp only [hP]
      by_cases h : i = 0
      · subst h; simp only [if_true, Nat.sub_zero, Nat.zero_mul]; omega
      · rw [if_neg h, if_neg h]; omega
    obtain ⟨us, u1, u2, u3, u4⟩ := responseClosure_spec (L / 2) scale g (P i) rfl
      (by simp only [hP]; rw [if_pos (by omega)]; exact e4) r2 (by show len _ ≤ len _; rw [l1, l2]; split <;> omega)
      (by rw [r2']; split <;> omega)
      (by
        rw [r2']
        show _ ≤ _ + len _
        rw [l2]
        split <;> omega)
      (by show 1 ≤ len i; omega) (by
        have := r2'
        rw [r2] at this ⊢
        omega)
    have u2' : us.length = len i + len (2 * n - 1 - i) := u2
    have u3' : ∀ q, (i * c ≤ q ∧ q < i * c + len i) ∨ ((2 * n - 1 - i) * c ≤ q ∧ q < (2 * n - 1 - i) * c + len (2 * n - 1 - i)) →
      q ∈ us.map Prod.fst := u3
    have hmem : ∀ u ∈ us, u.1 < L := by
      intro u hu
      have hs : (List.range' (i * c) (len i) ++ List.range' ((2 * n - 1 - i) * c) (len (2 * n - 1 - i))) ⊆ us.map Prod.fst := by
        intro q hq
        apply u3'
        rw [List.mem_append, List.mem_range'_1, List.mem_range'_1] at hq
        exact hq
      have hnd : (List.range' (i * c) (len i) ++ List.range' ((2 * n - 1 - i) * c) (len (2 * n - 1 - i))).Nodup := by
        rw [List.nodup_append]
        refine ⟨List.nodup_range', List.nodup_range', fun x hx y hy => ?_⟩
        rw [List.mem_range'_1] at hx hy
        omega
      have hperm := (List.subperm_of_subset hnd hs).perm_of_length_le (by simp [u2'])
      have hu' : u.1 ∈ us.map Prod.fst := List.mem_map_of_mem hu
      rw [← hperm.mem_iff, List.mem_append, List.mem_range'_1, List.mem_range'_1] at hu'
      have : (2 * n - 1 - i) * c + len (2 * n - 1 - i) ≤ L := by
        rw [l2]; split <;> first | omega | (have := e5 (by assumption); omega)
      omega
    refine ⟨us, u1, ?_, ?_, ?_⟩
    · rw [u2', l1, l2]; split <;> omega
    · intro q hq h
      apply u3'
      have d1 := Nat.div_add_mod q c
      have d2 := Nat.mod_lt q hcp
      rw [Nat.mul_comm] at d1
      rcases h with h | h
      · left
        rw [l1, h]; omega
      · right
        have hk : q / c < 2 * n := (hm1 _).2 (by omega)
        have : 2 * n - 1 - i = q / c := by omega
        rw [l2, this]
        split
        · rename_i h0
          have : q / c = 2 * n - 1 := by omega
          rw [this] at d1 ⊢; omega
        · omega
    · intro u hu x
      obtain ⟨j, hj1, hj2⟩ := u4 u hu
      rw [hj2]
      have e6 : (i + 1) * c ≤ n * c := Nat.mul_le_mul_right _ (by omega)
      have e7 : n * c ≤ (2 * n - 1 - i) * c := Nat.mul_le_mul_right _ (by omega)
      rcases hj1 with ⟨rfl, hj⟩ | ⟨rfl, hj⟩
      · rw [(hF _ (hmem u hu)).1 (by
          have : u.1 < i * c + len i := hj
          omega)]
      · rw [(hF _ (hmem u hu)).2 (by
          have : (2 * n - 1 - i) * c ≤ u.1 := hj
          omega)]
  -- all pairs
  choose! prog k1 k2 k3 k4 using key
  have hmap : ((List.range n).map P).mapM (responseClosure ((L / 2 : Nat) : T) scale g) = some ((List.range n).map prog) :=
    mapM_map_some _ P prog _ fun i hi => k1 i (List.mem_range.1 hi)
  have hlenAll : ((List.range n).map prog).flatten.length = L := by
    have : ∀ k < n, ((List.range (k + 1)).map prog).flatten.length = 2 * k * c + (c + (L - (2 * n - 1) * c)) := by
      intro k
      induction k with
      | zero => intro h; simp [k2 0 h]
      | succ k ih =>
        intro h
        rw [List.range_succ, List.map_append, List.flatten_append, List.length_append, ih (by omega)]
        simp only [List.map_cons, List.map_nil, List.flatten_cons, List.flatten_nil, List.append_nil]
        rw [k2 (k + 1) h, if_neg (by omega)]
        ring
    have h := this (n - 1) (by omega)
    rw [show n - 1 + 1 = n by omega] at h
    rw [h]
    have : (2 * n - 1) * c = 2 * (n - 1) * c + c := by
      rw [← Nat.succ_mul]; congr 1; omega
    omega
  have hcov : ∀ q < L, q ∈ ((List.range n).map prog).flatten.map Prod.fst := by
    intro q hq
    have hk : q / c < 2 * n := (hm1 _).2 (by
      have d1 := Nat.div_add_mod q c
      rw [Nat.mul_comm] at d1
      omega)
    have aux : ∀ i < n, (i = q / c ∨ i = 2 * n - 1 - q / c) → q ∈ ((List.range n).map prog).flatten.map Prod.fst := by
      intro i hi h
      obtain ⟨u, hu, hu'⟩ := List.mem_map.1 (k3 i hi q hq h)
      exact List.mem_map.2 ⟨u, List.mem_flatten.2 ⟨prog i, List.mem_map_of_mem (List.mem_range.2 hi), hu⟩, hu'⟩
    by_cases h : q / c < n
    · exact aux _ h (.inl rfl)
    · exact aux (2 * n - 1 - q / c) (by omega) (.inr rfl)
  have hupd : ∀ u ∈ ((List.range n).map prog).flatten, ∀ x, u.2 x = (fun i x => x * F i) u.1 x := by
    intro u hu x
    obtain ⟨l, hl, hu⟩ := List.mem_flatten.1 hu
    obtain ⟨i, hi, rfl⟩ := List.mem_map.1 hl
    exact k4 i (List.mem_range.1 hi) u hu x
  by_cases h1 : n = 1
  · subst h1
    have hb0 : (blk c a 0).length = len 0 := by rw [blk_length]
    have hb1 : (blk c a 1).length = len 1 := by rw [blk_length]
    have hP0 : (⟨0, len 0, (0, len 0), len 0, len 1, (len 0, L)⟩ : SymPair) = P 0 := by
      have : len 0 = c := by simp only [hlen]; omega
      simp only [hP, this]
      norm_num
    refine (Always.const _).congr (fun s => ?_)
    unfold executeSymPairs
    simp only [← hLdef, hN, hpart]
    rw [if_neg (by omega)]
    simp only [show List.range (2 * 1) = [0, 1] from rfl, List.map_cons, List.map_nil, hb0, hb1]
    rw [hP0, k1 0 (by omega)]
    simp only
    congr 1
    apply runCells_eq (F := fun i x => x * F i)
    · simpa using hcov
    · simpa using hlenAll
    · simpa using hupd
  · have hsp : spansFrom 0 ((List.range (2 * n)).map (blk c a)) = (List.range (2 * n)).map (fun k => (k * c, len k)) := by
      have := spansFrom_general c a (2 * n) 0 (by rw [Nat.zero_add]; exact hE.le)
      rw [Nat.zero_mul] at this
      rw [List.range_eq_range']; exact this
    have := CellPar.always (a := a) (F := fun i x => x * F i) hcov hlenAll hupd
    refine this.congr (fun s => ?_)
    unfold executeSymPairs
    simp only [← hLdef, hN, hpart, List.length_map, List.length_range]
    rw [if_pos (by omega), hsp, hpr, symPairs_full n c len]
    simp only [← hP]
    rw [hmap]

end Dsp
