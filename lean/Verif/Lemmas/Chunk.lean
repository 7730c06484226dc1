import Verif.Model.Chunk
import Verif.Lemmas.Slice
import Mathlib.Tactic.Ring
namespace Dsp
variable {T : Type}

theorem ceilDiv_le_iff {x y k : Nat} (hy : 0 < y) : ceilDiv x y ≤ k ↔ x ≤ k * y := by
  unfold ceilDiv
  rw [Nat.div_le_iff_le_mul_add_pred hy, Nat.mul_comm]; omega

theorem lt_ceilDiv_iff {x y k : Nat} (hy : 0 < y) : k < ceilDiv x y ↔ k * y < x := by
  rw [← Nat.not_le, ceilDiv_le_iff hy, Nat.not_le]

theorem ceilDiv_pos {x y : Nat} (hx : 0 < x) (hy : 0 < y) : 0 < ceilDiv x y := by
  rw [lt_ceilDiv_iff hy]; omega

theorem le_ceilDiv_mul {x y : Nat} (hy : 0 < y) : x ≤ ceilDiv x y * y :=
  (ceilDiv_le_iff hy).mp (Nat.le_refl _)

theorem ceilDiv_eq_of {x y k : Nat} (hy : 0 < y) (h : ∀ m, x ≤ m * y ↔ k ≤ m) :
    ceilDiv x y = k := by
  apply Nat.le_antisymm
  · exact (ceilDiv_le_iff hy).mpr ((h k).mpr (Nat.le_refl _))
  · exact (h _).mp (le_ceilDiv_mul hy)

theorem ceilDiv_ceilDiv {x n s : Nat} (hn : 0 < n) (hs : 0 < s) :
    ceilDiv (ceilDiv x n) s = ceilDiv x (n * s) := by
  symm
  apply ceilDiv_eq_of (Nat.mul_pos hn hs)
  intro m
  rw [ceilDiv_le_iff hs, ceilDiv_le_iff hn, show m * (n * s) = m * s * n by ring]

/-- The chunk size is the smallest multiple of `step` which is large enough. -/
theorem calcChunkSize_eq {len step n : Nat} (hs : 0 < step) (hn : 0 < n) :
    calcChunkSize len step n = step * ceilDiv len (n * step) := by
  rw [← ceilDiv_ceilDiv hn hs]
  unfold calcChunkSize
  simp only
  generalize ceilDiv len n = c
  have h := Nat.div_add_mod c step
  have hm := Nat.mod_lt c hs
  split
  · have : ceilDiv c step = c / step + 1 := by
      apply ceilDiv_eq_of hs
      intro m
      constructor
      · intro h1
        by_contra h2
        have h3 : m ≤ c / step := by omega
        have := Nat.mul_le_mul_right step h3
        rw [Nat.mul_comm (c / step)] at this; omega
      · intro h1
        have := Nat.mul_le_mul_right step h1
        have e : (c / step + 1) * step = step * (c / step) + step := by ring
        omega
    rw [this]
    have e : step * (c / step + 1) = step * (c / step) + step := by ring
    omega
  · have h0 : c % step = 0 := by omega
    have : ceilDiv c step = c / step := by
      apply ceilDiv_eq_of hs
      intro m
      constructor
      · intro h1
        refine Nat.le_of_mul_le_mul_left (?_ : step * (c / step) ≤ step * m) hs
        rw [Nat.mul_comm step m]; omega
      · intro h1
        have := Nat.mul_le_mul_right step h1
        rw [Nat.mul_comm (c / step)] at this; omega
    rw [this]; omega

/-- Number of chunks into which `len` elements are cut. -/
def numChunks (len step n : Nat) : Nat := ceilDiv len (calcChunkSize len step n)

theorem calcChunkSize_pos {len step n : Nat} (hl : 0 < len) (hs : 0 < step) (hn : 0 < n) :
    0 < calcChunkSize len step n := by
  rw [calcChunkSize_eq hs hn]
  exact Nat.mul_pos hs (ceilDiv_pos hl (Nat.mul_pos hn hs))

theorem numChunks_le {len step n : Nat} (hl : 0 < len) (hs : 0 < step) (hn : 0 < n) :
    numChunks len step n ≤ n := by
  unfold numChunks
  rw [ceilDiv_le_iff (calcChunkSize_pos hl hs hn), calcChunkSize_eq hs hn]
  have := le_ceilDiv_mul (x := len) (y := n * step) (Nat.mul_pos hn hs)
  calc len ≤ _ := this
    _ = _ := by ring

theorem numChunks_pos {len step n : Nat} (hl : 0 < len) (hs : 0 < step) (hn : 0 < n) :
    0 < numChunks len step n := ceilDiv_pos hl (calcChunkSize_pos hl hs hn)

/-- Recomputing the chunk size from the number of chunks gives the same chunk size. -/
theorem calcChunkSize_numChunks {len step n : Nat} (hl : 0 < len) (hs : 0 < step) (hn : 0 < n) :
    calcChunkSize len step (numChunks len step n) = calcChunkSize len step n := by
  have hm := numChunks_pos hl hs hn
  have hmn := numChunks_le hl hs hn
  have hc := calcChunkSize_pos hl hs hn
  rw [calcChunkSize_eq hs hm, calcChunkSize_eq hs hn]
  congr 1
  apply Nat.le_antisymm
  · rw [ceilDiv_le_iff (Nat.mul_pos hm hs)]
    have h1 := le_ceilDiv_mul (x := len) (y := calcChunkSize len step n) hc
    calc len ≤ _ := h1
      _ = numChunks len step n * (step * ceilDiv len (n * step)) := by
        rw [← calcChunkSize_eq hs hn]; rfl
      _ = _ := by ring
  · rw [ceilDiv_le_iff (Nat.mul_pos hn hs)]
    have h1 := le_ceilDiv_mul (x := len) (y := numChunks len step n * step) (Nat.mul_pos hm hs)
    calc len ≤ _ := h1
      _ ≤ _ := Nat.mul_le_mul_left _ (Nat.mul_le_mul_right _ hmn)

/-- Chunk sizes scale with the size of a point. -/
theorem calcChunkSize_scale {m a s n : Nat} (ha : 0 < a) (hs : 0 < s) (hn : 0 < n) :
    calcChunkSize (a * m) (a * s) n = a * calcChunkSize m s n := by
  rw [calcChunkSize_eq (Nat.mul_pos ha hs) hn, calcChunkSize_eq hs hn, Nat.mul_assoc]
  congr 2
  apply ceilDiv_eq_of (Nat.mul_pos hn (Nat.mul_pos ha hs))
  intro k
  rw [ceilDiv_le_iff (Nat.mul_pos hn hs)]
  rw [show k * (n * (a * s)) = a * (k * (n * s)) by ring]
  exact Nat.mul_le_mul_left_iff ha

theorem numChunks_scale {m a s n : Nat} (hm : 0 < m) (ha : 0 < a) (hs : 0 < s) (hn : 0 < n) :
    numChunks (a * m) (a * s) n = numChunks m s n := by
  unfold numChunks
  rw [calcChunkSize_scale ha hs hn]
  have hc := calcChunkSize_pos hm hs hn
  apply ceilDiv_eq_of (Nat.mul_pos ha hc)
  intro k
  rw [ceilDiv_le_iff hc, show k * (a * calcChunkSize m s n) = a * (k * calcChunkSize m s n) by ring]
  exact Nat.mul_le_mul_left_iff ha

/-! ### Ranges -/

theorem rangesLoop_eq (len c n : Nat) : ∀ (rest i : Nat), i + rest = n →
    rangesLoop len c n rest i (i * c) = (List.range' i rest).map
      (fun k => (k * c, if k < n - 1 then (k + 1) * c else len))
  | 0, _, _ => rfl
  | rest + 1, i, h => by
    rw [rangesLoop, List.range'_succ, List.map_cons]
    by_cases hi : i < n - 1
    · simp only [hi, if_true]
      have := rangesLoop_eq len c n rest (i + 1) (by omega)
      rw [show i * c + c = (i + 1) * c by ring, this]
    · have : rest = 0 := by omega
      subst this
      simp only [hi, if_false]; rfl

theorem partitionInRanges_eq (len step n : Nat) :
    partitionInRanges len step n = (List.range n).map
      (fun k => (k * calcChunkSize len step n,
        if k < n - 1 then (k + 1) * calcChunkSize len step n else len)) := by
  unfold partitionInRanges
  have := rangesLoop_eq len (calcChunkSize len step n) n n 0 (by omega)
  rw [Nat.zero_mul] at this
  rw [this, List.range_eq_range']

theorem partition_eq (a : List T) {step n : Nat} (hl : a ≠ []) (hs : 0 < step) (hn : 0 < n) :
    partition a step n = some ((List.range (numChunks a.length step n)).map
      (blk (calcChunkSize a.length step n) a)) := by
  have := calcChunkSize_pos (List.length_pos_iff.mpr hl) hs hn
  unfold partition chunks numChunks
  rw [if_neg (by omega)]

theorem blk_length (s : Nat) (l : List T) (k : Nat) :
    (blk s l k).length = min s (l.length - k * s) := by
  simp [blk]

theorem blk_getElem? (s : Nat) (l : List T) (k i : Nat) :
    (blk s l k)[i]? = if i < s then l[k * s + i]? else none := by
  simp [blk, List.getElem?_take]

/-- The blocks of a list tile it. -/
theorem flatten_blocks {s : Nat} (l : List T) : ∀ n,
    ((List.range n).map (blk s l)).flatten = l.take (n * s)
  | 0 => by simp
  | n + 1 => by
    rw [List.range_succ, List.map_append, List.flatten_append, flatten_blocks l n]
    simp only [List.map_cons, List.map_nil, List.flatten_cons, List.flatten_nil, List.append_nil]
    rw [show (n + 1) * s = n * s + s by ring, List.take_add]; rfl

theorem flatten_blocks_all {s : Nat} (hs : 0 < s) (l : List T) :
    ((List.range (ceilDiv l.length s)).map (blk s l)).flatten = l := by
  rw [flatten_blocks, List.take_of_length_le (le_ceilDiv_mul hs)]

/-! ### Interleavings -/

/-- Run a program to completion. -/
def runAll (fs : List (List T → List T)) (m : List T) : List T := fs.foldl (fun m f => f m) m

/-- Abstract view of a parallel execution: the workers own consecutive pieces, beginning at `lo`,
    and each piece will finally be the given one. -/
inductive Tiles : Nat → List (Worker T) → List (List T) → List (List T) → Prop
  | nil (lo) : Tiles lo [] [] []
  | cons {lo : Nat} {w : Worker T} {ws : List (Worker T)} {cur fin : List T}
      {curs fins : List (List T)} :
      w.lo = lo → w.len = cur.length → (∀ f ∈ w.todo, ∀ m, (f m).length = m.length) →
      runAll w.todo cur = fin →
      Tiles (lo + cur.length) ws curs fins → Tiles lo (w :: ws) (cur :: curs) (fin :: fins)

theorem splice_tile (pre cur new post : List T) (h : new.length = cur.length) :
    splice (pre ++ (cur ++ post)) pre.length new = pre ++ (new ++ post) := by
  unfold splice
  rw [List.take_left' rfl, h, ← List.append_assoc pre cur post,
    List.drop_left' (by simp), List.append_assoc]

theorem Tiles.step {ws : List (Worker T)} {curs fins : List (List T)} {lo : Nat}
    (h : Tiles lo ws curs fins) (pre : List T) (hp : pre.length = lo) (i : Nat) :
    ∃ ws' curs', (Par.step ⟨pre ++ curs.flatten, ws⟩ i) = ⟨pre ++ curs'.flatten, ws'⟩ ∧
      Tiles lo ws' curs' fins := by
  induction h generalizing pre i with
  | nil lo => exact ⟨[], [], by simp [Par.step], .nil _⟩
  | @cons lo w ws cur fin curs fins h1 h2 h3 h4 ht ih =>
    obtain ⟨wlo, wlen, todo⟩ := w
    simp only at h1 h2 h3 h4
    subst h1 h2
    cases i with
    | zero =>
      cases todo with
      | nil =>
        exact ⟨⟨wlo, cur.length, []⟩ :: ws, cur :: curs, by simp [Par.step],
          .cons rfl rfl h3 h4 ht⟩
      | cons f fs =>
        have hfl : (f cur).length = cur.length := h3 f (by simp) cur
        refine ⟨⟨wlo, cur.length, fs⟩ :: ws, f cur :: curs, ?_, ?_⟩
        · subst hp
          simp only [Par.step, List.getElem?_cons_zero, List.flatten_cons, List.drop_left',
            List.take_left', List.set_cons_zero]
          rw [splice_tile _ _ _ _ hfl]
        · refine .cons rfl hfl.symm (fun g hg => h3 g (by simp [hg])) h4 ?_
          rw [hfl]; exact ht
    | succ i =>
      obtain ⟨ws', curs', e, ht'⟩ := ih (pre ++ cur) (by simp [hp]) i
      refine ⟨⟨wlo, cur.length, todo⟩ :: ws', cur :: curs', ?_, .cons rfl rfl h3 h4 ht'⟩
      simp only [List.append_assoc] at e
      simp only [Par.step, List.getElem?_cons_succ, List.flatten_cons] at e ⊢
      split at e
      · rename_i l n f fs heq
        simp only [Par.mk.injEq, List.set_cons_succ] at e ⊢
        exact ⟨e.1, by rw [e.2]⟩
      · rename_i hne
        simp only [Par.mk.injEq] at e
        simp only [Par.mk.injEq]
        exact ⟨e.1, by rw [e.2]⟩

theorem Tiles.run {ws : List (Worker T)} {curs fins : List (List T)} (sched : List Nat)
    (h : Tiles 0 ws curs fins) :
    ∃ ws' curs', (Par.run ⟨curs.flatten, ws⟩ sched) = ⟨curs'.flatten, ws'⟩ ∧
      Tiles 0 ws' curs' fins := by
  induction sched generalizing ws curs with
  | nil => exact ⟨ws, curs, rfl, h⟩
  | cons i sched ih =>
    obtain ⟨ws1, curs1, e, h1⟩ := h.step [] rfl i
    simp only [List.nil_append] at e
    obtain ⟨ws2, curs2, e2, h2⟩ := ih h1
    exact ⟨ws2, curs2, by simp only [Par.run, List.foldl_cons, e] at e2 ⊢; exact e2, h2⟩

theorem Tiles.done {ws : List (Worker T)} {curs fins : List (List T)} {lo : Nat}
    (h : Tiles lo ws curs fins) (hd : ws.all (fun w => w.todo.isEmpty) = true) : curs = fins := by
  induction h with
  | nil => rfl
  | cons h1 h2 h3 h4 ht ih =>
    simp only [List.all_cons, Bool.and_eq_true, List.isEmpty_iff] at hd
    rw [ih hd.2]
    rw [hd.1] at h4
    rw [← h4]; rfl

/-- Any interleaving gives the pieces which the workers compute on their own. -/
theorem Tiles.outcome {ws : List (Worker T)} {curs fins : List (List T)}
    (h : Tiles 0 ws curs fins) (sched : List Nat) :
    Par.outcome ⟨curs.flatten, ws⟩ sched = .running ∨
      Par.outcome ⟨curs.flatten, ws⟩ sched = .finished fins.flatten := by
  obtain ⟨ws', curs', e, h'⟩ := h.run sched
  unfold Par.outcome
  rw [e]
  by_cases hd : ws'.all (fun w => w.todo.isEmpty) = true
  · right; simp only [Par.isDone, hd, if_true]; rw [h'.done hd]
  · left; simp only [Par.isDone, hd]; rfl

/-- Scheduling every worker sufficiently often finishes the execution: total work left. -/
def work (ws : List (Worker T)) : Nat := (ws.map (fun w => w.todo.length)).sum

theorem work_set (ws : List (Worker T)) (i lo len : Nat) (f : List T → List T)
    (fs : List (List T → List T)) (h : ws[i]? = some ⟨lo, len, f :: fs⟩) :
    work ws = work (ws.set i ⟨lo, len, fs⟩) + 1 := by
  induction ws generalizing i with
  | nil => simp at h
  | cons w ws ih =>
    cases i with
    | zero =>
      simp only [List.getElem?_cons_zero, Option.some.injEq] at h
      subst h
      simp only [work, List.map_cons, List.sum_cons, List.length_cons, List.set_cons_zero]; omega
    | succ i =>
      have := ih i (by simpa using h)
      simp only [work, List.map_cons, List.sum_cons, List.set_cons_succ] at this ⊢; omega

theorem exists_finish (p : Par T) : ∃ sched, (p.run sched).isDone = true := by
  generalize hn : work p.workers = n
  induction n generalizing p with
  | zero =>
    refine ⟨[], ?_⟩
    simp only [Par.run, List.foldl_nil, Par.isDone, List.all_eq_true, List.isEmpty_iff]
    intro w hw
    simp only [work, List.sum_eq_zero_iff_forall_eq_nat, List.mem_map, forall_exists_index, and_imp] at hn
    exact List.length_eq_zero_iff.mp (hn _ w hw rfl)
  | succ n ih =>
    by_cases hd : p.isDone = true
    · exact ⟨[], hd⟩
    · have : ∃ (i : Nat) (w : Worker T) (f : List T → List T) (fs : List (List T → List T)),
          p.workers[i]? = some w ∧ w.todo = f :: fs := by
        simp only [Par.isDone, List.all_eq_true, List.isEmpty_iff] at hd
        push Not at hd
        obtain ⟨w, hw, hne⟩ := hd
        obtain ⟨i, hi⟩ := List.getElem?_of_mem hw
        obtain ⟨f, fs, e⟩ := List.exists_cons_of_ne_nil hne
        exact ⟨i, w, f, fs, hi, e⟩
      obtain ⟨i, ⟨lo, len, todo⟩, f, fs, hi, e⟩ := this
      simp only at e; subst e
      have hw : work (p.step i).workers = n := by
        simp only [Par.step, hi]
        have := work_set _ _ _ _ _ _ hi
        omega
      obtain ⟨sched, hs⟩ := ih _ hw
      exact ⟨i :: sched, hs⟩

/-! ### Block-wise programs -/

/-- `r` is `x` with block `k` (of `s` cells) replaced by `g (st + k * p) block`, for all `k`. -/
def IsBlockMap (s p : Nat) (g : Nat → List T → List T) (st : Nat) (x r : List T) : Prop :=
  r.length = x.length ∧ ∀ k, k * s < x.length → blk s r k = g (st + k * p) (blk s x k)

theorem blk_append_left {s k : Nat} (x y : List T) (h : (k + 1) * s ≤ x.length) :
    blk s (x ++ y) k = blk s x k := by
  have e : (k + 1) * s = k * s + s := by ring
  unfold blk
  rw [List.drop_append_of_le_length (by omega), List.take_append_of_le_length (by simp; omega)]

theorem blk_append_right {s k m : Nat} (x y : List T) (hx : x.length = m * s) (h : m ≤ k) :
    blk s (x ++ y) k = blk s y (k - m) := by
  unfold blk
  have e : k * s = x.length + (k - m) * s := by
    rw [hx, ← Nat.add_mul]; congr 1; omega
  rw [e, List.drop_append, List.drop_of_length_le (by omega), Nat.add_sub_cancel_left]
  simp

theorem IsBlockMap.append {s p st m : Nat} {g : Nat → List T → List T} {x y r r' : List T}
    (hs : 0 < s) (hx : x.length = m * s)
    (h : IsBlockMap s p g st x r) (h' : IsBlockMap s p g (st + m * p) y r') :
    IsBlockMap s p g st (x ++ y) (r ++ r') := by
  obtain ⟨h1, h2⟩ := h
  obtain ⟨h3, h4⟩ := h'
  refine ⟨by simp [h1, h3], ?_⟩
  intro k hk
  by_cases hkm : k < m
  · have e : (k + 1) * s ≤ x.length := by rw [hx]; exact Nat.mul_le_mul_right s hkm
    have e2 : k * s < x.length := by
      have : (k + 1) * s = k * s + s := by ring
      omega
    rw [blk_append_left _ _ (by omega), blk_append_left _ _ e]
    exact h2 k e2
  · rw [blk_append_right _ _ (h1.trans hx) (by omega), blk_append_right _ _ hx (by omega)]
    have e : k * s = m * s + (k - m) * s := by rw [← Nat.add_mul]; congr 1; omega
    rw [h4 (k - m) (by simp only [List.length_append] at hk; omega)]
    congr 1
    rw [Nat.add_assoc, ← Nat.add_mul]; congr 2; omega

/-- A list of pieces, each (but the last) consisting of whole blocks. -/
theorem IsBlockMap.flatten {s p q m : Nat} {g : Nat → List T → List T} (hs : 0 < s) :
    ∀ (n : Nat) (a : List T) (fin : Nat → List T) (st : Nat), q = m * s → 
      (∀ i, i < n → IsBlockMap s p g (st + i * m * p) (blk q a i) (fin i)) → 
      IsBlockMap s p g st (a.take (n * q)) ((List.range n).map fin).flatten
  | 0, a, fin, st, hq, h => ⟨by simp, fun k hk => by simp at hk⟩
  | n + 1, a, fin, st, hq, h => by
    by_cases hlen : n * q ≤ a.length
    · have ih := IsBlockMap.flatten hs n a fin st hq (fun i hi => h i (by omega))
      rw [List.range_succ, List.map_append, List.flatten_append,
        show (n + 1) * q = n * q + q by ring, List.take_add]
      simp only [List.map_cons, List.map_nil, List.flatten_cons, List.flatten_nil, List.append_nil]
      refine ih.append (m := n * m) hs (by simp [hlen]; rw [hq]; ring) ?_
      exact h n (by omega)
    · have ih := IsBlockMap.flatten hs n a fin st hq (fun i hi => h i (by omega))
      have hn := h n (by omega)
      have hb : blk q a n = [] := by
        unfold blk; rw [List.drop_of_length_le (by omega)]; simp
      have hf : fin n = [] := by
        have := hn.1; rw [hb] at this; simpa using this
      rw [List.range_succ, List.map_append, List.flatten_append]
      simp only [List.map_cons, List.map_nil, List.flatten_cons, List.flatten_nil, List.append_nil, hf]
      have e : (n + 1) * q = n * q + q := by ring
      rw [List.take_of_length_le (by omega)]
      rw [List.take_of_length_le (by omega)] at ih
      exact ih

theorem blockStep_length {s p : Nat} {g : Nat → List T → List T}
    (hg : ∀ i b, b.length ≤ s → (g i b).length = b.length) (st k : Nat) (c : List T) :
    (blockStep s p g st k c).length = c.length := by
  unfold blockStep splice
  by_cases h : k * s ≤ c.length
  · have h2 := hg (st + k * p) (blk s c k) (by rw [blk_length]; omega)
    simp [h2, blk_length]; omega
  · have : blk s c k = [] := by unfold blk; rw [List.drop_of_length_le (by omega)]; simp
    have h2 := hg (st + k * p) (blk s c k) (by rw [blk_length]; omega)
    rw [this] at h2 ⊢
    simp at h2
    simp [h2]

theorem blk_blockStep {s p : Nat} {g : Nat → List T → List T} (hs : 0 < s)
    (hg : ∀ i b, b.length ≤ s → (g i b).length = b.length) (st k j : Nat) (c : List T) (hk : k * s < c.length) :
    blk s (blockStep s p g st k c) j = if j = k then g (st + k * p) (blk s c k) else blk s c j := by
  have hlen := hg (st + k * p) (blk s c k) (by rw [blk_length]; omega)
  have hle : (blk s c k).length = min s (c.length - k * s) := blk_length _ _ _
  apply List.ext_getElem?
  intro i
  unfold blockStep
  have hsp : ∀ x, (splice c (k * s) (g (st + k * p) (blk s c k)))[x]? =
      if k * s ≤ x ∧ x < k * s + min s (c.length - k * s) then
        (g (st + k * p) (blk s c k))[x - k * s]? else c[x]? := by
    intro x
    unfold splice
    rw [List.getElem?_append, List.getElem?_append]
    simp only [List.length_append, List.length_take, hlen, hle, List.getElem?_take,
      List.getElem?_drop]
    by_cases h1 : x < k * s
    · rw [if_pos (by omega), if_pos (by omega), if_pos h1, if_neg (by omega)]
    · by_cases h2 : x < k * s + min s (c.length - k * s)
      · rw [if_pos (by omega), if_neg (by omega), if_pos (by omega)]
        congr 1; omega
      · rw [if_neg (by omega), if_neg (by omega)]
        congr 1; omega
  rw [blk_getElem?]
  by_cases hjk : j = k
  · subst hjk
    rw [if_pos rfl]
    by_cases hi : i < s
    · rw [if_pos hi, hsp]
      by_cases h2 : i < min s (c.length - j * s)
      · rw [if_pos (by omega)]; congr 1; omega
      · rw [if_neg (by omega), List.getElem?_eq_none (by omega),
          List.getElem?_eq_none (by omega)]
    · rw [if_neg hi, List.getElem?_eq_none (by omega)]
  · rw [if_neg hjk, blk_getElem?]
    by_cases hi : i < s
    · rw [if_pos hi, if_pos hi, hsp, if_neg]
      rintro ⟨h1, h2⟩
      rcases Nat.lt_or_gt_of_ne hjk with h | h
      · have := Nat.mul_le_mul_right s (show j + 1 ≤ k from h)
        rw [Nat.add_mul] at this; omega
      · have := Nat.mul_le_mul_right s (show k + 1 ≤ j from h)
        rw [Nat.add_mul] at this; omega
    · rw [if_neg hi, if_neg hi]

/-- Running the loop over all blocks maps the blocks. -/
theorem runAll_blockLoop {s p : Nat} {g : Nat → List T → List T} (hs : 0 < s)
    (hg : ∀ i b, b.length ≤ s → (g i b).length = b.length) (st : Nat) (c : List T) :
    IsBlockMap s p g st c (runAll (blockLoop s p g st c.length) c) := by
  have key : ∀ n, n ≤ ceilDiv c.length s →
      (runAll ((List.range n).map (blockStep s p g st)) c).length = c.length ∧
      ∀ k, blk s (runAll ((List.range n).map (blockStep s p g st)) c) k =
        if k < n then g (st + k * p) (blk s c k) else blk s c k := by
    intro n
    induction n with
    | zero => intro _; exact ⟨rfl, fun k => by simp [runAll]⟩
    | succ n ih =>
      intro hn
      obtain ⟨h1, h2⟩ := ih (by omega)
      rw [List.range_succ, List.map_append]
      simp only [runAll, List.foldl_append, List.map_cons, List.map_nil, List.foldl_cons,
        List.foldl_nil] at h1 h2 ⊢
      refine ⟨by rw [blockStep_length hg, h1], ?_⟩
      intro k
      rw [blk_blockStep hs hg _ _ _ _ (by rw [h1]; exact (lt_ceilDiv_iff hs).mp (by omega)), h2, h2]
      by_cases hk : k = n
      · subst hk; simp
      · rw [if_neg hk]
        by_cases hk2 : k < n
        · rw [if_pos hk2, if_pos (by omega)]
        · rw [if_neg hk2, if_neg (by omega)]
  obtain ⟨h1, h2⟩ := key _ (Nat.le_refl _)
  refine ⟨h1, fun k hk => ?_⟩
  unfold blockLoop
  rw [h2, if_pos ((lt_ceilDiv_iff hs).mpr hk)]

theorem spawn_tiles {s p : Nat} {g : Nat → List T → List T}
    (hg : ∀ i b, b.length ≤ s → (g i b).length = b.length) :
    ∀ (lo : Nat) (cs : List (List T)) (rs : List (Nat × Nat)), cs.length = rs.length →
      Tiles lo (spawn (blockLoop s p g) lo cs rs) cs
        (List.zipWith (fun c r => runAll (blockLoop s p g r.1 c.length) c) cs rs)
  | lo, [], [], _ => .nil lo
  | lo, c :: cs, r :: rs, h => by
    refine .cons rfl rfl ?_ rfl (spawn_tiles hg _ cs rs (by simpa using h))
    intro f hf m
    simp only [blockLoop, List.mem_map] at hf
    obtain ⟨k, _, rfl⟩ := hf
    exact blockStep_length hg _ _ _
  | lo, [], _ :: _, h => by simp at h
  | lo, _ :: _, [], h => by simp at h

/-- Executing block loops on consecutive chunks, in any interleaving. -/
theorem chunks_outcome {s p c m n : Nat} {g : Nat → List T → List T} (hs : 0 < s)
    (hg : ∀ i b, b.length ≤ s → (g i b).length = b.length) (a : List T) (hc : c = m * s) (hn : a.length ≤ n * c)
    (rs : List (Nat × Nat)) (hrs : rs.length = n) (hr : ∀ i, (h : i < rs.length) → rs[i].1 = i * m * p)
    (sched : List Nat) :
    ∃ r, IsBlockMap s p g 0 a r ∧
      (Par.outcome ⟨a, spawn (blockLoop s p g) 0 ((List.range n).map (blk c a)) rs⟩ sched = .running ∨
       Par.outcome ⟨a, spawn (blockLoop s p g) 0 ((List.range n).map (blk c a)) rs⟩ sched =
        .finished r) := by
  have ht := spawn_tiles (s := s) (p := p) hg 0 ((List.range n).map (blk c a)) rs (by simp [hrs])
  have hfl : ((List.range n).map (blk c a)).flatten = a := by
    rw [flatten_blocks, List.take_of_length_le hn]
  refine ⟨_, ?_, by have := ht.outcome sched; rw [hfl] at this; exact this⟩
  have hz : List.zipWith (fun c r => runAll (blockLoop s p g r.1 c.length) c)
      ((List.range n).map (blk c a)) rs =
      (List.range n).map (fun i => runAll (blockLoop s p g (i * m * p) (blk c a i).length) (blk c a i)) := by
    apply List.ext_getElem
    · simp [hrs]
    · intro i h1 h2
      simp only [List.length_zipWith] at h1
      simp [hr i (by omega)]
  rw [hz]
  have := IsBlockMap.flatten (p := p) (q := c) (m := m) (g := g) hs n a
    (fun i => runAll (blockLoop s p g (i * m * p) (blk c a i).length) (blk c a i)) 0 hc
    (fun i _ => by rw [Nat.zero_add]; exact runAll_blockLoop hs hg _ _)
  rw [List.take_of_length_le hn] at this
  exact this

end Dsp
