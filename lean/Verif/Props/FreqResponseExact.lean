import Verif.Props.WindowsExact
import Verif.Props.FreqResponse
/-
C56: what a frequency response which is declared symmetric does for every number of points and workers.
-/
set_option linter.unusedSectionVars false
namespace Dsp
open DspVec
variable {T α : Type} [Field T] [LinearOrder T] [IsStrictOrderedRing T]

theorem executeResponse_exact [Semigroup α] (st : MultiCoreSettings) (hcl : st.coreLimit ≠ 0) (a : List α) (hL : 2 ≤ a.length)
    (scale : α) (g : T → α) (F : Nat → α)
    (h1 : ∀ i : Nat, scale * g (-((a.length / 2 : Nat) : T) + (i : T)) = F i)
    (h2 : ∀ i : Nat, scale * g (((a.length / 2 : Nat) : T) - (i : T)) = F i) :
    Always (executeSymPairs .medium st a 1 (responseClosure ((a.length / 2 : Nat) : T) scale g))
      (a.mapIdx fun i x => if (symmetricIndex (determineNumberOfChunks a.length .medium st) a.length i).isSome then x * F i else x) := by
  have hn0 := workers_pos (L := a.length) hcl
  generalize hN : determineNumberOfChunks a.length .medium st = n at *
  have hn2 : 0 < 2 * n := by omega
  have hcp := calcChunkSize_pos (len := a.length) (step := 1) (n := 2 * n) (by omega) (by omega) hn2
  have hm2 := numChunks_le (len := a.length) (step := 1) (n := 2 * n) (by omega) (by omega) hn2
  have hm0 := numChunks_pos (len := a.length) (step := 1) (n := 2 * n) (by omega) (by omega) hn2
  have hm1 : ∀ k, k < numChunks a.length 1 (2 * n) ↔ k * calcChunkSize a.length 1 (2 * n) < a.length := fun k => by
    unfold numChunks; exact lt_ceilDiv_iff hcp
  have hX : ∀ i, symmetricIndex n a.length i = _ := fun i => symmetricIndex_eq n a.length i hn0
  have := executeSymPairs_exact st hcl a hL (responseClosure ((a.length / 2 : Nat) : T) scale g)
    (fun i x => if (symmetricIndex n a.length i).isSome then x * F i else x) n _ _ hN rfl rfl ?_ ?_
  · exact this
  · generalize calcChunkSize a.length 1 (2 * n) = c at *
    generalize numChunks a.length 1 (2 * n) = m at *
    intro i hi
    have e0 : i * c + c ≤ (m - n) * c := by rw [← Nat.succ_mul]; exact Nat.mul_le_mul_right _ (by omega)
    have e1 : (m - n) * c ≤ n * c := Nat.mul_le_mul_right _ (by omega)
    have e2 : n * c ≤ (m - 1 - i) * c := Nat.mul_le_mul_right _ (by omega)
    have e3 : (m - 1 - i) * c + i * c = (m - 1) * c := by rw [← Nat.add_mul]; congr 1; omega
    have e4 : (m - 1) * c < a.length := (hm1 _).1 (by omega)
    have e5 : m * c = (m - 1) * c + c := by rw [← Nat.succ_mul]; congr 1; omega
    have e6 : a.length ≤ m * c := by
      have := mt (hm1 m).2 (by omega); omega
    have e7 : i ≠ 0 → c ≤ i * c := fun h => Nat.le_mul_of_pos_left _ (Nat.pos_of_ne_zero h)
    have e8 : i = 0 → i * c = 0 := fun h => by rw [h, Nat.zero_mul]
    have e9 : (i + 1) * c = i * c + c := by ring
    have e10 : (m - 1 - i + 1) * c = (m - 1 - i) * c + c := by ring
    have l1 : (pairOf a.length c m i).len1 = c := by simp only [pairOf]; omega
    have l2 : (pairOf a.length c m i).len2 = if i = 0 then a.length - (m - 1) * c else c := by
      simp only [pairOf]
      split
      · next h => have := e8 h; omega
      · next h => have := e7 h; omega
    have r2 : (pairOf a.length c m i).range2.2 = (pairOf a.length c m i).lo2 + (pairOf a.length c m i).len2 := by
      rw [l2]
      simp only [pairOf]
      by_cases h : i = 0
      · have := e8 h
        rw [if_neg (by omega), if_pos h]; omega
      · rw [if_pos (by omega), if_neg h, e10]
    have r2' : (pairOf a.length c m i).lo1 + (pairOf a.length c m i).range2.2 = if i = 0 then a.length else m * c := by
      rw [r2, l2]
      simp only [pairOf]
      by_cases h : i = 0
      · have := e8 h
        rw [if_pos h, if_pos h]; omega
      · rw [if_neg h, if_neg h]; omega
    obtain ⟨us, u1, u2, u3, u4⟩ := responseClosure_spec (T := T) (a.length / 2) scale g (pairOf a.length c m i) rfl
      (by simp only [pairOf]; rw [if_pos (by omega), e9]; omega) r2 (by rw [l1, l2]; split <;> omega)
      (by rw [r2']; split <;> omega)
      (by rw [r2', l2]; split <;> omega)
      (by rw [l1]; exact hcp) (by rw [r2, l2]; simp only [pairOf]; split <;> omega)
    refine ⟨us, u1, u2, u3, fun u hu x => ?_⟩
    -- all cells of the program belong to the two chunks
    have hperm : (List.range' (i * c) c ++ List.range' ((m - 1 - i) * c) (pairOf a.length c m i).len2).Perm (us.map Prod.fst) := by
      have hs : (List.range' (i * c) c ++ List.range' ((m - 1 - i) * c) (pairOf a.length c m i).len2) ⊆ us.map Prod.fst := by
        intro q hq
        apply u3
        rw [List.mem_append, List.mem_range'_1, List.mem_range'_1] at hq
        rw [l1]; exact hq
      have hnd : (List.range' (i * c) c ++ List.range' ((m - 1 - i) * c) (pairOf a.length c m i).len2).Nodup := by
        rw [List.nodup_append]
        refine ⟨List.nodup_range', List.nodup_range', fun y hy z hz => ?_⟩
        rw [List.mem_range'_1] at hy hz
        omega
      exact (List.subperm_of_subset hnd hs).perm_of_length_le (by simp [u2, l1])
    have hcell : u.1 < (m - n) * c ∨ n * c ≤ u.1 := by
      have hu' : u.1 ∈ us.map Prod.fst := List.mem_map_of_mem hu
      rw [← hperm.mem_iff, List.mem_append, List.mem_range'_1, List.mem_range'_1] at hu'
      omega
    have hsome : (symmetricIndex n a.length u.1).isSome = true := by
      rw [hX]
      by_cases h : u.1 < (m - n) * c
      · rw [if_pos h]; rfl
      · rw [if_neg h, if_neg (by omega)]
        split <;> rfl
    rw [if_pos hsome]
    obtain ⟨j, hj1, hj2⟩ := u4 u hu
    rw [hj2]
    rcases hj1 with ⟨rfl, _⟩ | ⟨rfl, _⟩
    · rw [h1]
    · rw [h2]
  · intro q hq1 hq2 x
    have : symmetricIndex n a.length q = none := by rw [hX, if_neg (by omega), if_pos hq2]
    rw [this]
    rfl

/-- The points which belong to a pair of chunks. -/
def hasPartner (st : MultiCoreSettings) (n i : Nat) : Bool :=
  (symmetricIndex (determineNumberOfChunks n .medium st) n i).isSome

theorem multiplyFunction_exact [CommSemigroup α] (st : MultiCoreSettings) (hcl : st.coreLimit ≠ 0) (ratio : T) (scale : α) (fn : T → α)
    (a : List α) (h2 : 2 ≤ a.length) (he : EvenFunction fn) :
    Always (multiplyFunction st true false ratio scale fn a) (filteredWhere (hasPartner st a.length) fn ratio scale a) := by
  have := executeResponse_exact st hcl a h2 scale (fun j => fn (fftSwapX false j (axisCenter a.length) * ratio))
    (fun i => scale * fn (((i : T) - ((a.length / 2 : Nat) : T)) / ((a.length / 2 : Nat) : T) * ratio))
    (fun i => by
      simp only [fftSwapX, axisCenter_eq, Bool.not_false, if_true]
      congr 2; ring)
    (fun i => by
      simp only [fftSwapX, axisCenter_eq, Bool.not_false, if_true]
      rw [← he]
      congr 2; ring)
  refine Always.congr this (fun s => ?_)
  simp only [multiplyFunction, if_true, axisCenter_eq]

/-- From slices to vectors. -/
theorem multiplyFunctionBy_exact (st : MultiCoreSettings) (hcl : st.coreLimit ≠ 0) (ratio : T) (fr : T → T) (fc : T → Cx T) (v : DspVec T)
    (s : Signal T) (hv : v.Shows s) (h2 : 2 ≤ s.numbers.count) (N : Numbers T)
    (hN : (∃ xs, s.numbers = .real xs ∧ N = .real (filteredWhere (hasPartner st xs.length) fr ratio ratio xs) ∧ EvenFunction fr) ∨
      (∃ cs, s.numbers = .complex cs ∧ N = .complex (filteredWhere (hasPartner st cs.length) fc ratio ⟨ratio, 0⟩ cs) ∧ EvenFunction fc)) :
    ∃ w, Always (v.multiplyFunctionBy st true false ratio fr fc) w ∧ w.Shows { s with numbers := N } ∧ w.SameMeta v ∧
      w.validLen = v.validLen := by
  have hwf := hv.wf
  rcases hN with ⟨xs, e, rfl, he⟩ | ⟨cs, e, rfl, he⟩
  · have hc : v.isComplex = false := by rw [hv.isComplex, e]; rfl
    have hcon : v.content = some xs := by rw [hv.content, e]; rfl
    have hl := hwf.content_length hcon
    rw [e] at h2
    have hA := multiplyFunction_exact st hcl ratio ratio fr xs h2 he
    have hrep := replaced_splice hwf (filteredWhere (hasPartner st xs.length) fr ratio ratio xs) (by simp [filteredWhere]; exact hl)
    refine ⟨v.withCells (splice v.data.cells 0 (filteredWhere (hasPartner st xs.length) fr ratio ratio xs)), ?_, ?_, hrep.2.2.1, hrep.2.1⟩
    · refine hA.map (fun s e => ?_) (fun s e => ?_) <;>
      · unfold multiplyFunctionBy
        simp [hcon, hc, e, Outcome.andThen]
    · exact hv.of_content hrep.2.2.1 (by rw [e]; rfl) hrep.1
  · have hc : v.isComplex = true := by rw [hv.isComplex, e]; rfl
    have hcon : v.content = some (fromComplex cs) := by rw [hv.content, e]; rfl
    have hl := hwf.content_length hcon
    rw [e] at h2
    have hA := multiplyFunction_exact st hcl ratio (⟨ratio, 0⟩ : Cx T) fc cs h2 he
    have hrep := replaced_splice hwf (fromComplex (filteredWhere (hasPartner st cs.length) fc ratio ⟨ratio, 0⟩ cs)) (by
      rw [length_fromComplex, filteredWhere, List.length_mapIdx, ← length_fromComplex]; exact hl)
    refine ⟨v.withCells (splice v.data.cells 0 (fromComplex (filteredWhere (hasPartner st cs.length) fc ratio ⟨ratio, 0⟩ cs))), ?_, ?_,
      hrep.2.2.1, hrep.2.1⟩
    · refine hA.map (fun s e => ?_) (fun s e => ?_) <;>
      · unfold multiplyFunctionBy
        simp [hcon, hc, e, toComplex?_fromComplex, Outcome.andThen]
    · exact hv.of_content hrep.2.2.1 (by rw [e]; rfl) hrep.1

/-- C56, every number of points and workers: a real response which is declared symmetric multiplies the points whose chunk has a partner
    with the right factor; the other points are left as they are. -/
theorem C56_exact (st : MultiCoreSettings) (hcl : st.coreLimit ≠ 0) (f : FrequencyResponse T T) (ratio : T) (v : DspVec T) (s : Signal T)
    (hv : v.Shows s) (hd : s.dom = .frequency) (h2 : 2 ≤ s.numbers.count) (hs : f.isSymmetric = true) (he : EvenFunction f.value) :
    ∃ w, Always (v.multiplyRealResponse st f ratio) w ∧
      w.Shows { s with numbers := s.numbers.filteredRealWhere (fun i =>
        (symmetricIndex (determineNumberOfChunks s.numbers.count .medium st) s.numbers.count i).isSome) f.value ratio } ∧
      w.SameMeta v ∧ w.validLen = v.validLen := by
  obtain ⟨w, h1, h3⟩ := multiplyFunctionBy_exact st hcl ratio f.value (fun x => ⟨f.value x, 0⟩) v s hv h2
    (s.numbers.filteredRealWhere (fun i =>
        (symmetricIndex (determineNumberOfChunks s.numbers.count .medium st) s.numbers.count i).isSome) f.value ratio) (by
      cases hn : s.numbers with
      | real xs => exact .inl ⟨xs, rfl, rfl, he⟩
      | complex cs => exact .inr ⟨cs, rfl, rfl, fun x => by simp only [he x]⟩)
  refine ⟨w, h1.congr (fun sc => ?_), h3⟩
  unfold multiplyRealResponse
  rw [if_neg (by rw [hv.dom, hd]; simp), hs]

/-- C56, every number of points and workers: a complex response which is declared symmetric. -/
theorem C56_exact_complex (st : MultiCoreSettings) (hcl : st.coreLimit ≠ 0) (f : FrequencyResponse T (Cx T)) (ratio : T) (v : DspVec T)
    (s : Signal T) (cs : List (Cx T)) (hv : v.Shows s) (hcs : s.numbers = .complex cs) (hd : s.dom = .frequency) (h2 : 2 ≤ cs.length)
    (hs : f.isSymmetric = true) (he : EvenFunction f.value) :
    ∃ w, Always (v.multiplyComplexResponse st f ratio) w ∧
      w.Shows { s with numbers := .complex (filteredWhere (fun i =>
        (symmetricIndex (determineNumberOfChunks cs.length .medium st) cs.length i).isSome) f.value ratio ⟨ratio, 0⟩ cs) } ∧
      w.SameMeta v ∧ w.validLen = v.validLen := by
  obtain ⟨w, h1, h3⟩ := multiplyFunctionBy_exact st hcl ratio (fun _ => 0) f.value v s hv (by rw [hcs]; exact h2)
    (.complex (filteredWhere (fun i =>
        (symmetricIndex (determineNumberOfChunks cs.length .medium st) cs.length i).isSome) f.value ratio ⟨ratio, 0⟩ cs))
    (.inr ⟨cs, hcs, rfl, he⟩)
  refine ⟨w, h1.congr (fun sc => ?_), h3⟩
  unfold multiplyComplexResponse
  rw [if_neg (by rw [hv.dom, hd, hv.isComplex, hcs]; simp [Numbers.isComplex]), hs]

/-- All chunks have a partner if and only if there are twice as many chunks as workers. -/
theorem partners_iff (k n : Nat) (hk : 0 < k) (hn : 0 < n) :
    (∀ i < n, (symmetricIndex k n i).isSome = true) ↔ numChunks n 1 (2 * k) = 2 * k := by
  have hk2 : 0 < 2 * k := by omega
  have hcp := calcChunkSize_pos (len := n) (step := 1) (n := 2 * k) hn (by omega) hk2
  have hm2 := numChunks_le (len := n) (step := 1) (n := 2 * k) hn (by omega) hk2
  have hm0 := numChunks_pos (len := n) (step := 1) (n := 2 * k) hn (by omega) hk2
  have hm1 : ∀ i, i < numChunks n 1 (2 * k) ↔ i * calcChunkSize n 1 (2 * k) < n := fun i => by
    unfold numChunks; exact lt_ceilDiv_iff hcp
  have hX := fun i => symmetricIndex_eq k n i hk
  generalize calcChunkSize n 1 (2 * k) = c at *
  generalize numChunks n 1 (2 * k) = m at *
  constructor
  · intro h
    by_contra hm
    have := h ((m - k) * c) ((hm1 _).1 (by omega))
    rw [hX, if_neg (by omega), if_pos ((Nat.mul_lt_mul_right hcp).2 (by omega))] at this
    cases this
  · rintro rfl i hi
    rw [hX]
    rw [show 2 * k - k = k by omega]
    split
    · rfl
    · split
      · rfl
      · rfl

/-- C56: exactly for which settings and numbers of points the property holds: with `k` workers for `n` points, the real responses which are
    declared symmetric (and are) work for all spectra if and only if `2 k - 1` chunks of `ceil(n / (2 k))` points have less than `n` points. -/
theorem C56_iff (st : MultiCoreSettings) (hcl : st.coreLimit ≠ 0) (n : Nat) (h2 : 2 ≤ n) :
    (∀ (f : FrequencyResponse T T) (ratio : T), f.isSymmetric = true → EvenFunction f.value → ∀ (v : DspVec T) (s : Signal T),
      v.Shows s → s.dom = .frequency → s.numbers.count = n →
      ∃ w, Always (v.multiplyRealResponse st f ratio) w ∧ w.Shows { s with numbers := s.numbers.filteredReal f.value ratio }) ↔
    (2 * determineNumberOfChunks n .medium st - 1) *
      ((n + 2 * determineNumberOfChunks n .medium st - 1) / (2 * determineNumberOfChunks n .medium st)) < n := by
  have hk := workers_pos (L := n) hcl
  have hk2 : 0 < 2 * determineNumberOfChunks n .medium st := by omega
  have hfull : (2 * determineNumberOfChunks n .medium st - 1) *
      ((n + 2 * determineNumberOfChunks n .medium st - 1) / (2 * determineNumberOfChunks n .medium st)) < n ↔
      numChunks n 1 (2 * determineNumberOfChunks n .medium st) = 2 * determineNumberOfChunks n .medium st := by
    have hc : calcChunkSize n 1 (2 * determineNumberOfChunks n .medium st) =
        (n + 2 * determineNumberOfChunks n .medium st - 1) / (2 * determineNumberOfChunks n .medium st) := by
      rw [calcChunkSize_eq (by omega) hk2]
      simp [ceilDiv]
    have hcp := calcChunkSize_pos (len := n) (step := 1) (n := 2 * determineNumberOfChunks n .medium st) (by omega) (by omega) hk2
    have hm2 := numChunks_le (len := n) (step := 1) (n := 2 * determineNumberOfChunks n .medium st) (by omega) (by omega) hk2
    rw [← hc, ← lt_ceilDiv_iff hcp]
    unfold numChunks at hm2 ⊢
    omega
  rw [hfull, ← partners_iff _ n hk (by omega)]
  constructor
  · intro h i hi
    by_contra hno
    have hno' : (symmetricIndex (determineNumberOfChunks n .medium st) n i).isSome = false := by simpa using hno
    set v : DspVec T := ⟨⟨.vec, List.replicate n 1⟩, none, .freq, .real, n⟩ with hvdef
    have hwf : v.WF := ⟨by simp [hvdef], fun hc => by simp [hvdef, isComplex, NumberSpace.isComplex] at hc⟩
    have hv : v.Shows ⟨.real (List.replicate n 1), .frequency, false, none⟩ :=
      ⟨by rw [hwf.content_eq]; simp [hvdef, Numbers.flat], rfl, rfl, rfl⟩
    have hcount : (Numbers.real (List.replicate n (1 : T))).count = n := by simp [Numbers.count]
    obtain ⟨w1, hA1, hS1⟩ := h ⟨true, fun _ => 0⟩ 1 rfl (fun _ => rfl) v _ hv rfl hcount
    obtain ⟨w2, hA2, hS2, _⟩ := C56_exact st hcl ⟨true, fun _ => 0⟩ 1 v _ hv rfl (by rw [hcount]; exact h2) rfl (fun _ => rfl)
    obtain rfl := hA1.same hA2
    have e := hS1.content.symm.trans hS2.content
    simp only [Numbers.filteredReal, Numbers.filteredRealWhere, Numbers.flat, Option.some.injEq, filtered, filteredWhere, hcount] at e
    have := congrArg (fun l => l[i]?) e
    simp [List.getElem?_mapIdx, List.getElem?_replicate, hi, hno'] at this
  · intro h f ratio hs he v s hv hd hn
    subst hn
    obtain ⟨w, h1, h3, _⟩ := C56_exact st hcl f ratio v s hv hd h2 hs he
    refine ⟨w, h1, ?_⟩
    have e : s.numbers.filteredRealWhere (fun i =>
        (symmetricIndex (determineNumberOfChunks s.numbers.count .medium st) s.numbers.count i).isSome) f.value ratio =
        s.numbers.filteredReal f.value ratio := by
      cases hn : s.numbers with
      | real xs =>
        rw [hn] at h
        simp only [Numbers.filteredRealWhere, Numbers.filteredReal, filteredWhere, filtered, Numbers.real.injEq]
        refine List.ext_getElem (by simp) fun i hi1 hi2 => ?_
        simp only [List.getElem_mapIdx]
        rw [if_pos (h i (by simpa [Numbers.count] using hi1))]
      | complex cs =>
        rw [hn] at h
        simp only [Numbers.filteredRealWhere, Numbers.filteredReal, filteredWhere, filtered, Numbers.complex.injEq]
        refine List.ext_getElem (by simp) fun i hi1 hi2 => ?_
        simp only [List.getElem_mapIdx]
        rw [if_pos (h i (by simpa [Numbers.count] using hi1))]
    rw [e] at h3
    exact h3

/-- Nine points and four workers do not meet the condition of `C56_iff`, eleven points and two workers do. -/
example : ¬ (2 * determineNumberOfChunks 9 .medium fourWorkers - 1) *
      ((9 + 2 * determineNumberOfChunks 9 .medium fourWorkers - 1) / (2 * determineNumberOfChunks 9 .medium fourWorkers)) < 9 ∧
    (2 * determineNumberOfChunks 11 .medium twoWorkers - 1) *
      ((11 + 2 * determineNumberOfChunks 11 .medium twoWorkers - 1) / (2 * determineNumberOfChunks 11 .medium twoWorkers)) < 11 ∧
    determineNumberOfChunks 11 .medium twoWorkers = 2 := by decide

example : EvenFunction squareResponse.value ∧ fourWorkers.coreLimit ≠ 0 ∧ nineOnes.WF := ⟨fun x => by simp [squareResponse], by decide, by decide⟩

end Dsp
