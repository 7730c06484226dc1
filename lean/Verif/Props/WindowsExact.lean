import Verif.Lemmas.SymExact
import Verif.Props.Windows
/-
C16: what a window which is declared symmetric does for every number of points and workers.
-/
namespace Dsp
open DspVec
variable {T α : Type}

/-- Chunks and their sizes as in the specification. -/
theorem symmetricIndex_eq (k L i : Nat) (hk : 0 < k) :
    symmetricIndex k L i =
      (if i < (numChunks L 1 (2 * k) - k) * calcChunkSize L 1 (2 * k) then some i
      else if i < k * calcChunkSize L 1 (2 * k) then none
      else if i < (numChunks L 1 (2 * k) - 1) * calcChunkSize L 1 (2 * k) then
        some (numChunks L 1 (2 * k) * calcChunkSize L 1 (2 * k) - 1 - i)
      else some (L - 1 - i)) := by
  have hc : calcChunkSize L 1 (2 * k) = (L + 2 * k - 1) / (2 * k) := by
    rw [calcChunkSize_eq (by omega) (by omega)]
    simp [ceilDiv]
  unfold symmetricIndex numChunks
  rw [hc]
  rfl

/-- The factor of a point. -/
def symmetricFactor [One α] (w : Nat → α) (k L i : Nat) : α := (symmetricIndex k L i).elim 1 w

/-- What is done with the number `x` of a point. -/
def symmetricApply [Mul α] (w : Nat → α) (k L i : Nat) (x : α) : α := (symmetricIndex k L i).elim x (x * w ·)

/-- No law of the multiplication is used: the result is right bit for bit. -/
theorem multiplyWindow_bitwise [Mul α] (st : MultiCoreSettings) (hcl : st.coreLimit ≠ 0) (w : Nat → α) (a : List α)
    (hL : 2 ≤ a.length) :
    Always (multiplyWindow st true w a)
      (a.mapIdx fun i x => symmetricApply w (determineNumberOfChunks a.length .medium st) a.length i x) := by
  have hn0 := workers_pos (L := a.length) hcl
  generalize hN : determineNumberOfChunks a.length .medium st = n at *
  have hn2 : 0 < 2 * n := by omega
  have hcp := calcChunkSize_pos (len := a.length) (step := 1) (n := 2 * n) (by omega) (by omega) hn2
  have hm2 := numChunks_le (len := a.length) (step := 1) (n := 2 * n) (by omega) (by omega) hn2
  have hm0 := numChunks_pos (len := a.length) (step := 1) (n := 2 * n) (by omega) (by omega) hn2
  have hm1 : ∀ k, k < numChunks a.length 1 (2 * n) ↔ k * calcChunkSize a.length 1 (2 * n) < a.length := fun k => by
    unfold numChunks; exact lt_ceilDiv_iff hcp
  have hF : ∀ i x, symmetricApply w n a.length i x = _ := fun i x => by
    unfold symmetricApply; rw [symmetricIndex_eq n a.length i hn0]
  have := executeSymPairs_exact st hcl a hL (windowClosure w) (fun i x => symmetricApply w n a.length i x) n _ _ hN rfl rfl ?_ ?_
  · exact this
  · generalize calcChunkSize a.length 1 (2 * n) = c at *
    generalize numChunks a.length 1 (2 * n) = m at *
    intro i hi
    have e0 : i * c + c ≤ (m - n) * c := by rw [← Nat.succ_mul]; exact Nat.mul_le_mul_right _ (by omega)
    have e1 : (m - n) * c ≤ n * c := Nat.mul_le_mul_right _ (by omega)
    have e2 : n * c ≤ (m - 1 - i) * c := Nat.mul_le_mul_right _ (by omega)
    have e3 : (m - 1 - i) * c + i * c = (m - 1) * c := by rw [← Nat.add_mul]; congr 1; omega
    have e4 : (m - 1) * c < a.length := (hm1 _).1 (by omega)
    have e5 : m * c = (m - 1) * c + c := by rw [← Nat.succ_mul]; congr 1; omega
    have e6 : a.length ≤ m * c := by
      have := mt (hm1 m).2 (by omega); omega
    have e7 : i ≠ 0 → c ≤ i * c := fun h => Nat.le_mul_of_pos_left _ (Nat.pos_of_ne_zero h)
    have e8 : i = 0 → i * c = 0 := fun h => by rw [h, Nat.zero_mul]
    have hle : min c (a.length - (m - 1 - i) * c) ≤ min c (a.length - i * c) := by omega
    refine ⟨windowZip w (pairOf a.length c m i) ++ windowTail w (pairOf a.length c m i), ?_, ?_, ?_, ?_⟩
    · unfold windowClosure
      exact if_pos hle
    · rw [List.length_append, windowZip_length, windowTail_length]
      have : (pairOf a.length c m i).len2 ≤ (pairOf a.length c m i).len1 := hle
      omega
    · intro q hq
      have hle' : (pairOf a.length c m i).len2 ≤ (pairOf a.length c m i).len1 := hle
      rw [List.map_append, List.mem_append]
      rcases hq with ⟨h1, h2⟩ | ⟨h1, h2⟩
      · by_cases h3 : q - (pairOf a.length c m i).lo1 < (pairOf a.length c m i).len2
        · left
          refine List.mem_map.2 ⟨_, mem_windowZip.2 ⟨_, h3, .inl rfl⟩, ?_⟩
          simp only; omega
        · right
          refine List.mem_map.2 ⟨_, mem_windowTail.2 ⟨q - (pairOf a.length c m i).lo1 - (pairOf a.length c m i).len2, by omega, rfl⟩, ?_⟩
          simp only; omega
      · left
        refine List.mem_map.2 ⟨_, mem_windowZip.2 ⟨(pairOf a.length c m i).lo2 + (pairOf a.length c m i).len2 - 1 - q, by omega, .inr rfl⟩, ?_⟩
        simp only; omega
    · have hp : ∀ k x, k < c → symmetricApply w n a.length (i * c + k) x = x * w (i * c + k) := by
        intro k x hk
        rw [hF, if_pos (by omega)]; rfl
      have hq : ∀ k x, k < min c (a.length - (m - 1 - i) * c) → symmetricApply w n a.length
          ((m - 1 - i) * c + (min c (a.length - (m - 1 - i) * c) - 1 - k)) x = x * w (i * c + k) := by
        intro k x hk
        rw [hF, if_neg (by omega), if_neg (by omega)]
        by_cases hi0 : i = 0
        · have := e8 hi0
          rw [if_neg (by omega)]
          show x * w _ = x * w _
          congr 2; omega
        · have := e7 hi0
          rw [if_pos (by omega)]
          show x * w _ = x * w _
          congr 2; omega
      intro u hu x
      rw [List.mem_append, mem_windowZip, mem_windowTail] at hu
      rcases hu with ⟨k, hk, rfl | rfl⟩ | ⟨k, hk, rfl⟩
      · simp only [pairOf] at hk ⊢
        rw [hp k x (by omega)]
      · simp only [pairOf] at hk ⊢
        rw [hq k x hk]
      · simp only [pairOf] at hk ⊢
        rw [hp _ x (by omega)]
  · intro q h1 h2 x
    rw [hF, if_neg (by omega), if_pos h2]
    rfl

theorem multiplyWindow_exact [CommMonoid α] (st : MultiCoreSettings) (hcl : st.coreLimit ≠ 0) (w : Nat → α) (a : List α)
    (hL : 2 ≤ a.length) :
    Always (multiplyWindow st true w a)
      (a.mapIdx fun i x => x * symmetricFactor w (determineNumberOfChunks a.length .medium st) a.length i) := by
  have e : ∀ i x, x * symmetricFactor w (determineNumberOfChunks a.length .medium st) a.length i =
      symmetricApply w (determineNumberOfChunks a.length .medium st) a.length i x := by
    intro i x
    unfold symmetricFactor symmetricApply
    cases symmetricIndex (determineNumberOfChunks a.length .medium st) a.length i with
    | none => exact mul_one x
    | some j => rfl
  simp only [e]
  exact multiplyWindow_bitwise st hcl w a hL

/-- C16, every number of points and workers: with a window which is declared symmetric, `apply_window` multiplies point `i` with the
    window value of the index `symmetricIndex`, or not at all, for every interleaving of the workers. -/
theorem C16_exact [CommRing T] (st : MultiCoreSettings) (hcl : st.coreLimit ≠ 0) (w : WindowFunction T) (v : DspVec T)
    (hv : v.WF) (hs : w.isSymmetric = true) (h2 : 2 ≤ v.points) :
    ∃ v', Always (v.applyWindow st w) v' ∧ Windowed v v' (fun i =>
      match symmetricIndex (determineNumberOfChunks v.points .medium st) v.points i with
      | some j => w.window j v.points
      | none => 1) := by
  have e : (fun i => match symmetricIndex (determineNumberOfChunks v.points .medium st) v.points i with
      | some j => w.window j v.points
      | none => 1) = symmetricFactor (fun j => w.window j v.points) (determineNumberOfChunks v.points .medium st) v.points := by
    funext i
    unfold symmetricFactor
    cases symmetricIndex (determineNumberOfChunks v.points .medium st) v.points i <;> rfl
  rw [e]
  unfold applyWindow
  rw [hs]
  refine windowed_of_slices st true w.window _ v hv (fun a ha => ?_) (fun a ha => ?_)
  · rw [← ha] at h2 ⊢
    exact multiplyWindow_exact st hcl _ a h2
  · rw [← ha] at h2 ⊢
    have := multiplyWindow_exact st hcl (fun i => (⟨w.window i a.length, 0⟩ : Cx T)) a h2
    have e2 : ∀ i, symmetricFactor (fun i => (⟨w.window i a.length, 0⟩ : Cx T)) (determineNumberOfChunks a.length .medium st) a.length i =
        ⟨symmetricFactor (fun i => w.window i a.length) (determineNumberOfChunks a.length .medium st) a.length i, 0⟩ := by
      intro i
      unfold symmetricFactor
      cases symmetricIndex (determineNumberOfChunks a.length .medium st) a.length i <;> rfl
    simp only [e2] at this
    exact this

/-- The window which is zero at point `j` and its mirror image. -/
def notchWindow [Zero T] [One T] (j : Nat) : WindowFunction T := ⟨true, fun i n => if i = j ∨ i = n - 1 - j then 0 else 1⟩

theorem notchWindow_symmetric [Zero T] [One T] (j n : Nat) (hj : j < n) : SymmetricAt (notchWindow j : WindowFunction T) n := by
  intro i hi
  simp only [notchWindow]
  by_cases h : i = j ∨ i = n - 1 - j
  · rw [if_pos h, if_pos (by omega)]
  · rw [if_neg h, if_neg (by omega)]

theorem Always.same {β : Type} {run : List Nat → Outcome β} {r r' : β} (h : Always run r) (h' : Always run r') : r = r' := by
  obtain ⟨s, hs⟩ := h.2
  rcases h'.1 s with e | e <;> rw [hs] at e
  · cases e
  · exact (Outcome.finished.inj e)

theorem windowed_at [CommRing T] {v v' : DspVec T} {f : Nat → T} (hc : v.isComplex = false) (h : Windowed v v' f) {a : List T}
    (ha : v.content = some a) {i : Nat} {x : T} (hi : a[i]? = some x) : ∃ r, v'.content = some r ∧ r[i]? = some (x * f i) := by
  obtain ⟨a', h1, h2⟩ := h
  rw [ha] at h1
  obtain rfl := Option.some.inj h1
  have hs : v.stride = 1 := by unfold stride; rw [hc]; rfl
  refine ⟨_, h2.1, ?_⟩
  rw [List.getElem?_mapIdx, hi, hs, Nat.div_one]
  rfl

/-- C16: exactly for which settings and numbers of points the property holds: if `k` workers are used for `n` points, then the windows
    which are declared symmetric (and are) work for all vectors if and only if there is one worker or `n` is a multiple of `2 k`. -/
theorem C16_iff [CommRing T] [Nontrivial T] (st : MultiCoreSettings) (hcl : st.coreLimit ≠ 0) (n : Nat) (h2 : 2 ≤ n) :
    (∀ w : WindowFunction T, w.isSymmetric = true → SymmetricAt w n → ∀ v : DspVec T, v.WF → v.points = n →
      ∃ v', Always (v.applyWindow st w) v' ∧ Windowed v v' (w.window · n)) ↔
    (determineNumberOfChunks n .medium st = 1 ∨ n % (2 * determineNumberOfChunks n .medium st) = 0) := by
  have hk := workers_pos (L := n) hcl
  constructor
  · intro h
    by_contra hno
    push Not at hno
    obtain ⟨hne1, hmod⟩ := hno
    generalize hN : determineNumberOfChunks n .medium st = k at *
    have hk2 : 0 < 2 * k := by omega
    have hcp := calcChunkSize_pos (len := n) (step := 1) (n := 2 * k) (by omega) (by omega) hk2
    have hm2 := numChunks_le (len := n) (step := 1) (n := 2 * k) (by omega) (by omega) hk2
    have hm0 := numChunks_pos (len := n) (step := 1) (n := 2 * k) (by omega) (by omega) hk2
    have hm1 : ∀ i, i < numChunks n 1 (2 * k) ↔ i * calcChunkSize n 1 (2 * k) < n := fun i => by
      unfold numChunks; exact lt_ceilDiv_iff hcp
    -- a point whose factor is neither its own window value nor the one of its mirror image
    obtain ⟨i, hi, hbad⟩ : ∃ i < n, symmetricIndex k n i = none ∨ ∃ j, symmetricIndex k n i = some j ∧ j ≠ i ∧ j ≠ n - 1 - i := by
      have hX := fun i => symmetricIndex_eq k n i hk
      generalize calcChunkSize n 1 (2 * k) = c at *
      generalize numChunks n 1 (2 * k) = m at *
      by_cases hm : m = 2 * k
      · subst hm
        have e1 : k * c < (2 * k - 1) * c := (Nat.mul_lt_mul_right hcp).2 (by omega)
        have e2 : (2 * k - k) * c = k * c := by congr 1; omega
        have e3 : (2 * k - 1) * c < n := (hm1 _).1 (by omega)
        have e4 : 2 * k * c = k * c + k * c := by ring
        refine ⟨k * c, by omega, .inr ⟨2 * k * c - 1 - k * c, ?_, ?_, ?_⟩⟩
        · rw [hX, if_neg (by omega), if_neg (by omega), if_pos e1]
        · have : 0 < k * c := Nat.mul_pos hk hcp
          omega
        · intro he
          apply hmod
          have : n = 2 * k * c := by omega
          rw [this]
          exact Nat.mul_mod_right _ _
      · refine ⟨(m - k) * c, (hm1 _).1 (by omega), .inl ?_⟩
        rw [hX, if_neg (by omega), if_pos ((Nat.mul_lt_mul_right hcp).2 (by omega))]
    set v : DspVec T := ⟨⟨.vec, List.replicate n 1⟩, none, .time, .real, n⟩ with hvdef
    have hv : v.WF := ⟨by simp [hvdef], fun hc => by simp [hvdef, isComplex, NumberSpace.isComplex] at hc⟩
    have hcont : v.content = some (List.replicate n 1) := by
      rw [hv.content_eq]; simp [hvdef]
    have hpts : v.points = n := by simp [hvdef, points, isComplex, NumberSpace.isComplex, len]
    have hat : (List.replicate n (1 : T))[i]? = some 1 := by rw [List.getElem?_replicate, if_pos hi]
    obtain ⟨v1, hA1, hW1⟩ := h (notchWindow i) rfl (notchWindow_symmetric i n hi) v hv hpts
    obtain ⟨v2, hA2, hW2⟩ := C16_exact st hcl (notchWindow i) v hv rfl (by rw [hpts]; exact h2)
    obtain rfl := hA1.same hA2
    obtain ⟨r1, hr1, hr1'⟩ := windowed_at rfl hW1 hcont hat
    obtain ⟨r2, hr2, hr2'⟩ := windowed_at rfl hW2 hcont hat
    rw [hr1] at hr2
    obtain rfl := Option.some.inj hr2
    rw [hr1', hpts, hN] at hr2'
    have := Option.some.inj hr2'
    rcases hbad with hb | ⟨j, hb, hj1, hj2⟩
    · rw [hb] at this
      simp [notchWindow] at this
    · rw [hb] at this
      simp [notchWindow, hj1, hj2] at this
  · intro h w hs hw v hv hp
    subst hp
    refine C16_symmetric_partial st w v hv hs hw h2 ?_
    rcases h with h | h
    · exact .inl h
    · by_cases h1 : determineNumberOfChunks v.points .medium st = 1
      · exact .inl h1
      · exact .inr ⟨by omega, h⟩

/-- Eleven points and two workers: a vector for which `C16_iff` shows a failure; and the indices which are used. -/
example : 2 ≤ 11 ∧ determineNumberOfChunks 11 .medium twoWorkers = 2 ∧ 11 % (2 * 2) ≠ 0 ∧
    (List.range 11).map (symmetricIndex 2 11) = [some 0, some 1, some 2, some 3, some 4, some 5, some 5, some 4, some 3, some 1, some 0] := by
  decide

example : (List.range 9).map (symmetricIndex 4 9) = [some 0, some 1, none, none, none, none, none, none, some 0] := by decide

end Dsp
