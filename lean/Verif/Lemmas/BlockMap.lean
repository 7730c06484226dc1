import Verif.Props.Chunk
import Verif.Lemmas.Slice
import Verif.Model.Stats
import Verif.Spec.Schedule
/-
Element wise loops as `mapIdx`.
-/
namespace Dsp
variable {T : Type}

theorem elementWise_one {f : T → Nat → T} {a r : List T}
    (h : ElementWise 1 (fun i b => b.map (f · i)) a r) : r = a.mapIdx (fun i x => f x i) := by
  obtain ⟨h1, h2⟩ := h
  apply List.ext_getElem? 
  intro i
  by_cases hi : i < a.length
  · have := congrArg (·[0]?) (h2 i (by omega))
    simp only [blk_getElem?, Nat.mul_one, Nat.add_zero, List.getElem?_map] at this
    simpa [blk_getElem?, hi] using this
  · rw [List.getElem?_eq_none (by omega), List.getElem?_eq_none (by simp; omega)]

theorem blk_fromComplex {cs : List (Cx T)} {k : Nat} {c : Cx T} (h : cs[k]? = some c) :
    blk 2 (fromComplex cs) k = [c.re, c.im] := by
  apply List.ext_getElem?
  intro i
  rw [blk_getElem?]
  match i with
  | 0 =>
    have := getElem?_fromComplex_even cs k
    rw [Nat.mul_comm] at this
    simp [this, h]
  | 1 =>
    have := getElem?_fromComplex_odd cs k
    rw [Nat.mul_comm] at this
    simp [this, h]
  | i + 2 => simp

theorem elementWise_pairs {f : Cx T → Nat → Cx T} {cs : List (Cx T)} {r : List T}
    (h : ElementWise 2 (fun i b => DspVec.mapPair (f · (i / 2)) b) (fromComplex cs) r) :
    r = fromComplex (cs.mapIdx (fun i x => f x i)) := by
  obtain ⟨h1, h2⟩ := h
  rw [length_fromComplex] at h1 h2
  have hb : ∀ (k : Nat) (hk : k < cs.length), blk 2 r k = [(f cs[k] k).re, (f cs[k] k).im] := by
    intro k hk
    rw [h2 k (by omega), blk_fromComplex (List.getElem?_eq_getElem hk)]
    simp only [Nat.mul_div_cancel k (show 0 < 2 by omega)]
    rfl
  have hcell : ∀ k j, j < 2 → r[k * 2 + j]? = (blk 2 r k)[j]? := by
    intro k j hj; rw [blk_getElem?, if_pos hj]
  apply List.ext_getElem?
  intro i
  by_cases hi : i < 2 * cs.length
  · have hk : i / 2 < cs.length := by omega
    have hm : (cs.mapIdx (fun i x => f x i))[i / 2]? = some (f cs[i / 2] (i / 2)) := by
      simp [List.getElem?_eq_getElem hk]
    rcases Nat.mod_two_eq_zero_or_one i with he | he
    · have e : i = (i / 2) * 2 + 0 := by omega
      have e2 : i = 2 * (i / 2) := by omega
      rw [e, hcell _ 0 (by omega), hb _ hk]
      conv_rhs => rw [← e, e2, getElem?_fromComplex_even, hm]
      rfl
    · have e : i = (i / 2) * 2 + 1 := by omega
      have e2 : i = 2 * (i / 2) + 1 := by omega
      rw [e, hcell _ 1 (by omega), hb _ hk]
      conv_rhs => rw [← e, e2, getElem?_fromComplex_odd, hm]
      rfl
  · rw [List.getElem?_eq_none (by omega), List.getElem?_eq_none (by simp; omega)]

/-- Every loop `for x in array { *x = f(*x, i); i += 1 }` on chunks. -/
theorem executeWithRange_mapIdx (a : List T) (ha : a ≠ []) (f : T → Nat → T) (c : Complexity)
    (st : MultiCoreSettings) :
    Always (executeWithRange c st a 1 (blockLoop 1 1 (fun i b => b.map (f · i))))
      (a.mapIdx (fun i x => f x i)) := by
  obtain ⟨r, h1, h2⟩ := C13_schedule_independent a ha 1 1 (by omega) (by omega)
    ⟨1, rfl⟩ (fun i b => b.map (f · i)) (fun i b _ => by simp)
  rw [← elementWise_one h1]
  exact h2 c st

theorem mapPair_length (f : Cx T → Cx T) (b : List T) (_h : b.length ≤ 2) :
    (DspVec.mapPair f b).length = b.length := by
  unfold DspVec.mapPair; split <;> rfl

theorem executeWithRange_mapIdx_complex (cs : List (Cx T)) (ha : cs ≠ []) (f : Cx T → Nat → Cx T)
    (c : Complexity) (st : MultiCoreSettings) :
    Always (executeWithRange c st (fromComplex cs) 2
        (blockLoop 2 2 (fun i b => DspVec.mapPair (f · (i / 2)) b)))
      (fromComplex (cs.mapIdx (fun i x => f x i))) := by
  have hne : fromComplex cs ≠ [] := by
    intro h; apply ha; have := congrArg List.length h; simp at this; exact this
  obtain ⟨r, h1, h2⟩ := C13_schedule_independent (fromComplex cs) hne 2 2 (by omega) (by omega)
    ⟨1, rfl⟩ (fun i b => DspVec.mapPair (f · (i / 2)) b) (fun i b hb => mapPair_length _ b hb)
  rw [← elementWise_pairs h1]
  exact h2 c st

/-- Operations of small complexity are executed by the calling thread, also on empty data. -/
theorem executeWithRange_small (a : List T) (st : MultiCoreSettings) (step : Nat)
    (body : Nat → Nat → List (List T → List T)) (sched : List Nat) :
    executeWithRange .small st a step body sched =
      .finished ((body 0 a.length).foldl (fun m f => f m) a) := by
  have : determineNumberOfChunks a.length .small st = 1 := by
    unfold determineNumberOfChunks; split
    · assumption
    · rfl
  unfold executeWithRange
  simp only [this]
  rw [if_neg (by omega)]

theorem executeWithRange_nil (st : MultiCoreSettings) (step s p : Nat)
    (g : Nat → List T → List T) (hs : 0 < s) (sched : List Nat) :
    executeWithRange .small st [] step (blockLoop s p g) sched = .finished [] := by
  rw [executeWithRange_small]
  have : ceilDiv 0 s = 0 := by unfold ceilDiv; exact Nat.div_eq_of_lt (by omega)
  simp [blockLoop, this]

end Dsp
