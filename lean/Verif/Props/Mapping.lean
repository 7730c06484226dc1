import Verif.Lemmas.BlockMap
import Verif.Spec.Stats
import Verif.Props.Elementary
import Verif.Props.Sums
/-
C27: map_aggregate and map_inplace.
-/
namespace Dsp
open DspVec
variable {T R : Type}

theorem aggregateChunk_eq {E : Type} (map : E → Nat → R) (agg : R → R → R) : ∀ (l : List E) (j : Nat),
    aggregateResults agg [aggregateChunk map agg j l] =
      leftFold agg (l.mapIdx (fun i x => map x (j + i)))
  | [], j => rfl
  | x :: xs, j => by
    have h : ∀ (l : List (E × Nat)) (s : R), l.foldl (aggregateStep map agg) (some s) =
        some (l.foldl (fun s x => agg s (map x.1 x.2)) s) := by
      intro l
      induction l with
      | nil => intro s; rfl
      | cons y l ih => intro s; rw [List.foldl_cons, List.foldl_cons]; exact ih _
    have h2 : ∀ (xs : List E) (j : Nat) (s : R), (xs.zipIdx j).foldl (fun s x => agg s (map x.1 x.2)) s =
        (xs.mapIdx (fun i x => map x (j + i))).foldl agg s := by
      intro xs
      induction xs with
      | nil => intro j s; rfl
      | cons y l ih =>
        intro j s
        rw [List.zipIdx_cons, List.foldl_cons, List.mapIdx_cons, List.foldl_cons, ih]
        simp only [Nat.add_zero]
        congr 2
        funext i x; congr 1; omega
    unfold aggregateChunk
    rw [List.zipIdx_cons, List.foldl_cons]
    rw [show aggregateStep map agg none (x, j) = some (map x j) from rfl, h, h2, List.mapIdx_cons]
    unfold aggregateResults leftFold
    simp only [List.reverse_cons, List.reverse_nil, List.nil_append, List.filterMap_cons, id,
      List.filterMap_nil, Nat.add_zero, List.foldl_nil, Nat.add_assoc, Nat.add_comm 1]

/-- C27: `map_aggregate` of a real vector whose storage is completely filled. -/
theorem C27_map_aggregate_partial (st : MultiCoreSettings) (map : T → Nat → R) (agg : R → R → R)
    (v : DspVec T) (hr : v.isComplex = false) (a : List T) (ha : v.content = some a)
    (hfull : v.allocLen = v.len) (order : List Nat) :
    v.mapAggregate st map agg order = some (leftFold agg (a.mapIdx (fun i x => map x i))) := by
  have hc : v.data.cells = a := by
    unfold content slice at ha
    split at ha
    · have h2 : v.data.cells.length = v.validLen := hfull
      simp only [List.drop_zero, Nat.sub_zero, Option.some.injEq] at ha
      rw [← h2, List.take_length] at ha; exact ha
    · exact absurd ha (by simp)
  unfold mapAggregate
  rw [hr]
  simp only [Bool.false_eq_true, if_false]
  unfold allocLen
  rw [hc]
  by_cases h0 : a.length = 0
  · rw [if_pos h0]; rw [List.eq_nil_of_length_eq_zero h0]; rfl
  · rw [if_neg h0]
    unfold chunkedResults
    simp only [Bool.false_and, Bool.false_eq_true, if_false, small_chunks, Option.bind_eq_bind]
    rw [if_neg (by omega), Option.bind_some, aggregateChunk_eq]
    simp only [Nat.zero_add]

/-- C27: `map_aggregate` of a complex vector whose storage is completely filled. -/
theorem C27_map_aggregate_complex_partial (st : MultiCoreSettings) (map : Cx T → Nat → R)
    (agg : R → R → R) (v : DspVec T) (hr : v.isComplex = true) (cs : List (Cx T))
    (ha : v.content = some (fromComplex cs)) (hfull : v.allocLen = v.len) (order : List Nat) :
    v.mapAggregateComplex st map agg order = some (leftFold agg (cs.mapIdx (fun i x => map x i))) := by
  have hc : v.data.cells = fromComplex cs := by
    unfold content slice at ha
    split at ha
    · have h2 : v.data.cells.length = v.validLen := hfull
      simp only [List.drop_zero, Nat.sub_zero, Option.some.injEq] at ha
      rw [← h2, List.take_length] at ha; exact ha
    · exact absurd ha (by simp)
  unfold mapAggregateComplex
  rw [hr]
  simp only [Bool.true_eq_false, if_false]
  unfold allocLen
  rw [hc, length_fromComplex]
  by_cases h0 : cs.length = 0
  · rw [if_pos (by omega)]; rw [List.eq_nil_of_length_eq_zero h0]; rfl
  · rw [if_neg (by omega)]
    unfold chunkedResults
    simp only [Bool.false_and, Bool.false_eq_true, if_false, small_chunks, Option.bind_eq_bind]
    rw [if_neg (by omega)]
    simp only [Option.bind_some, toComplex?_fromComplex, Option.map_some, List.mapM_cons, id,
      List.mapM_nil, Option.pure_def, Option.bind_eq_bind]
    rw [aggregateChunk_eq]
    simp

/-- C27: on the wrong number space an error is returned. -/
theorem C27_map_aggregate_number_space (st : MultiCoreSettings) (map : T → Nat → R)
    (mapc : Cx T → Nat → R) (agg : R → R → R) (v : DspVec T) (order : List Nat) :
    (v.isComplex = true → v.mapAggregate st map agg order = some (.error .inputMustBeReal)) ∧
    (v.isComplex = false →
      v.mapAggregateComplex st mapc agg order = some (.error .inputMustBeComplex)) := by
  unfold mapAggregate mapAggregateComplex
  constructor <;> intro h <;> simp [h]

/-- C27 is violated: cells beyond the length take part in the result. -/
theorem C27_stale_cells_violated :
    let v : DspVec Int := ⟨⟨.vec, [1, 2, 100]⟩, some 1, .time, .real, 2⟩
    v.content = some [1, 2] ∧
    v.mapAggregate (.withThresholds 1 0 0 0 0) (fun x _ => x) (· + ·) [] = some (.ok 103) := by
  decide

/-- C27: `map_inplace` replaces every valid element, for all settings and schedules and whatever
    follows in the storage (which is mapped as well). -/
theorem C27_map_inplace_partial (st : MultiCoreSettings) (f : T → Nat → T) (v : DspVec T) (hv : v.WF)
    (hr : v.isComplex = false) (a : List T) (ha : v.content = some a) :
    ∃ w, Always (v.mapInplace st f) w ∧ w.content = some (a.mapIdx (fun i x => f x i)) ∧
      w.len = v.len ∧ w.SameMeta v ∧ w.data.cells = v.data.cells.mapIdx (fun i x => f x i) := by
  have hloop : Always (executeWithRange .small st v.data.cells 1
      (blockLoop 1 1 (fun i b => b.map (f · i)))) (v.data.cells.mapIdx (fun i x => f x i)) := by
    by_cases hne : v.data.cells = []
    · rw [hne]
      exact (Always.const _).congr fun s => executeWithRange_nil _ _ _ _ _ (by omega) s
    · exact executeWithRange_mapIdx _ hne f .small st
  refine ⟨v.withCells (v.data.cells.mapIdx (fun i x => f x i)), ?_, ?_, rfl, ⟨rfl, rfl, rfl, rfl⟩, rfl⟩
  · refine hloop.map ?_ ?_ <;> intro s hs <;> unfold mapInplace <;> rw [hr] <;>
      simp only [Bool.false_eq_true, if_false, hs]
  · obtain ⟨c, s, h1, h2⟩ := WF.real hv
    have : v.content = some c := by
      unfold content; rw [h1, ← h2]; exact slice_append_left c s
    rw [this] at ha
    have hca : c = a := by simpa using ha
    subst hca
    unfold content withCells
    simp only
    rw [h1, ← h2, List.mapIdx_append]
    have := slice_append_left (c.mapIdx (fun i x => f x i)) (s.mapIdx fun i x => f x (i + c.length))
    rw [List.length_mapIdx] at this
    exact this

/-- C27: `map_inplace` on a complex vector with an even storage. -/
theorem C27_map_inplace_complex_partial (st : MultiCoreSettings) (f : Cx T → Nat → Cx T) (v : DspVec T)
    (hv : v.WF) (hr : v.isComplex = true) (heven : v.allocLen % 2 = 0) (cs : List (Cx T))
    (ha : v.content = some (fromComplex cs)) :
    ∃ w, Always (v.mapInplaceComplex st f) w ∧
      w.content = some (fromComplex (cs.mapIdx (fun i x => f x i))) ∧ w.len = v.len ∧ w.SameMeta v := by
  obtain ⟨cs', s, h1, h2⟩ := WF.complex hv hr
  have : v.content = some (fromComplex cs') := by
    unfold content; rw [h1, ← h2, ← length_fromComplex]; exact slice_append_left _ s
  rw [this] at ha
  have hca : cs' = cs := fromComplex_injective (by simpa using ha)
  subst hca
  have hs2 : s.length % 2 = 0 := by
    have e : v.data.cells.length % 2 = 0 := heven
    rw [h1, List.length_append, length_fromComplex] at e; omega
  obtain ⟨ds, rfl⟩ := exists_fromComplex hs2
  rw [← fromComplex_append] at h1
  have hloop : Always (executeWithRange .small st v.data.cells 2
      (blockLoop 2 2 (fun i b => mapPair (f · (i / 2)) b)))
      (fromComplex ((cs' ++ ds).mapIdx (fun i x => f x i))) := by
    rw [h1]
    by_cases hne : cs' ++ ds = []
    · rw [hne]
      exact (Always.const _).congr fun s => executeWithRange_nil _ _ _ _ _ (by omega) s
    · exact executeWithRange_mapIdx_complex _ hne f .small st
  refine ⟨v.withCells (fromComplex ((cs' ++ ds).mapIdx (fun i x => f x i))), ?_, ?_, rfl,
    ⟨rfl, rfl, rfl, rfl⟩⟩
  · have he : ¬ v.allocLen % 2 ≠ 0 := by omega
    refine hloop.map ?_ ?_ <;> intro s hs <;> unfold mapInplaceComplex <;> rw [hr] <;>
      simp only [Bool.true_eq_false, if_false, if_neg he, hs]
  · unfold content withCells
    simp only
    rw [← h2, List.mapIdx_append, fromComplex_append]
    have := slice_append_left (fromComplex (cs'.mapIdx (fun i x => f x i)))
      (fromComplex (ds.mapIdx fun i x => f x (i + cs'.length)))
    rw [length_fromComplex, List.length_mapIdx] at this
    exact this

/-- C27 is violated: `map_inplace` also changes the cells beyond the length (visible after a `resize`)
    and panics on a complex vector with an odd storage. -/
theorem C27_map_inplace_violated :
    let st := MultiCoreSettings.withThresholds 1 0 0 0 0
    let v : DspVec Int := ⟨⟨.vec, [1, 2, 100]⟩, some 1, .time, .real, 2⟩
    let w : DspVec Int := ⟨⟨.vec, [1, 2, 100]⟩, some 1, .time, .complex, 2⟩
    (v.mapInplace st (fun x _ => x + 1) []) =
      .finished ⟨⟨.vec, [2, 3, 101]⟩, some 1, .time, .real, 2⟩ ∧
    w.WF ∧ ∀ sched, w.mapInplaceComplex st (fun x _ => x) sched = .panic :=
  ⟨rfl, by decide, fun _ => rfl⟩

/-- Vectors which meet the hypotheses, and a non-trivial result. -/
example :
    let v : DspVec Int := ⟨⟨.vec, [5, 7, 9]⟩, some 1, .time, .real, 3⟩
    v.WF ∧ v.content = some [5, 7, 9] ∧ v.allocLen = v.len ∧
    v.mapAggregate (.withThresholds 1 0 0 0 0) (fun x i => x * (i : Int)) (· - ·) [] = some (.ok (-25)) := by
  decide

example : exampleVec.WF ∧ exampleVec.isComplex = true ∧ exampleVec.allocLen % 2 = 0 ∧
    exampleVec.content = some (fromComplex [⟨1, 2⟩, ⟨3, 4⟩, ⟨5, 6⟩]) := by decide

end Dsp
