import Verif.Props.Mapping
import Verif.Props.ComplexOps

/-! C27, C31: what `map_aggregate`, `map_inplace` and `multiply_complex_exponential` compute for every vector, and exactly
    when this is the property. -/

namespace Dsp
open DspVec
variable {T R : Type}

theorem content_of_all (v : DspVec T) : ({ v with validLen := v.allocLen } : DspVec T).content = some v.data.cells := by
  unfold content slice allocLen
  simp

/-- C27: `map_aggregate` of every real vector: the whole storage takes part, unused cells too. -/
theorem C27_map_aggregate_exact (st : MultiCoreSettings) (map : T → Nat → R) (agg : R → R → R)
    (v : DspVec T) (hr : v.isComplex = false) (order : List Nat) :
    v.mapAggregate st map agg order = some (leftFold agg (v.data.cells.mapIdx (fun i x => map x i))) :=
  C27_map_aggregate_partial st map agg { v with validLen := v.allocLen } hr _ (content_of_all v) rfl order

/-- C27: `map_aggregate` of every complex vector: the whole storage takes part; a storage with an odd number of cells
    is a panic. -/
theorem C27_map_aggregate_complex_exact (st : MultiCoreSettings) (map : Cx T → Nat → R) (agg : R → R → R)
    (v : DspVec T) (hr : v.isComplex = true) (order : List Nat) :
    (∀ cs, v.data.cells = fromComplex cs →
      v.mapAggregateComplex st map agg order = some (leftFold agg (cs.mapIdx (fun i x => map x i)))) ∧
    (v.allocLen % 2 = 1 → v.mapAggregateComplex st map agg order = none) := by
  constructor
  · intro cs hcs
    exact C27_map_aggregate_complex_partial st map agg { v with validLen := v.allocLen } hr cs
      (by rw [content_of_all, hcs]) rfl order
  · intro hodd
    have hodd' : v.data.cells.length % 2 = 1 := hodd
    have hnone : toComplex? v.data.cells = none := by
      exact toComplex?_eq_none hodd'
    unfold mapAggregateComplex
    rw [hr]
    simp only [Bool.true_eq_false, if_false]
    unfold allocLen
    rw [if_neg (by omega)]
    unfold chunkedResults
    simp only [Bool.false_and, Bool.false_eq_true, if_false, small_chunks, Option.bind_eq_bind]
    by_cases h0 : v.data.cells.length < 2
    · simp [hnone]
    · simp [hnone]

/-- C27: the result of `map_aggregate` is independent of unused cells for all functions **if and only if** there are no
    unused cells. -/
theorem C27_map_aggregate_iff (v : DspVec T) (hv : v.WF) (hr : v.isComplex = false) :
    (∀ (R : Type) (st : MultiCoreSettings) (map : T → Nat → R) (agg : R → R → R) (order : List Nat) (a : List T),
      v.content = some a → v.mapAggregate st map agg order = some (leftFold agg (a.mapIdx fun i x => map x i))) ↔
      v.allocLen = v.len := by
  constructor
  · intro h
    have hle : v.validLen ≤ v.data.cells.length := hv.1
    have hcont : v.content = some (v.data.cells.take v.validLen) := by
      unfold content slice; simp [hle]
    have h1 := h Nat ⟨1, 1, 1, 1, 1⟩ (fun _ _ => 1) (· + ·) [] _ hcont
    rw [C27_map_aggregate_exact _ _ _ _ hr, Option.some.injEq] at h1
    have hsum : ∀ (l : List Nat) (s : Nat), (∀ x ∈ l, x = 1) → l.foldl (· + ·) s = s + l.length := by
      intro l
      induction l with
      | nil => intro s _; rfl
      | cons x l ih =>
        intro s hx
        rw [List.foldl_cons, ih _ fun y hy => hx y (by simp [hy]), hx x (by simp), List.length_cons]; omega
    have hcount : ∀ l : List T, leftFold (· + ·) (l.mapIdx fun _ _ => 1) =
        if l.length = 0 then .error .inputMustNotBeEmpty else .ok l.length := by
      intro l
      cases l with
      | nil => rfl
      | cons x l =>
        simp only [List.mapIdx_cons, leftFold]
        rw [hsum _ _ (fun y hy => by
          obtain ⟨i, hi, rfl⟩ := List.getElem_of_mem hy; simp)]
        simp [Nat.add_comm]
    rw [hcount, hcount, List.length_take] at h1
    show v.data.cells.length = v.validLen
    by_cases ha : v.data.cells.length = 0
    · omega
    · rw [if_neg ha] at h1
      split at h1
      · cases h1
      · injection h1 with h1; omega
  · intro hfull R st map agg order a ha
    exact C27_map_aggregate_partial st map agg v hr a ha hfull order

/-- C27: `map_inplace` of a complex vector whose storage has an odd number of cells is a panic. -/
theorem C27_map_inplace_odd (st : MultiCoreSettings) (f : Cx T → Nat → Cx T) (v : DspVec T) (hr : v.isComplex = true)
    (hodd : v.allocLen % 2 = 1) (sched : List Nat) : v.mapInplaceComplex st f sched = .panic := by
  unfold mapInplaceComplex
  rw [if_neg (by simp [hr]), if_pos (by omega)]

/-- C31: exactly when `multiply_complex_exponential(a, b)` is what its documentation says for all complex vectors with the
    sampling distance `d`. -/
theorem C31_exponential_iff [CommRing T] (cis : T → Cx T) (h0 : cis 0 = 1)
    (hadd : ∀ x y, cis (x + y) = cis x * cis y) (b d : T) :
    (∀ (a : T) (v : DspVec T) (cs : List (Cx T)), v.WF → v.isComplex = true → v.content = some (fromComplex cs) →
      v.delta = some d → ∃ w, v.multiplyComplexExponential cis a b = some w ∧
        Replaced v w (fromComplex (cs.mapIdx fun i c => c * cis (a * i * d + b)))) ↔ cis (b * d) = cis b := by
  constructor
  · intro h
    let v : DspVec T := ⟨⟨.vec, [1, 0]⟩, some d, .time, .complex, 2⟩
    have hc : v.content = some (fromComplex [1]) := rfl
    have hv : v.WF := ⟨Nat.le_refl 2, fun _ => (rfl : 2 % 2 = 0)⟩
    obtain ⟨w, w1, w2⟩ := h 0 v [1] hv rfl hc rfl
    obtain ⟨u, u1, u2⟩ := C31_exponential_partial cis h0 hadd 0 b d v hv rfl [1] hc rfl
    rw [w1] at u1
    cases u1
    have := w2.1.symm.trans u2.1
    rw [Option.some.injEq] at this
    have := fromComplex_injective this
    simp at this
    exact this.symm
  · intro hb a v cs hv hc h hd
    obtain ⟨w, w1, w2⟩ := C31_exponential_partial cis h0 hadd a b d v hv hc cs h hd
    refine ⟨w, w1, ?_⟩
    have : (fun (i : Nat) (c : Cx T) => c * cis (a * i * d + b * d)) = fun (i : Nat) (c : Cx T) => c * cis (a * i * d + b) := by
      funext i c
      rw [hadd, hb, ← hadd]
    rw [this] at w2
    exact w2

/-- Both cases: a vector with and one without unused cells. -/
example :
    let v : DspVec Int := ⟨⟨.vec, [1, 2, 100]⟩, some 1, .time, .real, 2⟩
    let u : DspVec Int := ⟨⟨.vec, [1, 2]⟩, some 1, .time, .real, 2⟩
    v.WF ∧ u.WF ∧ v.allocLen ≠ v.len ∧ u.allocLen = u.len := by decide

/-- Specification: the result of one piece of the work: nothing for no numbers. -/
def pieceResult (agg : R → R → R) : List R → Option R
  | [] => none
  | x :: xs => some (xs.foldl agg x)

theorem foldl_agg (agg : R → R → R) (ha : ∀ a b c, agg (agg a b) c = agg a (agg b c)) (s x : R) (xs : List R) :
    agg s (xs.foldl agg x) = (x :: xs).foldl agg s := by
  induction xs generalizing s x with
  | nil => rfl
  | cons y ys ih => rw [List.foldl_cons, ih, List.foldl_cons, List.foldl_cons, List.foldl_cons, ha, ← List.foldl_cons]

theorem foldl_pieces (agg : R → R → R) (ha : ∀ a b c, agg (agg a b) c = agg a (agg b c)) (pieces : List (List R)) (s : R) :
    (pieces.filterMap (pieceResult agg)).foldl agg s = pieces.flatten.foldl agg s := by
  induction pieces generalizing s with
  | nil => rfl
  | cons p ps ih =>
    cases p with
    | nil => exact ih s
    | cons x xs =>
      rw [List.filterMap_cons_some (f := pieceResult agg) rfl, List.foldl_cons, List.flatten_cons, List.foldl_append, ih, foldl_agg agg ha]

/-- C27: the results of the pieces of the work are combined in the order of the pieces: for an associative function (which does not have
    to be commutative) the result is the one without pieces, and empty pieces do not matter. -/
theorem C27_pieces_in_order (agg : R → R → R) (ha : ∀ a b c, agg (agg a b) c = agg a (agg b c)) (pieces : List (List R)) :
    aggregateResults agg (pieces.map (pieceResult agg)) = leftFold agg pieces.flatten := by
  unfold aggregateResults
  rw [← List.filterMap_reverse, List.reverse_reverse, List.filterMap_map]
  show (match pieces.filterMap (id ∘ pieceResult agg) with | [] => _ | x :: xs => _) = _
  rw [Function.id_comp]
  induction pieces with
  | nil => rfl
  | cons p ps ih =>
    cases p with
    | nil => exact ih
    | cons x xs =>
      rw [List.filterMap_cons_some (f := pieceResult agg) rfl]
      show Except.ok _ = leftFold agg ((x :: xs) ++ ps.flatten)
      rw [foldl_pieces agg ha]
      show _ = Except.ok ((xs ++ ps.flatten).foldl agg x)
      rw [List.foldl_append]

/-- The hypothesis of `C27_pieces_in_order` is met by a function which is not commutative. -/
example : aggregateResults (· ++ ·) ([[[1], [2]], [], [[3]]].map (pieceResult (· ++ ·))) = .ok [1, 2, 3] :=
  C27_pieces_in_order _ List.append_assoc _

end Dsp
