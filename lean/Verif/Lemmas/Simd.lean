import Verif.Model.Simd
import Verif.Lemmas.Chunk
import Verif.Lemmas.Pad
namespace Dsp
variable {T : Type}

/-- The indices as signed positions. -/
def ipos (s n : Nat) : List Int := (List.range' s n).map Int.ofNat

theorem ipos_succ (s n : Nat) : ipos s (n + 1) = (s : Int) :: ipos (s + 1) n := by
  simp [ipos, List.range'_succ]

theorem edgePositions_right (left right len : Nat) (hr : right ≤ len) (hl : left ≤ len - right) :
    ∀ (n fuel : Nat) (pos : Nat), pos + n = len → len - right ≤ pos → n < fuel →
      edgePositions left right len fuel pos = ipos pos n
  | 0, fuel + 1, pos, h1, h2, h3 => by
    have e : edgeNext left right len (pos : Int) = none := by
      unfold edgeNext
      simp only
      have h0 : ¬ ((pos : Int) > (left : Int) - 1 ∧ (pos : Int) < (len : Int) - right) := by omega
      rw [if_neg h0, if_pos (by omega)]
    rw [edgePositions, e]; simp [ipos]
  | n + 1, fuel + 1, pos, h1, h2, h3 => by
    have e : edgeNext left right len (pos : Int) = some ((pos : Int), (pos : Int) + 1) := by
      unfold edgeNext
      simp only
      rw [if_neg (by omega), if_neg (by omega)]
    rw [edgePositions, e, ipos_succ]
    simp only
    have := edgePositions_right left right len hr hl n fuel (pos + 1) (by omega) (by omega) (by omega)
    rw [Int.natCast_add] at this
    rw [show ((1 : Nat) : Int) = 1 from rfl] at this
    rw [this]

theorem edgePositions_jump (left right len : Nat) (hr : right ≤ len) (hl : left ≤ len - right)
    (fuel : Nat) (h3 : right < fuel) :
    edgePositions left right len fuel left = ipos (len - right) right := by
  by_cases h : left = len - right
  · have := edgePositions_right left right len hr hl right fuel left (by omega) (by omega) h3
    rw [this, h]
  · cases fuel with
    | zero => omega
    | succ fuel =>
      have e1 : edgeNext left right len (left : Int) = edgeNext left right len ((len - right : Nat) : Int) := by
        unfold edgeNext
        simp only
        have h0 : (left : Int) > (left : Int) - 1 ∧ (left : Int) < (len : Int) - right := by omega
        have h1 : ¬ (((len - right : Nat) : Int) > (left : Int) - 1 ∧
          ((len - right : Nat) : Int) < (len : Int) - right) := by omega
        rw [if_pos h0, if_neg h1]
        rw [show ((len : Int) - (right : Int)) = ((len - right : Nat) : Int) by omega]
      have := edgePositions_right left right len hr hl right (fuel + 1) (len - right) (by omega)
        (by omega) h3
      rw [edgePositions] at this ⊢
      rw [e1]; exact this

theorem edgePositions_left (left right len : Nat) (hr : right ≤ len) (hl : left ≤ len - right) :
    ∀ (n fuel : Nat) (pos : Nat), pos + n = left → n + right < fuel →
      edgePositions left right len fuel pos = ipos pos n ++ ipos (len - right) right
  | 0, fuel, pos, h1, h3 => by
    have : pos = left := by omega
    subst this
    rw [edgePositions_jump pos right len hr hl fuel (by omega)]; simp [ipos]
  | n + 1, 0, pos, h1, h3 => by omega
  | n + 1, fuel + 1, pos, h1, h3 => by
    have e : edgeNext left right len (pos : Int) = some ((pos : Int), (pos : Int) + 1) := by
      unfold edgeNext
      simp only
      rw [if_neg (by omega), if_neg (by omega)]
    have := edgePositions_left left right len hr hl n fuel (pos + 1) (by omega) (by omega)
    rw [edgePositions, e, ipos_succ]
    simp only [List.cons_append, List.cons.injEq, true_and]
    exact this

/-- The edge iterator visits exactly the left and the right part, in order. -/
theorem edgePositions_eq (left right len : Nat) (h : left + right ≤ len) :
    edgePositions left right len (len + 1) 0 = ipos 0 left ++ ipos (len - right) right :=
  edgePositions_left left right len (by omega) (by omega) left (len + 1) 0 (by omega) (by omega)

theorem zipFold {α β : Type} (f : α → β → α) : ∀ (pre mid post : List α) (bs : List β),
    bs.length = mid.length →
    ((ipos pre.length mid.length).zip bs).foldlM (init := pre ++ (mid ++ post)) (fun a pb =>
      if pb.1 < 0 then none else do
        let x ← get a pb.1.toNat
        put a pb.1.toNat (f x pb.2)) = some (pre ++ (List.zipWith f mid bs ++ post))
  | pre, [], post, bs, h => by simp [ipos]
  | pre, x :: mid, post, [], h => by simp at h
  | pre, x :: mid, post, b :: bs, h => by
    have hg : get (pre ++ (x :: mid ++ post)) pre.length = some x := by
      unfold get; simp
    have hp : put (pre ++ (x :: mid ++ post)) pre.length (f x b) =
        some (pre ++ (f x b :: mid ++ post)) := by
      unfold put; simp
    have ih := zipFold f (pre ++ [f x b]) mid post bs (by simpa using h)
    rw [List.length_cons, ipos_succ, List.zip_cons_cons, List.foldlM_cons]
    simp only [Int.natCast_nonneg, not_lt.mpr, if_false, Int.toNat_natCast, hg, hp,
      Option.bind_eq_bind, Option.bind_some]
    simp only [List.length_append, List.length_singleton, List.append_assoc, List.singleton_append]
      at ih
    simpa using ih

theorem zipEdges_eq {α β : Type} (f : α → β → α) (l c r : List α) (bl br : List β)
    (hl : bl.length = l.length) (hr : br.length = r.length) :
    zipEdges l.length r.length f (l ++ c ++ r) (bl ++ br) =
      some (List.zipWith f l bl ++ c ++ List.zipWith f r br) := by
  unfold zipEdges
  rw [edgePositions_eq _ _ _ (by simp), List.zip_append (by simp [ipos, hl]),
    List.foldlM_append]
  have h1 := zipFold f [] l (c ++ r) bl hl
  simp only [List.nil_append, List.length_nil] at h1
  rw [List.append_assoc, h1]
  have h2 := zipFold f (List.zipWith f l bl ++ c) r [] br hr
  have e : (l ++ (c ++ r)).length - r.length = (List.zipWith f l bl ++ c).length := by
    simp [hl]; omega
  rw [e]
  simp only [List.append_nil, List.append_assoc] at h2
  simp only [Option.bind_eq_bind, Option.bind_some, List.append_assoc] at h2 ⊢
  exact h2

theorem mapEdges_eq_zip (f : T → T) (left right : Nat) (a : List T) (bs : List Unit)
    (h : (edgePositions left right a.length (a.length + 1) 0).length = bs.length) :
    mapEdges left right f a = zipEdges left right (fun x _ => f x) a bs := by
  unfold mapEdges zipEdges
  generalize edgePositions left right a.length (a.length + 1) 0 = ps at h
  induction ps generalizing a bs with
  | nil => simp
  | cons p ps ih =>
    cases bs with
    | nil => simp at h
    | cons b bs =>
      rw [List.zip_cons_cons, List.foldlM_cons, List.foldlM_cons]
      simp only
      congr 1
      funext a'
      exact ih a' bs (by simpa using h)

theorem mapEdges_eq (f : T → T) (l c r : List T) :
    mapEdges l.length r.length f (l ++ c ++ r) = some (l.map f ++ c ++ r.map f) := by
  have hz : ∀ (l : List T), List.zipWith (fun x (_ : Unit) => f x) l (List.replicate l.length ()) =
      l.map f := by
    intro l; induction l with
    | nil => rfl
    | cons x l ih => simp [List.replicate_succ, ih]
  rw [mapEdges_eq_zip f _ _ _ (List.replicate l.length () ++ List.replicate r.length ()),
    zipEdges_eq _ _ _ _ _ _ (by simp) (by simp), hz, hz]
  rw [edgePositions_eq _ _ _ (by simp)]; simp [ipos]

/-! ### The partition -/

theorem calc_wf (addr w len : Nat) (hw : 0 < w) :
    (calcDataAlignmentReqs addr w len).len = len ∧
    (calcDataAlignmentReqs addr w len).left + (calcDataAlignmentReqs addr w len).right ≤ len ∧
    (len - (calcDataAlignmentReqs addr w len).left - (calcDataAlignmentReqs addr w len).right) % w = 0 := by
  unfold calcDataAlignmentReqs
  simp only
  have hm := Nat.mod_lt addr hw
  split
  · simp
  · have h2 := Nat.mod_lt (len - addr % w) hw
    have h3 := Nat.div_add_mod (len - addr % w) w
    refine ⟨rfl, by simp only; omega, ?_⟩
    simp only
    have : len - addr % w - (len - addr % w) % w = w * ((len - addr % w) / w) := by omega
    rw [this]; exact Nat.mul_mod_right _ _

/-- The three parts of the data. -/
theorem split_parts (addr w : Nat) (hw : 0 < w) (a : List T) :
    ∃ l c r, a = l ++ c ++ r ∧ l.length = (calcDataAlignmentReqs addr w a.length).left ∧
      r.length = (calcDataAlignmentReqs addr w a.length).right ∧ c.length % w = 0 ∧
      ((calcDataAlignmentReqs addr w a.length).left = a.length → c = []) ∧
      (c = [] → (calcDataAlignmentReqs addr w a.length).left = a.length ∧
        a.length < addr % w + w) ∧
      (c ≠ [] → (calcDataAlignmentReqs addr w a.length).left = addr % w) := by
  obtain ⟨h1, h2, h3⟩ := calc_wf addr w a.length hw
  generalize hp : calcDataAlignmentReqs addr w a.length = p at h1 h2 h3
  refine ⟨a.take p.left, (a.drop p.left).take (a.length - p.left - p.right),
    a.drop (a.length - p.right), ?_, by simp; omega, by simp; omega, ?_, ?_, ?_, ?_⟩
  · have e : a.length - p.right = p.left + (a.length - p.left - p.right) := by omega
    rw [e, ← List.drop_drop, List.append_assoc, List.take_append_drop, List.take_append_drop]
  · simp only [List.length_take, List.length_drop]
    rw [Nat.min_eq_left (by omega)]; exact h3
  · intro h; rw [h]; simp
  · intro h
    have hl : ((a.drop p.left).take (a.length - p.left - p.right)).length = 0 := by rw [h]; rfl
    simp only [List.length_take, List.length_drop] at hl
    unfold calcDataAlignmentReqs at hp
    simp only at hp
    split at hp
    · subst hp; refine ⟨rfl, by omega⟩
    · exfalso
      have := Nat.mod_lt (a.length - addr % w) hw
      have h4 := Nat.div_add_mod (a.length - addr % w) w
      subst hp; simp only at hl h2; 
      have h5 : 0 < (a.length - addr % w) / w := Nat.div_pos (by omega) hw
      have h6 : w * 1 ≤ w * ((a.length - addr % w) / w) := Nat.mul_le_mul_left _ h5
      omega
  · intro h
    unfold calcDataAlignmentReqs at hp
    simp only at hp
    split at hp
    · subst hp; simp at h
    · subst hp; rfl

end Dsp
