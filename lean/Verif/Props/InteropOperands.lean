import Verif.Props.InteropHeap
/-
C70: which vectors the functions of the C interface write besides the first one.
-/
namespace Dsp
variable {T : Type}

/-- C70: the functions which write their further arguments are `split_into` and the getters (`get_real`, `get_mag_phase`, ..). -/
theorem C70_written (f : CFun T) : f.operands.mutable = true ↔ f = .splitInto ∨ ∃ g, f = .fill g := by
  cases f with
  | vec f => cases f <;> simp [CFun.operands, VecFun.operands, OperandSig.mutable]
  | fill f => cases f <;> simp [CFun.operands, FillFun.operands, OperandSig.mutable]
  | scalar f => cases f <;> simp [CFun.operands, ScalarFun.operands, OperandSig.mutable]
  | _ => simp [CFun.operands, OperandSig.mutable]

/-- C70: the functions whose further arguments must be different vectors are `split_into`, the getters and `merge`. -/
theorem C70_distinct (f : CFun T) : f.operands.exclusive = true ↔ f = .splitInto ∨ (∃ g, f = .fill g) ∨ f = .vec .merge := by
  cases f with
  | vec f => cases f <;> simp [CFun.operands, VecFun.operands, OperandSig.exclusive]
  | fill f => cases f <;> simp [CFun.operands, FillFun.operands, OperandSig.exclusive]
  | scalar f => cases f <;> simp [CFun.operands, ScalarFun.operands, OperandSig.exclusive]
  | _ => simp [CFun.operands, OperandSig.exclusive]

theorem writeAll_other (l : List (Nat × InteropVec T)) (s : Store T) (z : Nat) (h : z ∉ l.map Prod.fst) : s.writeAll l z = s z := by
  induction l generalizing s with
  | nil => rfl
  | cons p l ih =>
    simp only [List.map_cons, List.mem_cons, not_or] at h
    rw [Store.writeAll, ih _ h.2]
    simp [assign, h.1]

theorem writeAll_at (xs : List Nat) (l : List (InteropVec T)) (hd : xs.Nodup) (s : Store T) (i : Nat) (x : Nat) (v : InteropVec T)
    (hx : xs[i]? = some x) (hv : l[i]? = some v) : s.writeAll (xs.zip l) x = some v := by
  induction xs generalizing s i l with
  | nil => simp at hx
  | cons y xs ih =>
    cases l with
    | nil => simp at hv
    | cons u l =>
      rw [List.nodup_cons] at hd
      rw [List.zip_cons_cons, Store.writeAll]
      cases i with
      | zero =>
        simp only [List.getElem?_cons_zero, Option.some.injEq] at hx hv
        subst hx hv
        rw [writeAll_other]
        · simp [assign]
        · intro hm
          obtain ⟨p, hp, e⟩ := List.mem_map.1 hm
          exact hd.1 (e ▸ (List.of_mem_zip hp).1)
      | succ i => exact ih l hd.2 _ i hx hv

/-- C70: after a legal call of `split_into` or of a getter the target `i` holds the vector `i` which the call computed; all other
    variables except the first vector keep what they hold. The other functions change no further argument. -/
theorem C70_targets (f : CFun T) (s : Store T) (y x : Nat) (xs : List Nat) (r : Reply T) (hx : x ∉ xs) (hd : xs.Nodup) :
    ((f = .splitInto ∨ ∃ g, f = .fill g) →
      (∀ (i z : Nat) (v : InteropVec T), xs[i]? = some z → r.operands[i]? = some v → s.after f y x xs r z = some v) ∧
      ∀ z, z ∉ xs → z ≠ x → s.after f y x xs r z = s z) ∧
    (f ≠ .splitInto → (∀ g, f ≠ .fill g) → ∀ z, z ≠ x → z ≠ y → s.after f y x xs r z = s z) := by
  constructor
  · intro hf
    have hm := (C70_written f).2 hf
    have e : ∀ z, z ≠ x → s.after f y x xs r z = s.writeAll (xs.zip r.operands) z := by
      intro z hz
      rcases hf with rfl | ⟨g, rfl⟩ <;> unfold Store.after <;> rw [hm] <;> simp only [if_true, CFun.gives, CFun.takes]
      simp [assign, hz]
    constructor
    · intro i z v hz hv
      rw [e z fun h => hx (h ▸ List.mem_of_getElem? hz)]
      exact writeAll_at xs _ hd s i z v hz hv
    · intro z hz hzx
      rw [e z hzx]
      refine writeAll_other _ _ _ fun hm => ?_
      obtain ⟨p, hp, e⟩ := List.mem_map.1 hm
      exact hz (e ▸ (List.of_mem_zip hp).1)
  · intro h1 h2 z hzx hzy
    have hm : ¬ f.operands.mutable = true := fun h => by
      rcases (C70_written f).1 h with h | ⟨g, h⟩
      · exact h1 h
      · exact h2 g h
    unfold Store.after
    rw [if_neg hm]
    cases f.gives <;> cases f.takes <;> simp [assign, hzx, hzy]

/-- Non-vacuity: `split_into` of variable 0 into 1 and 2. -/
example (cal : Calibration) (s : Store ℚ) : let v := newVector cal 0 0 (7 : ℚ) 4 1 .standard
    let u := newVector cal 0 0 (8 : ℚ) 2 1 .standard
    s.after .splitInto 5 0 [1, 2] ⟨v, [u, v], ⟨some 9, []⟩⟩ 2 = some v ∧ s.after .splitInto 5 0 [1, 2] ⟨v, [u, v], ⟨some 9, []⟩⟩ 3 = s 3 := by
  intro v u
  have h := (C70_targets .splitInto s 5 0 [1, 2] ⟨v, [u, v], ⟨some 9, []⟩⟩ (by decide) (by decide)).1 (.inl rfl)
  exact ⟨h.1 1 2 v rfl rfl, h.2 3 (by decide) (by decide)⟩

end Dsp
