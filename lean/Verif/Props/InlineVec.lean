import Verif.Spec.InlineVec
import Mathlib.Tactic.Common
/-
C44: `InlineVector` behaves like a bounded list.
-/
namespace Dsp
open InlineVec
variable {α : Type} [Zero α]

/-- How many elements an `InlineVector` can hold. -/
def InlineVec.limit : InlineVec α → Option Nat
  | .inline _ => some 64
  | .dynamic _ _ => none

/-- The elements fit into the capacity. -/
def InlineVec.Ok (v : InlineVec α) : Prop := v.len ≤ v.capacity

/-- No call of `try_resize`. -/
def InlineOp.NoResize : InlineOp α → Prop
  | .tryResize _ => False
  | _ => True

omit [Zero α] in
theorem split_at_index {l : List α} {i : Nat} {x : α} (h : l[i]? = some x) :
    ∃ a b, l = a ++ x :: b ∧ a.length = i := by
  obtain ⟨hi, hx⟩ := List.getElem?_eq_some_iff.mp h
  refine ⟨l.take i, l.drop (i + 1), ?_, by simp; omega⟩
  subst hx
  rw [← List.drop_eq_getElem_cons hi, List.take_append_drop]

omit [Zero α] in
theorem push_spec (al : Alloc) (v : InlineVec α) (hv : v.Ok) (x : α) (v' : InlineVec α) (h : v.push al x = some v') :
    v'.elems = v.elems ++ [x] ∧ v'.limit = v.limit ∧ v'.Ok ∧ Fits v.limit (v.len + 1) := by
  cases v with
  | inline l =>
    simp only [push] at h
    split at h
    · cases h
      refine ⟨rfl, rfl, ?_, ?_⟩
      · simp [Ok, InlineVec.len, elems, capacity]; omega
      · intro k hk; cases hk; simp [InlineVec.len, elems]; omega
    · cases h
  | dynamic cap l =>
    simp only [push] at h
    cases h
    refine ⟨rfl, rfl, ?_, fun k hk => by cases hk⟩
    have := al.lt_grow l.length
    simp only [Ok, InlineVec.len, elems, capacity, List.length_append, List.length_singleton]
    split <;> omega

omit [Zero α] in
theorem push_total (al : Alloc) (v : InlineVec α) (x : α) (h : Fits v.limit (v.len + 1)) :
    ∃ v', v.push al x = some v' := by
  cases v with
  | inline l =>
    have := h 64 rfl
    simp [InlineVec.len, elems] at this
    exact ⟨_, by simp only [push]; rw [if_pos (by omega)]⟩
  | dynamic cap l => exact ⟨_, rfl⟩

omit [Zero α] in
theorem remove_spec (v : InlineVec α) (hv : v.Ok) (i : Nat) (v' : InlineVec α) (x : α) (h : v.remove i = some (v', x)) :
    ∃ a b, v.elems = a ++ x :: b ∧ a.length = i ∧ v'.elems = a ++ b ∧ v'.limit = v.limit ∧ v'.Ok := by
  have key : ∀ l : List α, l[i]? = some x → ∃ a b, l = a ++ x :: b ∧ a.length = i ∧ l.eraseIdx i = a ++ b := by
    intro l hl
    obtain ⟨a, b, e, ha⟩ := split_at_index hl
    refine ⟨a, b, e, ha, ?_⟩
    subst ha; subst e
    rw [List.eraseIdx_append_of_length_le (Nat.le_refl _)]; simp
  cases v with
  | inline l =>
    simp only [remove, Option.map_eq_some_iff, Prod.mk.injEq] at h
    obtain ⟨y, hy, rfl, rfl⟩ := h
    obtain ⟨a, b, e, ha, e2⟩ := key l hy
    refine ⟨a, b, e, ha, e2, rfl, ?_⟩
    simp only [Ok, InlineVec.len, elems, capacity] at hv ⊢
    rw [e2]; rw [e] at hv; simp at hv ⊢; omega
  | dynamic cap l =>
    simp only [remove, Option.map_eq_some_iff, Prod.mk.injEq] at h
    obtain ⟨y, hy, rfl, rfl⟩ := h
    obtain ⟨a, b, e, ha, e2⟩ := key l hy
    refine ⟨a, b, e, ha, e2, rfl, ?_⟩
    simp only [Ok, InlineVec.len, elems, capacity] at hv ⊢
    rw [e2]; rw [e] at hv; simp at hv ⊢; omega

omit [Zero α] in
theorem remove_total (v : InlineVec α) (a : List α) (x : α) (b : List α) (h : v.elems = a ++ x :: b) :
    ∃ v', v.remove a.length = some (v', x) := by
  cases v <;> (simp only [elems] at h; subst h; exact ⟨_, by simp only [remove]; simp; rfl⟩)

omit [Zero α] in
theorem insert_spec (al : Alloc) (v : InlineVec α) (hv : v.Ok) (i : Nat) (x : α) (v' : InlineVec α)
    (h : v.insert al i x = some v') :
    ∃ a b, v.elems = a ++ b ∧ a.length = i ∧ v'.elems = a ++ x :: b ∧ v'.limit = v.limit ∧ v'.Ok ∧
      Fits v.limit (v.len + 1) := by
  have key : ∀ l : List α, i ≤ l.length → ∃ a b, l = a ++ b ∧ a.length = i ∧ l.insertIdx i x = a ++ x :: b := by
    intro l hl
    refine ⟨l.take i, l.drop i, (List.take_append_drop i l).symm, by simp; omega, ?_⟩
    clear h hv
    induction i generalizing l with
    | zero => simp
    | succ i ih =>
      cases l with
      | nil => simp at hl
      | cons y l => simp only [List.insertIdx_succ_cons, List.take_succ_cons, List.drop_succ_cons, List.cons_append]
                    rw [ih l (by simpa using hl)]
  cases v with
  | inline l =>
    simp only [InlineVec.insert] at h
    split at h
    · cases h
    split at h
    · cases h
      obtain ⟨a, b, e, ha, e2⟩ := key l (by omega)
      refine ⟨a, b, e, ha, e2, rfl, ?_, ?_⟩
      · simp only [Ok, InlineVec.len, elems, capacity]
        rw [List.length_insertIdx]
        split <;> omega
      · intro k hk; cases hk; simp [InlineVec.len, elems]; omega
    · cases h
  | dynamic cap l =>
    simp only [InlineVec.insert] at h
    split at h
    · cases h
    cases h
    obtain ⟨a, b, e, ha, e2⟩ := key l (by omega)
    refine ⟨a, b, e, ha, e2, rfl, ?_, fun k hk => by cases hk⟩
    have := al.lt_grow l.length
    simp only [Ok, InlineVec.len, elems, capacity]
    rw [List.length_insertIdx]
    split <;> split <;> omega

omit [Zero α] in
theorem insert_total (al : Alloc) (v : InlineVec α) (a b : List α) (x : α) (h : v.elems = a ++ b)
    (hf : Fits v.limit (v.len + 1)) : ∃ v', v.insert al a.length x = some v' := by
  cases v with
  | inline l =>
    simp only [elems] at h; subst h
    have := hf 64 rfl
    simp [InlineVec.len, elems] at this
    exact ⟨_, by simp only [InlineVec.insert]; rw [if_neg (by simp), if_pos (by simp; omega)]⟩
  | dynamic cap l =>
    simp only [elems] at h; subst h
    exact ⟨_, by simp only [InlineVec.insert]; rw [if_neg (by simp)]⟩

omit [Zero α] in
theorem appendLoop_spec (al : Alloc) : ∀ (xs : List α) (v o : InlineVec α), v.Ok → o.elems = xs → o.Ok →
    ∀ v' o', appendLoop al v o xs = some (v', o') →
    v'.elems = v.elems ++ xs ∧ o'.elems = [] ∧ v'.limit = v.limit ∧ v'.Ok ∧ Fits v.limit (v.len + xs.length) := by
  intro xs
  induction xs with
  | nil =>
    intro v o hv ho _ v' o' h
    simp only [appendLoop, Option.some.injEq, Prod.mk.injEq] at h
    obtain ⟨rfl, rfl⟩ := h
    refine ⟨by simp, ho, rfl, hv, ?_⟩
    intro k hk
    cases v with
    | inline l => cases hk; exact hv
    | dynamic cap l => cases hk
  | cons x xs ih =>
    intro v o hv ho hok v' o' h
    simp only [appendLoop, Option.bind_eq_bind, Option.bind_eq_some_iff] at h
    obtain ⟨⟨o1, y⟩, h1, v1, h2, h3⟩ := h
    obtain ⟨a, b, e1, e2, e3, e4, e5⟩ := remove_spec o hok 0 o1 y h1
    have ha : a = [] := List.length_eq_zero_iff.mp e2
    subst ha
    rw [ho] at e1
    simp only [List.nil_append, List.cons.injEq] at e1 e3
    obtain ⟨rfl, rfl⟩ := e1
    obtain ⟨p1, p2, p3, p4⟩ := push_spec al v hv x v1 h2
    obtain ⟨q1, q2, q3, q4, q5⟩ := ih v1 o1 p3 e3 e5 v' o' h3
    refine ⟨by rw [q1, p1, List.append_assoc]; rfl, q2, by rw [q3, p2], q4, ?_⟩
    rw [p2] at q5
    intro k hk
    have := q5 k hk
    rw [InlineVec.len, p1] at this
    simp [InlineVec.len] at this ⊢; omega

omit [Zero α] in
theorem appendLoop_total (al : Alloc) : ∀ (xs : List α) (v o : InlineVec α), v.Ok → o.elems = xs → o.Ok →
    Fits v.limit (v.len + xs.length) → ∃ v' o', appendLoop al v o xs = some (v', o') := by
  intro xs
  induction xs with
  | nil => intro v o _ _ _ _; exact ⟨_, _, rfl⟩
  | cons x xs ih =>
    intro v o hv ho hok hf
    obtain ⟨o1, h1⟩ := remove_total o [] x xs ho
    obtain ⟨v1, h2⟩ := push_total al v x (fun k hk => by have := hf k hk; simp at this; omega)
    obtain ⟨p1, p2, p3, p4⟩ := push_spec al v hv x v1 h2
    obtain ⟨a, b, e1, e2, e3, e4, e5⟩ := remove_spec o hok 0 o1 x h1
    have ha : a = [] := List.length_eq_zero_iff.mp e2
    subst ha
    rw [ho] at e1
    simp only [List.nil_append, List.cons.injEq, true_and] at e1 e3
    subst e1
    obtain ⟨v', o', h3⟩ := ih v1 o1 p3 e3 e5 (by
      rw [p2]; intro k hk
      have := hf k hk
      rw [InlineVec.len, p1]; simp [InlineVec.len] at this ⊢; omega)
    refine ⟨v', o', ?_⟩
    simp only [appendLoop, Option.bind_eq_bind]
    rw [show (0 : Nat) = ([] : List α).length from rfl, h1]
    simp only [Option.bind_some, h2, h3]

/-- The vectors which are handed to `append` were built by the same functions. -/
def InlineOp.ArgOk : InlineOp α → Prop
  | .append o => o.Ok
  | _ => True

/-- On the variant `Inline` the call is not `try_resize`. -/
def InlineVec.Allowed (v : InlineVec α) (op : InlineOp α) : Prop := op.ArgOk ∧ (v.limit = none ∨ op.NoResize)

theorem step_sound (al : Alloc) (v : InlineVec α) (hv : v.Ok) (op : InlineOp α) (hop : v.Allowed op)
    (v' : InlineVec α) (o : InlineOut α) (h : v.step al op = some (v', o)) :
    ListStep v.limit v.elems op v'.elems o ∧ v'.limit = v.limit ∧ v'.Ok := by
  cases op with
  | push x =>
    simp only [step, Option.map_eq_some_iff, Prod.mk.injEq] at h
    obtain ⟨w, hw, rfl, rfl⟩ := h
    obtain ⟨h1, h2, h3, h4⟩ := push_spec al v hv x w hw
    rw [h1]
    exact ⟨.push _ _ h4, h2, h3⟩
  | pop =>
    simp only [step, Option.some.injEq, Prod.mk.injEq] at h
    obtain ⟨rfl, rfl⟩ := h
    have hl : v.pop.1.elems = v.elems.dropLast ∧ v.pop.2 = v.elems.getLast? ∧ v.pop.1.limit = v.limit ∧
        v.pop.1.capacity = v.capacity := by
      cases v <;> exact ⟨rfl, rfl, rfl, rfl⟩
    obtain ⟨h1, h2, h3, h4⟩ := hl
    refine ⟨?_, h3, ?_⟩
    · rw [h1, h2]
      rcases List.eq_nil_or_concat v.elems with h | ⟨l, x, h⟩
      · rw [h]; exact .popEmpty
      · rw [h]; simp; exact .pop l x
    · unfold Ok InlineVec.len at hv ⊢
      rw [h1, h4]; simp; omega
  | remove i =>
    simp only [step, Option.map_eq_some_iff, Prod.mk.injEq] at h
    obtain ⟨⟨w, x⟩, hw, rfl, rfl⟩ := h
    obtain ⟨a, b, e1, e2, e3, e4, e5⟩ := remove_spec v hv i w x hw
    refine ⟨?_, e4, e5⟩
    rw [e1, e3, ← e2]
    exact .remove a x b
  | insert i x =>
    simp only [step, Option.map_eq_some_iff, Prod.mk.injEq] at h
    obtain ⟨w, hw, rfl, rfl⟩ := h
    obtain ⟨a, b, e1, e2, e3, e4, e5, e6⟩ := insert_spec al v hv i x w hw
    refine ⟨?_, e4, e5⟩
    rw [InlineVec.len, e1] at e6
    rw [e1, e3, ← e2]
    exact .insert a b x e6
  | append other =>
    simp only [step, Option.map_eq_some_iff, Prod.mk.injEq] at h
    obtain ⟨⟨w, o1⟩, hw, rfl, rfl⟩ := h
    obtain ⟨h1, h2, h3, h4, h5⟩ := appendLoop_spec al other.elems v other hv rfl hop.1 w o1 hw
    refine ⟨?_, h3, h4⟩
    rw [h1, h2]
    exact .append _ _ h5
  | set i x =>
    simp only [step, Option.map_eq_some_iff, Prod.mk.injEq] at h
    obtain ⟨w, hw, rfl, rfl⟩ := h
    have hl : i < v.elems.length ∧ w.elems = v.elems.set i x ∧ w.limit = v.limit ∧ w.capacity = v.capacity := by
      cases v <;> (simp only [InlineVec.set] at hw; split at hw; · cases hw; exact ⟨by assumption, rfl, rfl, rfl⟩
                   · cases hw)
    obtain ⟨hi, h1, h2, h3⟩ := hl
    obtain ⟨a, b, e, ha⟩ := split_at_index (List.getElem?_eq_getElem hi)
    refine ⟨?_, h2, ?_⟩
    · generalize v.elems[i] = y at e
      subst ha
      rw [h1, e, List.set_append_right _ _ (Nat.le_refl _)]
      simp only [Nat.sub_self, List.set_cons_zero]
      exact .set a y b x
    · unfold Ok InlineVec.len at hv ⊢
      rw [h1, h3]; simp; exact hv
  | index i =>
    simp only [step, Option.map_eq_some_iff, Prod.mk.injEq, index] at h
    obtain ⟨x, hx, rfl, rfl⟩ := h
    obtain ⟨a, b, e, ha⟩ := split_at_index hx
    refine ⟨?_, rfl, hv⟩
    subst ha
    rw [e]; exact .index a x b
  | tryResize n =>
    rcases hop.2 with hd | hd
    · cases v with
      | inline l => cases hd
      | dynamic cap l =>
        simp only [step, Option.some.injEq, Prod.mk.injEq] at h
        obtain ⟨rfl, rfl⟩ := h
        simp only [tryResize]
        by_cases hc : cap ≥ n
        · rw [if_pos hc]
          refine ⟨?_, rfl, ?_⟩
          · show ListStep none l _ (l.take n ++ List.replicate (n - l.length) 0) _
            by_cases hn : n ≤ l.length
            · have := ListStep.shrink (α := α) (limit := none) (l.take n) (l.drop n)
              rw [List.take_append_drop] at this
              have e : (l.take n).length = n := by simp; omega
              rw [e] at this
              rw [show n - l.length = 0 by omega]
              simp only [List.replicate_zero, List.append_nil]
              exact this
            · rw [List.take_of_length_le (by omega)]
              exact .enlarge l n (fun k hk => by cases hk) (by omega)
          · simp [Ok, InlineVec.len, elems, capacity]; omega
        · rw [if_neg hc]
          refine ⟨?_, rfl, hv⟩
          have : l.length ≤ cap := hv
          exact .refuse l n (by omega)
    · exact hd.elim

theorem step_complete (al : Alloc) (v : InlineVec α) (hv : v.Ok) (op : InlineOp α) (hop : op.ArgOk) (hnr : op.NoResize)
    (l' : List α) (o : InlineOut α) (h : ListStep v.limit v.elems op l' o) :
    ∃ v', v.step al op = some (v', o) ∧ v'.elems = l' := by
  generalize hel : v.elems = l at h
  cases h with
  | push x y hf =>
    obtain ⟨w, hw⟩ := push_total al v y (by unfold InlineVec.len; rw [hel]; exact hf)
    refine ⟨w, by simp only [step, hw, Option.map_some], ?_⟩
    rw [(push_spec al v hv y w hw).1, hel]
  | popEmpty =>
    refine ⟨v.pop.1, ?_, ?_⟩ <;> cases v <;> (simp only [elems] at hel; subst hel; rfl)
  | pop _ x =>
    refine ⟨v.pop.1, ?_, ?_⟩ <;> cases v <;> (simp only [elems] at hel; subst hel; simp [step, InlineVec.pop, elems])
  | remove a x b =>
    obtain ⟨w, hw⟩ := remove_total v a x b hel
    refine ⟨w, by simp only [step, hw, Option.map_some], ?_⟩
    obtain ⟨a', b', e1, e2, e3, _⟩ := remove_spec v hv _ w x hw
    rw [hel] at e1
    obtain ⟨rfl, e4⟩ := List.append_inj e1 e2.symm
    cases e4
    exact e3
  | insert a b x hf =>
    obtain ⟨w, hw⟩ := insert_total al v a b x hel (by unfold InlineVec.len; rw [hel]; exact hf)
    refine ⟨w, by simp only [step, hw, Option.map_some], ?_⟩
    obtain ⟨a', b', e1, e2, e3, _⟩ := insert_spec al v hv _ x w hw
    rw [hel] at e1
    obtain ⟨rfl, rfl⟩ := List.append_inj e1 e2.symm
    exact e3
  | append _ other hf =>
    obtain ⟨w, o1, hw⟩ := appendLoop_total al other.elems v other hv rfl hop (by
      unfold InlineVec.len; rw [hel]; exact hf)
    obtain ⟨h1, h2, _⟩ := appendLoop_spec al other.elems v other hv rfl hop w o1 hw
    refine ⟨w, ?_, by rw [h1, hel]⟩
    have hw' : v.append al other = some (w, o1) := hw
    simp only [step, hw', Option.map_some, h2]
  | set a x b y =>
    cases v <;> (simp only [elems] at hel; subst hel)
    · refine ⟨.inline (a ++ y :: b), ?_, rfl⟩
      simp [step, InlineVec.set]
    · rename_i cap
      refine ⟨.dynamic cap (a ++ y :: b), ?_, rfl⟩
      simp [step, InlineVec.set]
  | index a x b => exact ⟨v, by simp [step, InlineVec.index, hel], hel⟩
  | shrink a b => exact hnr.elim
  | enlarge l n => exact hnr.elim
  | refuse l n => exact hnr.elim

/-- C44, every history of calls: whatever an `InlineVector` does (including what each call returns)
    is what a list with the same limit does: 64 elements for the variant `Inline` and no limit for the
    variant `Dynamic`, whatever the allocator does. Missing: `try_resize` on the variant
    `Inline`, see `C44_try_resize_violated`. -/
theorem C44_history_partial (al : Alloc) (ops : List (InlineOp α)) (v : InlineVec α) (hv : v.Ok)
    (hops : ∀ op ∈ ops, v.Allowed op) (v' : InlineVec α) (outs : List (InlineOut α))
    (h : v.run al ops = some (v', outs)) :
    ListRun v.limit v.elems ops v'.elems outs ∧ v'.limit = v.limit ∧ v'.Ok := by
  induction ops generalizing v outs with
  | nil =>
    simp only [run, Option.some.injEq, Prod.mk.injEq] at h
    obtain ⟨rfl, rfl⟩ := h
    exact ⟨.nil _, rfl, hv⟩
  | cons op ops ih =>
    simp only [run, Option.bind_eq_bind, Option.bind_eq_some_iff] at h
    obtain ⟨⟨v1, o⟩, h1, ⟨v2, os⟩, h2, h3⟩ := h
    simp only [Option.some.injEq, Prod.mk.injEq] at h3
    obtain ⟨rfl, rfl⟩ := h3
    obtain ⟨a1, a2, a3⟩ := step_sound al v hv op (hops op (by simp)) v1 o h1
    obtain ⟨b1, b2, b3⟩ := ih v1 a3 (fun p hp => by
      have := hops p (by simp [hp])
      exact ⟨this.1, by rw [a2]; exact this.2⟩) os h2
    rw [a2] at b1
    exact ⟨.cons a1 b1, by rw [b2, a2], b3⟩

/-- C44, the other direction: every history (without `try_resize`) which a list with the limit can
    perform is performed without a panic and with the same outcome. Together with `C44_history_partial`
    a call panics exactly when the index is out of bounds or no space is left. -/
theorem C44_history_total (al : Alloc) (ops : List (InlineOp α)) (v : InlineVec α) (hv : v.Ok)
    (hops : ∀ op ∈ ops, op.ArgOk ∧ op.NoResize) (l' : List α) (outs : List (InlineOut α))
    (h : ListRun v.limit v.elems ops l' outs) :
    ∃ v', v.run al ops = some (v', outs) ∧ v'.elems = l' := by
  induction ops generalizing v outs with
  | nil => cases h; exact ⟨v, rfl, rfl⟩
  | cons op ops ih =>
    cases h with
    | cons s r =>
      obtain ⟨ha, hn⟩ := hops op (by simp)
      obtain ⟨v1, h1, h2⟩ := step_complete al v hv op ha hn _ _ s
      obtain ⟨_, a2, a3⟩ := step_sound al v hv op ⟨ha, .inr hn⟩ v1 _ h1
      rw [← h2, ← a2] at r
      obtain ⟨v', h3, h4⟩ := ih v1 a3 (fun p hp => hops p (by simp [hp])) _ r
      exact ⟨v', by simp only [run, h1, h3, Option.bind_eq_bind, Option.bind_some], h4⟩

omit [Zero α] in
theorem pushAll_spec (al : Alloc) : ∀ (l : List α) (v : InlineVec α), v.Ok → Fits v.limit (v.len + l.length) →
    ∃ v', pushAll al v l = some v' ∧ v'.elems = v.elems ++ l ∧ v'.Ok ∧ v'.limit = v.limit := by
  intro l
  induction l with
  | nil => intro v hv _; exact ⟨v, rfl, by simp, hv, rfl⟩
  | cons x l ih =>
    intro v hv hf
    obtain ⟨w, hw⟩ := push_total al v x (fun k hk => by have := hf k hk; simp at this; omega)
    obtain ⟨p1, p2, p3, _⟩ := push_spec al v hv x w hw
    obtain ⟨v', h1, h2, h3, h4⟩ := ih w p3 (by
      rw [p2]; intro k hk
      have := hf k hk
      rw [InlineVec.len, p1]; simp [InlineVec.len] at this ⊢; omega)
    exact ⟨v', by simp only [pushAll, hw, Option.bind_some, h1], by rw [h2, p1]; simp, h3, by rw [h4, p2]⟩

omit [Zero α] in
theorem withCapacity_ok (al : Alloc) (n : Nat) :
    (withCapacity al n : InlineVec α).Ok ∧ (withCapacity al n : InlineVec α).elems = [] ∧
      n ≤ (withCapacity al n : InlineVec α).capacity ∧ Fits (withCapacity al n : InlineVec α).limit n := by
  unfold withCapacity
  split
  · exact ⟨by simp [Ok, InlineVec.len, elems, capacity], rfl, by simpa [capacity] using by omega,
      fun k hk => by cases hk; omega⟩
  · exact ⟨by simp [Ok, InlineVec.len, elems], rfl, al.init_le n, fun k hk => by cases hk⟩

omit [Zero α] in
/-- C44, constructors: `with_capacity`, `of_size` and `with_elem` succeed for every size (with `std`)
    and give the expected elements and room for at least the requested number of elements. -/
theorem C44_constructors (al : Alloc) (x : α) (n : Nat) :
    ((withCapacity al n : InlineVec α).Ok ∧ (withCapacity al n : InlineVec α).elems = [] ∧
      n ≤ (withCapacity al n : InlineVec α).capacity) ∧
    (∃ v, ofSize al x n = some v ∧ v.elems = List.replicate n x ∧ v.Ok) ∧
    (∃ v, withElem al x = some v ∧ v.elems = [x] ∧ v.Ok) := by
  refine ⟨⟨(withCapacity_ok al n).1, (withCapacity_ok al n).2.1, (withCapacity_ok al n).2.2.1⟩, ?_, ?_⟩
  · obtain ⟨h1, h2, _, h4⟩ := withCapacity_ok (α := α) al n
    obtain ⟨v, a1, a2, a3, _⟩ := pushAll_spec al (List.replicate n x) (withCapacity al n) h1 (by
      rw [InlineVec.len, h2]; simpa using h4)
    exact ⟨v, a1, by rw [a2, h2]; rfl, a3⟩
  · obtain ⟨h1, h2, _, h4⟩ := withCapacity_ok (α := α) al 1
    obtain ⟨v, hv⟩ := push_total al (withCapacity al 1) x (by rw [InlineVec.len, h2]; exact h4)
    obtain ⟨p1, _, p3, _⟩ := push_spec al _ h1 x v hv
    exact ⟨v, hv, by rw [p1, h2]; rfl, p3⟩

omit [Zero α] in
theorem pushAll_full (al : Alloc) : ∀ (l a : List α), 64 < a.length + l.length → a.length ≤ 64 →
    pushAll al (.inline a) l = none := by
  intro l
  induction l with
  | nil => intro a h1 h2; simp at h1; omega
  | cons x l ih =>
    intro a h1 h2
    simp only [pushAll, push]
    split
    · exact ih (a ++ [x]) (by simp at h1 ⊢; omega) (by simp; omega)
    · rfl

omit [Zero α] in
/-- C44, without `std`: `of_size` gives the expected elements for at most 64 elements and panics for
    more. -/
theorem C44_fixed_of_size (al : Alloc) (x : α) (n : Nat) :
    (n ≤ 64 → ∃ v, ofSizeFixed al x n = some v ∧ v.elems = List.replicate n x) ∧
    (64 < n → ofSizeFixed al x n = none) := by
  constructor
  · intro h
    obtain ⟨v, a1, a2, _⟩ := pushAll_spec al (List.replicate n x) (.inline []) (by simp [Ok, InlineVec.len, elems])
      (fun k hk => by cases hk; simpa [InlineVec.len, elems] using h)
    exact ⟨v, a1, by rw [a2]; rfl⟩
  · intro h
    exact pushAll_full al _ _ (by simpa using h) (by simp)

omit [Zero α] in
/-- C44: collecting an iterator works exactly for at most 64 elements, with more it panics (also with
    `std`: the vector never becomes `Dynamic`). -/
theorem C44_from_iter (al : Alloc) (l : List α) :
    (l.length ≤ 64 → ∃ v, fromIter al l = some v ∧ v.elems = l) ∧ (64 < l.length → fromIter al l = none) := by
  obtain ⟨h1, h2, _, h4⟩ := withCapacity_ok (α := α) al 64
  constructor
  · intro h
    obtain ⟨v, a1, a2, _⟩ := pushAll_spec al l (withCapacity al 64) h1 (fun k hk => by
      have := h4 k hk
      rw [InlineVec.len, h2]; simp; omega)
    exact ⟨v, a1, by rw [a2, h2]; rfl⟩
  · intro h
    have e : (withCapacity al 64 : InlineVec α) = .inline [] := rfl
    unfold fromIter
    rw [e]
    exact pushAll_full al l [] (by simpa using h) (by simp)

/-- C44 fails: on the variant `Inline`, `try_resize` to a length which fits reports success but does not
    change the length, for every vector and every such length which is not the length already. -/
theorem C44_try_resize_violated (l : List α) (n : Nat) (hn : n ≤ 64) :
    (InlineVec.inline l).tryResize n = (.inline l, .ok ()) ∧
    (n ≠ l.length → ((InlineVec.inline l).tryResize n).1.len ≠ n) := by
  have e : (InlineVec.inline l).tryResize n = (.inline l, .ok ()) := by
    simp only [tryResize]; exact if_pos hn
  refine ⟨e, fun h => ?_⟩
  rw [e]
  simp only [InlineVec.len, elems]
  omega

/-- An allocator which gives what is asked for and doubles. -/
def exampleAlloc : Alloc := ⟨fun n => n, fun n => 2 * n + 1, fun n => Nat.le_refl n, fun n => by omega⟩

/-- A history on the variant `Inline` with five calls, and the same on a list. -/
example : let ops : List (InlineOp Int) := [.push 1, .push 2, .insert 1 7, .remove 0, .pop]
    (∀ op ∈ ops, (InlineVec.inline ([] : List Int)).Allowed op) ∧
    ((InlineVec.inline ([] : List Int)).run exampleAlloc ops).map (fun r => r.1.elems) = some [7] := by
  refine ⟨?_, rfl⟩
  intro op hop
  simp only [List.mem_cons, List.not_mem_nil, or_false] at hop
  rcases hop with rfl | rfl | rfl | rfl | rfl <;> exact ⟨trivial, .inr trivial⟩

end Dsp
