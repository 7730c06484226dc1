import Verif.Spec.Interop
import Mathlib.Data.Rat.Defs
/-
C70: handles of the C facade. Programs which obey the rules never have undefined behaviour and never lose memory, whatever the allocator
does, and they compute what the same program computes with vectors instead of handles.
-/
namespace Dsp
variable {T : Type}

/-! ### Memory -/

theorem find_free (h : CHeap T) (a b : Nat) : (h.free a).find b = if b = a then none else h.find b := by
  induction h with
  | nil => simp [CHeap.free, CHeap.find]
  | cons p h ih =>
    obtain ⟨k, iv⟩ := p
    unfold CHeap.free CHeap.find at *
    rw [List.filter_cons, List.lookup_cons]
    by_cases hk : k = a
    · subst hk
      have : ((k, iv).1 != k) = false := by simp
      rw [this]
      simp only [Bool.false_eq_true, if_false, ih]
      by_cases hb : b = k
      · simp [hb]
      · have : (b == k) = false := by simp [hb]
        simp [hb, this]
    · have : ((k, iv).1 != a) = true := by simp [hk]
      rw [this, if_pos rfl, List.lookup_cons, ih]
      by_cases hb : b = k
      · subst hb
        simp [hk]
      · have : (b == k) = false := by simp [hb]
        simp [this]

theorem find_write (h : CHeap T) (a b : Nat) (iv : InteropVec T) : (h.write a iv).find b = if b = a then some iv else h.find b := by
  by_cases hb : b = a
  · subst hb
    simp [CHeap.write, CHeap.find]
  · have : (b == a) = false := by simp [hb]
    have h2 := find_free h a b
    simp only [CHeap.find] at h2
    simp only [CHeap.write, CHeap.find, List.lookup_cons, this, h2, if_neg hb]

theorem Represents.congr {s : Store T} {σ σ' : CState T} (h : Represents s σ) (hv : σ'.vars = σ.vars)
    (hh : ∀ a, σ'.heap.find a = σ.heap.find a) : Represents s σ' := by
  constructor
  · intro x iv hx
    obtain ⟨a, h1, h2⟩ := h.held x iv hx
    exact ⟨a, by rw [hv]; exact h1, by rw [hh]; exact h2⟩
  · intro x y a hx hy h1 h2
    rw [hv] at h1 h2
    exact h.distinct x y a hx hy h1 h2
  · intro a iv ha
    rw [hh] at ha
    obtain ⟨x, h1, h2⟩ := h.owned a iv ha
    exact ⟨x, h1, by rw [hv]; exact h2⟩

theorem assign_self {α : Type} (s : Nat → Option α) (x : Nat) (v : Option α) : assign s x v x = v := by simp [assign]

theorem assign_ne {α : Type} (s : Nat → Option α) {x y : Nat} (v : Option α) (h : y ≠ x) : assign s x v y = s y := by simp [assign, h]

/-- The vector of a variable exchanged. -/
theorem Represents.write {s : Store T} {σ : CState T} (h : Represents s σ) {x a : Nat} (hx : s x ≠ none) (ha : σ.vars x = some a)
    (iv : InteropVec T) : Represents (assign s x (some iv)) ⟨σ.heap.write a iv, σ.vars⟩ := by
  have live : ∀ y, assign s x (some iv) y ≠ none → s y ≠ none := by
    intro y hy
    by_cases e : y = x
    · rw [e]; exact hx
    · rwa [assign_ne _ _ e] at hy
  constructor
  · intro y jv hy
    by_cases e : y = x
    · subst e
      rw [assign_self] at hy
      exact ⟨a, ha, by rw [find_write, if_pos rfl]; exact hy⟩
    · rw [assign_ne _ _ e] at hy
      obtain ⟨b, h1, h2⟩ := h.held y jv hy
      refine ⟨b, h1, ?_⟩
      rw [find_write, if_neg]
      · exact h2
      · intro hb
        subst hb
        exact e (h.distinct y x b (by rw [hy]; simp) hx h1 ha)
  · intro y z b hy hz h1 h2
    exact h.distinct y z b (live y hy) (live z hz) h1 h2
  · intro b jv hb
    rw [find_write] at hb
    by_cases e : b = a
    · subst e
      exact ⟨x, by rw [assign_self]; simp, ha⟩
    · rw [if_neg e] at hb
      obtain ⟨y, h1, h2⟩ := h.owned b jv hb
      have hy : y ≠ x := by
        intro hyx
        subst hyx
        rw [ha] at h2
        exact e (Option.some.inj h2).symm
      exact ⟨y, by rw [assign_ne _ _ hy]; exact h1, h2⟩

/-- The vector of a variable given away. -/
theorem Represents.free {s : Store T} {σ : CState T} (h : Represents s σ) {x a : Nat} (hx : s x ≠ none) (ha : σ.vars x = some a) :
    Represents (assign s x none) ⟨σ.heap.free a, σ.vars⟩ := by
  have live : ∀ y, assign s x none y ≠ none → y ≠ x ∧ s y ≠ none := by
    intro y hy
    by_cases e : y = x
    · subst e; rw [assign_self] at hy; exact absurd rfl hy
    · rw [assign_ne _ _ e] at hy; exact ⟨e, hy⟩
  constructor
  · intro y jv hy
    have ⟨hyx, _⟩ := live y (by rw [hy]; simp)
    rw [assign_ne _ _ hyx] at hy
    obtain ⟨b, h1, h2⟩ := h.held y jv hy
    refine ⟨b, h1, ?_⟩
    rw [find_free, if_neg]
    · exact h2
    · intro hb
      subst hb
      exact hyx (h.distinct y x b (by rw [hy]; simp) hx h1 ha)
  · intro y z b hy hz h1 h2
    exact h.distinct y z b (live y hy).2 (live z hz).2 h1 h2
  · intro b jv hb
    rw [find_free] at hb
    by_cases e : b = a
    · rw [if_pos e] at hb; cases hb
    · rw [if_neg e] at hb
      obtain ⟨y, h1, h2⟩ := h.owned b jv hb
      have hy : y ≠ x := by
        intro hyx
        subst hyx
        rw [ha] at h2
        exact e (Option.some.inj h2).symm
      exact ⟨y, by rw [assign_ne _ _ hy]; exact h1, h2⟩

/-- A new vector in an empty variable. -/
theorem Represents.new {s : Store T} {σ : CState T} (h : Represents s σ) {y n : Nat} (hy : s y = none) (hn : σ.heap.find n = none)
    (iv : InteropVec T) : Represents (assign s y (some iv)) ⟨σ.heap.write n iv, assign σ.vars y (some n)⟩ := by
  have nn : ∀ x jv, s x = some jv → ∀ a, σ.vars x = some a → a ≠ n := by
    intro x jv hx a ha e
    obtain ⟨b, h1, h2⟩ := h.held x jv hx
    rw [ha] at h1
    cases h1
    rw [e, hn] at h2
    cases h2
  constructor
  · intro x jv hx
    by_cases e : x = y
    · subst e
      rw [assign_self] at hx
      exact ⟨n, assign_self _ _ _, by rw [find_write, if_pos rfl]; exact hx⟩
    · rw [assign_ne _ _ e] at hx
      obtain ⟨b, h1, h2⟩ := h.held x jv hx
      refine ⟨b, by simp only; rw [assign_ne _ _ e]; exact h1, ?_⟩
      rw [find_write, if_neg (nn x jv hx b h1)]
      exact h2
  · intro x z b hx hz h1 h2
    simp only at h1 h2
    by_cases ex : x = y
    · by_cases ez : z = y
      · rw [ex, ez]
      · exfalso
        rw [ex, assign_self] at h1
        cases h1
        rw [assign_ne _ _ ez] at h2 hz
        cases e : s z with
        | none => exact hz e
        | some jv => exact nn z jv e _ h2 rfl
    · by_cases ez : z = y
      · exfalso
        rw [ez, assign_self] at h2
        cases h2
        rw [assign_ne _ _ ex] at h1 hx
        cases e : s x with
        | none => exact hx e
        | some jv => exact nn x jv e _ h1 rfl
      · rw [assign_ne _ _ ex] at h1 hx
        rw [assign_ne _ _ ez] at h2 hz
        exact h.distinct x z b hx hz h1 h2
  · intro b jv hb
    rw [find_write] at hb
    by_cases e : b = n
    · subst e
      exact ⟨y, by rw [assign_self]; simp, assign_self _ _ _⟩
    · rw [if_neg e] at hb
      obtain ⟨x, h1, h2⟩ := h.owned b jv hb
      have hx : x ≠ y := by
        intro e2; subst e2; exact h1 hy
      exact ⟨x, by rw [assign_ne _ _ hx]; exact h1, by simp only; rw [assign_ne _ _ hx]; exact h2⟩

/-- Several vectors exchanged. -/
theorem Represents.writeAll {s : Store T} {σ : CState T} (h : Represents s σ) (xs as : List Nat) (l : List (InteropVec T))
    (hx : ∀ x ∈ xs, s x ≠ none) (ha : xs.mapM σ.vars = some as) :
    Represents (s.writeAll (xs.zip l)) ⟨σ.heap.writeAll (as.zip l), σ.vars⟩ ∧
    (∀ x, s x ≠ none → s.writeAll (xs.zip l) x ≠ none) ∧ (∀ x, s x = none → s.writeAll (xs.zip l) x = none) ∧
    (∀ b, (σ.heap.find b = none → (σ.heap.writeAll (as.zip l)).find b = none)) := by
  induction xs generalizing s σ as l with
  | nil =>
    simp only [List.mapM_nil, Option.pure_def, Option.some.injEq] at ha
    subst ha
    exact ⟨h, fun _ h => h, fun _ h => h, fun _ h => h⟩
  | cons x xs ih =>
    cases e1 : σ.vars x with
    | none => simp [List.mapM_cons, e1] at ha
    | some a =>
      cases e2 : xs.mapM σ.vars with
      | none => simp [List.mapM_cons, e1, e2] at ha
      | some as' =>
        simp [List.mapM_cons, e1, e2] at ha
        subst ha
        cases l with
        | nil => exact ⟨h, fun _ h => h, fun _ h => h, fun _ h => h⟩
        | cons iv l =>
          have hxn : s x ≠ none := hx x (by simp)
          have hw := h.write hxn e1 iv
          have live : ∀ y, s y ≠ none → assign s x (some iv) y ≠ none := by
            intro y hy
            by_cases e : y = x
            · rw [e, assign_self]; simp
            · rw [assign_ne _ _ e]; exact hy
          have dead : ∀ y, s y = none → assign s x (some iv) y = none := by
            intro y hy
            have e : y ≠ x := by intro e; subst e; exact hxn hy
            rw [assign_ne _ _ e]; exact hy
          have r := ih (σ := ⟨σ.heap.write a iv, σ.vars⟩) hw as' l (fun y hy => live y (hx y (by simp [hy]))) e2
          refine ⟨r.1, fun y hy => r.2.1 y (live y hy), fun y hy => r.2.2.1 y (dead y hy), fun b hb => r.2.2.2 b ?_⟩
          rw [find_write, if_neg]
          · exact hb
          · intro e
            subst e
            cases e : s x with
            | none => exact hxn e
            | some jv =>
              obtain ⟨c, h1, h2⟩ := h.held x jv e
              rw [e1] at h1
              cases h1
              rw [hb] at h2
              cases h2

/-! ### Statements -/

theorem mapM_var (s : Store T) (σ : CState T) (h : Represents s σ) (xs : List Nat) (hx : ∀ x ∈ xs, s x ≠ none) :
    ∃ as ops, xs.mapM σ.vars = some as ∧ xs.mapM s = some ops ∧ as.mapM σ.heap.find = some ops := by
  induction xs with
  | nil => exact ⟨[], [], rfl, rfl, rfl⟩
  | cons x xs ih =>
    obtain ⟨as, ops, h1, h2, h3⟩ := ih (fun y hy => hx y (by simp [hy]))
    cases e : s x with
    | none => exact absurd e (hx x (by simp))
    | some iv =>
      obtain ⟨a, h4, h5⟩ := h.held x iv e
      exact ⟨a :: as, iv :: ops, by simp [List.mapM_cons, h4, h1], by simp [List.mapM_cons, e, h2], by simp [List.mapM_cons, h5, h3]⟩

theorem mem_addresses (s : Store T) (σ : CState T) (h : Represents s σ) (xs as : List Nat) (hx : ∀ x ∈ xs, s x ≠ none)
    (ha : xs.mapM σ.vars = some as) (x a : Nat) (hxs : s x ≠ none) (hxa : σ.vars x = some a) : a ∈ as → x ∈ xs := by
  induction xs generalizing as with
  | nil => simp at ha; subst ha; simp
  | cons y xs ih =>
    cases e1 : σ.vars y with
    | none => simp [List.mapM_cons, e1] at ha
    | some b =>
      cases e2 : xs.mapM σ.vars with
      | none => simp [List.mapM_cons, e1, e2] at ha
      | some as' =>
        simp [List.mapM_cons, e1, e2] at ha
        subst ha
        intro hm
        rcases List.mem_cons.mp hm with hm | hm
        · subst hm
          rw [h.distinct x y a hxs (hx y (by simp)) hxa e1]
          simp
        · exact List.mem_cons_of_mem _ (ih as' (fun z hz => hx z (by simp [hz])) e2 hm)

theorem nodup_addresses (s : Store T) (σ : CState T) (h : Represents s σ) (xs as : List Nat) (hx : ∀ x ∈ xs, s x ≠ none)
    (ha : xs.mapM σ.vars = some as) (hn : xs.Nodup) : as.Nodup := by
  induction xs generalizing as with
  | nil => simp at ha; subst ha; simp
  | cons y xs ih =>
    cases e1 : σ.vars y with
    | none => simp [List.mapM_cons, e1] at ha
    | some b =>
      cases e2 : xs.mapM σ.vars with
      | none => simp [List.mapM_cons, e1, e2] at ha
      | some as' =>
        simp [List.mapM_cons, e1, e2] at ha
        subst ha
        rw [List.nodup_cons] at hn ⊢
        exact ⟨fun hm => hn.1 (mem_addresses s σ h xs as' (fun z hz => hx z (by simp [hz])) e2 y b (hx y (by simp)) e1 hm),
          ih as' (fun z hz => hx z (by simp [hz])) e2 hn.2⟩

theorem mapM_map_var (args : List CArg) (v : Nat → Option Nat) : args.mapM (fun c => v c.var) = (args.map CArg.var).mapM v := by
  induction args with
  | nil => rfl
  | cons c args ih => simp [List.mapM_cons, ih]

theorem mem_mapM {α β : Type} (f : α → Option β) (l : List α) (r : List β) (h : l.mapM f = some r) (x : α) (hx : x ∈ l) (y : β)
    (hy : f x = some y) : y ∈ r := by
  induction l generalizing r with
  | nil => cases hx
  | cons a l ih =>
    cases e1 : f a with
    | none => simp [List.mapM_cons, e1] at h
    | some b =>
      cases e2 : l.mapM f with
      | none => simp [List.mapM_cons, e1, e2] at h
      | some r' =>
        simp [List.mapM_cons, e1, e2] at h
        subst h
        rcases List.mem_cons.mp hx with hx | hx
        · subst hx
          rw [e1] at hy
          cases hy
          simp
        · exact List.mem_cons_of_mem _ (ih r' e2 hx)

section
variable [Zero T] [One T] [Add T] [Sub T] [Mul T] [Div T] (lib : Lib T) (cal : Calibration)

omit [Zero T] [One T] [Add T] [Sub T] [Mul T] [Div T] in
/-- The memory after a function has returned represents the variables after it. -/
theorem Represents.after {alloc : Allocator T} (hal : alloc.Sound) {s : Store T} {σ : CState T} (h : Represents s σ) (f : CFun T)
    (y x a : Nat) (xs as : List Nat) (hx : s x ≠ none) (ha : σ.vars x = some a) (hxs : ∀ z ∈ xs, s z ≠ none)
    (has : xs.mapM σ.vars = some as) (hy : f.gives ≠ .nothing → y = x ∨ s y = none) (r : Reply T) :
    Represents (s.after f y x xs r) (σ.after alloc f y a as r) := by
  -- the other vectors
  obtain ⟨s1, h1, e1, hr, hx1, hy1, hs1⟩ : ∃ (s1 : Store T) (h1 : CHeap T),
      s1 = (if f.operands.mutable then s.writeAll (xs.zip r.operands) else s) ∧
      h1 = (if f.operands.mutable then σ.heap.writeAll (as.zip r.operands) else σ.heap) ∧
      s1 x ≠ none ∧ (∀ z, s z = none → s1 z = none) ∧ Represents s1 ⟨h1, σ.vars⟩ := by
    refine ⟨_, _, rfl, rfl, ?_⟩
    cases f.operands.mutable with
    | true =>
      have r := h.writeAll xs as r.operands hxs has
      exact ⟨r.2.1 x hx, r.2.2.1, r.1⟩
    | false => exact ⟨hx, fun _ h => h, h⟩
  unfold Store.after CState.after
  rw [← e1, ← hr]
  have give : ∀ n, h1.find n = none → (y = x ∨ s y = none) →
      Represents (assign (assign s1 x none) y (some r.self)) ⟨(h1.write n r.self).free a, assign σ.vars y (some n)⟩ := by
    intro n hn hyx
    have hna : n ≠ a := by
      intro e
      subst e
      cases e : s1 x with
      | none => exact hx1 e
      | some jv =>
        obtain ⟨c, h2, h3⟩ := hs1.held x jv e
        simp only at h2 h3
        rw [ha] at h2
        cases h2
        rw [hn] at h3
        cases h3
    have hf := hs1.free hx1 ha
    have hyn : assign s1 x none y = none := by
      by_cases e : y = x
      · rw [e, assign_self]
      · rw [assign_ne _ _ e]; exact hy1 y (hyx.resolve_left e)
    refine (hf.new (n := n) hyn (by simp only; rw [find_free, if_neg hna]; exact hn) r.self).congr rfl ?_
    intro b
    simp only
    rw [find_free, find_write, find_write, find_free]
    by_cases e : b = a
    · subst e
      simp [Ne.symm hna]
    · simp [e]
  cases hg : f.gives with
  | newBox => exact give _ (hal h1) (hy (by rw [hg]; decide))
  | sameBox =>
    have hyx := hy (by rw [hg]; decide)
    by_cases e : y = x
    · subst e
      refine Eq.mp (congrArg₂ Represents ?_ ?_) (hs1.write hx1 ha r.self)
      · funext z
        by_cases e : z = y <;> simp [assign, e]
      · have : assign σ.vars y (some a) = σ.vars := by
          funext z
          by_cases e : z = y <;> simp [assign, e, ha]
        rw [this]
    · have hyn := hy1 y (hyx.resolve_left e)
      have hf := hs1.free hx1 ha
      refine (hf.new (n := a) (y := y) (by rw [assign_ne _ _ e]; exact hyn) (by simp only; rw [find_free, if_pos rfl]) r.self).congr rfl ?_
      intro b
      simp only
      rw [find_write, find_write, find_free]
      by_cases e : b = a <;> simp [e]
  | nothing =>
    cases ht : f.takes with
    | box => exact hs1.free hx1 ha
    | refMut => exact hs1.write hx1 ha r.self
    | ref => exact hs1
    | refBox => exact hs1

/-- C70, one statement: for every library, every allocator and every statement which obeys the rules the program with handles has
    no undefined behaviour, gives back the same as the program with vectors, ends up with memory which represents its variables, and
    terminates with a panic exactly if the library panics. -/
theorem C70_step {alloc : Allocator T} (hal : alloc.Sound) {s : Store T} {σ : CState T} (h : Represents s σ) (st : CStmt T)
    (hl : Legal s st) :
    match s.step lib cal st with
    | .finished (s', o) => ∃ σ', σ.step lib cal alloc st = some (.finished (σ', o)) ∧ Represents s' σ'
    | .panic => σ.step lib cal alloc st = some .panic
    | .running => σ.step lib cal alloc st = some .running := by
  cases st with
  | create x c d v n δ p => exact ⟨_, rfl, h.new hl (hal σ.heap) _⟩
  | delete x =>
    have hx : s x ≠ none := hl
    cases e : s x with
    | none => exact absurd e hx
    | some iv =>
      obtain ⟨a, h1, h2⟩ := h.held x iv e
      refine ⟨⟨σ.heap.free a, σ.vars⟩, ?_, h.free hx h1⟩
      simp only [CState.step, h1, Option.bind_eq_bind, Option.bind_some, h2]
  | call y x f args =>
    obtain ⟨hfit, hx, hargs, halias, hexcl, hy⟩ := hl
    cases e : s x with
    | none => exact absurd e hx
    | some iv =>
      obtain ⟨a, h1, h2⟩ := h.held x iv e
      have hxs : ∀ z ∈ args.map CArg.var, s z ≠ none := by
        intro z hz
        obtain ⟨c, hc, rfl⟩ := List.mem_map.mp hz
        exact hargs c hc
      obtain ⟨as, ops, h3, h4, h5⟩ := mapM_var s σ h (args.map CArg.var) hxs
      have hno : f.noAlias a as = true := by
        unfold CFun.noAlias
        rw [Bool.and_eq_true]
        constructor
        · rw [Bool.or_eq_true]
          by_cases hc : f.takes ≠ .ref ∨ f.operands.mutable = true
          · right
            have hn := halias hc
            have : a ∉ as := fun hm => hn (mem_addresses s σ h _ as hxs h3 x a hx h1 hm)
            simp [this]
          · left
            simp only [not_or, not_not] at hc
            simp [hc.1, hc.2]
        · rw [Bool.or_eq_true]
          by_cases hc : f.operands.exclusive = true
          · right
            simp [nodup_addresses s σ h _ as hxs h3 (hexcl hc)]
          · left; simpa using hc
      have hstep : σ.step lib cal alloc (.call y x f args) =
          some ((f.call lib iv ops).andThen fun r => .finished (σ.after alloc f y a as r, r.out)) := by
        simp only [CState.step, hfit, Bool.true_eq_false, if_false, h1, Option.bind_eq_bind, Option.bind_some, h2]
        rw [mapM_map_var, h3]
        simp only [Option.bind_some, h5, hno, if_true]
      have hval : s.step lib cal (.call y x f args) =
          (f.call lib iv ops).andThen fun r => .finished (s.after f y x (args.map CArg.var) r, r.out) := by
        simp only [Store.step, e, h4]
      rw [hstep, hval]
      cases hc : f.call lib iv ops with
      | panic => rfl
      | running => rfl
      | finished r => exact ⟨_, rfl, h.after hal f y x a _ as hx h1 hxs h3 hy r⟩

/-- C70: a program which obeys the rules for handles has no undefined behaviour, whatever the library computes and the allocator does. It
    gives back what the same program gives back with vectors instead of handles, and in the end the memory contains
    exactly the vectors of its variables. -/
theorem C70_programs {alloc : Allocator T} (hal : alloc.Sound) {s : Store T} {σ : CState T} (h : Represents s σ) (p : List (CStmt T))
    (hf : Follows lib cal s p) :
    match s.run lib cal p with
    | .finished (s', os) => ∃ σ', σ.run lib cal alloc p = some (.finished (σ', os)) ∧ Represents s' σ'
    | .panic => σ.run lib cal alloc p = some .panic
    | .running => σ.run lib cal alloc p = some .running := by
  induction p generalizing s σ with
  | nil => exact ⟨σ, rfl, h⟩
  | cons st rest ih =>
    have h1 := C70_step lib cal hal h st hf.1
    have h2 := hf.2
    cases e : s.step lib cal st with
    | panic =>
      rw [e] at h1
      simp only [Store.run, CState.run, e, h1, Outcome.andThen]
    | running =>
      rw [e] at h1
      simp only [Store.run, CState.run, e, h1, Outcome.andThen]
    | finished q =>
      obtain ⟨s1, o⟩ := q
      rw [e] at h1
      obtain ⟨σ1, h3, h4⟩ := h1
      have h5 := ih h4 (h2 s1 o e)
      have e1 : s.run lib cal (st :: rest) = (s1.run lib cal rest).andThen fun p => .finished (p.1, o :: p.2) := by
        simp only [Store.run, e, Outcome.andThen]
      have e2 : σ.run lib cal alloc (st :: rest) =
          (σ1.run lib cal alloc rest).map fun r => r.andThen fun q => .finished (q.1, o :: q.2) := by
        simp only [CState.run, h3]
      rw [e1, e2]
      cases e3 : s1.run lib cal rest with
      | panic => rw [e3] at h5; rw [h5]; rfl
      | running => rw [e3] at h5; rw [h5]; rfl
      | finished q =>
        obtain ⟨s2, os⟩ := q
        rw [e3] at h5
        obtain ⟨σ2, h6, h7⟩ := h5
        exact ⟨σ2, by rw [h6]; rfl, h7⟩

/-- The start of a C program: no vectors, no handles. -/
def CState.start (T : Type) : CState T := ⟨[], fun _ => none⟩

omit [Zero T] [One T] [Add T] [Sub T] [Mul T] [Div T] in
theorem represents_start : Represents (fun _ => none : Store T) (CState.start T) :=
  ⟨fun _ _ h => absurd h (by simp), fun _ _ _ h => absurd rfl h, fun a iv h => absurd (show (none : Option (InteropVec T)) = some iv from h) (by simp)⟩

/-- C70: a program which obeys the rules and has given away all of its vectors in the end leaves no vector in memory. -/
theorem C70_no_leak {alloc : Allocator T} (hal : alloc.Sound) (p : List (CStmt T)) (hf : Follows lib cal (fun _ => none) p)
    (s' : Store T) (os : List (COut T)) (hr : Store.run lib cal (fun _ => none) p = .finished (s', os)) (he : ∀ x, s' x = none) :
    ∃ σ', (CState.start T).run lib cal alloc p = some (.finished (σ', os)) ∧ σ'.heap = [] := by
  have h := C70_programs lib cal hal represents_start p hf
  rw [hr] at h
  obtain ⟨σ', h1, h2⟩ := h
  refine ⟨σ', h1, ?_⟩
  cases e : σ'.heap with
  | nil => rfl
  | cons q l =>
    obtain ⟨a, iv⟩ := q
    obtain ⟨x, h3, _⟩ := h2.owned a iv (by rw [e]; simp [CHeap.find])
    exact absurd (he x) h3

/-! ### Handles after a call -/

/-- A handle to a vector which does not exist can not be used for anything. -/
theorem stale {alloc : Allocator T} {σ : CState T} {x a : Nat} (hx : σ.vars x = some a) (ha : σ.heap.find a = none) :
    (∀ z g args, σ.step lib cal alloc (.call z x g args) = none) ∧ σ.step lib cal alloc (.delete x) = none := by
  constructor
  · intro z g args
    simp only [CState.step]
    split
    · rfl
    · simp only [hx, Option.bind_eq_bind, Option.bind_some, ha, Option.bind_none]
  · simp only [CState.step, hx, Option.bind_eq_bind, Option.bind_some, ha, Option.bind_none]

/-- C70: a function whose first parameter is a `Box` and which does not give the same box back invalidates the handle which it was given:
    whatever it gives back is another address, and every later use of the old handle is undefined behaviour. -/
theorem C70_taken {alloc : Allocator T} (hal : alloc.Sound) {s : Store T} {σ : CState T} (h : Represents s σ) (y x : Nat) (f : CFun T)
    (args : List CArg) (hl : Legal s (.call y x f args)) (hyx : y ≠ x) (hb : f.takes = .box) (hg : f.gives ≠ .sameBox)
    (σ' : CState T) (o : COut T) (hs : σ.step lib cal alloc (.call y x f args) = some (.finished (σ', o))) :
    (∀ z g args', σ'.step lib cal alloc (.call z x g args') = none) ∧ σ'.step lib cal alloc (.delete x) = none ∧
    (f.gives = .newBox → σ'.vars y ≠ σ.vars x) := by
  obtain ⟨hfit, hx, hargs, halias, hexcl, hy⟩ := hl
  cases e : s x with
  | none => exact absurd e hx
  | some iv =>
    obtain ⟨a, h1, h2⟩ := h.held x iv e
    have hxs : ∀ z ∈ args.map CArg.var, s z ≠ none := by
      intro z hz
      obtain ⟨c, hc, rfl⟩ := List.mem_map.mp hz
      exact hargs c hc
    obtain ⟨as, ops, h3, h4, h5⟩ := mapM_var s σ h (args.map CArg.var) hxs
    simp only [CState.step, hfit, Bool.true_eq_false, if_false, h1, Option.bind_eq_bind, Option.bind_some, h2] at hs
    rw [mapM_map_var, h3] at hs
    simp only [Option.bind_some, h5] at hs
    split at hs
    · cases hc : f.call lib iv ops with
      | panic => rw [hc] at hs; cases hs
      | running => rw [hc] at hs; cases hs
      | finished r =>
        rw [hc] at hs
        simp only [Outcome.andThen, Option.some.injEq, Outcome.finished.injEq, Prod.mk.injEq] at hs
        obtain ⟨rfl, rfl⟩ := hs
        have key : (σ.after alloc f y a as r).vars x = some a ∧ (σ.after alloc f y a as r).heap.find a = none := by
          unfold CState.after
          cases hgv : f.gives with
          | newBox =>
            simp only
            exact ⟨by rw [assign_ne _ _ (Ne.symm hyx)]; exact h1, by rw [find_free, if_pos rfl]⟩
          | sameBox => exact absurd hgv hg
          | nothing =>
            simp only [hb]
            exact ⟨h1, by rw [find_free, if_pos rfl]⟩
        have st := stale lib cal (alloc := alloc) key.1 key.2
        refine ⟨st.1, st.2, fun hn => ?_⟩
        have hr := h.after hal f y x a _ as hx h1 hxs h3 hy r
        have hheld := hr.held y r.self (by
          unfold Store.after
          rw [hn]
          exact assign_self _ _ _)
        obtain ⟨b, h6, h7⟩ := hheld
        rw [h6, h1]
        intro hba
        cases hba
        rw [key.2] at h7
        cases h7
    · cases hs

/-- C70: sums, products, statistics and queries leave the memory and the variables as they are. -/
theorem C70_readers {alloc : Allocator T} (σ : CState T) (y x : Nat) (f : CFun T) (hf : f.Reads) (args : List CArg) (σ' : CState T)
    (o : COut T) (hs : σ.step lib cal alloc (.call y x f args) = some (.finished (σ', o))) : σ' = σ := by
  have hg : f.gives = .nothing ∧ f.takes = .ref ∧ f.operands.mutable = false := by
    cases f <;> first | exact hf.elim | skip
    case scalar g => cases g <;> exact ⟨rfl, rfl, rfl⟩
    all_goals exact ⟨rfl, rfl, rfl⟩
  have ha : ∀ (a : Nat) (as : List Nat) (r : Reply T), σ.after alloc f y a as r = σ := by
    intro a as r
    simp [CState.after, hg.1, hg.2.1, hg.2.2]
  simp only [CState.step, Option.bind_eq_bind] at hs
  split at hs
  · cases hs
  · cases e1 : σ.vars x with
    | none => rw [e1] at hs; cases hs
    | some a =>
      rw [e1, Option.bind_some] at hs
      cases e2 : σ.heap.find a with
      | none => rw [e2] at hs; cases hs
      | some iv =>
        rw [e2, Option.bind_some] at hs
        cases e3 : args.mapM fun c => σ.vars c.var with
        | none => rw [e3] at hs; cases hs
        | some as =>
          rw [e3, Option.bind_some] at hs
          cases e4 : as.mapM σ.heap.find with
          | none => rw [e4] at hs; cases hs
          | some ops =>
            rw [e4, Option.bind_some] at hs
            split at hs
            · cases e5 : f.call lib iv ops with
              | panic => rw [e5] at hs; cases hs
              | running => rw [e5] at hs; cases hs
              | finished r =>
                rw [e5] at hs
                simp only [Outcome.andThen, ha, Option.some.injEq, Outcome.finished.injEq, Prod.mk.injEq] at hs
                exact hs.1.symm
            · cases hs

/-- C70: `overwrite_data` gives back the handle which it was given, which stays valid. -/
theorem C70_overwrite {alloc : Allocator T} (σ : CState T) (y x : Nat) (data : List T) (σ' : CState T) (o : COut T)
    (hs : σ.step lib cal alloc (.call y x (.overwriteData data) []) = some (.finished (σ', o))) :
    ∃ a iv, σ.vars x = some a ∧ σ'.vars y = some a ∧ σ'.heap.find a = some iv := by
  simp only [CState.step, Option.bind_eq_bind] at hs
  split at hs
  · cases hs
  · cases e1 : σ.vars x with
    | none => rw [e1] at hs; cases hs
    | some a =>
      rw [e1, Option.bind_some] at hs
      cases e2 : σ.heap.find a with
      | none => rw [e2] at hs; cases hs
      | some iv =>
        rw [e2, Option.bind_some, List.mapM_nil, Option.pure_def, Option.bind_some, List.mapM_nil, Option.pure_def,
          Option.bind_some] at hs
        split at hs
        · cases e5 : (CFun.overwriteData data).call lib iv [] with
          | panic => rw [e5] at hs; cases hs
          | running => rw [e5] at hs; cases hs
          | finished r =>
            rw [e5] at hs
            simp only [Outcome.andThen, Option.some.injEq, Outcome.finished.injEq, Prod.mk.injEq] at hs
            rw [← hs.1]
            refine ⟨a, r.self, rfl, ?_, ?_⟩
            · simp [CState.after, CFun.gives, assign]
            · simp [CState.after, CFun.gives, CFun.operands, OperandSig.mutable, find_write]
        · cases hs

/-- C70 is violated by `clone`: a copy should leave the original as it is, but the function takes the original over. After a call
    which put the copy into another variable every use of the original is undefined behaviour. -/
theorem C70_clone_violated {alloc : Allocator T} (hal : alloc.Sound) {s : Store T} {σ : CState T} (h : Represents s σ) (y x : Nat)
    (hx : s x ≠ none) (hy : s y = none) (σ' : CState T) (o : COut T)
    (hs : σ.step lib cal alloc (.call y x .clone []) = some (.finished (σ', o))) :
    (∀ z g args', σ'.step lib cal alloc (.call z x g args') = none) ∧ σ'.step lib cal alloc (.delete x) = none := by
  have hyx : y ≠ x := by intro e; subst e; exact hx hy
  have := C70_taken lib cal hal h y x .clone []
    ⟨rfl, hx, fun _ h => absurd h List.not_mem_nil, fun _ h => absurd h List.not_mem_nil, fun _ => List.nodup_nil, fun _ => .inr hy⟩ hyx rfl
    (fun h => Given.noConfusion h) σ' o hs
  exact ⟨this.1, this.2.1⟩

/-- C70 is violated by the functions which write to other vectors, `get_magnitude` for example: they only read the vector itself but
    they destroy it. -/
theorem C70_getters_violated {alloc : Allocator T} (hal : alloc.Sound) {s : Store T} {σ : CState T} (h : Represents s σ) (y x : Nat)
    (f : FillFun) (args : List CArg) (hl : Legal s (.call y x (.fill f) args)) (hyx : y ≠ x) (σ' : CState T) (o : COut T)
    (hs : σ.step lib cal alloc (.call y x (.fill f) args) = some (.finished (σ', o))) :
    (∀ z g args', σ'.step lib cal alloc (.call z x g args') = none) ∧ σ'.step lib cal alloc (.delete x) = none := by
  have := C70_taken lib cal hal h y x (.fill f) args hl hyx rfl (fun h => Given.noConfusion h) σ' o hs
  exact ⟨this.1, this.2.1⟩

/-- C70 is violated by `sub`: it does not take its operand as the other functions do. Passing a handle is undefined behaviour in
    every state, only the address of a variable which holds the handle is accepted; for `add`, `mul` and `div` it is the other way round. -/
theorem C70_sub_violated {alloc : Allocator T} (σ : CState T) (y x z : Nat) :
    σ.step lib cal alloc (.call y x (.vec .sub) [.handle z]) = none ∧
    σ.step lib cal alloc (.call y x (.vec .add) [.addressOf z]) = none ∧
    σ.step lib cal alloc (.call y x (.vec .mul) [.addressOf z]) = none ∧
    σ.step lib cal alloc (.call y x (.vec .div) [.addressOf z]) = none :=
  ⟨rfl, rfl, rfl, rfl⟩

/-- C70, exact description: a vector can not be combined with itself. A function which takes its first vector over and is given the
    same handle as an operand has undefined behaviour. -/
theorem C70_self_operand {alloc : Allocator T} (σ : CState T) (y x : Nat) (f : CFun T) (hb : f.takes = .box) (args : List CArg)
    (c : CArg) (hc : c ∈ args) (hcx : c.var = x) : σ.step lib cal alloc (.call y x f args) = none := by
  simp only [CState.step]
  split
  · rfl
  · cases e1 : σ.vars x with
    | none => rfl
    | some a =>
      cases e2 : σ.heap.find a with
      | none => simp only [Option.bind_eq_bind, Option.bind_some, e2, Option.bind_none]
      | some iv =>
        simp only [Option.bind_eq_bind, Option.bind_some, e2]
        cases e3 : args.mapM (fun c => σ.vars c.var) with
        | none => rfl
        | some as =>
          simp only [Option.bind_some]
          cases e4 : as.mapM σ.heap.find with
          | none => rfl
          | some ops =>
            have hm : a ∈ as := by
              exact mem_mapM _ args as e3 c hc a (by rw [hcx]; exact e1)
            simp only [Option.bind_some]
            rw [if_neg]
            unfold CFun.noAlias
            simp [hb, hm]

end

/-! ### The hypotheses can be met -/

/-- An allocator: the first address behind all others. -/
def firstFree (h : CHeap T) : Nat := h.foldr (fun p m => max (p.1 + 1) m) 0

theorem lt_firstFree (h : CHeap T) (p : Nat × InteropVec T) (hp : p ∈ h) : p.1 < firstFree h := by
  induction h with
  | nil => cases hp
  | cons q h ih =>
    simp only [firstFree, List.foldr_cons]
    rcases List.mem_cons.mp hp with hp | hp
    · subst hp; omega
    · have := ih hp
      simp only [firstFree] at this
      omega

theorem firstFree_sound : Allocator.Sound (T := T) firstFree := by
  intro h
  cases e : h.find (firstFree h) with
  | none => rfl
  | some iv =>
    obtain ⟨l1, l2, h1, _⟩ := List.lookup_eq_some_iff.mp e
    have hm : (firstFree h, iv) ∈ l1 ++ (firstFree h, iv) :: l2 := by simp
    rw [← h1] at hm
    have := lt_firstFree h (firstFree h, iv) hm
    exact absurd this (lt_irrefl _)

/-- A library which does nothing, successfully. -/
def idleLib : Lib ℚ :=
  { method := fun _ _ v b _ => .finished (v, b, .ok ())
    fill := fun _ _ _ l => .finished l
    split := fun _ l => .finished (l, .ok ())
    scalar := fun _ _ _ _ => .finished (.ok (.real 0))
    value := fun _ _ _ => .finished (.real 0)
    statistics := fun _ _ _ _ => .finished (.ok []) }

/-- `a = new(..); b = new(..); c = add(a, b); get_real(c, b); delete(b);` -/
def exampleProgram : List (CStmt ℚ) :=
  [.create 0 1 0 5 4 1 .standard, .create 1 0 0 7 4 1 (.cores 2), .call 2 0 (.vec .add) [.handle 1], .call 2 2 (.fill .getReal) [.handle 1],
   .delete 1]

theorem exampleProgram_follows (cal : Calibration) : Follows idleLib cal (fun _ => none) exampleProgram := by
  refine ⟨rfl, fun s1 o1 h1 => ?_⟩
  cases h1
  refine ⟨rfl, fun s2 o2 h2 => ?_⟩
  cases h2
  refine ⟨⟨rfl, by simp [assign], by simp [assign, CArg.var], fun _ => by simp [CArg.var], fun h => absurd h (by decide), fun _ => .inr (by simp [assign])⟩,
    fun s3 o3 h3 => ?_⟩
  cases h3
  refine ⟨⟨rfl, by simp [Store.after, CFun.operands, VecFun.operands, OperandSig.mutable, CFun.gives, assign],
    by simp [Store.after, CFun.operands, VecFun.operands, OperandSig.mutable, CFun.gives, assign, CArg.var],
    fun _ => by simp [CArg.var], fun _ => by simp, fun h => absurd rfl h⟩, fun s4 o4 h4 => ?_⟩
  cases h4
  refine ⟨?_, fun _ _ _ => trivial⟩
  show Store.after _ _ _ _ _ _ _ ≠ none
  simp [Store.after, CFun.operands, VecFun.operands, FillFun.operands, OperandSig.mutable, CFun.gives, CFun.takes, assign, CArg.var,
    Store.writeAll, putVecs]

/-- The example program obeys the rules and gives back codes which show the defect of `convert_void` (C68), and it leaves no memory behind. -/
example (cal : Calibration) : ∃ σ' os, (CState.start ℚ).run idleLib cal firstFree exampleProgram = some (.finished (σ', os)) ∧
    σ'.heap = [] ∧ os.map (·.code) = [none, none, some 0, some 9, none] := by
  cases e : Store.run idleLib cal (fun _ => none) exampleProgram with
  | panic => cases e
  | running => cases e
  | finished q =>
    obtain ⟨s', os⟩ := q
    have hs : (∀ x, s' x = none) ∧ os.map (·.code) = [none, none, some 0, some 9, none] := by
      cases e
      refine ⟨fun x => ?_, rfl⟩
      by_cases h0 : x = 0 <;> by_cases h1 : x = 1 <;> by_cases h2 : x = 2 <;>
        simp [assign, Store.after, CFun.operands, VecFun.operands, FillFun.operands, OperandSig.mutable, CFun.gives, CFun.takes, CArg.var,
          Store.writeAll, putVecs, h0, h1, h2]
    obtain ⟨σ', h1, h2⟩ := C70_no_leak idleLib cal firstFree_sound exampleProgram (exampleProgram_follows cal) s' os e hs.1
    exact ⟨σ', os, h1, h2, hs.2⟩

/-- Non-vacuity of `C70_readers` and `C70_overwrite`: `get_len` and `overwrite_data` of a vector with four numbers at the address 5. -/
example (cal : Calibration) : let σ : CState ℚ := ⟨[(5, newVector cal 0 0 7 4 1 .standard)], fun x => if x = 0 then some 5 else none⟩
    σ.step idleLib cal firstFree (.call 1 0 .getLen []) = some (.finished (σ, ⟨none, [.usize 4]⟩)) ∧
    ∃ σ', σ.step idleLib cal firstFree (.call 1 0 (.overwriteData [1, 2, 3]) []) = some (.finished (σ', ⟨some 0, []⟩)) ∧ σ'.vars 1 = some 5 :=
  ⟨rfl, _, rfl, rfl⟩

end Dsp
