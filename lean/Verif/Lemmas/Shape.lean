import Verif.Model.History
import Verif.Spec.View
import Verif.Lemmas.Slice
/-
How operations change the number of cells of a storage. Every write of a model operation keeps or
extends the number of cells (`a.length ≤ a'.length`).
-/
namespace Dsp
variable {T : Type}

theorem le_length_splice (a : List T) (lo : Nat) (b : List T) : a.length ≤ (splice a lo b).length := by
  simp [splice]; omega

theorem le_length_put {a a' : List T} {i : Nat} {x : T} (h : put a i x = some a') :
    a.length ≤ a'.length := by
  unfold put at h
  split at h
  · simp at h; subst h; simp
  · simp at h

theorem lt_of_put {a a' : List T} {i : Nat} {x : T} (h : put a i x = some a') :
    i < a.length ∧ a'.length = a.length := by
  unfold put at h
  split at h
  · simp at h; subst h; simp; assumption
  · simp at h

theorem le_length_copyFromSlice {a a' s : List T} {lo hi : Nat} (h : copyFromSlice a lo hi s = some a') :
    a.length ≤ a'.length := by
  unfold copyFromSlice at h
  split at h
  · simp at h; subst h; exact le_length_splice _ _ _
  · simp at h

theorem le_length_memcpy {a a' : List T} {s e t : Nat} (h : memcpy a s e t = some a') :
    a.length ≤ a'.length := by
  unfold memcpy at h
  split at h
  · simp at h; subst h; exact le_length_splice _ _ _
  · simp at h

theorem le_length_memzero [Zero T] {a a' : List T} {lo hi : Nat} (h : memzero a lo hi = some a') :
    a.length ≤ a'.length := by
  unfold memzero at h
  split at h
  · simp at h; subst h; exact le_length_splice _ _ _
  · simp at h

/-- A relation which every step keeps holds for the result of a loop. -/
theorem forRange_keeps {S : Type} (P : S → Prop) (f : Nat → S → Option S)
    (hstep : ∀ i s s', P s → f i s = some s' → P s') (n start : Nat) (s s' : S) (h0 : P s)
    (h : forRange start n f s = some s') : P s' := by
  induction n generalizing start s with
  | zero => simp [forRange] at h; subst h; exact h0
  | succ n ih =>
    simp only [forRange, Option.bind_eq_some_iff] at h
    obtain ⟨s1, h1, h2⟩ := h
    exact ih (start + 1) s1 (hstep _ _ _ h0 h1) h2

theorem le_length_forRange {f : Nat → List T → Option (List T)}
    (hstep : ∀ i s s', f i s = some s' → s.length ≤ s'.length) {n start : Nat} {s s' : List T}
    (h : forRange start n f s = some s') : s.length ≤ s'.length :=
  forRange_keeps (fun t => s.length ≤ t.length) f
    (fun i t t' ht hf => Nat.le_trans ht (hstep i t t' hf)) n start s s' (Nat.le_refl _) h

/-! ### Workers -/

theorem le_length_parStep (p : Par T) (i : Nat) : p.mem.length ≤ (p.step i).mem.length := by
  unfold Par.step
  split
  · exact le_length_splice _ _ _
  · exact Nat.le_refl _

theorem le_length_parRun (sched : List Nat) (p : Par T) : p.mem.length ≤ (p.run sched).mem.length := by
  induction sched generalizing p with
  | nil => exact Nat.le_refl _
  | cons i is ih => exact Nat.le_trans (le_length_parStep p i) (ih (p.step i))

theorem le_length_outcome {p : Par T} {sched : List Nat} {r : List T}
    (h : p.outcome sched = .finished r) : p.mem.length ≤ r.length := by
  unfold Par.outcome at h
  split at h
  · simp at h; subst h; exact le_length_parRun sched p
  · simp at h

theorem le_length_foldl (fs : List (List T → List T)) (hf : ∀ f ∈ fs, ∀ m : List T, m.length ≤ (f m).length)
    (a : List T) : a.length ≤ (fs.foldl (fun m f => f m) a).length := by
  induction fs generalizing a with
  | nil => exact Nat.le_refl _
  | cons f fs ih =>
    exact Nat.le_trans (hf f (by simp) a) (ih (fun g hg => hf g (by simp [hg])) (f a))

theorem le_length_blockLoop (s p : Nat) (g : Nat → List T → List T) (start len : Nat) :
    ∀ f ∈ blockLoop s p g start len, ∀ m : List T, m.length ≤ (f m).length := by
  intro f hf m
  simp only [blockLoop, List.mem_map] at hf
  obtain ⟨k, -, rfl⟩ := hf
  exact le_length_splice _ _ _

theorem le_length_executeWithRange {c : Complexity} {st : MultiCoreSettings} {a r : List T} {step s p : Nat}
    {g : Nat → List T → List T} {sched : List Nat}
    (h : executeWithRange c st a step (blockLoop s p g) sched = .finished r) : a.length ≤ r.length := by
  unfold executeWithRange at h
  simp only at h
  split at h
  · split at h
    · simp at h
    · exact le_length_outcome h
  · simp only [Outcome.finished.injEq] at h
    rw [← h]
    exact le_length_foldl _ (le_length_blockLoop s p g 0 a.length) a

theorem le_length_fromSrcToDest {c : Complexity} {st : MultiCoreSettings} {srcLen srcStep : Nat}
    {a r : List T} {step s p : Nat} {g : Nat → List T → List T} {sched : List Nat}
    (h : fromSrcToDest c st srcLen srcStep a step (blockLoop s p g) sched = .finished r) :
    a.length ≤ r.length := by
  unfold fromSrcToDest at h
  simp only at h
  split at h
  · split at h
    · simp at h
    · exact le_length_outcome h
  · simp only [Outcome.finished.injEq] at h
    rw [← h]
    exact le_length_foldl _ (le_length_blockLoop s p g 0 a.length) a

/-! ### Buffers -/

/-- The buffers which exchange their memory with the one of the vector. -/
def Buffer.isFixed : Buffer T → Bool
  | .fixedLen _ => true
  | _ => false

theorem borrow_length [Zero T] {b : Buffer T} {n : Nat} {t : List T} (h : b.borrow n = some t) :
    t.length = n := by
  cases b with
  | single temp => simp [Buffer.borrow] at h; subst h; simp
  | noBuffer => simp [Buffer.borrow] at h; subst h; simp
  | fixedLen mem =>
    simp only [Buffer.borrow] at h
    split at h
    · simp at h
    · simp at h; subst h; simp; omega

theorem trade_kind (b : Buffer T) (r : List T) (s : Storage T) : (b.trade r s).2.kind = s.kind := by
  cases b <;> rfl

theorem trade_isFixed (b : Buffer T) (r : List T) (s : Storage T) :
    (b.trade r s).1.isFixed = b.isFixed := by
  cases b <;> rfl

theorem trade_cells {b : Buffer T} (hb : b.isFixed = false) (r : List T) (s : Storage T) :
    (b.trade r s).2.cells = r := by
  cases b <;> first | rfl | simp [Buffer.isFixed] at hb

theorem trade_cells_fixed {b : Buffer T} (hb : b.isFixed = true) (r : List T) (s : Storage T) :
    s.cells.length ≤ (b.trade r s).2.cells.length := by
  cases b with
  | fixedLen mem => exact le_length_splice _ _ _
  | _ => simp [Buffer.isFixed] at hb

end Dsp

namespace Dsp
namespace DspVec
variable {T : Type}

/-- Kind and number space are the same, the length is the same, the storage did not shrink. -/
structure Keeps (v w : DspVec T) : Prop where
  kind : w.data.kind = v.data.kind
  space : w.numberSpace = v.numberSpace
  len : w.validLen = v.validLen
  alloc : v.data.cells.length ≤ w.data.cells.length

theorem Keeps.refl (v : DspVec T) : Keeps v v := ⟨rfl, rfl, rfl, Nat.le_refl _⟩

theorem Keeps.trans {u v w : DspVec T} (h : Keeps u v) (k : Keeps v w) : Keeps u w :=
  ⟨k.kind.trans h.kind, k.space.trans h.space, k.len.trans h.len, Nat.le_trans h.alloc k.alloc⟩

theorem Keeps.wf {v w : DspVec T} (h : Keeps v w) (hv : v.WF) : w.WF := by
  refine ⟨by rw [h.len]; exact Nat.le_trans hv.1 h.alloc, fun hc => ?_⟩
  rw [h.len]; apply hv.2
  simpa [isComplex, h.space] using hc

theorem keeps_withCells (v : DspVec T) {c : List T} (h : v.data.cells.length ≤ c.length) :
    Keeps v (v.withCells c) := ⟨rfl, rfl, rfl, h⟩

theorem keeps_splice (v : DspVec T) (lo : Nat) (b : List T) :
    Keeps v (v.withCells (splice v.data.cells lo b)) := keeps_withCells v (le_length_splice _ _ _)

/-- The storage kind is the same, the storage did not shrink. -/
structure Grows (v w : DspVec T) : Prop where
  kind : w.data.kind = v.data.kind
  alloc : v.data.cells.length ≤ w.data.cells.length

theorem Grows.trans {u v w : DspVec T} (h : Grows u v) (k : Grows v w) : Grows u w :=
  ⟨k.kind.trans h.kind, Nat.le_trans h.alloc k.alloc⟩

theorem Keeps.grows {v w : DspVec T} (h : Keeps v w) : Grows v w := ⟨h.kind, h.alloc⟩

/-- The storage is not a stack array (which ignores requests to grow, `C44_try_resize_violated`). -/
def NotInline (v : DspVec T) : Prop := ∀ cap, v.data.kind ≠ .inlineStack cap

theorem NotInline.of_kind {v w : DspVec T} (h : v.NotInline) (hk : w.data.kind = v.data.kind) :
    w.NotInline := by
  intro cap; rw [hk]; exact h cap

theorem tryResize_ok [Zero T] {s d : Storage T} {n : Nat} (hk : ∀ cap, s.kind ≠ .inlineStack cap)
    (hn : s.cells.length < n) (h : s.tryResize n = .ok d) :
    d.kind = s.kind ∧ d.cells.length = n := by
  unfold Storage.tryResize at h
  cases hkind : s.kind with
  | vec => simp [hkind] at h; subst h; simp [hkind]
  | fixed => simp [hkind, hn] at h
  | arrayVec cap =>
    simp only [hkind] at h; split at h <;> simp at h; subst h; simp [hkind]
  | inlineStack cap => exact absurd hkind (hk cap)
  | inlineHeap cap =>
    simp only [hkind] at h; split at h <;> simp at h; subst h; simp [hkind]

/-- What `resize` does: an error changes nothing; otherwise the length is the requested one. -/
theorem resize_cases [Zero T] (v : DspVec T) (n : Nat) (hk : v.NotInline) :
    (∃ e, v.resize n = (v, .error e)) ∨
    (∃ w, v.resize n = (w, .ok ()) ∧ w.validLen = n ∧ w.WF ∧ Grows v w ∧ w.numberSpace = v.numberSpace) := by
  unfold resize
  split
  · exact .inl ⟨_, rfl⟩
  · rename_i hpar
    have hp : v.isComplex = true → n % 2 = 0 := by
      intro hc; simp [hc] at hpar; omega
    split
    · rename_i hlt
      cases ht : v.data.tryResize n with
      | error e => exact .inl ⟨e, rfl⟩
      | ok d =>
        obtain ⟨h1, h2⟩ := tryResize_ok hk hlt ht
        refine .inr ⟨_, rfl, rfl, ⟨?_, fun hc => hp hc⟩, ⟨h1, ?_⟩, rfl⟩
        · simp [h2]
        · simp only [h2]; simp only [allocLen] at hlt; omega
    · rename_i hlt
      refine .inr ⟨_, rfl, rfl, ⟨?_, fun hc => hp hc⟩, ⟨rfl, Nat.le_refl _⟩, rfl⟩
      simp [allocLen] at hlt; exact hlt

theorem resize_grows [Zero T] (v : DspVec T) (n : Nat) (hk : v.NotInline) : Grows v (v.resize n).1 := by
  rcases resize_cases v n hk with ⟨e, h⟩ | ⟨w, h, -, -, hg, -⟩
  · rw [h]; exact ⟨rfl, Nat.le_refl _⟩
  · rw [h]; exact hg

theorem resize_wf [Zero T] (v : DspVec T) (n : Nat) (hk : v.NotInline) (hv : v.WF) :
    (v.resize n).1.WF := by
  rcases resize_cases v n hk with ⟨e, h⟩ | ⟨w, h, -, hw, -, -⟩
  · rw [h]; exact hv
  · rw [h]; exact hw

theorem onPoints_keeps {v w : DspVec T} {f g} (h : v.onPoints f g = some w) : Keeps v w := by
  simp only [onPoints, Option.bind_eq_bind, Option.bind_eq_some_iff] at h
  obtain ⟨valid, -, h⟩ := h
  split at h
  · simp only [Option.bind_eq_some_iff, Option.some.injEq] at h
    obtain ⟨c, -, c', -, rfl⟩ := h
    exact keeps_splice _ _ _
  · simp only [Option.bind_eq_some_iff, Option.some.injEq] at h
    obtain ⟨c, -, rfl⟩ := h
    exact keeps_splice _ _ _

theorem swapHalvesPriv_keeps {v w : DspVec T} {f : Bool} (h : v.swapHalvesPriv f = some w) :
    Keeps v w := by
  unfold swapHalvesPriv at h
  split at h
  · simp at h; subst h; exact Keeps.refl v
  · exact onPoints_keeps h

theorem mapOutcome_keeps {v w : DspVec T} {o : Outcome (List T)} (h : v.mapOutcome o = .finished w) :
    Keeps v w := by
  cases o <;> simp [mapOutcome] at h
  subst h; exact keeps_splice _ _ _

theorem result_eq_some {α : Type} {o : Outcome α} {a : α} : o.result = some a ↔ o = .finished a := by
  cases o <;> simp [Outcome.result]

/-! ### Conversions of the meta data -/

theorem isComplex_asReal (v : DspVec T) : v.asReal.isComplex = false := by
  unfold asReal
  split
  · rfl
  · split <;> rfl

theorem isComplex_asComplex (v : DspVec T) : v.asComplex.isComplex = true := by
  unfold asComplex
  split
  · rfl
  · split <;> rfl

theorem data_asReal (v : DspVec T) : v.asReal.data = v.data ∧ v.asReal.validLen = v.validLen := by
  unfold asReal
  split
  · exact ⟨rfl, rfl⟩
  · split <;> exact ⟨rfl, rfl⟩

theorem data_asComplex (v : DspVec T) : v.asComplex.data = v.data ∧ v.asComplex.validLen = v.validLen := by
  unfold asComplex
  split
  · exact ⟨rfl, rfl⟩
  · split <;> exact ⟨rfl, rfl⟩

theorem data_rededicateForce (v : DspVec T) (ty : VecType) :
    (v.rededicateForce ty).data = v.data ∧ (v.rededicateForce ty).validLen = v.validLen := by
  cases ty <;> exact ⟨rfl, rfl⟩

theorem wf_of_len_zero {v : DspVec T} (h : v.validLen = 0) : v.WF := ⟨by omega, fun _ => by omega⟩

end DspVec
end Dsp
