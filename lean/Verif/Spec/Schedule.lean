import Verif.Model.Chunk
/-
Specification of schedule independence.
-/
namespace Dsp

/-- Specification: `run` (a function of the schedule) never panics; whenever all workers have
    terminated the result is `r`; and there is a schedule with which all workers terminate. -/
def Always {α : Type} (run : List Nat → Outcome α) (r : α) : Prop :=
  (∀ sched, run sched = .running ∨ run sched = .finished r) ∧ ∃ sched, run sched = .finished r

theorem Always.const {α : Type} (r : α) : Always (fun _ => .finished r) r :=
  ⟨fun _ => .inr rfl, [], rfl⟩

theorem Always.congr {α : Type} {run run' : List Nat → Outcome α} {r : α}
    (h : Always run r) (e : ∀ s, run' s = run s) : Always run' r := by
  have : run' = run := funext e
  rw [this]; exact h

/-- Post processing of the result. -/
theorem Always.map {α β : Type} {run : List Nat → Outcome α} {run' : List Nat → Outcome β} {r : α}
    {r' : β} (h : Always run r) (h1 : ∀ s, run s = .running → run' s = .running)
    (h2 : ∀ s, run s = .finished r → run' s = .finished r') : Always run' r' := by
  obtain ⟨ha, s, hs⟩ := h
  exact ⟨fun s => (ha s).imp (h1 s) (h2 s), s, h2 s hs⟩

end Dsp
