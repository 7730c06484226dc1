import Verif.Model.NoThreading
import Verif.Props.Chunk
import Verif.Props.Windows
/-
C76: a build without threads has the same results as a build with threads.
-/
namespace Dsp
variable {T : Type}

theorem one_core (st : MultiCoreSettings) (h : st.coreLimit = 1) (n : Nat) (c : Complexity) : determineNumberOfChunks n c st = 1 := by
  unfold determineNumberOfChunks; rw [if_pos h, h]

/-- C76: with one core the threaded executors are those of the build without threads, for every closure, for all schedules and
    completion orders, also where they panic. -/
theorem C76_one_core (st : MultiCoreSettings) (h : st.coreLimit = 1) (c : Complexity) (a : List T) (step : Nat) (sched : List Nat) :
    (∀ body, executeWithRange c st a step body sched = .finished (NoThreading.executeWithRange a body)) ∧
    (∀ (src : Nat) srcStep body, fromSrcToDest c st src srcStep a step body sched = .finished (NoThreading.fromSrcToDest a body)) ∧
    (∀ (R : Type) e (f : List T → Nat × Nat → R), chunkedResults e c st a step f sched = some (NoThreading.chunkedResults e a f)) ∧
    (∀ (R : Type) b bStep (f : List T → Nat × Nat → List T → R),
      getZipped c st a step b bStep f sched = some (NoThreading.getZipped a b f)) ∧
    ∀ closure, executeSymPairs c st a step closure sched =
      match NoThreading.executeSymPairs a step closure with
      | none => .panic
      | some r => .finished r := by
  refine ⟨fun body => ?_, fun src srcStep body => ?_, fun R e f => ?_, fun R b bStep f => ?_, fun closure => ?_⟩
  · unfold executeWithRange NoThreading.executeWithRange
    simp [one_core st h]
  · unfold fromSrcToDest NoThreading.fromSrcToDest
    simp [one_core st h]
  · unfold chunkedResults NoThreading.chunkedResults
    simp only [one_core st h]
    split <;> rfl
  · unfold getZipped NoThreading.getZipped
    simp only [one_core st h]
    split <;> rfl
  · unfold executeSymPairs NoThreading.executeSymPairs
    simp only [one_core st h, Nat.mul_one]
    cases partition a step 2 with
    | none => rfl
    | some cs =>
      match cs with
      | [] => rfl
      | [_] => rfl
      | c1 :: c2 :: rest =>
        simp only [Nat.lt_irrefl, if_false, Option.bind_eq_bind, Option.bind_some, gt_iff_lt]
        cases closure ⟨0, c1.length, (0, c1.length), c1.length, c2.length, (c1.length, a.length)⟩ with
        | none => rfl
        | some us => rfl

/-- C76, element-wise operations: for all settings and schedules the threaded build has the result of the build without threads. -/
theorem C76_element_wise (a : List T) (ha : a ≠ []) (s step : Nat) (hs : 0 < s) (hstep : 0 < step) (hdvd : s ∣ step)
    (g : Nat → List T → List T) (hg : ∀ i b, b.length ≤ s → (g i b).length = b.length) (c : Complexity) (st : MultiCoreSettings) :
    Always (executeWithRange c st a step (blockLoop s s g)) (NoThreading.executeWithRange a (blockLoop s s g)) := by
  obtain ⟨r, -, h⟩ := C13_schedule_independent a ha s step hs hstep hdvd g hg
  have e := (h c (.withThresholds 1 0 0 0 0)).1 []
  rw [(C76_one_core (.withThresholds 1 0 0 0 0) rfl c a step []).1] at e
  simp only [reduceCtorEq, Outcome.finished.injEq, false_or] at e
  rw [e]; exact h c st

/-- C76, operations which read a source and write a target. -/
theorem C76_source_target (target : List T) (srcLen t b m s : Nat) (ht : 0 < t) (hb : 0 < b) (hm : 0 < m) (hs : 0 < s)
    (htl : target.length = t * m) (hsl : srcLen = b * m) (g : Nat → List T → List T)
    (hg : ∀ i x, x.length ≤ t → (g i x).length = x.length) (c : Complexity) (st : MultiCoreSettings) :
    Always (fromSrcToDest c st srcLen (b * s) target (t * s) (blockLoop t b g))
      (NoThreading.fromSrcToDest target (blockLoop t b g)) := by
  obtain ⟨r, -, -, h⟩ := C13_source_target target srcLen t b m s ht hb hm hs htl hsl g hg
  have e := (h c (.withThresholds 1 0 0 0 0)).1 []
  rw [(C76_one_core (.withThresholds 1 0 0 0 0) rfl c target (t * s) []).2.1] at e
  simp only [reduceCtorEq, Outcome.finished.injEq, false_or] at e
  rw [e]; exact h c st

/-- C76, reductions: the results of all chunks, in whatever order they come, add up to the result of the build without threads. -/
theorem C76_reduction {R : Type} [AddCommMonoid R] (a : List T) (ha : a ≠ []) (step : Nat) (hs : 0 < step) (F : Nat → List T → R)
    (hF : Additive step F) (emptyCheck : Bool) (c : Complexity) (st : MultiCoreSettings) (order : List Nat)
    (horder : order.Perm (List.range (workerCount a.length step c st))) :
    ∃ rs, chunkedResults emptyCheck c st a step (fun x r => F r.1 x) order = some rs ∧
      rs.sum = (NoThreading.chunkedResults emptyCheck a (fun x r => F r.1 x)).sum := by
  obtain ⟨rs, h1, -, h3⟩ := C14_reduction_order_independent a ha step hs F hF emptyCheck c st order horder
  refine ⟨rs, h1, ?_⟩
  rw [h3]
  unfold NoThreading.chunkedResults
  have : a.isEmpty = false := by cases a <;> simp_all
  simp [this]

/-- Four numbers on two workers and without threads. -/
example : executeWithRange .large (.withThresholds 2 0 0 0 0) ([1, 2, 3, 4] : List Int) 1 (blockLoop 1 1 (fun i b => b.map (· + i))) [0, 1, 1, 0]
      = .finished [1, 3, 5, 7] ∧
    NoThreading.executeWithRange ([1, 2, 3, 4] : List Int) (blockLoop 1 1 (fun i b => b.map (· + i))) = [1, 3, 5, 7] := by decide

end Dsp
