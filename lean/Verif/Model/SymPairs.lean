import Verif.Model.Chunk
import Verif.Model.Complex
import Verif.Model.Elementary
/-
Model of `Chunk::execute_sym_pairs_with_range` (multicore_support/threading.rs) and of the window
functions (vector_types/mod.rs, time_freq/time.rs, window_functions.rs).
-/
namespace Dsp

/-! ### Workers which own two chunks

A worker of `execute_sym_pairs_with_range` owns two chunks of the array. Its program is a list of
atomic updates of single cells. -/

/-- A program: a list of updates of cells (position in the array, new value from the old one). -/
abbrev CellProg (α : Type) := List (Nat × (α → α))

/-- The shared array and the remaining programs of the workers. -/
structure CellPar (α : Type) where
  mem : List α
  progs : List (CellProg α)

/-- One atomic step of worker `i`. -/
def CellPar.step {α : Type} (p : CellPar α) (i : Nat) : CellPar α :=
  match p.progs[i]? with
  | some ((q, f) :: us) => ⟨p.mem.modify q f, p.progs.set i us⟩
  | _ => p

/-- Execute the workers in the order given by the schedule. -/
def CellPar.run {α : Type} (p : CellPar α) (sched : List Nat) : CellPar α := sched.foldl CellPar.step p

/-- All workers have terminated: `crossbeam::scope` returns. -/
def CellPar.isDone {α : Type} (p : CellPar α) : Bool := p.progs.all List.isEmpty

/-- Outcome of running the workers with a schedule. -/
def CellPar.outcome {α : Type} (p : CellPar α) (sched : List Nat) : Outcome (List α) :=
  if (p.run sched).isDone then .finished (p.run sched).mem else .running

/-- The whole program executed by one thread. -/
def runCells {α : Type} (us : CellProg α) (a : List α) : List α :=
  us.foldl (fun m u => m.modify u.1 u.2) a

/-- Position and length of consecutive chunks, the first one begins at `lo`. -/
def spansFrom {α : Type} : Nat → List (List α) → List (Nat × Nat)
  | _, [] => []
  | lo, c :: cs => (lo, c.length) :: spansFrom (lo + c.length) cs

/-- The argument pair of the closure: position, length and announced range of both chunks. -/
structure SymPair where
  lo1 : Nat
  len1 : Nat
  range1 : Nat × Nat
  lo2 : Nat
  len2 : Nat
  range2 : Nat × Nat
deriving DecidableEq, Repr

/-- The pairs of the multi threaded path, threading.rs:565-590: the first `n / 2` chunks are paired
    with the remaining ones in reverse order, chunks without a partner are dropped by `zip`. -/
def symPairs (n : Nat) (spans ranges : List (Nat × Nat)) : List SymPair :=
  List.zipWith (fun (x y : (Nat × Nat) × (Nat × Nat)) => ⟨x.1.1, x.1.2, x.2, y.1.1, y.1.2, y.2⟩)
    (List.zip (spans.take (n / 2)) (ranges.take (n / 2)))
    (List.zip (spans.drop (n / 2)).reverse (ranges.drop (n / 2)).reverse)

/-- `Chunk::execute_sym_pairs_with_range`, threading.rs:545-612. `closure` is the program of
    `function` on a pair of chunks (`none`: an assertion in it fails). -/
def executeSymPairs {α : Type} (c : Complexity) (s : MultiCoreSettings) (a : List α) (step : Nat)
    (closure : SymPair → Option (CellProg α)) (sched : List Nat) : Outcome (List α) :=
  let n := 2 * determineNumberOfChunks a.length c s
  match partition a step n with
  | none => .panic
  | some cs =>
    if n > 2 then
      match (symPairs n (spansFrom 0 cs) (partitionInRanges a.length step cs.length)).mapM closure with
      | none => .panic
      | some ps => CellPar.outcome ⟨a, ps⟩ sched
    else
      match cs with
      | c1 :: c2 :: _ =>
        match closure ⟨0, c1.length, (0, c1.length), c1.length, c2.length, (c1.length, a.length)⟩ with
        | none => .panic
        | some us => .finished (runCells us a)
      | _ => .panic

/-! ### Windows -/

/-- The loop `for (num1, num2) in iter1.zip(iter2)`, mod.rs:575-584: the cells of the first chunk
    forward and those of the second chunk backward, both are multiplied with `w j`. -/
def windowZip {α : Type} [Mul α] (w : Nat → α) (p : SymPair) : CellProg α :=
  (List.range p.len2).flatMap (fun k =>
    [(p.lo1 + k, (· * w (p.range1.1 + k))), (p.lo2 + (p.len2 - 1 - k), (· * w (p.range1.1 + k)))])

/-- The loop over the remaining cells of the first chunk, mod.rs:586-590. -/
def windowTail {α : Type} [Mul α] (w : Nat → α) (p : SymPair) : CellProg α :=
  (List.range (p.len1 - p.len2)).map (fun k =>
    (p.lo1 + (p.len2 + k), (· * w (p.range1.1 + (p.len2 + k)))))

/-- The closure of `multiply_window_priv`, vector_types/mod.rs:568-592. -/
def windowClosure {α : Type} [Mul α] (w : Nat → α) (p : SymPair) : Option (CellProg α) :=
  if p.len2 ≤ p.len1 then some (windowZip w p ++ windowTail w p) else none

/-- `multiply_window_priv` on the converted slice (`α` is `T` or `Complex<T>`),
    vector_types/mod.rs:526-594. `w i` is `fun(arg, i, points)`. -/
def multiplyWindow {α : Type} [Mul α] (st : MultiCoreSettings) (symmetric : Bool) (w : Nat → α)
    (a : List α) (sched : List Nat) : Outcome (List α) :=
  if symmetric then executeSymPairs .medium st a 1 (windowClosure w) sched
  else executeWithRange .medium st a 1 (blockLoop 1 1 (fun j b => b.map (· * w j))) sched

/-- A window function: `is_symmetric()` and `window(n, length)`, window_functions.rs:14-24. -/
structure WindowFunction (T : Type) where
  isSymmetric : Bool
  window : Nat → Nat → T

namespace DspVec
variable {T : Type}

/-- The two branches of `apply_window` and `unapply_window`, time.rs:33-49 and 52-68: the
    slice `0..len` is multiplied with the factors `f i points`, as complex numbers for a complex
    vector. -/
def multiplyWindowBy [Zero T] [Add T] [Sub T] [Mul T] (st : MultiCoreSettings) (symmetric : Bool)
    (f : Nat → Nat → T) (v : DspVec T) (sched : List Nat) : Outcome (DspVec T) :=
  match v.content with
  | none => .panic
  | some c =>
    if v.isComplex then
      match toComplex? c with
      | none => .panic
      | some cs =>
        match multiplyWindow (α := Cx T) st symmetric (fun i => ⟨f i v.points, 0⟩) cs sched with
        | .panic => .panic
        | .running => .running
        | .finished r => .finished (v.withCells (splice v.data.cells 0 (fromComplex r)))
    else
      match multiplyWindow st symmetric (fun i => f i v.points) c sched with
      | .panic => .panic
      | .running => .running
      | .finished r => .finished (v.withCells (splice v.data.cells 0 r))

/-- `TimeDomainOperations::apply_window`, time.rs:32-50. -/
def applyWindow [Zero T] [Add T] [Sub T] [Mul T] (st : MultiCoreSettings) (w : WindowFunction T)
    (v : DspVec T) (sched : List Nat) : Outcome (DspVec T) :=
  v.multiplyWindowBy st w.isSymmetric w.window sched

/-- `TimeDomainOperations::unapply_window`, time.rs:52-69. -/
def unapplyWindow [Zero T] [One T] [Add T] [Sub T] [Mul T] [Div T] (st : MultiCoreSettings)
    (w : WindowFunction T) (v : DspVec T) (sched : List Nat) : Outcome (DspVec T) :=
  v.multiplyWindowBy st w.isSymmetric (fun i n => 1 / w.window i n) sched

end DspVec
end Dsp
