import Verif.Model.Slice
/-
Model of vector/src/multicore_support/threading.rs: multi core settings, partitioning into chunks
and ranges, and the execution of workers on the chunks.
-/
namespace Dsp

/-- `Complexity`, vector/src/multicore_support/mod.rs:12-30. -/
inductive Complexity | small | medium | large
deriving DecidableEq, Repr

/-- `MultiCoreSettings`, threading.rs:193-204. -/
structure MultiCoreSettings where
  coreLimit : Nat
  medDual : Nat
  medMulti : Nat
  largeDual : Nat
  largeMulti : Nat
deriving DecidableEq, Repr

/-- `limit`, threading.rs:29-37. -/
def limit (value min max : Nat) : Nat :=
  if value < min then min else if value > max then max else value

/-- The thresholds of `Calibration`, threading.rs:17-26. -/
structure Calibration where
  medDual : Nat
  medMulti : Nat
  largeDual : Nat
  largeMulti : Nat
deriving DecidableEq, Repr

/-- The thresholds computed by `attempt_calibrate` from the measured intersections `dual`, `multi`
    (`none`: measurement or curve fitting failed, then `calibrate` uses the defaults),
    threading.rs:124-188. The time measurements themselves are parameters. -/
def calibrate (measured : Option (Nat × Nat)) : Calibration :=
  match measured with
  | none => ⟨50000, 100000, 20000, 30000⟩
  | some (dual, multi) =>
    let medDual := limit (2 * dual) 5000 100000
    let largeDual := limit dual 5000 100000
    ⟨medDual, limit (2 * multi) (medDual + 1) 200000,
     largeDual, limit multi (largeDual + 1) 200000⟩

namespace MultiCoreSettings

/-- `MultiCoreSettings::new`, threading.rs:238-257; `cal` is the global calibration. -/
def new (cal : Calibration) (coreLimit : Nat) : MultiCoreSettings :=
  if coreLimit ≤ 1 then ⟨1, 50000, 100000, 20000, 30000⟩
  else ⟨coreLimit, cal.medDual, cal.medMulti, cal.largeDual, cal.largeMulti⟩

/-- `MultiCoreSettings::single_threaded` and `default`, threading.rs:208-215. -/
def singleThreaded (cal : Calibration) : MultiCoreSettings := new cal 1

/-- `MultiCoreSettings::parallel`, threading.rs:218-229; `cores` is the number of CPUs. -/
def parallel (cal : Calibration) (cores : Nat) : MultiCoreSettings :=
  if cores = 1 then new cal 1 else if cores = 2 then new cal 2 else new cal (cores / 2)

/-- `MultiCoreSettings::with_thresholds`, threading.rs:265-280. -/
def withThresholds (coreLimit medDual medMulti largeDual largeMulti : Nat) : MultiCoreSettings :=
  ⟨coreLimit, medDual, max medMulti (medDual + 1), largeDual, max largeMulti (largeDual + 1)⟩

end MultiCoreSettings

/-- `Chunk::determine_number_of_chunks`, threading.rs:315-343. -/
def determineNumberOfChunks (len : Nat) (c : Complexity) (s : MultiCoreSettings) : Nat :=
  if s.coreLimit = 1 then s.coreLimit
  else match c with
    | .small => 1
    | .medium =>
      if len < s.medDual then 1 else if len < s.medMulti then 2 else s.coreLimit
    | .large =>
      if len < s.largeDual then 1 else if len < s.largeMulti then 2 else s.coreLimit

/-- `⌈x / y⌉`. -/
def ceilDiv (x y : Nat) : Nat := (x + y - 1) / y

/-- `Chunk::calc_chunk_size`, threading.rs:370-378. The `f64` division followed by `ceil` is exact
    for lengths below 2^53, it is modelled as exact. `number_of_chunks` and `step_size` are positive
    in all uses covered by the theorems. -/
def calcChunkSize (len step n : Nat) : Nat :=
  let c := ceilDiv len n
  if c % step > 0 then c + (step - c % step) else c

/-- The `k`-th block of `s` consecutive cells (the last one may be shorter). -/
def blk {T : Type} (s : Nat) (l : List T) (k : Nat) : List T := (l.drop (k * s)).take s

/-- `slice::chunks(c)` / `chunks_mut(c)`: panics for `c = 0`. -/
def chunks {T : Type} (c : Nat) (l : List T) : Option (List (List T)) :=
  if c = 0 then none else some ((List.range (ceilDiv l.length c)).map (blk c l))

/-- `Chunk::partition` and `partition_mut`, threading.rs:349-368. -/
def partition {T : Type} (l : List T) (step n : Nat) : Option (List (List T)) :=
  chunks (calcChunkSize l.length step n) l

/-- The loop of `partition_in_ranges`, threading.rs:390-402: `i` counts up from `n - rest`. -/
def rangesLoop (len c n : Nat) : Nat → Nat → Nat → List (Nat × Nat)
  | 0, _, _ => []
  | rest + 1, i, sum =>
    let newSum := if i < n - 1 then sum + c else len
    (sum, newSum) :: rangesLoop len c n rest (i + 1) newSum

/-- `Chunk::partition_in_ranges`, threading.rs:381-405. -/
def partitionInRanges (len step n : Nat) : List (Nat × Nat) :=
  rangesLoop len (calcChunkSize len step n) n n 0 0

/-- The number of workers which take part in an operation: the number of chunks into which
    `partition` cuts the array (threading.rs:442-448, 474-480, 531-538), or the calling thread
    alone. -/
def workerCount (len step : Nat) (c : Complexity) (s : MultiCoreSettings) : Nat :=
  let n := determineNumberOfChunks len c s
  if n > 1 then ceilDiv len (calcChunkSize len step n) else 1

/-! ### Workers -/

/-- A worker thread: it owns the cells `lo .. lo + len` of the shared array (guaranteed by Rust's
    borrow rules through `chunks_mut`) and still has to execute the atomic steps `todo` on them. -/
structure Worker (T : Type) where
  lo : Nat
  len : Nat
  todo : List (List T → List T)

/-- The shared array and the spawned workers. -/
structure Par (T : Type) where
  mem : List T
  workers : List (Worker T)

/-- One atomic step of worker `i` (nothing happens if it does not exist or has terminated). -/
def Par.step {T : Type} (p : Par T) (i : Nat) : Par T :=
  match p.workers[i]? with
  | some ⟨lo, len, f :: fs⟩ =>
    { mem := splice p.mem lo (f ((p.mem.drop lo).take len)),
      workers := p.workers.set i ⟨lo, len, fs⟩ }
  | _ => p

/-- Execute the workers in the order given by the schedule. -/
def Par.run {T : Type} (p : Par T) (sched : List Nat) : Par T := sched.foldl Par.step p

/-- All workers have terminated: `crossbeam::scope` returns. -/
def Par.isDone {T : Type} (p : Par T) : Bool := p.workers.all (fun w => w.todo.isEmpty)

/-- Result of an execution: panic, still running at the end of the schedule, or finished. -/
inductive Outcome (α : Type)
  | panic
  | running
  | finished (a : α)
deriving DecidableEq, Repr

/-- Outcome of running `p` with a schedule. -/
def Par.outcome {T : Type} (p : Par T) (sched : List Nat) : Outcome (List T) :=
  if (p.run sched).isDone then .finished (p.run sched).mem else .running

/-- Spawn one worker per chunk, with the program `body start length` where `start` is the begin
    of the announced range (`for chunk in chunks.zip(ranges)`, threading.rs:475-480). The chunks lie
    one behind the other in the array, the first at `lo`. -/
def spawn {T : Type} (body : Nat → Nat → List (List T → List T)) :
    Nat → List (List T) → List (Nat × Nat) → List (Worker T)
  | lo, c :: cs, r :: rs => ⟨lo, c.length, body r.1 c.length⟩ :: spawn body (lo + c.length) cs rs
  | _, _, _ => []

/-- `Chunk::execute_with_range`, threading.rs:454-493. `body start len` is the program of
    `function` on a chunk with `len` cells whose announced range begins at `start`.
    `Chunk::execute_partial` and `execute_on_chunks`, threading.rs:407-451 are the special case of a
    body which ignores `start`. -/
def executeWithRange {T : Type} (c : Complexity) (s : MultiCoreSettings) (a : List T)
    (step : Nat) (body : Nat → Nat → List (List T → List T)) (sched : List Nat) :
    Outcome (List T) :=
  let n := determineNumberOfChunks a.length c s
  if n > 1 then
    match partition a step n with
    | none => .panic
    | some cs =>
      let ranges := partitionInRanges a.length step cs.length
      Par.outcome ⟨a, spawn body 0 cs ranges⟩ sched
  else .finished ((body 0 a.length).foldl (fun m f => f m) a)

/-- `Chunk::from_src_to_dest`, threading.rs:721-766: the target is cut into chunks, the ranges are
    computed for the source; `body` may read the whole source (it is a parameter of the body). -/
def fromSrcToDest {T : Type} (c : Complexity) (s : MultiCoreSettings) (srcLen srcStep : Nat)
    (target : List T) (targetStep : Nat) (body : Nat → Nat → List (List T → List T))
    (sched : List Nat) : Outcome (List T) :=
  let n := determineNumberOfChunks srcLen c s
  if n > 1 then
    match partition target targetStep n with
    | none => .panic
    | some cs =>
      let ranges := partitionInRanges srcLen srcStep cs.length
      Par.outcome ⟨target, spawn body 0 cs ranges⟩ sched
  else .finished ((body 0 target.length).foldl (fun m f => f m) target)

/-- Step `k` of a loop over the blocks of `s` cells of a chunk: block `k` is replaced, the counter
    into the source starts at `start` and advances by `p` per block. This is the shape of the
    closures passed to `Chunk`, e.g. vector_types/mod.rs:320-326 (`s = p = 1`),
    data_reorganization.rs:276-286 (`s = tuple * factor`, `p = tuple`). -/
def blockStep {T : Type} (s p : Nat) (g : Nat → List T → List T) (start k : Nat) (c : List T) :
    List T :=
  splice c (k * s) (g (start + k * p) (blk s c k))

/-- The loop over all blocks of a chunk with `len` cells, as a program. -/
def blockLoop {T : Type} (s p : Nat) (g : Nat → List T → List T) (start len : Nat) :
    List (List T → List T) :=
  (List.range (ceilDiv len s)).map (blockStep s p g start)

/-- The results of the chunks in the order in which the workers push them into the shared result
    vector (`order`: a list of chunk numbers). `Chunk::map_on_array_chunks`, threading.rs:495-542;
    `get_chunked_results`, threading.rs:668-717. The early return for an empty array exists only in
    `get_chunked_results` (`emptyCheck`). -/
def chunkedResults {T R : Type} (emptyCheck : Bool) (c : Complexity) (s : MultiCoreSettings)
    (a : List T) (step : Nat) (f : List T → Nat × Nat → R) (order : List Nat) :
    Option (List R) :=
  if emptyCheck && a.isEmpty then some []
  else
    let n := determineNumberOfChunks a.length c s
    if n > 1 then do
      let cs ← partition a step n
      let ranges := partitionInRanges a.length step cs.length
      let rs := List.zipWith f cs ranges
      some (order.filterMap (fun i => rs[i]?))
    else some [f a (0, a.length)]

/-- `Chunk::get_zipped`, threading.rs:614-666: chunks of `b`, ranges of `a`. -/
def getZipped {T R : Type} (c : Complexity) (s : MultiCoreSettings)
    (a : List T) (aStep : Nat) (b : List T) (bStep : Nat)
    (f : List T → Nat × Nat → List T → R) (order : List Nat) : Option (List R) :=
  if a.isEmpty then some []
  else
    let n := determineNumberOfChunks a.length c s
    if n > 1 then do
      let cs ← partition b bStep n
      let ranges := partitionInRanges a.length aStep cs.length
      let rs := List.zipWith (fun ch r => f a r ch) cs ranges
      some (order.filterMap (fun i => rs[i]?))
    else some [f a (0, a.length) b]

end Dsp
