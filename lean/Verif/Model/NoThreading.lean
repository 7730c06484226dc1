import Verif.Model.Chunk
import Verif.Model.SymPairs
/-
Model of multicore_support/no_threading.rs: the `Chunk` of a build without the feature `std`. The settings are an empty structure; a
closure is a program as in Model/Chunk.lean, run by the calling thread.
-/
namespace Dsp.NoThreading
variable {T : Type}

/-- `execute_partial` and `execute_with_range`, no_threading.rs:53-68, 71-93. -/
def executeWithRange (a : List T) (body : Nat → Nat → List (List T → List T)) : List T :=
  (body 0 a.length).foldl (fun m f => f m) a

/-- `from_src_to_dest`, no_threading.rs:235-259. -/
def fromSrcToDest (target : List T) (body : Nat → Nat → List (List T → List T)) : List T :=
  (body 0 target.length).foldl (fun m f => f m) target

/-- `map_on_array_chunks`, no_threading.rs:97-121 (`emptyCheck = false`) and `get_chunked_results`, 201-230 (`emptyCheck = true`). -/
def chunkedResults {R : Type} (emptyCheck : Bool) (a : List T) (f : List T → Nat × Nat → R) : List R :=
  if emptyCheck && a.isEmpty then [] else [f a (0, a.length)]

/-- `get_zipped`, no_threading.rs:167-197. -/
def getZipped {R : Type} (a b : List T) (f : List T → Nat × Nat → List T → R) : List R :=
  if a.isEmpty then [] else [f a (0, a.length) b]

/-- `execute_sym_pairs_with_range`, no_threading.rs:132-163, with `partition_mut` and `calc_chunk_size`, 262-280 (the same as in
    threading.rs). `none`: panic (`unwrap` without a second chunk, chunk size zero, an assertion in the closure). -/
def executeSymPairs {α : Type} (a : List α) (step : Nat) (closure : SymPair → Option (CellProg α)) : Option (List α) := do
  let cs ← partition a step 2
  match cs with
  | c1 :: c2 :: _ =>
    let us ← closure ⟨0, c1.length, (0, c1.length), c1.length, c2.length, (c1.length, a.length)⟩
    some (runCells us a)
  | _ => none

end Dsp.NoThreading
