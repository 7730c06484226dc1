import Verif.Model.Vec
import Verif.Model.Chunk
import Verif.Model.Sums
/-
Model of vector_types/general/statistics.rs (statistics), precise_stats.rs (statistics) and
mapping.rs.
-/
namespace Dsp

/-- A number of type `E` or one of the special values of a float. A complex `(inf, inf)` is
    `posInf`. -/
inductive Ext (E : Type)
  | nan
  | negInf
  | fin (x : E)
  | posInf
deriving DecidableEq, Repr

/-- The comparison `a < b` of floats; numbers are compared by `norm` (the identity for real
    numbers, `Complex::norm` for complex numbers). Comparisons with `NaN` are false. -/
def Ext.lt {E K : Type} [LT K] [DecidableLT K] (norm : E → K) : Ext E → Ext E → Bool
  | .nan, _ => false
  | _, .nan => false
  | .negInf, .negInf => false
  | .negInf, _ => true
  | .fin _, .negInf => false
  | .fin x, .fin y => decide (norm x < norm y)
  | .fin _, .posInf => true
  | .posInf, _ => false

/-- `Statistics`, statistics.rs:11-31. `none` stands for `NaN`. -/
structure Statistics (E : Type) where
  sum : E
  count : Nat
  average : Option E
  rms : Option E
  min : Ext E
  minIndex : Nat
  max : Ext E
  maxIndex : Nat
deriving DecidableEq, Repr

/-- What `Stats<T>` and `Stats<Complex<T>>` differ in: the norm by which numbers are compared, the
    initial minimum and maximum, the division by the count and the square root (a parameter of the model). -/
structure StatOps (E K : Type) where
  norm : E → K
  initMin : Ext E
  initMax : Ext E
  divN : E → Nat → E
  sqrt : E → E

/-- `Stats<T>`, statistics.rs:181-264. -/
def realStatOps {T : Type} [Div T] [NatCast T] (sqrt : T → T) : StatOps T T :=
  ⟨fun x => x, .posInf, .negInf, fun x n => x / (n : T), sqrt⟩

/-- `Stats<Complex<T>>`, statistics.rs:266-354; `norm` is `Complex::norm`. -/
def complexStatOps {T K : Type} [Zero T] [Div T] [NatCast T] (norm : Cx T → K)
    (sqrt : Cx T → Cx T) : StatOps (Cx T) K :=
  ⟨norm, .posInf, .fin ⟨0, 0⟩, fun x n => ⟨x.re / (n : T), x.im / (n : T)⟩, sqrt⟩

section
variable {E K : Type} [Add E] [Sub E] [Mul E] [Zero E] [LT K] [DecidableLT K] (ops : StatOps E K)

namespace Statistics

/-- `Stats::empty`, statistics.rs:185-196, 270-282. -/
def empty : Statistics E := ⟨0, 0, some 0, some 0, ops.initMin, 0, ops.initMax, 0⟩

/-- `Stats::invalid`, statistics.rs:198-209, 284-295. -/
def invalid : Statistics E := ⟨0, 0, none, none, .nan, 0, .nan, 0⟩

/-- The update of minimum and maximum, statistics.rs:255-262, 345-352. -/
def addMinMax (s : Statistics E) (elem : E) (index : Nat) : Statistics E :=
  let s := if Ext.lt ops.norm s.max (.fin elem) then { s with max := .fin elem, maxIndex := index } else s
  if Ext.lt ops.norm (.fin elem) s.min then { s with min := .fin elem, minIndex := index } else s

/-- `Stats::add`, statistics.rs:251-263, 341-353. -/
def add (s : Statistics E) (elem : E) (index : Nat) : Statistics E :=
  addMinMax ops { s with
    sum := s.sum + elem
    count := s.count + 1
    rms := s.rms.map (· + elem * elem) } elem index

/-- The loop of `Stats::merge`, statistics.rs:223-234, 311-325: note the `else if`. The fields
    `average` is not used. -/
def mergeLoop (acc : Statistics E) (stats : List (Statistics E)) : Statistics E :=
  stats.foldl (fun a s =>
    let a := { a with
      sum := a.sum + s.sum
      count := a.count + s.count
      rms := do let x ← a.rms; let y ← s.rms; some (x + y) }
    if Ext.lt ops.norm a.max s.max then { a with max := s.max, maxIndex := s.maxIndex }
    else if Ext.lt ops.norm s.min a.min then { a with min := s.min, minIndex := s.minIndex }
    else a) acc

/-- `Stats::merge`, statistics.rs:211-246, 297-336. A division by a count of zero gives `NaN` (the sum
    is zero then). -/
def merge (stats : List (Statistics E)) : Statistics E :=
  match stats with
  | [] => invalid
  | s0 :: _ =>
    let r := mergeLoop ops ⟨0, 0, none, some 0, s0.min, s0.minIndex, s0.max, s0.maxIndex⟩ stats
    { r with
      average := if r.count = 0 then none else some (ops.divN r.sum r.count)
      rms := r.rms.bind fun x => if r.count = 0 then none else some (ops.sqrt (ops.divN x r.count)) }

/-- `Stats::merge_cols`, statistics.rs:152-169. `s[i]` panics if the columns have different
    lengths. -/
def mergeCols (stats : List (List (Statistics E))) : Option (List (Statistics E)) :=
  match stats with
  | [] => some []
  | s0 :: _ => (List.range s0.length).mapM fun i => do
    let col ← stats.mapM fun s => get s i
    some (merge ops col)

/-- The loop `for num in array { stats.add(*num, j); j += 1; }` beginning with index `j`,
    statistics.rs:374-381, 598-606. -/
def addAll (s : Statistics E) (j : Nat) (l : List E) : Statistics E :=
  (l.zipIdx j).foldl (fun s x => add ops s x.1 x.2) s

/-- The loop of `statistics_split`, statistics.rs:416-424, 641-650: element `j` goes to bucket
    `j % len` with index `j / len`. -/
def splitLoop (k j : Nat) (rs : List (Statistics E)) (l : List E) :
    Option (List (Statistics E)) :=
  (l.zipIdx j).foldlM (fun rs x =>
    if k = 0 then none
    else do
      let s ← get rs (x.2 % k)
      put rs (x.2 % k) (add ops s x.1 (x.2 / k))) rs

/-- `PreciseStats::add_prec`, precise_stats.rs:622-643, 651-677: state (statistics, sumc, rmsc). -/
def addPrec (st : Statistics E × E × E) (elem : E) (index : Nat) : Statistics E × E × E :=
  let (s, sumc, rmsc) := st
  let (sum, sumc) := kahanStep (· + ·) (· - ·) (s.sum, sumc) elem
  match s.rms with
  | none => (addMinMax ops { s with sum := sum, count := s.count + 1 } elem index, sumc, rmsc)
  | some q =>
    let (q, rmsc) := kahanStep (· + ·) (· - ·) (q, rmsc) (elem * elem)
    (addMinMax ops { s with sum := sum, count := s.count + 1, rms := some q } elem index, sumc, rmsc)

/-- The loop of `statistics_prec`, precise_stats.rs:217-227, 460-471. -/
def addAllPrec (j : Nat) (l : List E) : Statistics E :=
  ((l.zipIdx j).foldl (fun s x => addPrec ops s x.1 x.2) (empty ops, 0, 0)).1

/-- The loop of `statistics_split_prec`, precise_stats.rs:259-271, 506-521: the compensations are
    shared by all buckets. -/
def splitLoopPrec (k j : Nat) (rs : List (Statistics E)) (l : List E) :
    Option (List (Statistics E)) := do
  let r ← (l.zipIdx j).foldlM (fun (st : List (Statistics E) × E × E) x =>
    if k = 0 then none
    else do
      let s ← get st.1 (x.2 % k)
      let n := addPrec ops (s, st.2.1, st.2.2) x.1 (x.2 / k)
      let rs ← put st.1 (x.2 % k) n.1
      some (rs, n.2.1, n.2.2)) (rs, 0, 0)
  some r.1

end Statistics

/-- `STATS_VEC_CAPACTIY`, statistics.rs:34. -/
def statsVecCapacity : Nat := 16

end

namespace DspVec
variable {T K : Type}
open Statistics

/-- `statistics` of real vectors, statistics.rs:365-386. -/
def statistics [Add T] [Mul T] [Zero T] [LT K] [DecidableLT K] (ops : StatOps T K)
    (st : MultiCoreSettings) (v : DspVec T) (order : List Nat) : Option (Statistics T) := do
  let a ← v.content
  let chunks ← chunkedResults true .small st a 1 (fun ch r => addAll ops (empty ops) r.1 ch) order
  some (merge ops chunks)

/-- `statistics` of complex vectors, statistics.rs:589-611. -/
def statisticsComplex [Add T] [Sub T] [Mul T] [Zero T] [LT K] [DecidableLT K]
    (ops : StatOps (Cx T) K) (st : MultiCoreSettings) (v : DspVec T) (order : List Nat) :
    Option (Statistics (Cx T)) := do
  let a ← v.content
  let chunks ← chunkedResults true .small st a 2
    (fun ch r => (toComplex? ch).map (addAll ops (empty ops) (r.1 / 2))) order
  let chunks ← chunks.mapM id
  some (merge ops chunks)

/-- `statistics_split` of real vectors, statistics.rs:398-429. -/
def statisticsSplit [Add T] [Mul T] [Zero T] [LT K] [DecidableLT K] (ops : StatOps T K)
    (st : MultiCoreSettings) (v : DspVec T) (k : Nat) (order : List Nat) :
    Option (Except ErrorReason (List (Statistics T))) :=
  if k = 0 then some (.ok [])
  else if k > statsVecCapacity then some (.error .invalidArgumentLength)
  else do
    let a ← v.content
    let chunks ← chunkedResults true .small st a 1
      (fun ch r => splitLoop ops k r.1 (List.replicate k (empty ops)) ch) order
    let chunks ← chunks.mapM id
    let r ← mergeCols ops chunks
    some (.ok r)

/-- `statistics_split` of complex vectors, statistics.rs:623-655. -/
def statisticsSplitComplex [Add T] [Sub T] [Mul T] [Zero T] [LT K] [DecidableLT K]
    (ops : StatOps (Cx T) K) (st : MultiCoreSettings) (v : DspVec T) (k : Nat) (order : List Nat) :
    Option (Except ErrorReason (List (Statistics (Cx T)))) :=
  if k = 0 then some (.ok [])
  else if k > statsVecCapacity then some (.error .invalidArgumentLength)
  else do
    let a ← v.content
    let chunks ← chunkedResults true .small st a 2
      (fun ch r => (toComplex? ch).bind (splitLoop ops k (r.1 / 2) (List.replicate k (empty ops)))) order
    let chunks ← chunks.mapM id
    let r ← mergeCols ops chunks
    some (.ok r)

/-- `statistics_prec` of real `f64` vectors, precise_stats.rs:208-231. -/
def statisticsPrec [Add T] [Sub T] [Mul T] [Zero T] [LT K] [DecidableLT K] (ops : StatOps T K)
    (st : MultiCoreSettings) (v : DspVec T) (order : List Nat) : Option (Statistics T) := do
  let a ← v.content
  let chunks ← chunkedResults true .small st a 1 (fun ch r => addAllPrec ops r.1 ch) order
  some (merge ops chunks)

/-- `statistics_prec` of complex `f64` vectors, precise_stats.rs:451-475. -/
def statisticsPrecComplex [Add T] [Sub T] [Mul T] [Zero T] [LT K] [DecidableLT K]
    (ops : StatOps (Cx T) K) (st : MultiCoreSettings) (v : DspVec T) (order : List Nat) :
    Option (Statistics (Cx T)) := do
  let a ← v.content
  let chunks ← chunkedResults true .small st a 2
    (fun ch r => (toComplex? ch).map (addAllPrec ops (r.1 / 2))) order
  let chunks ← chunks.mapM id
  some (merge ops chunks)

/-- `statistics_split_prec` of real `f64` vectors, precise_stats.rs:242-275. -/
def statisticsSplitPrec [Add T] [Sub T] [Mul T] [Zero T] [LT K] [DecidableLT K] (ops : StatOps T K)
    (st : MultiCoreSettings) (v : DspVec T) (k : Nat) (order : List Nat) :
    Option (Except ErrorReason (List (Statistics T))) :=
  if k = 0 then some (.ok [])
  else if k > statsVecCapacity then some (.error .invalidArgumentLength)
  else do
    let a ← v.content
    let chunks ← chunkedResults true .small st a 1
      (fun ch r => splitLoopPrec ops k r.1 (List.replicate k (empty ops)) ch) order
    let chunks ← chunks.mapM id
    let r ← mergeCols ops chunks
    some (.ok r)

/-- `statistics_split_prec` of complex `f64` vectors, precise_stats.rs:477-525. -/
def statisticsSplitPrecComplex [Add T] [Sub T] [Mul T] [Zero T] [LT K] [DecidableLT K]
    (ops : StatOps (Cx T) K) (st : MultiCoreSettings) (v : DspVec T) (k : Nat) (order : List Nat) :
    Option (Except ErrorReason (List (Statistics (Cx T)))) :=
  if k = 0 then some (.ok [])
  else if k > statsVecCapacity then some (.error .invalidArgumentLength)
  else do
    let a ← v.content
    let chunks ← chunkedResults true .small st a 2
      (fun ch r => (toComplex? ch).bind
        (splitLoopPrec ops k (r.1 / 2) (List.replicate k (empty ops)))) order
    let chunks ← chunks.mapM id
    let r ← mergeCols ops chunks
    some (.ok r)

/-- `statistics_prec` of real `f32` vectors with the conversion `conv` to `f64`, precise_stats.rs:134-157. -/
def statisticsPrecF32 {U : Type} [Add U] [Mul U] [Zero U] [LT K] [DecidableLT K] (conv : T → U) (ops : StatOps U K)
    (st : MultiCoreSettings) (v : DspVec T) (order : List Nat) : Option (Statistics U) := do
  let a ← v.content
  let chunks ← chunkedResults true .small st a 1 (fun ch r => addAll ops (empty ops) r.1 (ch.map conv)) order
  some (merge ops chunks)

/-- A complex number converted to `f64`: `Complex64::new(f64::from(num.re), f64::from(num.im))`, precise_stats.rs:383, 427-430. -/
def convCx {U : Type} (conv : T → U) (x : Cx T) : Cx U := ⟨conv x.re, conv x.im⟩

/-- `statistics_prec` of complex `f32` vectors, precise_stats.rs:369-392. -/
def statisticsPrecF32Complex {U : Type} [Add U] [Sub U] [Mul U] [Zero U] [LT K] [DecidableLT K] (conv : T → U)
    (ops : StatOps (Cx U) K) (st : MultiCoreSettings) (v : DspVec T) (order : List Nat) : Option (Statistics (Cx U)) := do
  let a ← v.content
  let chunks ← chunkedResults true .small st a 2
    (fun ch r => (toComplex? ch).map fun l => addAll ops (empty ops) (r.1 / 2) (l.map (convCx conv))) order
  let chunks ← chunks.mapM id
  some (merge ops chunks)

/-- `statistics_split_prec` of real `f32` vectors, precise_stats.rs:168-198. -/
def statisticsSplitPrecF32 {U : Type} [Add U] [Mul U] [Zero U] [LT K] [DecidableLT K] (conv : T → U) (ops : StatOps U K)
    (st : MultiCoreSettings) (v : DspVec T) (k : Nat) (order : List Nat) :
    Option (Except ErrorReason (List (Statistics U))) :=
  if k = 0 then some (.ok [])
  else if k > statsVecCapacity then some (.error .invalidArgumentLength)
  else do
    let a ← v.content
    let chunks ← chunkedResults true .small st a 1
      (fun ch r => splitLoop ops k r.1 (List.replicate k (empty ops)) (ch.map conv)) order
    let chunks ← chunks.mapM id
    let r ← mergeCols ops chunks
    some (.ok r)

/-- `statistics_split_prec` of complex `f32` vectors, precise_stats.rs:403-440. -/
def statisticsSplitPrecF32Complex {U : Type} [Add U] [Sub U] [Mul U] [Zero U] [LT K] [DecidableLT K] (conv : T → U)
    (ops : StatOps (Cx U) K) (st : MultiCoreSettings) (v : DspVec T) (k : Nat) (order : List Nat) :
    Option (Except ErrorReason (List (Statistics (Cx U)))) :=
  if k = 0 then some (.ok [])
  else if k > statsVecCapacity then some (.error .invalidArgumentLength)
  else do
    let a ← v.content
    let chunks ← chunkedResults true .small st a 2
      (fun ch r => (toComplex? ch).bind fun l =>
        splitLoop ops k (r.1 / 2) (List.replicate k (empty ops)) (l.map (convCx conv))) order
    let chunks ← chunks.mapM id
    let r ← mergeCols ops chunks
    some (.ok r)

/-! ### mapping.rs -/

/-- One round of the loop of `map_aggregate`, mapping.rs:122-129, 234-241. -/
def aggregateStep {E R : Type} (map : E → Nat → R) (agg : R → R → R) (sum : Option R)
    (x : E × Nat) : Option R :=
  match sum with
  | none => some (map x.1 x.2)
  | some s => some (agg s (map x.1 x.2))

/-- The closure of `map_aggregate` on one chunk: aggregate `map(x, i)` in order, `None` for an empty
    chunk. mapping.rs:119-131, 230-243. -/
def aggregateChunk {E R : Type} (map : E → Nat → R) (agg : R → R → R) (j : Nat) (l : List E) :
    Option R :=
  (l.zipIdx j).foldl (aggregateStep map agg) none

/-- Combination of the results of the chunks, mapping.rs:136-152, 248-264: the results are moved in
    reverse order to a second vector, from which they are popped again. -/
def aggregateResults {R : Type} (agg : R → R → R) (results : List (Option R)) :
    Except ErrorReason R :=
  match ((results.reverse).filterMap id).reverse with
  | [] => .error .inputMustNotBeEmpty
  | x :: xs => .ok (xs.foldl agg x)

/-- `map_aggregate` on real vectors, mapping.rs:92-153. The `argument` is part of the closure `map`.
    The whole storage is used (line 108-109). -/
def mapAggregate {R : Type} (st : MultiCoreSettings) (map : T → Nat → R) (agg : R → R → R)
    (v : DspVec T) (order : List Nat) : Option (Except ErrorReason R) :=
  if v.isComplex then some (.error .inputMustBeReal)
  else if v.allocLen = 0 then some (.error .inputMustNotBeEmpty)
  else do
    let results ← chunkedResults false .small st v.data.cells 1
      (fun ch r => aggregateChunk map agg r.1 ch) order
    some (aggregateResults agg results)

/-- `map_aggregate` on complex vectors, mapping.rs:203-265. -/
def mapAggregateComplex {R : Type} (st : MultiCoreSettings) (map : Cx T → Nat → R)
    (agg : R → R → R) (v : DspVec T) (order : List Nat) : Option (Except ErrorReason R) :=
  if v.isComplex = false then some (.error .inputMustBeComplex)
  else if v.allocLen = 0 then some (.error .inputMustNotBeEmpty)
  else do
    let results ← chunkedResults false .small st v.data.cells 2
      (fun ch r => (toComplex? ch).map (aggregateChunk map agg (r.1 / 2))) order
    let results ← results.mapM id
    some (aggregateResults agg results)

/-- `map_inplace` on real vectors, mapping.rs:53-79: the whole storage is mapped. -/
def mapInplace (st : MultiCoreSettings) (f : T → Nat → T) (v : DspVec T) (sched : List Nat) :
    Outcome (DspVec T) :=
  if v.isComplex then .finished v.markInvalid
  else
    match executeWithRange .small st v.data.cells 1 (blockLoop 1 1 (fun i b => b.map (f · i))) sched with
    | .panic => .panic
    | .running => .running
    | .finished r => .finished (v.withCells r)

/-- A block of two numbers as complex number. -/
def mapPair (f : Cx T → Cx T) : List T → List T
  | [re, im] => [(f ⟨re, im⟩).re, (f ⟨re, im⟩).im]
  | l => l

/-- `map_inplace` on complex vectors, mapping.rs:163-190: the counter starts at `range.start / 2`. Each
    worker converts its chunk to complex numbers, which panics for an odd storage. -/
def mapInplaceComplex (st : MultiCoreSettings) (f : Cx T → Nat → Cx T) (v : DspVec T)
    (sched : List Nat) : Outcome (DspVec T) :=
  if v.isComplex = false then .finished v.markInvalid
  else if v.allocLen % 2 ≠ 0 then .panic
  else
    match executeWithRange .small st v.data.cells 2
      (blockLoop 2 2 (fun i b => mapPair (f · (i / 2)) b)) sched with
    | .panic => .panic
    | .running => .running
    | .finished r => .finished (v.withCells r)

end DspVec
end Dsp
