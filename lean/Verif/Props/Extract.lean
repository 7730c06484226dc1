import Verif.Model.Extract
import Verif.Spec.View
import Verif.Spec.Fft
import Verif.Lemmas.Slice
import Verif.Props.Construct
/-
C80: a vector can be taken apart without losing or gaining data. C03: the remaining constructors.
-/
namespace Dsp
open DspVec
variable {T : Type}

theorem completePairs_append (p : List (Cx T)) (l : List T) : completePairs (fromComplex p ++ l) = p ++ completePairs l := by
  induction p with
  | nil => rfl
  | cons c p ih => simp [fromComplex, completePairs, ih]

theorem completePairs_fromComplex (p : List (Cx T)) : completePairs (fromComplex p) = p := by
  have := completePairs_append p ([] : List T)
  simpa [completePairs] using this

theorem completePairs_zeros [Zero T] (n : Nat) : completePairs (List.replicate n (0 : T)) = List.replicate (n / 2) 0 := by
  induction n using Nat.twoStepInduction with
  | zero => rfl
  | one => rfl
  | more n ih _ =>
    have : (n + 2) / 2 = n / 2 + 1 := by omega
    rw [this, List.replicate_succ, List.replicate_succ, List.replicate_succ, completePairs, ih]
    rfl

/-- The complex points of a complex vector in its storage. -/
theorem complex_cells [Zero T] {v : DspVec T} (hv : v.WF) (hc : v.isComplex = true) {p : List (Cx T)} (hp : v.cpoints = some p) :
    v.data.cells.take v.validLen = fromComplex p ∧ v.validLen = 2 * p.length := by
  have hsl : slice v.data.cells 0 v.validLen = some (v.data.cells.take v.validLen) := by
    unfold slice; rw [if_pos ⟨Nat.zero_le _, hv.1⟩]; simp
  have hp' : toComplex? (v.data.cells.take v.validLen) = some p := by
    have := hp
    simp only [cpoints, content, hsl, Option.bind_some, hc, if_true] at this
    exact this
  have h1 := fromComplex_of_toComplex? hp'
  refine ⟨h1, ?_⟩
  have := congrArg List.length h1
  rw [List.length_take, length_fromComplex, Nat.min_eq_left hv.1] at this
  exact this

/-! ### C03: the remaining constructors -/

/-- C03: `to_dsp_vec` on every container: the numbers of the container with the given meta data. -/
theorem C03_to_dsp_vec (c : Container T) (delta : Option T) (ns : NumberSpace) (d : Domain) :
    let v := toDspVec c delta ns d
    v.content = some (expectedContent ns.isComplex c.cells) ∧ v.WF ∧ v.numberSpace = ns ∧ v.domain = d ∧ v.delta = delta := by
  have hs : (toDspVec c delta ns d).data.cells = c.cells := by
    cases c with
    | inline h cap cells => cases h <;> rfl
    | _ => rfl
  have hvl : (toDspVec c delta ns d).validLen = (expectedContent ns.isComplex c.cells).length := by
    show validLenFor ns.isComplex c.cells.length = _
    unfold validLenFor expectedContent
    cases ns.isComplex <;> simp
    split <;> rfl
  have hce : ∃ s', (toDspVec c delta ns d).data.cells = expectedContent ns.isComplex c.cells ++ s' := by
    unfold expectedContent; split
    · exact ⟨_, rfl⟩
    · exact ⟨[], by simp [hs]⟩
  obtain ⟨s', hs'⟩ := hce
  refine ⟨?_, ⟨?_, ?_⟩, rfl, rfl, rfl⟩
  · rw [content, hvl, hs', slice_append_left]
  · rw [hvl, hs']; simp
  · intro hcc
    have hcc : ns.isComplex = true := hcc
    rw [hvl]
    unfold expectedContent; split
    · rfl
    · rename_i hh; simp [hcc] at hh; exact hh

/-- C03: a vector made of a `Vec<Complex<T>>` has exactly its numbers as points. Missing: a `Vec` without any capacity, see
    `C03_complex_vec_violated`. -/
theorem C03_complex_vec_partial [Zero T] [One T] (elems : List (Cx T)) (spare : Nat) (isFreq : Bool) (hne : 0 < elems.length + spare) :
    ∃ v, vecOfComplexVec elems spare isFreq = some v ∧ v.cpoints = some elems ∧ v.WF ∧ v.isComplex = true ∧
      v.dom = (if isFreq then .frequency else .time) ∧ v.delta = some 1 := by
  have hb : (expandToFullCapacity elems spare).isEmpty = false := by
    rw [List.isEmpty_eq_false_iff, ← List.length_pos_iff]; simp [expandToFullCapacity]; omega
  refine ⟨_, by simp only [vecOfComplexVec, complexVecToInterleavedVec, hb, Option.bind_eq_bind]; rfl, ?_, ?_, rfl, ?_, rfl⟩
  · simp only [cpoints, content, DspVec.isComplex, NumberSpace.isComplex, expandToFullCapacity, fromComplex_append, if_true]
    rw [← length_fromComplex, slice_append_left]
    simp
  · refine ⟨?_, fun _ => ?_⟩
    · simp [expandToFullCapacity]
    · show 2 * elems.length % 2 = 0
      omega
  · cases isFreq <;> rfl

/-- C03 is violated for the empty `Vec<Complex<T>>`: `trans[0]` panics (support_std.rs:651). -/
theorem C03_complex_vec_violated [Zero T] [One T] (isFreq : Bool) : vecOfComplexVec ([] : List (Cx T)) 0 isFreq = none := rfl

/-- C03: a vector made of a slice of complex numbers has exactly its numbers as points. -/
theorem C03_complex_slice [Zero T] [One T] (elems : List (Cx T)) (isFreq : Bool) :
    let v := vecOfComplexSlice elems isFreq
    v.cpoints = some elems ∧ v.WF ∧ v.isComplex = true ∧ v.dom = (if isFreq then .frequency else .time) ∧ v.delta = some 1 := by
  refine ⟨?_, ⟨Nat.le_refl _, fun _ => ?_⟩, rfl, ?_, rfl⟩
  · have := slice_append_left (fromComplex elems) []
    rw [List.append_nil] at this
    simp only [cpoints, content, vecOfComplexSlice, DspVec.isComplex, NumberSpace.isComplex, if_true, this]
    simp
  · show (fromComplex elems).length % 2 = 0
    rw [length_fromComplex]; omega
  · cases isFreq <;> rfl

/-! ### C80 -/

/-- C80: `getf` gives back a storage whose first numbers are those of the vector. -/
theorem C80_getf (v : DspVec T) (hv : v.WF) : v.content = some (v.getf.1.take v.getf.2) ∧ v.getf.2 = v.len := by
  refine ⟨?_, rfl⟩
  unfold content slice
  rw [if_pos ⟨Nat.zero_le _, hv.1⟩]; simp [getf]

/-- C80: `get` of a real vector gives back a storage whose first numbers are those of the vector. -/
theorem C80_get_real (v : DspVec T) (hv : v.WF) (hr : v.isComplex = false) :
    v.content = some (v.getReal.1.take v.getReal.2) ∧ v.getReal.2 = v.points := by
  refine ⟨(C80_getf v hv).1, ?_⟩
  simp [getReal, points, hr]

/-- C80: `get` of a complex vector over a slice gives back complex numbers the first of which are the points of the vector. Missing: slices
    with an odd number of elements, see `C80_get_slice_violated`. -/
theorem C80_get_slice_partial [Zero T] (v : DspVec T) (hv : v.WF) (hc : v.isComplex = true) (p : List (Cx T)) (hp : v.cpoints = some p)
    (he : v.data.cells.length % 2 = 0) :
    ∃ cs n, v.getComplexSlice = some (cs, n) ∧ cs.take n = p ∧ n = v.points := by
  obtain ⟨h1, h2⟩ := complex_cells hv hc hp
  obtain ⟨q, hq⟩ := exists_fromComplex he
  refine ⟨q, v.validLen / 2, by simp [getComplexSlice, hq], ?_, by simp [points, hc]⟩
  rw [hq, h2, ← fromComplex_take] at h1
  have h3 : v.validLen / 2 = p.length := by omega
  rw [h3]
  exact fromComplex_injective h1

/-- C80: a slice with an odd number of elements gives an empty complex vector (as documented); `get` of this vector panics. -/
theorem C80_get_slice_violated [Zero T] [One T] (cells : List T) (ho : cells.length % 2 = 1) (isFreq : Bool) :
    (toStaticVec (.slice cells) true isFreq).WF ∧ (toStaticVec (.slice cells) true isFreq).cpoints = some [] ∧
      (toStaticVec (.slice cells) true isFreq).getComplexSlice = none := by
  have h := C03_static_constructors (.slice cells) true isFreq
  have he : expectedContent true cells = [] := by simp [expectedContent, ho]
  refine ⟨h.2.1, ?_, ?_⟩
  · rw [cpoints, h.1, Option.bind_some, h.2.2.1]
    simp only [Container.cells, he, if_true]
    rfl
  · show (toComplex? cells).map _ = none
    rw [toComplex?_eq_none ho]; rfl

/-- C80: `get` of a complex vector over a `Vec` gives back complex numbers the first of which are the points of the vector. Missing: storages
    without any capacity, see `C80_get_vec_violated`. -/
theorem C80_get_vec_partial [Zero T] (v : DspVec T) (hv : v.WF) (hc : v.isComplex = true) (p : List (Cx T)) (hp : v.cpoints = some p)
    (spare : Nat) (hne : 0 < v.data.cells.length + spare) :
    ∃ cs n, v.getComplexVec spare = some (cs, n) ∧ cs.elems.take n = p ∧ n = v.points := by
  obtain ⟨h1, h2⟩ := complex_cells hv hc hp
  have hb : (expandToFullCapacity v.data.cells spare).isEmpty = false := by
    rw [List.isEmpty_eq_false_iff, ← List.length_pos_iff]; simp [expandToFullCapacity]; omega
  refine ⟨_, v.validLen / 2, by simp only [getComplexVec, interleavedVecToComplexVec, hb]; rfl, ?_, by simp [points, hc]⟩
  have h3 : v.validLen / 2 = p.length := by omega
  have h4 : expandToFullCapacity v.data.cells spare = fromComplex p ++ (v.data.cells.drop v.validLen ++ List.replicate spare 0) := by
    rw [← h1, ← List.append_assoc, List.take_append_drop]; rfl
  show (completePairs (expandToFullCapacity v.data.cells spare)).take (v.validLen / 2) = p
  rw [h4, completePairs_append, h3, List.take_left]

/-- C80: `get` and `into` of the empty complex vector made of an empty `Vec` panic (support_std.rs:667). -/
theorem C80_get_vec_violated [Zero T] [One T] (isFreq : Bool) :
    (toStaticVec (.vec ([] : List T) 0) true isFreq).WF ∧ (toStaticVec (.vec ([] : List T) 0) true isFreq).cpoints = some [] ∧
      (toStaticVec (.vec ([] : List T) 0) true isFreq).getComplexVec 0 = none ∧
      (toStaticVec (.vec ([] : List T) 0) true isFreq).intoComplex 0 = none := by
  refine ⟨⟨Nat.le_refl _, fun _ => rfl⟩, rfl, rfl, rfl⟩

/-- C80: `into` gives exactly the numbers of a real vector. -/
theorem C80_into_real (v : DspVec T) (hv : v.WF) : v.content = some v.intoReal := (C80_getf v hv).1

/-- C80: exactly what `into` gives for a complex vector: its points, followed by a zero for every unused pair of cells, be it part of the
    storage or of its capacity. -/
theorem C80_into_complex_zeros [Zero T] (v : DspVec T) (hv : v.WF) (hc : v.isComplex = true) (p : List (Cx T)) (hp : v.cpoints = some p)
    (spare : Nat) (hne : 0 < v.data.cells.length + spare) :
    ∃ cs, v.intoComplex spare = some cs ∧ cs.elems = p ++ List.replicate ((v.data.cells.length + spare - v.len) / 2) 0 := by
  obtain ⟨h1, h2⟩ := complex_cells hv hc hp
  have hle : v.validLen ≤ v.data.cells.length := hv.1
  have h4 : expandToFullCapacity (v.data.cells.take v.validLen) (v.data.cells.length - v.validLen + spare) =
      fromComplex p ++ List.replicate (v.data.cells.length + spare - v.len) 0 := by
    rw [h1, expandToFullCapacity, len]
    congr 2; omega
  have hb : (expandToFullCapacity (v.data.cells.take v.validLen) (v.data.cells.length - v.validLen + spare)).isEmpty = false := by
    rw [List.isEmpty_eq_false_iff, ← List.length_pos_iff, h4, List.length_append, length_fromComplex, List.length_replicate, ← h2, len]
    omega
  refine ⟨_, by simp only [intoComplex, interleavedVecToComplexVec, hb]; rfl, ?_⟩
  show completePairs (expandToFullCapacity _ _) = _
  rw [h4, completePairs_append, completePairs_zeros]

/-- C80: `into` gives exactly the points of a complex vector if it fills the capacity of its storage (or all but one number of it). Missing:
    other vectors, see `C80_into_violated`. -/
theorem C80_into_complex_partial [Zero T] (v : DspVec T) (hv : v.WF) (hc : v.isComplex = true) (p : List (Cx T)) (hp : v.cpoints = some p)
    (spare : Nat) (hne : p ≠ []) (hfull : v.data.cells.length + spare ≤ v.len + 1) :
    ∃ cs, v.intoComplex spare = some cs ∧ cs.elems = p := by
  have hp0 := List.length_pos_iff.2 hne
  obtain ⟨h1, h2⟩ := complex_cells hv hc hp
  have hle : v.validLen ≤ v.data.cells.length := hv.1
  obtain ⟨cs, e1, e2⟩ := C80_into_complex_zeros v hv hc p hp spare (by omega)
  refine ⟨cs, e1, ?_⟩
  have : (v.data.cells.length + spare - v.len) / 2 = 0 := by omega
  rw [e2, this]; simp

/-- C80: `truncate` is undone by `expand_to_full_capacity` (support_std.rs:628-629): whenever two or more numbers of the capacity are unused,
    `into` gives more numbers than the vector has points. -/
theorem C80_into_violated [Zero T] (v : DspVec T) (hv : v.WF) (hc : v.isComplex = true) (p : List (Cx T)) (hp : v.cpoints = some p)
    (spare : Nat) (hgap : v.len + 2 ≤ v.data.cells.length + spare) :
    ∃ cs, v.intoComplex spare = some cs ∧ cs.elems ≠ p ∧ v.points < cs.elems.length := by
  obtain ⟨h1, h2⟩ := complex_cells hv hc hp
  obtain ⟨cs, e1, e2⟩ := C80_into_complex_zeros v hv hc p hp spare (by omega)
  have hl : p.length < cs.elems.length := by
    rw [e2, List.length_append, List.length_replicate]; omega
  refine ⟨cs, e1, fun h => by rw [h] at hl; omega, ?_⟩
  simp only [points, hc, if_true]
  omega

/-- C80: the memory of the result is released with the size it was requested with if and only if the capacity of the storage is even
    (support_std.rs:666-667 rounds it down). -/
theorem C80_memory [Zero T] (cells : List T) (spare : Nat) (cs : RustVec (Cx T)) (h : interleavedVecToComplexVec cells spare = some cs) :
    cs.allocated = cs.released ↔ (cells.length + spare) % 2 = 0 := by
  unfold interleavedVecToComplexVec at h
  dsimp only at h
  split at h
  · cases h
  · cases h
    simp only [expandToFullCapacity, List.length_append, List.length_replicate]
    omega

/-- C80: the vector made of a `Vec<Complex<T>>` takes over the whole memory of it, and releases all of it. -/
theorem C80_memory_taken [Zero T] (elems : List (Cx T)) (spare : Nat) (xs : RustVec T) (h : complexVecToInterleavedVec elems spare = some xs) :
    xs.allocated = 2 * (elems.length + spare) ∧ xs.released = 2 * (elems.length + spare) ∧ xs.elems.length + xs.spare = xs.released := by
  unfold complexVecToInterleavedVec at h
  dsimp only at h
  split at h
  · cases h
  · cases h
    simp [expandToFullCapacity]
    omega

/-- C80: making a vector of complex numbers and taking it apart with `get` gives the numbers back. -/
theorem C80_get_round_trip [Zero T] [One T] (elems : List (Cx T)) (spare : Nat) (isFreq : Bool) (hne : 0 < elems.length + spare) :
    ∃ v cs n, vecOfComplexVec elems spare isFreq = some v ∧ v.getComplexVec 0 = some (cs, n) ∧ cs.elems.take n = elems ∧
      cs.allocated = cs.released := by
  obtain ⟨v, h1, h2, h3, h4, -⟩ := C03_complex_vec_partial elems spare isFreq hne
  have hcells : v.data.cells.length = 2 * (elems.length + spare) := by
    have hb : (expandToFullCapacity elems spare).isEmpty = false := by
      rw [List.isEmpty_eq_false_iff, ← List.length_pos_iff]; simp [expandToFullCapacity]; omega
    simp only [vecOfComplexVec, complexVecToInterleavedVec, hb, Option.bind_eq_bind] at h1
    cases h1
    simp only [expandToFullCapacity, length_fromComplex, List.length_append, List.length_replicate]
  obtain ⟨cs, n, e1, e2, -⟩ := C80_get_vec_partial v h3 h4 elems h2 0 (by omega)
  refine ⟨v, cs, n, h1, e1, e2, ?_⟩
  obtain ⟨cs', e3, e4⟩ := Option.map_eq_some_iff.1 e1
  cases e4
  exact (C80_memory _ _ _ e3).2 (by omega)

/-- C80: a complex vector over a `Vec` with odd capacity is well formed, but the numbers given by `get` and `into` release a part of their
    memory only. -/
theorem C80_memory_violated : ∃ v : DspVec Int, v.WF ∧ v.isComplex = true ∧ (∃ cs n, v.getComplexVec 1 = some (cs, n) ∧
    cs.released < cs.allocated) ∧ ∃ cs, v.intoComplex 1 = some cs ∧ cs.released < cs.allocated :=
  ⟨toStaticVec (.vec [1, 2, 3, 4] 0) true false, by decide, by decide, ⟨_, _, rfl, by decide⟩, ⟨_, rfl, by decide⟩⟩

/-- C80: `clone_from` makes the vector equal to its source. -/
theorem C80_clone_from (v source : DspVec T) : v.cloneFrom source = source := rfl

/-! ### The hypotheses can be met -/

/-- A complex vector of two points with room for two more. -/
def exampleTake : DspVec Int := toStaticVec (.vec [1, 2, 3, 4] 4) true false

example : exampleTake.WF ∧ exampleTake.isComplex = true ∧ exampleTake.cpoints = some [⟨1, 2⟩, ⟨3, 4⟩] ∧
    exampleTake.len + 2 ≤ exampleTake.data.cells.length + 0 := by decide

example : (exampleTake.getComplexVec 0).map (fun r => (r.1.elems, r.2)) = some ([⟨1, 2⟩, ⟨3, 4⟩, ⟨0, 0⟩, ⟨0, 0⟩], 2) := by decide

example : (exampleTake.intoComplex 0).map (fun r => r.elems) = some [⟨1, 2⟩, ⟨3, 4⟩, ⟨0, 0⟩, ⟨0, 0⟩] := by decide

example : (toStaticVec (.vec [(1 : Int), 2, 3, 4] 0) true false).data.cells.length + 0 ≤
    (toStaticVec (.vec [(1 : Int), 2, 3, 4] 0) true false).len + 1 := by decide

example : (toDspVec (.inline false 64 [(1 : Int), 2, 3]) (some 5) .complex .freq).len = 0 := by decide

end Dsp
