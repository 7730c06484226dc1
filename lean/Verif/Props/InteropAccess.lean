import Verif.Props.Interop
import Verif.Props.Construct
import Verif.Props.Elementary
import Verif.Props.ComplexOps
/-
C71: vectors which are created and accessed through the C facade.
-/
namespace Dsp
variable {T : Type}

theorem replaced_wf {v v' : DspVec T} {c : List T} (h : v.WF) (hr : Replaced v v' c) : v'.WF := by
  refine ⟨?_, fun hc => ?_⟩
  · rw [hr.2.1, hr.2.2.2.1]; exact h.1
  · rw [hr.2.1]
    refine h.2 ?_
    have : v'.numberSpace = v.numberSpace := hr.2.2.1.2.2.1
    unfold DspVec.isComplex at hc ⊢
    rw [← this]; exact hc

/-! ### Creation -/

/-- C71: a new vector is well formed, shows the initial value `length` times, and has the number space, the domain (0 is the time
    domain, everything else the frequency domain) and the sampling distance which were asked for; it is not marked as invalid.
    It is an error of the caller to ask for a complex vector with an odd length. -/
theorem C71_new [One T] (cal : Calibration) (c d : Int) (x : T) (n : Nat) (δ : T) (p : Performance) (hn : c = 0 ∨ n % 2 = 0) :
    (newVector cal c d x n δ p).vec.WF ∧
    (newVector cal c d x n δ p).vec.content = some (List.replicate n x) ∧
    ((newVector cal c d x n δ p).vec.isComplex = true ↔ c ≠ 0) ∧
    ((newVector cal c d x n δ p).vec.dom = .time ↔ d = 0) ∧
    (newVector cal c d x n δ p).vec.delta = some δ ∧
    (newVector cal c d x n δ p).vec.isErroneous = false := by
  have hv : validLenFor (c != 0) n = n := by
    unfold validLenFor
    rcases hn with rfl | hn
    · simp
    · simp [hn]
  have hlen : (newVector cal c d x n δ p).vec.validLen = n := by
    show validLenFor (c != 0) (List.replicate n x).length = n
    rw [List.length_replicate]; exact hv
  refine ⟨⟨?_, ?_⟩, ?_, ?_, ?_, rfl, ?_⟩
  · rw [hlen]
    show n ≤ (List.replicate n x).length
    rw [List.length_replicate]
  · intro hc
    rw [hlen]
    have hc' : (c != 0) = true := hc
    rcases hn with rfl | hn
    · simp at hc'
    · exact hn
  · unfold DspVec.content
    rw [hlen]
    show slice (List.replicate n x) 0 n = _
    simp [slice]
  · show (c != 0) = true ↔ _
    simp
  · show (if d = 0 then DataDomain.time else .frequency) = .time ↔ _
    split <;> simp_all
  · simp [DspVec.isErroneous, newVector]

/-- C71, exact description: a complex vector with an odd length is created empty, without any report. -/
theorem C71_new_odd [One T] (cal : Calibration) (c d : Int) (x : T) (n : Nat) (δ : T) (p : Performance) (hc : c ≠ 0) (hn : n % 2 = 1) :
    (newVector cal c d x n δ p).vec.content = some [] ∧ (newVector cal c d x n δ p).vec.allocLen = n := by
  have hlen : (newVector cal c d x n δ p).vec.validLen = 0 := by
    show validLenFor (c != 0) (List.replicate n x).length = 0
    simp [validLenFor, hn, hc]
  refine ⟨?_, ?_⟩
  · unfold DspVec.content
    rw [hlen]
    simp [slice]
  · show (List.replicate n x).length = n
    rw [List.length_replicate]

/-- C71: a new vector has the performance settings which were asked for: one core by default, otherwise the given number of cores
    (but at least one with the calibrated thresholds); the thresholds for several cores are above those for two. -/
theorem C71_new_settings [One T] (cal : Calibration) (c d : Int) (x : T) (n : Nat) (δ : T) :
    (newVector cal c d x n δ .standard).settings.coreLimit = 1 ∧
    (∀ k, (newVector cal c d x n δ (.cores k)).settings.coreLimit = max 1 k) ∧
    ∀ k a b a' b', (newVector cal c d x n δ (.detailed k a b a' b')).settings = ⟨k, a, max b (a + 1), a', max b' (a' + 1)⟩ := by
  refine ⟨rfl, fun k => ?_, fun _ _ _ _ _ => rfl⟩
  show (MultiCoreSettings.new cal k).coreLimit = _
  unfold MultiCoreSettings.new
  split
  · show 1 = _; omega
  · show k = _; omega

section
variable [Zero T] [One T] [Add T] [Sub T] [Mul T] [Div T] (lib : Lib T)

/-! ### Reading and writing -/

/-- C71: `get_value` gives back the number at the index and changes nothing. -/
theorem C71_get (iv : InteropVec T) (l : List T) (h : iv.vec.content = some l) (i : Nat) (hi : i < l.length) :
    (CFun.getValue i).call lib iv [] = .finished ⟨iv, [], ⟨none, [.real l[i]]⟩⟩ := by
  have hg : get l i = some l[i] := by simp [get, hi]
  simp [CFun.call, h, hg, Outcome.ofOption]

/-- C71: an index behind the end of the vector terminates the program, for reading and for writing. -/
theorem C71_out_of_range (iv : InteropVec T) (l : List T) (h : iv.vec.content = some l) (i : Nat) (hi : l.length ≤ i) (x : T) :
    (CFun.getValue i).call lib iv [] = .panic ∧ (CFun.setValue i x).call lib iv [] = .panic := by
  have hg : get l i = none := by simp [get, hi]
  have hp : put l i x = none := by simp [put, hi]
  simp [CFun.call, h, hg, hp, Outcome.ofOption]

/-- C71: `set_value` changes the number at the index and nothing else; it can be read back. -/
theorem C71_set (iv : InteropVec T) (hwf : iv.vec.WF) (l : List T) (h : iv.vec.content = some l) (i : Nat) (hi : i < l.length) (x : T) :
    ∃ iv', (CFun.setValue i x).call lib iv [] = .finished ⟨iv', [], ⟨none, []⟩⟩ ∧ iv'.vec.content = some (l.set i x) ∧
      iv'.vec.WF ∧ iv'.vec.SameMeta iv.vec ∧ iv'.buffer = iv.buffer ∧ iv'.settings = iv.settings ∧
      (CFun.getValue i).call lib iv' [] = .finished ⟨iv', [], ⟨none, [.real x]⟩⟩ := by
  have hp : put l i x = some (l.set i x) := by simp [put, hi]
  have hl : (l.set i x).length = iv.vec.validLen := by
    rw [List.length_set]
    exact hwf.content_length h
  have hr := replaced_splice hwf (l.set i x) hl
  refine ⟨{ iv with vec := iv.vec.withCells (splice iv.vec.data.cells 0 (l.set i x)) }, ?_, hr.1, ?_, ?_, rfl, rfl, ?_⟩
  · simp [CFun.call, h, hp, Outcome.ofOption]
  · exact replaced_wf hwf hr
  · exact hr.2.2.1
  · have := C71_get lib { iv with vec := iv.vec.withCells (splice iv.vec.data.cells 0 (l.set i x)) } (l.set i x) hr.1 i (by simpa using hi)
    simpa using this

/-- C71: the queries tell the number space as 0 or 1, the domain as documented (0 time, 1 frequency), the length, the points and the
    sampling distance, and change nothing. -/
theorem C71_queries (iv : InteropVec T) :
    CFun.isComplex.call lib iv [] = .finished ⟨iv, [], ⟨none, [.int (if iv.vec.isComplex = true then 1 else 0)]⟩⟩ ∧
    CFun.getDomain.call lib iv [] = .finished ⟨iv, [], ⟨none, [.int (if iv.vec.dom = .time then 0 else 1)]⟩⟩ ∧
    CFun.getLen.call lib iv [] = .finished ⟨iv, [], ⟨none, [.usize iv.vec.len]⟩⟩ ∧
    CFun.getPoints.call lib iv [] = .finished ⟨iv, [], ⟨none, [.usize iv.vec.points]⟩⟩ ∧
    CFun.getAllocatedLen.call lib iv [] = .finished ⟨iv, [], ⟨none, [.usize iv.vec.allocLen]⟩⟩ ∧
    (∀ δ, iv.vec.delta = some δ → CFun.getDelta.call lib iv [] = .finished ⟨iv, [], ⟨none, [.real δ]⟩⟩) ∧
    (iv.vec.isErroneous = true → CFun.getDelta.call lib iv [] = .finished ⟨iv, [], ⟨none, [.nan]⟩⟩) := by
  refine ⟨rfl, ?_, rfl, rfl, rfl, fun δ h => ?_, fun h => ?_⟩
  · simp only [CFun.call]
    cases iv.vec.dom <;> rfl
  · simp only [CFun.call, h]
  · have : iv.vec.delta = none := by
      simp only [DspVec.isErroneous, Bool.and_eq_true, Option.isNone_iff_eq_none] at h
      exact h.2
    simp only [CFun.call, this]

/-- C71: behind the pointer of `data` are the numbers of the vector, behind the pointer of `complex_data` the complex numbers of a complex
    vector. -/
theorem C71_data (iv : InteropVec T) (hwf : iv.vec.WF) (l : List T) (h : iv.vec.content = some l) :
    CFun.data.call lib iv [] = .finished ⟨iv, [], ⟨none, [.numbers l]⟩⟩ ∧
    (iv.vec.isComplex = true → ∃ p, fromComplex p = l ∧ CFun.complexData.call lib iv [] = .finished ⟨iv, [], ⟨none, [.complexNumbers p]⟩⟩) := by
  refine ⟨by simp [CFun.call, h, Outcome.ofOption], fun hc => ?_⟩
  obtain ⟨p, hp⟩ := exists_fromComplex (l := l) (by
    rw [hwf.content_length h]
    exact hwf.2 hc)
  refine ⟨p, hp.symm, ?_⟩
  have : toComplex? l = some p := by rw [hp]; exact toComplex?_fromComplex p
  simp [CFun.call, h, this, Outcome.ofOption]

/-! ### Overwriting -/

/-- C71: `overwrite_data` with fewer numbers than the vector has replaces the first numbers and reports success. -/
theorem C71_overwrite (iv : InteropVec T) (hwf : iv.vec.WF) (l : List T) (h : iv.vec.content = some l) (data : List T)
    (hd : data.length < l.length) :
    ∃ iv', (CFun.overwriteData data).call lib iv [] = .finished ⟨iv', [], ⟨some 0, []⟩⟩ ∧
      iv'.vec.content = some (data ++ l.drop data.length) ∧ iv'.vec.WF ∧ iv'.vec.SameMeta iv.vec ∧
      iv'.buffer = iv.buffer ∧ iv'.settings = iv.settings := by
  have hll := hwf.content_length h
  have hle : iv.vec.validLen ≤ iv.vec.data.cells.length := hwf.1
  have hc : l = iv.vec.data.cells.take iv.vec.validLen := by
    have := hwf.content_eq
    rw [h] at this
    exact Option.some.inj this
  have hr := replaced_splice hwf (data ++ l.drop data.length) (by
    rw [List.length_append, List.length_drop]; omega)
  have hs : splice iv.vec.data.cells 0 data = splice iv.vec.data.cells 0 (data ++ l.drop data.length) := by
    unfold splice
    simp only [List.take_zero, List.nil_append, Nat.zero_add, List.length_append, List.length_drop]
    rw [List.append_assoc]
    congr 1
    rw [hc, List.drop_take]
    have e : data.length + ((iv.vec.data.cells.take iv.vec.validLen).length - data.length) = iv.vec.validLen := by
      rw [← hc]; omega
    rw [e]
    conv_lhs => rw [← List.take_append_drop (iv.vec.validLen - data.length) (iv.vec.data.cells.drop data.length)]
    rw [List.drop_drop]
    congr 2
    omega
  refine ⟨{ iv with vec := iv.vec.withCells (splice iv.vec.data.cells 0 data) }, ?_, ?_, ?_, ?_, rfl, rfl⟩
  · have hlt : data.length < iv.vec.len := by
      show data.length < iv.vec.validLen
      omega
    simp only [CFun.call, overwriteVec, if_pos hlt]
    have : copyFromSlice iv.vec.data.cells 0 data.length data = some (splice iv.vec.data.cells 0 data) := by
      simp [copyFromSlice]
      omega
    simp [this, Outcome.ofOption]
  · rw [hs]; exact hr.1
  · rw [hs]; exact replaced_wf hwf hr
  · rw [hs]; exact hr.2.2.1

/-- C71 is violated by `overwrite_data` if all numbers of the vector are to be overwritten: the call is rejected as if the array did not
    fit, and the vector keeps its numbers. -/
theorem C71_overwrite_violated (iv : InteropVec T) (l : List T) (h : iv.vec.content = some l) (hwf : iv.vec.WF) (data : List T)
    (hd : l.length ≤ data.length) :
    (CFun.overwriteData data).call lib iv [] = .finished ⟨iv, [], ⟨some 7, []⟩⟩ := by
  have hlt : ¬ data.length < iv.vec.len := by
    show ¬ data.length < iv.vec.validLen
    have := hwf.content_length h
    omega
  simp only [CFun.call, overwriteVec, if_neg hlt]
  rfl

/-! ### The length -/

/-- C71: `set_len` sets the length; the numbers up to the smaller of the two lengths stay. A complex vector keeps its length if the new
    one is odd, which is not reported. -/
theorem C71_set_len (iv : InteropVec T) (hwf : iv.vec.WF) (hk : iv.vec.data.kind = .vec) (l : List T) (h : iv.vec.content = some l) (n : Nat) :
    (iv.vec.isComplex = true ∧ n % 2 = 1 → (CFun.setLen n).call lib iv [] = .finished ⟨iv, [], ⟨none, []⟩⟩) ∧
    (¬ (iv.vec.isComplex = true ∧ n % 2 = 1) → ∃ iv' l', (CFun.setLen n).call lib iv [] = .finished ⟨iv', [], ⟨none, []⟩⟩ ∧
      iv'.vec.content = some l' ∧ l'.length = n ∧ l'.take (min l.length n) = l.take (min l.length n) ∧ iv'.vec.WF ∧
      iv'.vec.SameMeta iv.vec) := by
  have hni : NotInline iv.vec.data.kind := by rw [hk]; trivial
  have hr := C02_resize iv.vec hwf hni n
  have hcan : CanHold iv.vec.data n := .inr (by rw [hk]; trivial)
  refine ⟨fun hh => ?_, fun hh => ?_⟩
  · simp only [CFun.call, hr.1 hh]
  · obtain ⟨v', h1, h2, h3, h4, h5, h6⟩ := hr.2.2 hh hcan
    have hv' : v'.validLen = n := h2
    refine ⟨{ iv with vec := v' }, v'.data.cells.take n, ?_, ?_, ?_, ?_, h3, h4⟩
    · simp only [CFun.call, h1]
    · show v'.content = _
      rw [h3.content_eq, hv']
    · rw [List.length_take]
      have := h3.1
      omega
    · have hll := hwf.content_length h
      have hl : l = iv.vec.data.cells.take iv.vec.validLen := by
        have := hwf.content_eq
        rw [h] at this
        exact Option.some.inj this
      rw [List.take_take, Nat.min_eq_left (Nat.min_le_right _ _), hll]
      conv_rhs => rw [hl, List.take_take, Nat.min_eq_left (Nat.min_le_left _ _)]
      exact h5

/-! ### Copies -/

/-- C71: `clone` gives back a vector with the same numbers, the same settings and a new buffer. -/
theorem C71_clone (iv : InteropVec T) : CFun.clone.call lib iv [] = .finished ⟨⟨.single [], iv.vec, iv.settings⟩, [], ⟨none, []⟩⟩ := rfl

end

/-! ### The hypotheses can be met -/

/-- A complex vector with two points, its second number set and its first two numbers overwritten. -/
example (cal : Calibration) : ∃ r1 r2, (CFun.setValue 1 9).call idleLib (newVector cal 1 0 (5 : ℚ) 4 1 .standard) [] = .finished r1 ∧
    r1.self.vec.content = some [5, 9, 5, 5] ∧
    (CFun.overwriteData [1, 2]).call idleLib r1.self [] = .finished r2 ∧ r2.self.vec.content = some [1, 2, 5, 5] ∧
    (CFun.overwriteData [1, 2, 3, 4]).call idleLib r1.self [] = .finished ⟨r1.self, [], ⟨some 7, []⟩⟩ := ⟨_, _, rfl, rfl, rfl, rfl, rfl⟩

end Dsp
