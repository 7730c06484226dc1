import Verif.Spec.FreqResponse
import Verif.Lemmas.FreqResponse
import Verif.Props.ConvFunction
/-
C56: multiplication with a frequency response.
-/
set_option linter.unusedSectionVars false
namespace Dsp
open DspVec
variable {T α : Type} [Field T] [LinearOrder T] [IsStrictOrderedRing T]

theorem axisCenter_eq (n : Nat) : (axisCenter n : T) = ((n / 2 : Nat) : T) := by
  unfold axisCenter
  rw [show n - n % 2 = 2 * (n / 2) by omega]
  push_cast
  field_simp

/-- The points are cut into twice as many chunks as there are workers. -/
def FullPairs (n : Nat) (st : MultiCoreSettings) : Prop :=
  st.coreLimit ≠ 0 ∧ numChunks n 1 (2 * determineNumberOfChunks n .medium st) = 2 * determineNumberOfChunks n .medium st

/-- Both paths on the slice. -/
theorem multiplyFunction_filtered [CommSemigroup α] (st : MultiCoreSettings) (sym : Bool) (ratio : T) (scale : α) (fn : T → α)
    (a : List α) (h2 : 2 ≤ a.length) (hs : sym = true → EvenFunction fn ∧ FullPairs a.length st) :
    Always (multiplyFunction st sym false ratio scale fn a) (filtered fn ratio scale a) := by
  unfold filtered spectrumAxis
  cases sym with
  | false =>
    have := executeWithRange_mapIdx a (by rintro rfl; simp at h2)
      (fun x i => x * scale * fn (fftSwapX false (-(axisCenter a.length : T) + (i : T)) (axisCenter a.length) * ratio)) .medium st
    have e : (a.mapIdx fun i x => x * (scale * fn (((i : T) - ((a.length / 2 : Nat) : T)) / ((a.length / 2 : Nat) : T) * ratio))) =
        a.mapIdx fun i x => x * scale * fn (fftSwapX false (-(axisCenter a.length : T) + (i : T)) (axisCenter a.length) * ratio) := by
      congr 1
      funext i x
      rw [mul_assoc, axisCenter_eq]
      simp only [fftSwapX, Bool.not_false, if_true]
      congr 4
      ring
    rw [e]
    exact this.congr fun s => rfl
  | true =>
    obtain ⟨he, hcl, hn⟩ := hs rfl
    have := executeResponse st a h2 scale (fun j => fn (fftSwapX false j (axisCenter a.length) * ratio)) hcl hn
      (fun i => scale * fn (((i : T) - ((a.length / 2 : Nat) : T)) / ((a.length / 2 : Nat) : T) * ratio)) (fun i _ => by
        simp only [fftSwapX, axisCenter_eq, Bool.not_false, if_true]
        refine ⟨?_, ?_⟩
        · intro _
          congr 2; ring
        · intro _
          rw [← he]
          congr 2; ring)
    refine Always.congr this (fun s => ?_)
    simp only [multiplyFunction, if_true, axisCenter_eq]

theorem length_filtered [Mul α] (f : T → α) (ratio : T) (scale : α) (xs : List α) :
    (filtered f ratio scale xs).length = xs.length := by unfold filtered; simp

theorem multiplyFunctionBy_shows (st : MultiCoreSettings) (sym : Bool) (ratio : T) (fr : T → T) (fc : T → Cx T) (v : DspVec T)
    (s : Signal T) (hv : v.Shows s) (h2 : 2 ≤ s.numbers.count) (N : Numbers T)
    (hN : (∃ xs, s.numbers = .real xs ∧ N = .real (filtered fr ratio ratio xs) ∧ (sym = true → EvenFunction fr)) ∨
      (∃ cs, s.numbers = .complex cs ∧ N = .complex (filtered fc ratio ⟨ratio, 0⟩ cs) ∧ (sym = true → EvenFunction fc)))
    (hs : sym = true → FullPairs s.numbers.count st) :
    ∃ w, Always (v.multiplyFunctionBy st sym false ratio fr fc) w ∧ w.Shows { s with numbers := N } ∧ w.SameMeta v ∧
      w.validLen = v.validLen := by
  have hwf := hv.wf
  rcases hN with ⟨xs, e, rfl, he⟩ | ⟨cs, e, rfl, he⟩
  · have hc : v.isComplex = false := by rw [hv.isComplex, e]; rfl
    have hcon : v.content = some xs := by rw [hv.content, e]; rfl
    have hl := hwf.content_length hcon
    rw [e] at h2 hs
    have hA := multiplyFunction_filtered st sym ratio ratio fr xs h2 (fun h => ⟨he h, hs h⟩)
    have hrep := replaced_splice hwf (filtered fr ratio ratio xs) (by rw [length_filtered]; exact hl)
    refine ⟨v.withCells (splice v.data.cells 0 (filtered fr ratio ratio xs)), ?_, ?_, hrep.2.2.1, hrep.2.1⟩
    · refine hA.map (fun s e => ?_) (fun s e => ?_) <;>
      · unfold multiplyFunctionBy
        simp [hcon, hc, e, Outcome.andThen]
    · exact hv.of_content hrep.2.2.1 (by rw [e]; rfl) hrep.1
  · have hc : v.isComplex = true := by rw [hv.isComplex, e]; rfl
    have hcon : v.content = some (fromComplex cs) := by rw [hv.content, e]; rfl
    have hl := hwf.content_length hcon
    rw [e] at h2 hs
    have hA := multiplyFunction_filtered st sym ratio (⟨ratio, 0⟩ : Cx T) fc cs h2 (fun h => ⟨he h, hs h⟩)
    have hrep := replaced_splice hwf (fromComplex (filtered fc ratio ⟨ratio, 0⟩ cs)) (by
      rw [length_fromComplex, length_filtered, ← length_fromComplex]; exact hl)
    refine ⟨v.withCells (splice v.data.cells 0 (fromComplex (filtered fc ratio ⟨ratio, 0⟩ cs))), ?_, ?_, hrep.2.2.1, hrep.2.1⟩
    · refine hA.map (fun s e => ?_) (fun s e => ?_) <;>
      · unfold multiplyFunctionBy
        simp [hcon, hc, e, toComplex?_fromComplex, Outcome.andThen]
    · exact hv.of_content hrep.2.2.1 (by rw [e]; rfl) hrep.1

/-- C56 (partial: at least two points and, for a response which is declared symmetric, `FullPairs`): a real frequency response
    multiplies every point of a spectrum, real or complex, with the ratio and the response at the frequency of the point, for
    all settings and interleavings of the workers. The domain, the delta and the storage are kept. -/
theorem C56_real_response_partial (st : MultiCoreSettings) (f : FrequencyResponse T T) (ratio : T) (v : DspVec T) (s : Signal T)
    (hv : v.Shows s) (hd : s.dom = .frequency) (h2 : 2 ≤ s.numbers.count)
    (hs : f.isSymmetric = true → EvenFunction f.value ∧ FullPairs s.numbers.count st) :
    ∃ w, Always (v.multiplyRealResponse st f ratio) w ∧ w.Shows { s with numbers := s.numbers.filteredReal f.value ratio } ∧
      w.SameMeta v ∧ w.validLen = v.validLen := by
  obtain ⟨w, h1, h3⟩ := multiplyFunctionBy_shows st f.isSymmetric ratio f.value (fun x => ⟨f.value x, 0⟩) v s hv h2
    (s.numbers.filteredReal f.value ratio) (by
      cases hn : s.numbers with
      | real xs => exact .inl ⟨xs, rfl, rfl, fun h => (hs h).1⟩
      | complex cs => exact .inr ⟨cs, rfl, rfl, fun h x => by simp only [(hs h).1 x]⟩) (fun h => (hs h).2)
  refine ⟨w, h1.congr (fun sc => ?_), h3⟩
  unfold multiplyRealResponse
  rw [if_neg (by rw [hv.dom, hd]; simp)]

/-- C56 (partial, as above): a complex frequency response on a complex spectrum. -/
theorem C56_complex_response_partial (st : MultiCoreSettings) (f : FrequencyResponse T (Cx T)) (ratio : T) (v : DspVec T)
    (s : Signal T) (cs : List (Cx T)) (hv : v.Shows s) (hcs : s.numbers = .complex cs) (hd : s.dom = .frequency) (h2 : 2 ≤ cs.length)
    (hs : f.isSymmetric = true → EvenFunction f.value ∧ FullPairs cs.length st) :
    ∃ w, Always (v.multiplyComplexResponse st f ratio) w ∧
      w.Shows { s with numbers := .complex (filtered f.value ratio ⟨ratio, 0⟩ cs) } ∧ w.SameMeta v ∧ w.validLen = v.validLen := by
  obtain ⟨w, h1, h3⟩ := multiplyFunctionBy_shows st f.isSymmetric ratio (fun _ => 0) f.value v s hv (by rw [hcs]; exact h2)
    (.complex (filtered f.value ratio ⟨ratio, 0⟩ cs)) (.inr ⟨cs, hcs, rfl, fun h => (hs h).1⟩) (fun h => by rw [hcs]; exact (hs h).2)
  refine ⟨w, h1.congr (fun sc => ?_), h3⟩
  unfold multiplyComplexResponse
  rw [if_neg (by rw [hv.dom, hd, hv.isComplex, hcs]; simp [Numbers.isComplex])]

/-- One worker always gets two chunks. -/
theorem fullPairs_one (n : Nat) (h2 : 2 ≤ n) (st : MultiCoreSettings) (h1 : determineNumberOfChunks n .medium st = 1)
    (hc : st.coreLimit ≠ 0) : FullPairs n st := by
  refine ⟨hc, ?_⟩
  rw [h1]
  unfold numChunks calcChunkSize ceilDiv
  simp only [show (2 : Nat) * 1 = 2 from rfl, Nat.mod_one, gt_iff_lt, lt_irrefl, if_false]
  generalize hk : (n + 2 - 1) / 2 = k
  have : 0 < k := by omega
  rw [Nat.div_eq_iff this]
  omega

/-- Enough points for the number of workers. -/
theorem fullPairs_many (n : Nat) (st : MultiCoreSettings) (hc : st.coreLimit ≠ 0)
    (h : (2 * determineNumberOfChunks n .medium st - 1) * (2 * determineNumberOfChunks n .medium st - 1) < n) :
    FullPairs n st := by
  have hn0 : 0 < determineNumberOfChunks n .medium st := by
    unfold determineNumberOfChunks
    split
    · omega
    · simp only
      repeat' split
      all_goals omega
  refine ⟨hc, ?_⟩
  generalize determineNumberOfChunks n .medium st = k at *
  obtain ⟨m, hm⟩ : ∃ m, 2 * k = m + 1 := ⟨2 * k - 1, by omega⟩
  rw [hm] at h ⊢
  rw [Nat.add_sub_cancel] at h
  unfold numChunks calcChunkSize ceilDiv
  simp only [Nat.mod_one, gt_iff_lt, lt_irrefl, if_false]
  have hmod := Nat.mod_lt (n + (m + 1) - 1) (show 0 < m + 1 by omega)
  have hdiv := Nat.div_add_mod (n + (m + 1) - 1) (m + 1)
  generalize hq : (n + (m + 1) - 1) / (m + 1) = q at *
  have e1 : (m + 1) * q = m * q + q := Nat.succ_mul m q
  have hqm : m * m < m * q + q := by omega
  have hq0 : 0 < q := by
    rcases Nat.eq_zero_or_pos q with h0 | h0
    · subst h0; simp at hqm
    · exact h0
  have hqm' : m ≤ q := by
    by_contra hcon
    have h1 : (m + 1) * q ≤ (m + 1) * (m - 1) := Nat.mul_le_mul_left _ (by omega)
    obtain ⟨r, rfl⟩ : ∃ r, m = r + 1 := ⟨m - 1, by omega⟩
    have : (r + 1 + 1) * (r + 1 - 1) = (r + 1) * (r + 1) - 1 := by
      simp only [Nat.add_sub_cancel]
      have : (r + 1) * (r + 1) = (r + 1 + 1) * r + 1 := by ring
      omega
    omega
  rw [Nat.div_eq_iff hq0]
  have e2 : (m + 1) * q = q * (m + 1) := Nat.mul_comm _ _
  have e3 : m * q + 1 ≤ n := by
    rcases Nat.lt_or_eq_of_le hqm' with hlt | heq
    · omega
    · rw [← heq]; omega
  refine ⟨?_, ?_⟩ <;> omega

/-- C56 with as many points as the square of twice the number of workers. -/
theorem C56_many_points_partial (st : MultiCoreSettings) (hc : st.coreLimit ≠ 0) (f : FrequencyResponse T T) (ratio : T)
    (v : DspVec T) (s : Signal T) (hv : v.Shows s) (hd : s.dom = .frequency) (h2 : 2 ≤ s.numbers.count)
    (hmany : (2 * determineNumberOfChunks s.numbers.count .medium st - 1) * (2 * determineNumberOfChunks s.numbers.count .medium st - 1) <
      s.numbers.count)
    (hs : f.isSymmetric = true → EvenFunction f.value) :
    ∃ w, Always (v.multiplyRealResponse st f ratio) w ∧ w.Shows { s with numbers := s.numbers.filteredReal f.value ratio } ∧
      w.SameMeta v ∧ w.validLen = v.validLen :=
  C56_real_response_partial st f ratio v s hv hd h2 fun h => ⟨hs h, fullPairs_many _ st hc hmany⟩

/-- C56 with the default settings (one core): no restriction but the two points. -/
theorem C56_single_core_partial (st : MultiCoreSettings) (h1 : st.coreLimit = 1) (f : FrequencyResponse T T) (ratio : T)
    (v : DspVec T) (s : Signal T) (hv : v.Shows s) (hd : s.dom = .frequency) (h2 : 2 ≤ s.numbers.count)
    (hs : f.isSymmetric = true → EvenFunction f.value) :
    ∃ w, Always (v.multiplyRealResponse st f ratio) w ∧ w.Shows { s with numbers := s.numbers.filteredReal f.value ratio } ∧
      w.SameMeta v ∧ w.validLen = v.validLen :=
  C56_real_response_partial st f ratio v s hv hd h2 fun h => ⟨hs h, fullPairs_one _ h2 st (by
    unfold determineNumberOfChunks; rw [if_pos h1]; exact h1) (by rw [h1]; decide)⟩

/-- C56: outside of the frequency domain, and for a complex response on a real vector, the vector is marked as invalid and
    nothing else happens. -/
theorem C56_rejects (st : MultiCoreSettings) (f : FrequencyResponse T T) (g : FrequencyResponse T (Cx T)) (ratio : T)
    (v : DspVec T) (s : Signal T) (hv : v.Shows s) (sched : List Nat) :
    (s.dom ≠ .frequency → v.multiplyRealResponse st f ratio sched = .finished v.markInvalid) ∧
    (s.dom ≠ .frequency ∨ s.numbers.isComplex = false → v.multiplyComplexResponse st g ratio sched = .finished v.markInvalid) := by
  refine ⟨fun h => ?_, fun h => ?_⟩
  · unfold multiplyRealResponse
    rw [hv.dom, if_pos h]
  · unfold multiplyComplexResponse
    rw [hv.dom, hv.isComplex, if_pos h.symm]

/-- A spectrum with nine points. -/
def nineOnes : DspVec ℚ := ⟨⟨.vec, List.replicate 9 1⟩, none, .freq, .real, 9⟩
/-- A constant response. -/
def flatResponse (symmetric : Bool) : FrequencyResponse ℚ ℚ := ⟨symmetric, fun _ => 3⟩

/-- The full C56 fails: with four workers and nine points there are five chunks only, three of them have no partner and their
    points are not multiplied. The same response without the announced symmetry multiplies all of them. -/
theorem C56_few_points_violated : ∃ sched w, nineOnes.multiplyRealResponse fourWorkers (flatResponse true) 1 sched = .finished w ∧
    w.content = some [3, 3, 1, 1, 1, 1, 1, 1, 3] ∧
    ∃ w', Always (nineOnes.multiplyRealResponse fourWorkers (flatResponse false) 1) w' ∧ w'.content = some (List.replicate 9 3) := by
  refine ⟨[0, 0, 0], ⟨⟨.vec, [3, 3, 1, 1, 1, 1, 1, 1, 3]⟩, none, .freq, .real, 9⟩, ?_, rfl, ?_⟩
  · have h : multiplyFunction fourWorkers true false (1 : ℚ) 1 (fun _ => (3 : ℚ)) (List.replicate 9 1) [0, 0, 0] =
        .finished [3, 3, 1, 1, 1, 1, 1, 1, 3] := by decide +kernel
    have hc : nineOnes.content = some (List.replicate 9 1) := rfl
    have hd : nineOnes.dom = .frequency := rfl
    have hx : nineOnes.isComplex = false := rfl
    unfold multiplyRealResponse multiplyFunctionBy
    simp only [hc, hd, hx, flatResponse, h]
    rfl
  obtain ⟨w, h1, h2, -⟩ := C56_real_response_partial fourWorkers (flatResponse false) 1 nineOnes
    ⟨.real (List.replicate 9 1), .frequency, false, none⟩ ⟨rfl, rfl, rfl, rfl⟩ rfl (by decide) (by intro h; cases h)
  refine ⟨w, h1, h2.content.trans ?_⟩
  simp [Numbers.flat, Numbers.filteredReal, filtered, flatResponse, List.replicate, List.mapIdx_cons]

/-- The full C56 fails: one point makes a symmetric response panic. -/
theorem C56_one_point_violated (st : MultiCoreSettings) (h1 : st.coreLimit = 1) (f : FrequencyResponse T T) (ratio x : T)
    (hs : f.isSymmetric = true) (d : Option T) (sched : List Nat) :
    multiplyRealResponse st f ratio ⟨⟨.vec, [x]⟩, d, .freq, .real, 1⟩ sched = .panic := by
  have : determineNumberOfChunks 1 .medium st = 1 := by
    unfold determineNumberOfChunks; rw [if_pos h1]; exact h1
  simp only [multiplyRealResponse, multiplyFunctionBy, content, slice, hs, multiplyFunction, executeSymPairs]
  simp [this, isComplex, NumberSpace.isComplex, partition, chunks, calcChunkSize, ceilDiv, List.range_succ, DspVec.dom, Domain.domain, Outcome.andThen]

/-- A response which is even and not constant. -/
def squareResponse : FrequencyResponse ℚ ℚ := ⟨true, fun x => x * x⟩

/-- The hypotheses of `C56_real_response_partial` are met with two workers and eleven points. -/
example : EvenFunction squareResponse.value ∧ FullPairs 11 twoWorkers ∧ 1 < determineNumberOfChunks 11 .medium twoWorkers ∧
    (⟨⟨.vec, List.replicate 11 1⟩, none, .freq, .real, 11⟩ : DspVec ℚ).Shows ⟨.real (List.replicate 11 1), .frequency, false, none⟩ :=
  ⟨fun x => by simp [squareResponse], ⟨by decide, by decide⟩, by decide, ⟨rfl, rfl, rfl, rfl⟩⟩

/-- ... and of `C56_complex_response_partial`. -/
example : EvenFunction (fun x : ℚ => (⟨x * x, 1⟩ : Cx ℚ)) ∧
    (⟨⟨.vec, List.replicate 8 1⟩, none, .freq, .complex, 8⟩ : DspVec ℚ).Shows ⟨.complex (List.replicate 4 ⟨1, 1⟩), .frequency, false, none⟩ :=
  ⟨fun x => by simp, ⟨rfl, rfl, rfl, rfl⟩⟩

/-- The values for a spectrum with five points. -/
example : Numbers.filteredReal squareResponse.value 1 (.real [1, 1, 1, 1, 1]) = .real [1, 1 / 4, 0, 1 / 4, 1] := by
  simp [Numbers.filteredReal, filtered, spectrumAxis, squareResponse, List.mapIdx_cons]
  norm_num

end Dsp
