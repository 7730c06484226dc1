import Verif.Lemmas.Points
/-
C05 (`reverse`) and C06 (`swap_halves`, `fft_shift`, `ifft_shift`).
-/
namespace Dsp
open DspVec
variable {T : Type}

/-- C05: `reverse` never panics on a well formed vector and reverses the order of the points
    (complex points are units); length, meta data and unused cells are unchanged. -/
theorem C05_reverse (v : DspVec T) (h : v.WF) :
    ∃ v', v.reverse = some v' ∧ PermutesPoints List.reverse v v' :=
  onPoints_spec v h _ _ (fun _ => List.reverse) (fun l _ => by rw [reverseArray_eq])
    (fun l _ => by rw [reverseArray_eq]) (by simp) (by simp)

/-- C05: reversing twice gives exactly the original vector. -/
theorem C05_reverse_involutive (v : DspVec T) (h : v.WF) : v.reverse.bind reverse = some v := by
  obtain ⟨v', h1, h2⟩ := C05_reverse v h
  obtain ⟨v'', h3, h4⟩ := C05_reverse v' (h2.wf h)
  have := h2.comp h4
  simp only [List.reverse_reverse] at this
  rw [h1, Option.bind_some, h3, eq_of_permutes_id v v'' this]

example : exampleVec.WF := by decide
example : exampleVec.pts = some [[1, 2], [3, 4], [5, 6]] := by decide
example : exampleVec.reverse.bind pts = some [[5, 6], [3, 4], [1, 2]] := by decide

/-- C06: `swap_halves` rotates the points to the right by `⌊n/2⌋`, for every length, real and
    complex. -/
theorem C06_swap_halves (v : DspVec T) (h : v.WF) :
    ∃ v', v.swapHalves = some v' ∧ PermutesPoints (fun l => rotateRight l (l.length / 2)) v v' := by
  unfold swapHalves swapHalvesPriv
  by_cases h0 : v.len = 0
  · refine ⟨v, by simp [h0], ?_⟩
    have hz : v.validLen = 0 := h0
    refine ⟨⟨[], ?_, ?_⟩, rfl, ⟨rfl, rfl, rfl, rfl⟩, rfl, rfl⟩ <;>
      cases hc : v.isComplex <;> simp [pts, hz, hc, toComplex?, rotateRight]
  · have h0' : ¬ (v.len == 0) = true := by simpa using h0
    rw [if_neg h0']
    have hpos : 0 < v.points := by
      have hl : v.validLen ≠ 0 := h0
      unfold points
      cases hc : v.isComplex with
      | false => simp; omega
      | true => have := h.2 hc; simp; omega
    exact onPoints_spec v h _ _ (fun _ l => rotateRight l (l.length / 2))
      (fun l hl => swapArrayHalves_true l (by rintro rfl; simp at hl; omega))
      (fun l hl => swapArrayHalves_true l (by rintro rfl; simp at hl; omega))
      (by intro α l; simp [rotateRight]) (by intro α β m l; simp [rotateRight])

/-- C06: `fft_shift` rotates the points to the right by `⌊n/2⌋`. -/
theorem C06_fft_shift (v : DspVec T) (h : v.WF) :
    ∃ v', v.fftShift = some v' ∧ PermutesPoints (fun l => rotateRight l (l.length / 2)) v v' :=
  C06_swap_halves v h

/-- C06: `ifft_shift` rotates the points to the left by `⌊n/2⌋`. Excluded: vectors with
    exactly one point, see `C51_ifft_shift_one_point_violated`. -/
theorem C06_ifft_shift (v : DspVec T) (h : v.WF) (h1 : v.points ≠ 1) :
    ∃ v', v.ifftShift = some v' ∧ PermutesPoints (fun l => rotateLeft l (l.length / 2)) v v' := by
  unfold ifftShift swapHalvesPriv
  by_cases h0 : v.len = 0
  · refine ⟨v, by simp [h0], ?_⟩
    have hz : v.validLen = 0 := h0
    refine ⟨⟨[], ?_, ?_⟩, rfl, ⟨rfl, rfl, rfl, rfl⟩, rfl, rfl⟩ <;>
      cases hc : v.isComplex <;> simp [pts, hz, hc, toComplex?, rotateLeft]
  · have h0' : ¬ (v.len == 0) = true := by simpa using h0
    rw [if_neg h0']
    have hpos : 2 ≤ v.points := by
      have hl : v.validLen ≠ 0 := h0
      unfold points at *
      cases hc : v.isComplex with
      | false => simp [hc] at *; omega
      | true => have := h.2 hc; simp [hc] at *; omega
    exact onPoints_spec v h _ _ (fun _ l => rotateLeft l (l.length / 2))
      (fun l hl => swapArrayHalves_false l (by omega))
      (fun l hl => swapArrayHalves_false l (by omega))
      (by intro α l; simp [rotateLeft]; omega) (by intro α β m l; simp [rotateLeft])

/-- C06: `fft_shift` followed by `ifft_shift` gives exactly the original vector. Excluded:
    vectors with exactly one point, see `C51_ifft_shift_one_point_violated`. -/
theorem C06_shift_roundtrip (v : DspVec T) (h : v.WF) (h1 : v.points ≠ 1) :
    v.fftShift.bind ifftShift = some v := by
  obtain ⟨v', a1, a2⟩ := C06_fft_shift v h
  have hp : v'.points = v.points := by
    obtain ⟨_, b2, ⟨_, _, b3, _⟩, _⟩ := a2
    unfold points isComplex; rw [b2, b3]
  obtain ⟨v'', a3, a4⟩ := C06_ifft_shift v' (a2.wf h) (by omega)
  have := a2.comp a4
  simp only [rotate_cancel] at this
  rw [a1, Option.bind_some, a3, eq_of_permutes_id v v'' this]

/-- C06 is violated for vectors with one point: `ifft_shift` panics (index 1 of a slice of length
    1), for every such vector. -/
theorem C51_ifft_shift_one_point_violated (v : DspVec T) (h : v.WF) (h1 : v.points = 1) :
    v.ifftShift = none := by
  unfold ifftShift swapHalvesPriv
  have hpos : ¬ (v.len == 0) = true := by
    have : v.validLen ≠ 0 := by rintro h0; simp [points, h0] at h1
    simpa [len] using this
  rw [if_neg hpos]
  cases hc : v.isComplex with
  | false =>
    obtain ⟨c, s, a1, a2⟩ := h.real
    have : c.length = 1 := by simp [points, hc, ← a2] at h1; exact h1
    obtain ⟨x, rfl⟩ := List.length_eq_one_iff.mp this
    have a2 : 1 = v.validLen := a2
    simp [onPoints, hc, a1, ← a2, slice, swapArrayHalves, swapHalvesLoop, get]
  | true =>
    obtain ⟨p, s, a1, a2⟩ := h.complex hc
    have : p.length = 1 := by simp [points, hc, ← a2] at h1; exact h1
    obtain ⟨x, rfl⟩ := List.length_eq_one_iff.mp this
    have a2 : 2 = v.validLen := a2
    simp [onPoints, hc, a1, ← a2, slice, fromComplex, toComplex?, swapArrayHalves, swapHalvesLoop, get]

example : exampleVec.fftShift.bind pts = some [[5, 6], [1, 2], [3, 4]] := by decide
example : exampleVec.points ≠ 1 := by decide
example : (exampleVec.fftShift.bind ifftShift).bind pts = exampleVec.pts := by decide
example : ({ exampleVec with validLen := 2 } : DspVec Int).WF ∧
    ({ exampleVec with validLen := 2 } : DspVec Int).points = 1 := by decide

end Dsp
