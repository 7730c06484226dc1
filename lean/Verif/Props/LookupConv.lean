import Verif.Props.LookupTable
import Verif.Props.Dft
/-
C66: conversions of lookup tables between real and complex, and between time and frequency domain.
-/
namespace Dsp
open DspVec
variable {T : Type}

/-! ### The vectors made of tables -/

theorem tableVector_ok [Zero T] (t : List T) (d : T) :
    ∃ v, tableVector t d = some v ∧ v.WF ∧ v.content = some t ∧ v.isComplex = false ∧ v.dom = .time ∧ v.Typed ∧ v.delta = some d ∧
      v.data.cells.length = 2 * t.length ∧ v.len = t.length := by
  have hr : (inlineVector (List.replicate (2 * t.length) 0) d false false).resize t.length =
      ({ inlineVector (List.replicate (2 * t.length) 0) d false false with validLen := t.length }, .ok ()) := by
    unfold DspVec.resize
    rw [if_neg (by simp [inlineVector, DspVec.isComplex, NumberSpace.isComplex]), if_neg (by simp [DspVec.allocLen, inlineVector, inlineStorage]; omega)]
  have hc : copyFromSlice (List.replicate (2 * t.length) (0 : T)) 0 t.length t = some (splice (List.replicate (2 * t.length) 0) 0 t) := by
    simp [copyFromSlice]; omega
  have hl : (splice (List.replicate (2 * t.length) (0 : T)) 0 t).length = 2 * t.length := by
    rw [length_splice _ _ _ (by simp; omega)]; simp
  refine ⟨({ inlineVector (List.replicate (2 * t.length) 0) d false false with validLen := t.length } : DspVec T).withCells
    (splice (List.replicate (2 * t.length) 0) 0 t), ?_, ?_⟩
  · unfold tableVector
    rw [hr]
    simp only [inlineVector, inlineStorage, hc, Option.bind_eq_bind, Option.bind_some]
  · refine ⟨⟨?_, fun h => ?_⟩, ?_, rfl, rfl, .inr ⟨.inl rfl, .inl rfl⟩, rfl, ?_, rfl⟩
    · simp only [DspVec.withCells, hl]; omega
    · cases h
    · simp [DspVec.content, DspVec.withCells, slice, splice]
    · simp only [DspVec.withCells, hl]

theorem complexTableVector_ok (t : List (Cx T)) (d : T) (f : Bool) :
    (complexTableVector t d f).WF ∧ (complexTableVector t d f).content = some (fromComplex t) ∧
    (complexTableVector t d f).isComplex = true ∧ (complexTableVector t d f).dom = (if f then .frequency else .time) ∧
    (complexTableVector t d f).Typed ∧ ¬ (complexTableVector t d f).Generic ∧ (complexTableVector t d f).delta = some d ∧
    (complexTableVector t d f).data.cells.length = 2 * t.length ∧ (complexTableVector t d f).len = 2 * t.length ∧
    (complexTableVector t d f).points = t.length := by
  have hv : validLenFor true (fromComplex t).length = 2 * t.length := by simp [validLenFor]
  have hl : (complexTableVector t d f).validLen = 2 * t.length := hv
  have hcx : (complexTableVector t d f).isComplex = true := rfl
  refine ⟨⟨?_, fun _ => ?_⟩, ?_, rfl, ?_, .inr ⟨.inr rfl, ?_⟩, ?_, rfl, by simp [complexTableVector, inlineVector, inlineStorage], hl, ?_⟩
  · rw [hl]; simp [complexTableVector, inlineVector, inlineStorage]
  · rw [hl]; omega
  · unfold DspVec.content
    rw [hl]
    simp [complexTableVector, inlineVector, inlineStorage, slice]
  · cases f <;> rfl
  · cases f
    · exact .inl rfl
    · exact .inr rfl
  · rintro ⟨b, dd, h, -⟩
    simp [complexTableVector, inlineVector] at h
  · unfold DspVec.points
    rw [hl, hcx]
    simp

/-! ### Real and complex tables -/

/-- C66: the complex table has the values `x + 0j`, the same sampling distance and symmetry. (For the empty table see
    `C66_empty_violated`.) -/
theorem C66_to_complex [Zero T] (L : LookupTable T T) (hne : L.table ≠ []) :
    L.toComplex = some ⟨L.table.map fun x => ⟨x, 0⟩, L.delta, L.isSymmetric⟩ := by
  obtain ⟨v, h1, h2, h3, h4, h5, h6, h7, h8, h9⟩ := tableVector_ok L.table L.delta
  obtain ⟨w, b', e, hw⟩ := C29_to_complex_b v h2 h4 L.table h3 hne (zeroBuffer (2 * v.len)) (by simp [BufferOk, zeroBuffer, h8, h9])
  unfold LookupTable.toComplex
  simp only [h1, e, hw.1, Option.bind_eq_bind, Option.bind_some, toComplex?_fromComplex]

/-- C66: the real table has the real parts of the values, the same sampling distance and symmetry, for every schedule of the workers. -/
theorem C66_to_real [Zero T] (st : MultiCoreSettings) (L : LookupTable T (Cx T)) :
    Always (L.toReal st) ⟨L.table.map Cx.re, L.delta, L.isSymmetric⟩ := by
  obtain ⟨h1, h2, h3, -, -, -, -, h8, -⟩ := complexTableVector_ok L.table L.delta false
  obtain ⟨w, b', e, hw⟩ := C30_buffered Cx.re st (complexTableVector L.table L.delta false) h3 L.table h2 (zeroBuffer L.table.length)
    (by simp only [BufferOk, zeroBuffer, List.length_replicate, h8]; omega)
  refine e.andThen (f := fun r => Outcome.ofOption do
      let c ← r.1.content
      some (⟨c, L.delta, L.isSymmetric⟩ : LookupTable T T)) ?_
  simp [hw.1, Outcome.ofOption]

/-- C66: a real table which is converted to a complex one and back is the same table. -/
theorem C66_to_complex_to_real [Zero T] (st : MultiCoreSettings) (L : LookupTable T T) (hne : L.table ≠ []) :
    ∃ C, L.toComplex = some C ∧ Always (C.toReal st) L := by
  refine ⟨_, C66_to_complex L hne, ?_⟩
  have := C66_to_real st (⟨L.table.map fun x => ⟨x, 0⟩, L.delta, L.isSymmetric⟩ : LookupTable T (Cx T))
  simpa [List.map_map, Function.comp_def] using this

/-- C66: a complex table stands for the same function as the real table. -/
theorem C66_same_function [Field T] [LinearOrder T] [FloorRing T] (L : LookupTable T T) (hne : L.table ≠ []) (x : T) :
    ∃ C, L.toComplex = some C ∧ C.eval x = (L.eval x).map fun y => ⟨y, 0⟩ := by
  refine ⟨_, C66_to_complex L hne, ?_⟩
  have hget : ∀ i, get (L.table.map fun x => (⟨x, 0⟩ : Cx T)) i = (get L.table i).map fun y => ⟨y, 0⟩ := by
    intro i; simp [get]
  simp only [LookupTable.eval, List.length_map, hget]
  split
  · rfl
  · split
    · rfl
    · unfold linearBetweenBins
      simp only [List.length_map, hget]
      have key : ∀ (s y0 y1 : T), (⟨y0, 0⟩ : Cx T) + s • ((⟨y1, 0⟩ : Cx T) - ⟨y0, 0⟩) = ⟨y0 + s • (y1 - y0), 0⟩ := by
        intro s y0 y1
        show (⟨y0 + (y1 - y0) * s, 0 + (0 - 0) * s⟩ : Cx T) = _
        congr 1
        · simp [mul_comm]
        · ring
      split
      · split
        · rfl
        · cases get L.table (asUsize (roundAway (x / L.delta + (L.table.length / 2 : Nat)))) <;>
          cases get L.table (asUsize (roundAway (x / L.delta + (L.table.length / 2 : Nat))) + 1) <;> simp [key]
      · split
        · rfl
        · cases get L.table (asUsize (roundAway (x / L.delta + (L.table.length / 2 : Nat)))) <;>
          cases get L.table (asUsize (roundAway (x / L.delta + (L.table.length / 2 : Nat))) - 1) <;> simp [key]

/-- C66 is violated for the empty table: the conversion panics. -/
theorem C66_empty_violated [Zero T] (d : T) (b : Bool) : (LookupTable.mk [] d b : LookupTable T T).toComplex = none := by
  rfl

/-! ### Time and frequency domain -/

/-- C66: the table in frequency domain is the transform of the values, with the zero frequency in the middle. -/
theorem C66_fft [Zero T] [Mul T] [NatCast T] (K : FftKernel T) (hK : K.KeepsLength) (L : LookupTable T (Cx T))
    (hs : K.scratch L.table.length ≤ L.table.length) :
    L.fft K = some ⟨rotateRight (K.forward L.table) (L.table.length / 2),
      if K.useRust (2 * L.table.length) then (L.table.length : T) * L.delta else L.delta, L.isSymmetric⟩ := by
  obtain ⟨h1, h2, h3, h4, h5, h6, h7, h8, h9, h10⟩ := complexTableVector_ok L.table L.delta false
  obtain ⟨w, b', cs, e1, e2, e3, -, e5, -, -, -, -, -, e11⟩ := C34_fft K hK (complexTableVector L.table L.delta false) h1 h5
    (by rw [h4]; rfl) (zeroBuffer (complexTableVector L.table L.delta false).len)
    ⟨(fun h => by rw [h3] at h; cases h), by simp only [ScratchOk, zeroBuffer, List.length_replicate, h9, h10]; omega⟩
  rw [(cpoints_complex h3).mpr h2] at e2
  cases e2
  have hc := (cpoints_complex e5).mp e3
  unfold LookupTable.fft LookupTable.ofComplexVector
  simp only [e1, hc, Option.bind_eq_bind, Option.bind_some, toComplex?_fromComplex, e11, h10, h7]
  split <;> rfl

/-- C66 is violated if the transform needs more memory than the table has: panic. (`rustfft` does for many lengths which
    are not products of small primes.) -/
theorem C66_scratch_violated [Zero T] [Mul T] [NatCast T] (K : FftKernel T) (L : LookupTable T (Cx T))
    (hr : K.useRust (2 * L.table.length) = true) (hs : L.table.length < K.scratch L.table.length) : L.fft K = none := by
  obtain ⟨h1, h2, h3, h4, h5, h6, h7, h8, h9, h10⟩ := complexTableVector_ok L.table L.delta false
  have e : (complexTableVector L.table L.delta false).fftRaw K .forward (zeroBuffer (complexTableVector L.table L.delta false).len) = none := by
    unfold DspVec.fftRaw
    rw [if_pos (by rw [h9]; exact hr)]
    have : (zeroBuffer (complexTableVector L.table L.delta false).len : Buffer T).borrow
        (2 * K.scratch ((complexTableVector L.table L.delta false).len / 2)) = none := by
      simp only [zeroBuffer, Buffer.borrow, List.length_replicate, h9]
      rw [if_pos]
      rw [Nat.mul_div_cancel_left _ (by omega)]
      omega
    rw [this]
    rfl
  unfold LookupTable.fft
  simp only [DspVec.fft, DspVec.plainFft]
  rw [if_neg (by rw [h4]; decide)]
  simp [DspVec.ensureComplex, h3, e]

/-- C66: `ifft` of a table. -/
theorem C66_ifft [Field T] (K : FftKernel T) (hK : K.KeepsLength) (k : RegKind) (addr : Nat) (st : MultiCoreSettings)
    (L : LookupTable T (Cx T)) (hs : K.scratch L.table.length ≤ L.table.length) (h1 : L.table.length ≠ 1)
    (hal : AlignmentAccepted addr k.len (2 * L.table.length)) :
    Always (L.ifft K k addr st)
      ⟨K.inverse (rotateLeft (L.table.map (Cx.scaleBy (1 / (L.table.length : T)))) (L.table.length / 2)),
       if K.useRust (2 * L.table.length) then (L.table.length : T) * L.delta else L.delta, L.isSymmetric⟩ := by
  obtain ⟨t1, t2, t3, t4, t5, t6, t7, t8, t9, t10⟩ := complexTableVector_ok L.table L.delta true
  obtain ⟨w, b', cs, e1, e2, e3, -, e5, -, -, -, -, e9⟩ := C34_ifft K hK k addr st (complexTableVector L.table L.delta true) t1 t5 t3
    (by rw [t4]; rfl) (zeroBuffer (complexTableVector L.table L.delta true).len)
    (by simp only [ScratchOk, zeroBuffer, List.length_replicate, t9, t10]; omega) (by rw [t10]; exact h1) (by rw [t9]; exact hal)
  rw [(cpoints_complex t3).mpr t2] at e2
  cases e2
  have hc := (cpoints_complex e5).mp e3
  rw [t10] at hc e9
  refine e1.andThen (f := fun r => Outcome.ofOption (LookupTable.ofComplexVector r.1 L.isSymmetric)) ?_
  simp only [LookupTable.ofComplexVector, hc, e9, t7, Option.bind_eq_bind, Option.bind_some, toComplex?_fromComplex]
  split <;> rfl

/-- C66: a table which is transformed to frequency domain and back has the same values again. The sampling distance is not restored,
    see `C66_delta_violated`. -/
theorem C66_round_trip_partial [Field T] [CharZero T] (K : FftKernel T) (hK : K.Inverts) (hh : K.Homogeneous) (k : RegKind) (addr : Nat)
    (st : MultiCoreSettings) (L : LookupTable T (Cx T)) (hs : K.scratch L.table.length ≤ L.table.length) (h1 : L.table.length ≠ 1)
    (hal : AlignmentAccepted addr k.len (2 * L.table.length)) :
    ∃ F B, L.fft K = some F ∧ Always (F.ifft K k addr st) B ∧ B.table = L.table ∧ B.isSymmetric = L.isSymmetric := by
  have hl : (rotateRight (K.forward L.table) (L.table.length / 2)).length = L.table.length := by
    have := hK.length.1 L.table
    simp [rotateRight, this]
  refine ⟨_, _, C66_fft K hK.length L hs, C66_ifft K hK.length k addr st _ (by rw [hl]; exact hs) (by rw [hl]; exact h1)
    (by rw [hl]; exact hal), ?_, rfl⟩
  simp only
  rw [hl, rotateRight_map]
  have hl2 : ((K.forward L.table).map (Cx.scaleBy (1 / (L.table.length : T)))).length = L.table.length := by
    simp [hK.length.1]
  have hc := rotate_cancel ((K.forward L.table).map (Cx.scaleBy (1 / (L.table.length : T))))
  rw [hl2] at hc
  have h3 : (rotateRight ((K.forward L.table).map (Cx.scaleBy (1 / (L.table.length : T)))) (L.table.length / 2)).length = L.table.length := by
    rw [← rotateRight_map, List.length_map, hl]
  rw [h3] at hc
  rw [hc, hh, hK.back, List.map_map]
  by_cases h0 : L.table.length = 0
  · have : L.table = [] := List.length_eq_zero_iff.mp h0
    rw [this]; rfl
  · have hne : (L.table.length : T) ≠ 0 := Nat.cast_ne_zero.mpr h0
    conv_rhs => rw [← List.map_id L.table]
    apply List.map_congr_left
    intro c _
    simp only [Function.comp, Cx.scaleBy, id]
    rw [← mul_assoc, ← mul_assoc, one_div, inv_mul_cancel₀ hne, one_mul, one_mul]

/-- C66 is violated: after a transform to frequency domain and back the sampling distance is multiplied with the square of the
    number of values. -/
theorem C66_delta_violated [Field T] [CharZero T] (K : FftKernel T) (hK : K.Inverts) (k : RegKind) (addr : Nat)
    (st : MultiCoreSettings) (L : LookupTable T (Cx T)) (hs : K.scratch L.table.length ≤ L.table.length) (h1 : 1 < L.table.length)
    (hal : AlignmentAccepted addr k.len (2 * L.table.length)) (hr : K.useRust (2 * L.table.length) = true) (hd : L.delta ≠ 0) :
    ∃ F B, L.fft K = some F ∧ Always (F.ifft K k addr st) B ∧
      B.delta = (L.table.length : T) * ((L.table.length : T) * L.delta) ∧ B.delta ≠ L.delta := by
  have hl : (rotateRight (K.forward L.table) (L.table.length / 2)).length = L.table.length := by
    have := hK.length.1 L.table
    simp [rotateRight, this]
  refine ⟨_, _, C66_fft K hK.length L hs, C66_ifft K hK.length k addr st _ (by rw [hl]; exact hs) (by rw [hl]; omega)
    (by rw [hl]; exact hal), ?_, ?_⟩
  · simp only [hl, hr, if_true]
  · simp only [hl, hr, if_true]
    rw [← mul_assoc]
    intro h
    have h2 : ((L.table.length : T) * L.table.length) = 1 := by
      have := mul_right_cancel₀ hd (h.trans (one_mul L.delta).symm)
      exact this
    have h3 : L.table.length * L.table.length = 1 := by exact_mod_cast h2
    have := Nat.eq_one_of_mul_eq_one_right h3
    omega

/-- C66: `fft` of a real table gives the magnitudes of the transform, with the zero frequency in the middle. -/
theorem C66_magnitudes [Zero T] [Mul T] [NatCast T] (K : FftKernel T) (hK : K.KeepsLength) (norm : Cx T → T) (L : LookupTable T T)
    (hne : L.table ≠ []) (hs : K.scratch L.table.length ≤ L.table.length) :
    L.magnitudeSpectrum K norm =
      some ⟨(rotateRight (K.forward (L.table.map fun x => ⟨x, 0⟩)) (L.table.length / 2)).map norm,
        if K.useRust (2 * L.table.length) then (L.table.length : T) * L.delta else L.delta, L.isSymmetric⟩ := by
  obtain ⟨v, h1, h2, h3, h4, h5, h6, h7, h8, h9⟩ := tableVector_ok L.table L.delta
  have hp : v.points = L.table.length := by
    unfold DspVec.points; rw [h4]
    have : v.validLen = L.table.length := h9
    simp [this]
  have hpos : 0 < L.table.length := List.length_pos_iff.mpr hne
  obtain ⟨w, b', cs, e1, e2, e3, -, e5, -, -, -, -, -, e11⟩ := C34_fft K hK v h2 h6 h5 (zeroBuffer (2 * L.table.length))
    ⟨fun _ => ⟨by omega, by simp [BufferOk, zeroBuffer, h8, h9]⟩, by simp only [ScratchOk, zeroBuffer, List.length_replicate, hp]; omega⟩
  have hcs : cs = L.table.map fun x => ⟨x, 0⟩ := by
    unfold DspVec.cpoints at e2
    rw [h3, h4] at e2
    simp only [Option.bind_some] at e2
    cases e2
    rfl
  subst hcs
  have hc := (cpoints_complex e5).mp e3
  obtain ⟨u, f1, f2⟩ := C30_in_place norm w e5 _ hc
  unfold LookupTable.magnitudeSpectrum
  simp only [h1, e1, f1, f2.1, Option.bind_eq_bind, Option.bind_some, f2.2.2.2.2, e11, hp, h7, List.length_map]
  split <;> rfl

end Dsp
