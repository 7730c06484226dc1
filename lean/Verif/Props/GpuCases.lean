import Verif.Props.Gpu
/-
C85: complex vectors in single precision, lengths of the FFT on a GPU, examples.
-/
namespace Dsp
open DspVec
variable {T : Type}

section
variable [Field T] [LinearOrder T]

omit [LinearOrder T] in
theorem impulse32 : gpuImpulse .f32 true (fromComplex [(1 : Cx T), 0]) 8 =
    some [0, 0, 1, 0, 0, 0, 0, 0, 0, 0, 0, 0, 1, 0, 0, 0] := by
  have hz : List.replicate (4 * 8 / 2) (0 : T) = fromComplex (List.replicate 8 0) :=
    (fromComplex_replicate 8 (0 : T)).symm
  have hp : prepareImpulseResponse [(1 : Cx T), 0] (List.replicate 8 0) 2 = some [0, 1, 0, 0, 0, 0, 1, 0] := by
    simp [prepareImpulseResponse, forRange, put, List.replicate]
  unfold gpuImpulse
  simp only [GpuType.vecLen, if_true]
  rw [hz, toComplex?_fromComplex, toComplex?_fromComplex, Option.bind_some, Option.bind_some, show 4 / 2 = 2 from rfl, hp]
  rfl

omit [LinearOrder T] in
theorem chunks32 : chunks 4 [(0 : T), 0, 1, 0, 0, 0, 0, 0, 0, 0, 0, 0, 1, 0, 0, 0] =
    some [[0, 0, 1, 0], [0, 0, 0, 0], [0, 0, 0, 0], [1, 0, 0, 0]] := by
  simp [chunks, ceilDiv, blk, List.range_succ]

omit [LinearOrder T] in
/-- One work item for the response `[1, 0]`. -/
theorem item32 (X : List (Cx T)) (src : List (List T)) (M : Nat) (hX : X.length = 2 * M)
    (hsrc : ∀ i < M, src[i]? = some (blk 4 (fromComplex X) i)) (idx : Nat) (h1 : 1 ≤ idx) (h2 : idx < M) :
    convVecs 4 (GpuType.kernel .f32 true) 2 src [[0, 0, 1, 0], [0, 0, 0, 0], [0, 0, 0, 0], [1, 0, 0, 0]] idx =
      some [-(X.getD (2 * idx - 1) 0).re, (X.getD (2 * idx - 1) 0).im, (X.getD (2 * idx) 0).re, (X.getD (2 * idx) 0).im] := by
  have hb : ∀ i < M, blk 4 (fromComplex X) i = [(X.getD (2 * i) 0).re, (X.getD (2 * i) 0).im, (X.getD (2 * i + 1) 0).re, (X.getD (2 * i + 1) 0).im] := by
    intro i hi
    have := fromComplex_blk X 2 i
    rw [show (2 * 2 : Nat) = 4 from rfl] at this
    rw [this]
    have e : blk 2 X i = [X.getD (2 * i) 0, X.getD (2 * i + 1) 0] := by
      apply List.ext_getElem?
      intro j
      rw [blk_getElem?]
      match j with
      | 0 =>
        rw [if_pos (by omega), List.getD_eq_getElem?_getD, Nat.mul_comm, Nat.add_zero, List.getElem?_eq_getElem (by omega)]; rfl
      | 1 =>
        rw [if_pos (by omega), List.getElem?_cons_succ, List.getElem?_cons_zero, List.getD_eq_getElem?_getD, Nat.mul_comm, List.getElem?_eq_getElem (show 2 * i + 1 < X.length by omega)]; rfl
      | j + 2 => rw [if_neg (by omega)]; rfl
    rw [e]
    rfl
  rw [show GpuType.kernel (T := T) .f32 true = ⟨2, mulc32, laneSumC⟩ from rfl,
    convVecs_eq 4 _ 2 src _ idx
      (fun q => [(X.getD (2 * (idx - 1 + q)) 0).re, (X.getD (2 * (idx - 1 + q)) 0).im, (X.getD (2 * (idx - 1 + q) + 1) 0).re, (X.getD (2 * (idx - 1 + q) + 1) 0).im])
      (fun j => [[0, 0, 1, 0], [0, 0, 0, 0], [0, 0, 0, 0], [1, 0, 0, 0]].getD j [])
      (by omega) (fun q hq => by rw [hsrc _ (by omega), hb _ (by omega)])
      (fun j hj => by
        match j, hj with
        | 0, _ => rfl
        | 1, _ => rfl
        | 2, _ => rfl
        | 3, _ => rfl)]
  have e1 : 2 * (idx - 1) + 1 = 2 * idx - 1 := by omega
  have e2 : 2 * (idx - 1 + 1) = 2 * idx := by omega
  simp [kernelSum, show List.range 2 = [0, 1] from rfl, mulc32, laneSumC, List.replicate, e1, e2]

/-- C85: in single precision the response `[1, 0]` (two complex points, which should not change the signal) negates the
    real part of every second point: the product of complex numbers in the kernel has a wrong sign. For every complex
    vector, every order of the work items and every contents of the buffers. -/
theorem C85_complex32_violated [IsStrictOrderedRing T] (ov : Outcome (DspVec T × Buffer T × VoidResult))
    (res : List (List T)) (schedule : List Nat → List Nat) (k : RegKind) (addr : Nat) (st : MultiCoreSettings)
    (v h : DspVec T) (hv : v.WF) (hh : h.WF) (hc : v.isComplex = true) (hm : v.metaMismatch h = false)
    (hd : v.dom = .time) (hlen : 10000 < v.len) (h1 : h.content = some [1, 0, 0, 0]) (b : Buffer T)
    (hb : BufferOk b v.data v.len) (hres : FreshBuffer .f32 v.len res) (hs : AnyOrder schedule) :
    ∃ v' b', ∃ x r : List (Cx T),
      Always (v.convolveSignalWithGpu .f32 ov res schedule k addr st h b) (v', b', .ok ()) ∧
      v.content = some (fromComplex x) ∧ v'.content = some (fromComplex r) ∧ r.length = x.length ∧
      circularConv x [1, 0] = x ∧
      (∀ j, 2 ≤ j → j < v.points / 2 - 2 → r[2 * j]? = some ⟨-(x.getD (2 * j) 0).re, (x.getD (2 * j) 0).im⟩ ∧
        r[2 * j + 1]? = x[2 * j + 1]?) ∧
      (∀ j, 2 ≤ j → j < v.points / 2 - 2 → (x.getD (2 * j) 0).re ≠ 0 → ¬ IsConvolution v h v') := by
  have hsp : h.isComplex = v.isComplex := by
    unfold metaMismatch at hm
    simp only [Bool.or_eq_false_iff, bne_eq_false_iff_eq] at hm
    exact hm.1.1.symm
  have hc' : h.isComplex = true := by rw [hsp, hc]
  obtain ⟨t, t1, t2⟩ := borrow_ok b v.data v.len hb
  obtain ⟨x, hvc, hvl⟩ := hv.content_even hc
  have hhl : 4 = h.len := hh.content_length h1
  have hvn : v.len = 2 * x.length := by unfold len; omega
  have hvp : v.points = x.length := by simp only [points, hc, if_true]; unfold len at hvn; omega
  have hhp : h.points = 2 := by simp only [points, hc', if_true]; unfold len at hhl; omega
  have hxl : (fromComplex x).length = 2 * x.length := length_fromComplex x
  obtain ⟨N, hN⟩ : ∃ N, N = 2 * x.length / 4 := ⟨_, rfl⟩
  obtain ⟨Z, hZ⟩ : ∃ Z, Z = (x.drop 1).take (2 * (N - 1)) := ⟨_, rfl⟩
  have hZl : Z.length = 2 * (N - 1) := by rw [hZ, List.length_take, List.length_drop]; omega
  have hZv : ∀ i < 2 * (N - 1), Z.getD i 0 = x.getD (i + 1) 0 := by
    intro i hi
    rw [hZ, List.getD_eq_getElem?_getD, List.getD_eq_getElem?_getD, List.getElem?_take_of_lt hi, List.getElem?_drop,
      Nat.add_comm]
  have hV : GpuType.f32.vecLen = 4 := rfl
  have hW : gpuWhole .f32 (2 * x.length) = N * 4 := by unfold gpuWhole; rw [hN]; rfl
  have hM : gpuMargin .f32 (2 * 2) = 8 := rfl
  have hyl : (fromComplex [(1 : Cx T), 0]).length = 2 * 2 := rfl
  have hy : ([1, 0, 0, 0] : List T) = fromComplex [1, 0] := rfl
  obtain ⟨src, s1, s2, s3, s4⟩ := chunks_get (w := 4) (by omega) (fromComplex Z) (N - 1)
    (by rw [length_fromComplex]; omega)
  have hst := gpu_store .f32 true (fromComplex x) t (fromComplex [1, 0]) (by rw [hyl]; omega) (by rw [hxl]; omega)
    (by rw [hxl, hW, hyl, hM]; omega) res (by rw [hxl, ← hvn]; exact hres) schedule hs src
    [[0, 0, 1, 0], [0, 0, 0, 0], [0, 0, 0, 0], [1, 0, 0, 0]] [0, 0, 1, 0, 0, 0, 0, 0, 0, 0, 0, 0, 1, 0, 0, 0]
    (fun idx => [-(x.getD (2 * idx) 0).re, (x.getD (2 * idx) 0).im, (x.getD (2 * idx + 1) 0).re, (x.getD (2 * idx + 1) 0).im])
    (by
      rw [hxl, hW, hV, hyl, show gpuPhase 4 (2 * 2) = 2 from by decide, ← s1, hZ, fromComplex_take, fromComplex_drop]
      congr 2
      omega)
    (by rw [hyl, hM]; exact impulse32) chunks32
    (by
      rw [hyl, hM, hV, hxl, ← hN]
      intro idx h1 h2
      refine ⟨?_, rfl⟩
      rw [show 8 / 4 = 2 from rfl] at h1 h2 ⊢
      rw [item32 Z src (N - 1) hZl s3 idx (by omega) (by omega), hZv _ (by omega), hZv _ (by omega),
        show 2 * idx - 1 + 1 = 2 * idx by omega])
  rw [hyl, hM, hV, hxl, hW] at hst
  obtain ⟨r0', r1, r2, r3, r4, r5⟩ := hst
  obtain ⟨r0, rfl⟩ := exists_fromComplex (l := r0') (by omega)
  rw [length_fromComplex] at r2
  obtain ⟨r, q1, q2, q3⟩ := convolveVectorRange_spec x [1, 0] r0 (by intro e; subst e; simp at hvn; omega)
    (by simp only [List.length_cons, List.length_nil]; omega) 4
  have hrl : (fromComplex r).length = v.len := by rw [length_fromComplex]; omega
  obtain ⟨v', e0, e1, e2, e3⟩ := trade_content v b hb (fromComplex r) hrl
  have hval : ∀ j, 2 ≤ j → j < v.points / 2 - 2 → r[2 * j]? = some ⟨-(x.getD (2 * j) 0).re, (x.getD (2 * j) 0).im⟩ ∧
        r[2 * j + 1]? = x[2 * j + 1]? := by
    rw [hvp]
    intro j h2 h3
    rw [q3 (2 * j), if_neg (by omega), q3 (2 * j + 1), if_neg (by omega)]
    have a := r3 (4 * j) (by omega) (by omega)
    have c := r3 (4 * j + 1) (by omega) (by omega)
    have a2 := r3 (4 * j + 2) (by omega) (by omega)
    have c2 := r3 (4 * j + 3) (by omega) (by omega)
    rw [show 4 * j = 2 * (2 * j) by omega, getElem?_fromComplex_even, show 2 * (2 * j) / 4 = j by omega, show 2 * (2 * j) % 4 = 0 by omega,
      List.getElem?_eq_getElem (show 2 * j < r0.length by omega)] at a
    rw [show 4 * j = 2 * (2 * j) by omega, getElem?_fromComplex_odd, show (2 * (2 * j) + 1) / 4 = j by omega, show (2 * (2 * j) + 1) % 4 = 1 by omega,
      List.getElem?_eq_getElem (show 2 * j < r0.length by omega)] at c
    rw [show 4 * j + 2 = 2 * (2 * j + 1) by omega, getElem?_fromComplex_even, show 2 * (2 * j + 1) / 4 = j by omega, show 2 * (2 * j + 1) % 4 = 2 by omega,
      List.getElem?_eq_getElem (show 2 * j + 1 < r0.length by omega)] at a2
    rw [show 4 * j + 3 = 2 * (2 * j + 1) + 1 by omega, getElem?_fromComplex_odd, show (2 * (2 * j + 1) + 1) / 4 = j by omega, show (2 * (2 * j + 1) + 1) % 4 = 3 by omega,
      List.getElem?_eq_getElem (show 2 * j + 1 < r0.length by omega)] at c2
    rw [List.getElem?_eq_getElem (show 2 * j < r0.length by omega), List.getElem?_eq_getElem (show 2 * j + 1 < r0.length by omega),
      List.getElem?_eq_getElem (show 2 * j + 1 < x.length by omega)]
    have hx1 : x.getD (2 * j + 1) 0 = x[2 * j + 1] := by
      rw [List.getD_eq_getElem?_getD, List.getElem?_eq_getElem (show 2 * j + 1 < x.length by omega)]; rfl
    simp only [Option.map_some, List.getElem?_cons_zero, List.getElem?_cons_succ, Option.some.injEq, hx1] at a c a2 c2 ⊢
    refine ⟨by rw [← a, ← c], ?_⟩
    cases hA : r0[2 * j + 1]
    cases hB : x[2 * j + 1]
    rw [hA, hB] at a2 c2
    simp only at a2 c2
    rw [a2, c2]
  refine ⟨v', (b.trade (fromComplex r) v.data).1, x, r, ?_, hvc, e1, by omega, circularConv_one_zero x, hval, ?_⟩
  · refine withGpu_branch .f32 ov res schedule k addr st v h b hm hd (by omega) hlen (by omega) v' _ ?_
    unfold convolveSignalGpuBranch
    rw [t1, hvc, h1, hy]
    simp only [hc]
    rw [r1]
    simp only [Option.bind_some, if_true, toComplex?_fromComplex]
    rw [show 8 / 2 = 4 from rfl, q1, Option.map_some, Option.map_some, ← e0]
  · intro j h2 h3 hne hcon
    obtain ⟨x', y', c1, c2, c3⟩ := hcon.2.2.2 hc
    rw [hvc] at c1
    rw [h1, hy] at c2
    have hx := fromComplex_injective (Option.some.inj c1)
    have hyy := fromComplex_injective (Option.some.inj c2)
    rw [← hx, ← hyy, circularConv_one_zero, e1] at c3
    have hr := fromComplex_injective (Option.some.inj c3)
    have hj := (hval j h2 h3).1
    rw [hr, List.getElem?_eq_getElem (show 2 * j < x.length by omega)] at hj
    have hxj : x.getD (2 * j) 0 = x[2 * j] := by
      rw [List.getD_eq_getElem?_getD, List.getElem?_eq_getElem (show 2 * j < x.length by omega)]; rfl
    have := congrArg Cx.re (Option.some.inj hj)
    rw [hxj] at hne this
    simp only at this
    apply hne
    linarith

end

/-! ### Lengths for the FFT -/

theorem supported_odd : ∀ (len : Nat), len % 2 = 1 → isSupportedFftLen true len = false := by
  intro len
  induction len using Nat.strongRecOn with
  | ind len ih =>
    intro h
    have hodd : ∀ d, d % 2 = 1 → len % d = 0 → (len / d) % 2 = 1 := by
      intro d hd h0
      have := Nat.div_add_mod len d
      rw [h0, Nat.add_zero] at this
      rw [← this, Nat.mul_mod, hd, Nat.one_mul] at h
      simpa using h
    unfold isSupportedFftLen
    by_cases h1 : len ≤ 1
    · rw [dif_pos (.inr h1)]
    · rw [dif_neg (by simp; omega), if_neg (by omega), if_neg (by omega)]
      by_cases h3 : len % 3 = 0
      · rw [if_pos h3, ih _ (by omega) (hodd 3 rfl h3)]
      rw [if_neg h3]
      by_cases h5 : len % 5 = 0
      · rw [if_pos h5, ih _ (by omega) (hodd 5 rfl h5)]
      rw [if_neg h5]
      by_cases h7 : len % 7 = 0
      · rw [if_pos h7, ih _ (by omega) (hodd 7 rfl h7)]
      rw [if_neg h7]
      by_cases h11 : len % 11 = 0
      · rw [if_pos h11, ih _ (by omega) (hodd 11 rfl h11)]
      rw [if_neg h11]
      by_cases h13 : len % 13 = 0
      · rw [if_pos h13, ih _ (by omega) (hodd 13 rfl h13)]
      rw [if_neg h13]

/-- C85: the FFT of a GPU is only used for lengths (in numbers) which are a power of two, although the code seems to
    accept factors 3, 5, 7, 11 and 13. -/
theorem C85_fft_len (isComplex : Bool) (len : Nat) :
    isSupportedFftLen isComplex len = true ↔ isComplex = true ∧ ∃ k, 1 ≤ k ∧ len = 2 ^ k := by
  cases isComplex with
  | false =>
    unfold isSupportedFftLen
    simp
  | true =>
    simp only [true_and]
    induction len using Nat.strongRecOn with
    | ind len ih =>
      by_cases h1 : len ≤ 1
      · unfold isSupportedFftLen
        rw [dif_pos (.inr h1)]
        simp only [Bool.false_eq_true, false_iff]
        rintro ⟨k, hk, rfl⟩
        have : 2 ^ 1 ≤ 2 ^ k := Nat.pow_le_pow_right (by omega) hk
        omega
      by_cases h2 : len = 2
      · subst h2
        unfold isSupportedFftLen
        rw [dif_neg (by simp), if_pos rfl]
        exact ⟨fun _ => ⟨1, le_refl _, rfl⟩, fun _ => rfl⟩
      by_cases he : len % 2 = 0
      · have hun : isSupportedFftLen true len = isSupportedFftLen true (len / 2) := by
          rw [isSupportedFftLen, dif_neg (by simp; omega), if_neg h2, if_pos he]
        rw [hun, ih (len / 2) (by omega)]
        constructor
        · rintro ⟨k, hk, e⟩
          exact ⟨k + 1, by omega, by rw [pow_succ]; omega⟩
        · rintro ⟨k, hk, e⟩
          obtain ⟨n, rfl⟩ : ∃ n, k = n + 1 := ⟨k - 1, by omega⟩
          rw [pow_succ] at e
          refine ⟨n, ?_, by omega⟩
          by_contra hn
          have : n = 0 := by omega
          subst this
          simp at e
          omega
      · rw [supported_odd len (by omega)]
        simp only [Bool.false_eq_true, false_iff]
        rintro ⟨k, hk, rfl⟩
        obtain ⟨n, rfl⟩ : ∃ n, k = n + 1 := ⟨k - 1, by omega⟩
        rw [pow_succ] at he
        omega

/-! ### Examples -/

/-- 10004 real numbers `1` and the response `[1, 2, 3]`. -/
def gpuRealVec : DspVec ℚ := ⟨⟨.vec, List.replicate 10004 1⟩, some 1, .time, .real, 10004⟩
def gpuRealImp : DspVec ℚ := ⟨⟨.vec, [1, 2, 3]⟩, some 1, .time, .real, 3⟩

/-- The hypotheses of `C85_convolve_real_partial` and `C85_end_violated` for numbers in single precision. -/
example : gpuRealVec.WF ∧ gpuRealImp.WF ∧ gpuRealVec.isComplex = false ∧ gpuRealVec.metaMismatch gpuRealImp = false ∧
    gpuRealImp.points ≤ gpuRealVec.points ∧ 10000 < gpuRealVec.len ∧ ¬ (gpuRealImp.len ≤ 202 ∧ 11 < gpuRealImp.len) ∧
    gpuMargin .f32 gpuRealImp.len + 2 * GpuType.f32.vecLen ≤ gpuWhole .f32 gpuRealVec.len ∧
    AnyOrder List.reverse ∧ FreshBuffer .f32 gpuRealVec.len (List.replicate 2500 (List.replicate 4 (7 : ℚ))) := by
  refine ⟨⟨by simp [-List.reduceReplicate, gpuRealVec], fun _ => rfl⟩,
    ⟨by simp [gpuRealImp], fun h => by cases h⟩, rfl, by decide +kernel, by decide +kernel, by decide +kernel,
    by decide +kernel, by decide +kernel, fun l => List.reverse_perm l, ⟨by rw [List.length_replicate]; decide +kernel, fun r hr => ?_⟩⟩
  rw [List.mem_replicate] at hr
  rw [hr.2]; rfl

/-- 5002 complex points `1 + 2j` and the responses `[1]` and `[1, 0]`. -/
def gpuComplexVec : DspVec ℚ := ⟨⟨.vec, fromComplex (List.replicate 5002 ⟨1, 2⟩)⟩, some 1, .time, .complex, 10004⟩
def gpuOneImp : DspVec ℚ := ⟨⟨.vec, [1, 0]⟩, some 1, .time, .complex, 2⟩
def gpuTwoImp : DspVec ℚ := ⟨⟨.vec, [1, 0, 0, 0]⟩, some 1, .time, .complex, 4⟩

/-- The hypotheses of `C85_convolve_complex_partial`, `C85_complex64_odd_violated` and `C85_complex32_violated`; the
    last conditions: for this vector the results are not the convolution. -/
example : gpuComplexVec.WF ∧ gpuOneImp.WF ∧ gpuTwoImp.WF ∧ gpuComplexVec.isComplex = true ∧
    gpuComplexVec.metaMismatch gpuOneImp = false ∧ gpuComplexVec.metaMismatch gpuTwoImp = false ∧ 10000 < gpuComplexVec.len ∧
    gpuOneImp.content = some [1, 0] ∧ gpuTwoImp.content = some [1, 0, 0, 0] ∧ gpuTwoImp.points % 2 = 0 ∧
    gpuTwoImp.points + 1 < gpuComplexVec.points ∧
    2 < gpuComplexVec.points - 2 ∧ 2 < gpuComplexVec.points / 2 - 2 ∧ (2 : ℚ) ≠ 1 ∧ (1 : ℚ) ≠ 0 := by
  refine ⟨⟨by simp [-List.reduceReplicate, gpuComplexVec], fun _ => rfl⟩,
    ⟨by simp [gpuOneImp], by simp [gpuOneImp]⟩, ⟨by simp [gpuTwoImp], by simp [gpuTwoImp]⟩, rfl, by decide +kernel, by decide +kernel, by decide +kernel,
    rfl, rfl, by decide +kernel, by decide +kernel, by decide +kernel, by decide +kernel, by norm_num, by norm_num⟩

/-- A length with the factor 3 is not used, 16384 is. -/
example : isSupportedFftLen true 16384 = true ∧ isSupportedFftLen true (3 * 4096) = false :=
  ⟨(C85_fft_len true 16384).mpr ⟨rfl, 14, by omega, by norm_num⟩, by
    rw [Bool.eq_false_iff]
    intro h
    obtain ⟨_, k, _, hk⟩ := (C85_fft_len true (3 * 4096)).mp h
    have h1 : k < 14 ∨ 14 ≤ k := by omega
    rcases h1 with h1 | h1
    · have := Nat.pow_le_pow_right (show 0 < 2 by omega) (show k ≤ 13 by omega)
      omega
    · have := Nat.pow_le_pow_right (show 0 < 2 by omega) h1
      omega⟩

end Dsp
