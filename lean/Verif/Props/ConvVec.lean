import Verif.Props.ConvFreq
import Verif.Props.DftConv
/-
C37, C38: `convolve_signal` on vectors.
-/
namespace Dsp
open DspVec
variable {T : Type}

/-! ### The implementation in frequency domain -/

/-- A filtered block holds values of the convolution. -/
theorem filterBlock_good [Field T] (K : FftKernel T) (hK : K.Convolves) (F m : Nat) (hm : 1 ≤ m)
    (hF : m ≤ F) (x h : List (Cx T)) (hh : h.length = m) (p : Nat) (hp : p + F ≤ x.length) :
    GoodBlock (fun j c => c = convAt x h j) F m p
      (filterBlock K F (K.forward (h ++ List.replicate (F - m) 0)) ((x.drop p).take F)) := by
  obtain ⟨hKL, hKC⟩ := hK
  have hb : ((x.drop p).take F).length = F := by simp; omega
  have hg : (h ++ List.replicate (F - m) (0 : Cx T)).length = F := by simp; omega
  have hC := hKC ((x.drop p).take F) (h ++ List.replicate (F - m) 0) (by rw [hb, hg])
  rw [hb] at hC
  constructor
  · unfold filterBlock
    rw [hKL.2, List.length_zipWith, hKL.1, hKL.1, hb, hg, Nat.min_self]
  · intro j h1 h2
    refine ⟨_, hC j h2, ?_⟩
    beta_reduce
    unfold convAt
    rw [foldl_add_sum, foldl_add_sum, zero_add, zero_add]
    have hsplit : List.range F = List.range m ++ (List.range (F - m)).map (m + ·) := by
      rw [← List.range_add]; congr 1; omega
    rw [hsplit, List.map_append, List.sum_append, hh]
    have hz : (((List.range (F - m)).map (m + ·)).map fun (k : Nat) =>
        (cyclic ((x.drop p).take F) ((j : Int) - k)).getD 0 *
          (h ++ List.replicate (F - m) 0).getD k 0).sum = 0 := by
      apply List.sum_eq_zero
      intro y hy
      simp only [List.mem_map, List.mem_range] at hy
      obtain ⟨k, ⟨k0, hk0, rfl⟩, rfl⟩ := hy
      have : (h ++ List.replicate (F - m) (0 : Cx T)).getD (m + k0) 0 = 0 := by
        rw [List.getD_eq_getElem?_getD, List.getElem?_append_right (by omega), List.getElem?_replicate,
          if_pos (by omega), Option.getD_some]
      rw [this, mul_zero]
    rw [hz, add_zero]
    congr 1
    apply List.map_congr_left
    intro k hk
    rw [List.mem_range] at hk
    congr 1
    · have hc1 : cyclic ((x.drop p).take F) ((j : Int) - k) = x[p + (j - k)]? := by
        unfold cyclic
        rw [hb, Int.emod_eq_of_lt (by omega) (by omega), List.getElem?_take, if_pos (by omega),
          List.getElem?_drop]
        congr 1; omega
      have hc2 : cyclic x (((p + j - (m - 1) + m / 2 : Nat) : Int) + ((m - 1) / 2 : Nat) - k) = x[p + (j - k)]? := by
        unfold cyclic
        rw [Int.emod_eq_of_lt (by omega) (by omega)]
        congr 1; omega
      rw [hc1, hc2]
    · rw [List.getD_eq_getElem?_getD, List.getD_eq_getElem?_getD, List.getElem?_append_left (by omega)]

/-- Specification: signal lengths for which the blocks of transform length `F` and the scalar tail
    together cover the whole signal (`m` is the number of points of the impulse response). -/
def NoGap (n m F : Nat) : Prop := n + m ≤ F + F / 2 + 1 + m / 2 ∨ 2 * F + 1 < n + m

/-- C37: the implementation in frequency domain computes the convolution for every transform kernel
    for which the convolution theorem holds, *if* the length of the signal leaves no gap. -/
theorem C37_overlap_discard_partial [Field T] (K : FftKernel T) (hK : K.Convolves)
    (junk : List (Cx T) → List (Cx T)) (hj : ∀ l, (junk l).length = l.length) (F m : Nat) (hm : 1 ≤ m)
    (hF : 4 * m ≤ F + 4) (hF1 : m ≤ F) (he : F % 2 = 0) (x hs tmp : List (Cx T)) (hhs : m ≤ hs.length)
    (hx : F ≤ x.length) (ht : tmp.length = F) (hgap : NoGap x.length m F) :
    overlapDiscard K junk F m x hs tmp = some (circularConv x (hs.take m)) := by
  obtain ⟨r, P, r1, r2, r3, r4, r5, r6, r7, r8⟩ := overlapDiscard_spec K junk hj F m hm (by omega) hF1 x hs tmp hhs hx
    ht (fun j c => c = convAt x (hs.take m) j) (fun _ => rfl)
    (fun p hp => filterBlock_good K hK F m hm hF1 x _ (by simp; omega) p hp)
  rw [r1]
  congr 1
  have hF0 : 0 < F := by omega
  have hmod := Nat.mod_lt x.length hF0
  have hdm := Nat.div_add_mod x.length F
  have hq : 1 ≤ x.length / F := (Nat.one_le_div_iff hF0).mpr hx
  have hcover : x.length - (x.length - x.length % F) / 2 ≤ P + m / 2 := by
    by_cases h2 : 2 ≤ x.length / F
    · have : F * 2 ≤ F * (x.length / F) := Nat.mul_le_mul_left _ h2
      omega
    · have : x.length / F = 1 := by omega
      rw [this] at hdm
      obtain ⟨k, hk1, hk2⟩ := r4
      unfold NoGap at hgap
      rcases hgap with hg | hg
      · have : F - (m - 1) ≤ P := by rw [hk2]; exact Nat.le_mul_of_pos_left _ hk1
        omega
      · have hk : 2 ≤ k := by
          by_contra hc
          have : k = 1 := by omega
          subst this
          omega
        have : 2 * (F - (m - 1)) ≤ P := by rw [hk2]; exact Nat.mul_le_mul_right _ hk
        omega
  apply List.ext_getElem?
  intro j
  by_cases hjl : j < x.length
  · have hc : (circularConv x (hs.take m))[j]? = some (convAt x (hs.take m) j) := by
      unfold circularConv
      rw [List.getElem?_map, List.getElem?_range hjl, Option.map_some]
    rw [hc]
    by_cases hjP : j < P + m / 2
    · obtain ⟨c, c1, c2⟩ := r6 j hjP
      rw [c1, c2]
    · exact r7 j (by omega) hjl
  · rw [List.getElem?_eq_none (by omega), List.getElem?_eq_none (by simp [circularConv]; omega)]

/-- C37: for signals with more than `F + F / 2` and up to `2 F - m + 1` points the implementation in
    frequency domain leaves numbers of the *input* in the result, whatever the transform kernel
    computes. -/
theorem C37_overlap_discard_gap [Field T] (K : FftKernel T) (hK : K.KeepsLength)
    (junk : List (Cx T) → List (Cx T)) (hj : ∀ l, (junk l).length = l.length) (F m : Nat) (hm : 2 ≤ m)
    (hF : 4 * m ≤ F + 4) (hF1 : m ≤ F) (x hs tmp : List (Cx T)) (hhs : m ≤ hs.length)
    (hx : F ≤ x.length) (hx2 : x.length + m ≤ 2 * F + 1) (ht : tmp.length = F) (j : Nat) (hj1 : F ≤ j)
    (hj2 : j + F / 2 < x.length) :
    ∃ r, overlapDiscard K junk F m x hs tmp = some r ∧ r[j]? = x[j]? := by
  obtain ⟨r, P, r1, r2, r3, r4, r5, r6, r7, r8⟩ := overlapDiscard_spec K junk hj F m (by omega) (by omega) hF1 x hs tmp hhs hx
    ht (fun _ _ => True) (fun _ => trivial) (fun p hp => by
      have hb : ((x.drop p).take F).length = F := by simp; omega
      have hg : (hs.take m ++ List.replicate (F - m) (0 : Cx T)).length = F := by simp; omega
      have hl : (filterBlock K F (K.forward (hs.take m ++ List.replicate (F - m) 0)) ((x.drop p).take F)).length = F := by
        unfold filterBlock
        rw [hK.2, List.length_zipWith, hK.1, hK.1, hb, hg, Nat.min_self]
      exact ⟨hl, fun i _ hi => ⟨_, List.getElem?_eq_getElem (by omega), trivial⟩⟩)
  refine ⟨r, r1, r8 j ?_ ?_⟩
  · rcases r5 with h | h
    · omega
    · obtain ⟨k, hk1, hk2⟩ := r4
      by_cases hk : k = 1
      · subst hk; omega
      · have : 2 * (F - (m - 1)) ≤ P := by rw [hk2]; exact Nat.mul_le_mul_right _ (by omega)
        omega
  · have hdm := Nat.div_add_mod x.length F
    have h1 : x.length % F = x.length - F := by
      rw [Nat.mod_eq_sub_mod hx, Nat.mod_eq_of_lt (by omega)]
    rw [h1]; omega

/-! ### Vectors -/

theorem circularConv_length {α : Type} [Zero α] [Add α] [Mul α] (x h : List α) :
    (circularConv x h).length = x.length := by simp [circularConv]

/-- Trading a computed result. -/
theorem tradeOutcome_spec [Zero T] (v : DspVec T) (b : Buffer T) (hb : BufferOk b v.data v.len)
    (r : List T) (hr : r.length = v.len) (run : List Nat → Outcome (List T)) (h : Always run r) :
    ∃ v' b', Always (fun s => v.tradeOutcome b (run s)) (v', b') ∧ v'.content = some r ∧
      v'.validLen = v.validLen ∧ v'.SameMeta v ∧ BufferKept b v b' v' := by
  obtain ⟨rest, hrest⟩ := trade_ok b v.data r (by rw [hr]; exact hb)
  refine ⟨{ v with data := (b.trade r v.data).2 }, (b.trade r v.data).1, ?_, ?_, rfl, ?_, ?_⟩
  · exact h.map (fun s hs => by simp only [tradeOutcome, hs]; rfl)
      (fun s hs => by simp only [tradeOutcome, hs]; rfl)
  · exact content_of_cells (s := rest) (by simp only [hrest]) (by simp only [hr]; rfl)
  · exact ⟨rfl, rfl, rfl, by simp only [hrest]⟩
  · exact .of_trade _ rfl

/-- C37: the implementation without SIMD registers computes the circular convolution: for every real
    or complex vector with at least one point, every response which is not longer, every
    number of worker threads, every schedule and every buffer which can hold the vector. -/
theorem C37_convolve_scalar [Zero T] [Add T] [Sub T] [Mul T] (st : MultiCoreSettings) (v h : DspVec T)
    (hv : v.WF) (hh : h.WF) (hsp : h.isComplex = v.isComplex) (hn : v.points ≠ 0)
    (hle : h.points ≤ v.points) (b : Buffer T) (hb : BufferOk b v.data v.len) :
    ∃ v' b', Always (v.convolveSignalScalar st h b) (v', b') ∧ IsConvolution v h v' ∧
      BufferKept b v b' v' := by
  obtain ⟨t, t1, t2⟩ := borrow_ok b v.data v.len hb
  cases hc : v.isComplex with
  | false =>
    have hc' : h.isComplex = false := by rw [hsp, hc]
    have hvl := hv.content_length hv.content_eq
    have hhl := hh.content_length hh.content_eq
    generalize hx : v.data.cells.take v.validLen = x at hvl
    generalize hy : h.data.cells.take h.validLen = y at hhl
    have hvc := hv.content_eq
    have hhc := hh.content_eq
    rw [hx] at hvc
    rw [hy] at hhc
    simp only [points, hc, hc', Nat.div_one, Bool.false_eq_true, if_false] at hn hle
    have hmain := convolveScalar_spec st x y t (by intro e; subst e; simp at hvl; omega) (by omega)
      (by unfold len at t2; omega)
    obtain ⟨v', b', e1, e2, e3, e4, e5⟩ := tradeOutcome_spec v b hb (circularConv x y)
      (by rw [circularConv_length]; unfold len; omega) _ hmain
    refine ⟨v', b', e1.congr (fun s => ?_), ⟨e3, e4, fun _ => ⟨x, y, hvc, hhc, e2⟩, fun h => by simp [hc] at h⟩, e5⟩
    unfold convolveSignalScalar
    rw [t1, hvc, hhc]
    simp only [hc, Bool.false_eq_true, if_false]
  | true =>
    have hc' : h.isComplex = true := by rw [hsp, hc]
    obtain ⟨x, hvc, hvl⟩ := hv.content_even hc
    obtain ⟨y, hhc, hhl⟩ := hh.content_even hc'
    obtain ⟨tc, rfl⟩ := exists_fromComplex (l := t) (by rw [t2]; exact hv.2 hc)
    have htl := length_fromComplex tc
    simp only [points, hc, hc', if_true] at hn hle
    have hmain := convolveScalar_spec st x y tc (by intro e; subst e; simp at hvl; omega) (by omega)
      (by unfold len at t2; omega)
    have hmain2 : Always (fun s => (convolveScalar st x y tc s).andThen fun r => .finished (fromComplex r))
        (fromComplex (circularConv x y)) :=
      hmain.map (fun s hs => by rw [hs]; rfl) (fun s hs => by rw [hs]; rfl)
    obtain ⟨v', b', e1, e2, e3, e4, e5⟩ := tradeOutcome_spec v b hb (fromComplex (circularConv x y))
      (by rw [length_fromComplex, circularConv_length]; unfold len; omega) _ hmain2
    refine ⟨v', b', e1.congr (fun s => ?_), ⟨e3, e4, fun h => by simp [hc] at h, fun _ => ⟨x, y, hvc, hhc, e2⟩⟩, e5⟩
    unfold convolveSignalScalar
    rw [t1, hvc, hhc]
    simp only [hc, if_true, toComplex?_fromComplex]

/-- Specification: the address (counted in numbers) of the first number is accepted by the SIMD code: the
    distance to a register boundary is nothing or half a register, and whole complex
    numbers. Every allocation aligned to 16 bytes meets this condition. -/
def ConvAligned (k : RegKind) (addr : Nat) : Prop := (2 * (addr % k.len)) % k.len = 0 ∧ addr % 2 = 0

instance (k : RegKind) (addr : Nat) : Decidable (ConvAligned k addr) := by unfold ConvAligned; infer_instance

/-- C38: the implementation with SIMD registers computes the circular convolution (in exact
    arithmetic), i.e. the same as the one without registers. -/
theorem C38_convolve_simd [Field T] (k : RegKind) (addr : Nat) (hal : ConvAligned k addr)
    (st : MultiCoreSettings) (v h : DspVec T) (hv : v.WF) (hh : h.WF)
    (hsp : h.isComplex = v.isComplex) (hle : h.points < v.points)
    (hlen : 2 * (h.points - h.points / 2 + k.len) < v.points) (b : Buffer T)
    (hb : BufferOk b v.data v.len) :
    ∃ v' b', Always (v.convolveSignalSimd k addr st h b) (v', b') ∧ IsConvolution v h v' ∧
      BufferKept b v b' v' := by
  obtain ⟨t, t1, t2⟩ := borrow_ok b v.data v.len hb
  have hal2 : (addr % k.len) % 2 = 0 := by
    have := hal.2
    cases k <;> simp only [RegKind.len] <;> omega
  cases hc : v.isComplex with
  | false =>
    have hc' : h.isComplex = false := by rw [hsp, hc]
    have hvl := hv.content_length hv.content_eq
    have hhl := hh.content_length hh.content_eq
    generalize hx : v.data.cells.take v.validLen = x at hvl
    generalize hy : h.data.cells.take h.validLen = y at hhl
    have hvc := hv.content_eq
    have hhc := hh.content_eq
    rw [hx] at hvc
    rw [hy] at hhc
    simp only [points, hc, hc', Nat.div_one, Bool.false_eq_true, if_false] at hlen hle
    have hmain := convolveSimd_spec (regEnc_real (T := T) k) addr st x y t (by unfold len at t2; omega)
      (by rw [hvl, hhl]; exact hlen) (by omega) hal.1 (by omega)
    obtain ⟨v', b', e1, e2, e3, e4, e5⟩ := tradeOutcome_spec v b hb (circularConv x y)
      (by rw [circularConv_length]; unfold len; omega) _ hmain
    refine ⟨v', b', e1.congr (fun s => ?_), ⟨e3, e4, fun _ => ⟨x, y, hvc, hhc, e2⟩, fun h => by simp [hc] at h⟩, e5⟩
    unfold convolveSignalSimd
    rw [t1, hvc, hhc]
    simp only [hc, Bool.false_eq_true, if_false]
  | true =>
    have hc' : h.isComplex = true := by rw [hsp, hc]
    obtain ⟨x, hvc, hvl⟩ := hv.content_even hc
    obtain ⟨y, hhc, hhl⟩ := hh.content_even hc'
    obtain ⟨tc, rfl⟩ := exists_fromComplex (l := t) (by rw [t2]; exact hv.2 hc)
    have htl := length_fromComplex tc
    simp only [points, hc, hc', if_true] at hlen hle
    have hx2 : v.validLen / 2 = x.length := by omega
    have hy2 : h.validLen / 2 = y.length := by omega
    rw [hx2, hy2] at hlen
    have hmain := convolveSimd_spec (regEnc_complex (T := T) k) addr st x y tc (by unfold len at t2; omega)
      hlen (by omega) hal.1 hal2
    have hmain2 : Always (fun s => (convolveSimd addr k.len 2 (regMulComplex k) regSumComplex st
          (fromComplex x) (fromComplex y) x y tc s).andThen fun r => .finished (fromComplex r))
        (fromComplex (circularConv x y)) :=
      hmain.map (fun s hs => by rw [hs]; rfl) (fun s hs => by rw [hs]; rfl)
    obtain ⟨v', b', e1, e2, e3, e4, e5⟩ := tradeOutcome_spec v b hb (fromComplex (circularConv x y))
      (by rw [length_fromComplex, circularConv_length]; unfold len; omega) _ hmain2
    refine ⟨v', b', e1.congr (fun s => ?_), ⟨e3, e4, fun h => by simp [hc] at h, fun _ => ⟨x, y, hvc, hhc, e2⟩⟩, e5⟩
    unfold convolveSignalSimd
    rw [t1, hvc, hhc]
    simp only [hc, if_true, toComplex?_fromComplex]

/-- The transform length which `convolve_signal` uses for a response of `m` complex points. -/
def freqLen (m : Nat) : Nat :=
  if nextPowerOfTwo (2 * m) > nextPowerOfTwo (4 * (m - 1)) then nextPowerOfTwo (2 * m)
  else nextPowerOfTwo (4 * (m - 1))

theorem freqLen_spec (m : Nat) (hm : 2 ≤ m) : 4 * m ≤ freqLen m + 4 ∧ 2 * m ≤ freqLen m ∧ freqLen m < 8 * m ∧
    freqLen m % 2 = 0 := by
  have key : ∀ v, 4 ≤ v → nextPowerOfTwo v % 2 = 0 := by
    intro v hv
    obtain ⟨⟨k, hk⟩, h1, _⟩ := C40_next_power_of_two v (by omega)
    cases k with
    | zero => omega
    | succ k => rw [hk, Nat.pow_succ]; omega
  obtain ⟨_, a1, a2⟩ := C40_next_power_of_two (2 * m) (by omega)
  obtain ⟨_, b1, b2⟩ := C40_next_power_of_two (4 * (m - 1)) (by omega)
  have c1 := key (2 * m) (by omega)
  have c2 := key (4 * (m - 1)) (by omega)
  unfold freqLen
  split <;> omega

/-- Specification: the buffer can lend the temporary memory of the convolution in frequency domain. -/
def FreqBufferOk (K : FftKernel T) (b : Buffer T) (n m : Nat) : Prop :=
  ∀ mem, b = .fixedLen mem →
    6 * freqLen m + 2 * K.scratch (freqLen m) + (n - n % freqLen m) ≤ mem.length

/-- What the implementation in frequency domain does with a vector, in terms of the points. -/
theorem overlapDiscard_vec [Zero T] [Add T] [Sub T] [Mul T] [Div T] [NatCast T] [LT T] [DecidableLT T] [DecidableEq T]
    [DeltaBounds T] (K : FftKernel T) (junk : List (Cx T) → List (Cx T))
    (v h : DspVec T) (b : Buffer T) (x hs : List (Cx T)) (hc : v.isComplex = true)
    (hm : v.metaMismatch h = false) (hx : v.content = some (fromComplex x))
    (hhs : h.data.cells = fromComplex hs) (hhl : h.validLen = 2 * h.points) (h2 : 2 ≤ h.points)
    (hn : freqLen h.points ≤ x.length) (hb : FreqBufferOk K b v.points h.points) :
    ∃ tmp : List (Cx T), tmp.length = freqLen h.points ∧
      ∀ r, overlapDiscard K junk (freqLen h.points) h.points x hs tmp = some r → r.length = x.length →
        ∃ v', v.overlapDiscard K junk h b (nextPowerOfTwo h.len) = some (v', b, .ok ()) ∧
          v'.validLen = v.validLen ∧ v'.SameMeta v ∧ v'.content = some (fromComplex r) := by
  obtain ⟨⟨s, hs'⟩, hl⟩ := cells_of_content hx
  rw [length_fromComplex] at hl
  have hp : v.points = x.length := by
    simp only [points, hc, if_true]; omega
  obtain ⟨f1, f2, f3, f4⟩ := freqLen_spec h.points h2
  have hlen2 : h.len = 2 * h.points := hhl
  generalize hFd : freqLen h.points = F at *
  have hFd' : (if nextPowerOfTwo h.len > nextPowerOfTwo (4 * (h.points - 1)) then nextPowerOfTwo h.len
      else nextPowerOfTwo (4 * (h.points - 1))) = F := by rw [hlen2]; exact hFd
  have hrem : (x.length - x.length % F) % 2 = 0 := by
    have := Nat.div_add_mod x.length F
    obtain ⟨g, hg⟩ : ∃ g, F = 2 * g := ⟨F / 2, by omega⟩
    have e : x.length - x.length % F = F * (x.length / F) := by omega
    rw [e, hg, Nat.mul_assoc]; omega
  generalize hremd : x.length - x.length % F = rem at *
  have hbor : ∃ t, b.borrow (2 * F + 2 * K.scratch F + 2 * F + 2 * F + rem) = some t ∧
      t.length = 2 * F + 2 * K.scratch F + 2 * F + 2 * F + rem := by
    cases b with
    | single temp => exact ⟨_, rfl, by simp⟩
    | noBuffer => exact ⟨_, rfl, by simp⟩
    | fixedLen mem =>
      have := hb mem rfl
      rw [hFd, hp, hremd] at this
      refine ⟨mem.take (2 * F + 2 * K.scratch F + 2 * F + 2 * F + rem), ?_, by simp; omega⟩
      simp only [Buffer.borrow]
      rw [if_neg (by omega)]
  obtain ⟨t, t1, t2⟩ := hbor
  obtain ⟨t', u1, u2, _⟩ := slice_spec t (2 * K.scratch F + 2 * F) (2 * K.scratch F + 4 * F) (by omega) (by omega)
  obtain ⟨tmp, rfl⟩ := exists_fromComplex (l := t') (by omega)
  rw [length_fromComplex] at u2
  refine ⟨tmp, by omega, fun r hr hrl => ?_⟩
  have hsl : slice v.data.cells 0 (2 * v.points) = some (fromComplex x) := by
    rw [slice_ok _ _ _ (by omega) (by rw [hs', hp]; simp), hs', hp]
    simp
  have e : splice v.data.cells 0 (fromComplex r) = fromComplex r ++ s := by
    rw [hs', splice_append_left _ _ _ (by simp [hrl])]
  refine ⟨v.withCells (fromComplex r ++ s), ?_, rfl, ⟨rfl, rfl, rfl, rfl⟩, ?_⟩
  · unfold DspVec.overlapDiscard
    rw [if_neg (by simp [hc]), if_neg (by simp [hm]), if_neg (by omega)]
    simp only [hFd', hp, hremd]
    rw [if_neg (by omega)]
    rw [hp] at hsl
    simp only [t1, u1, hhs, hsl, hr, e, toComplex?_fromComplex, Option.bind_eq_bind, Option.bind_some]
  · exact content_of_cells (s := s) rfl (by simp [hrl, hl, withCells])

/-- C37: `convolve_signal`. For vectors whose meta data agree, in time domain, at least one point and
    an impulse response which is not longer, the vector is replaced by its circular convolution
    with the response: for every number of threads, every schedule and every implementation
    which the method selects. Conditions for the SIMD implementation: the storage is aligned.
    Conditions for the implementation in frequency domain: the transform satisfies the convolution
    theorem, the storage of the response holds whole complex numbers, and *the lengths leave no gap*
    (see `C37_convolve_signal_violated`). -/
theorem C37_convolve_signal_partial [Field T] [LinearOrder T] (K : FftKernel T) (hK : K.Convolves)
    (junk : List (Cx T) → List (Cx T)) (hj : ∀ l, (junk l).length = l.length)
    (k : RegKind) (addr : Nat) (st : MultiCoreSettings) (v h : DspVec T) (hv : v.WF) (hh : h.WF)
    (hm : v.metaMismatch h = false) (hd : v.dom = .time) (hn : v.points ≠ 0)
    (hle : h.points ≤ v.points) (b : Buffer T) (hb : BufferOk b v.data v.len)
    (hsimd : v.convPath h = .simd → ConvAligned k addr)
    (hfreq : v.convPath h = .frequency → NoGap v.points h.points (freqLen h.points) ∧
      h.data.cells.length % 2 = 0 ∧ FreqBufferOk K b v.points h.points) :
    ∃ v' b', Always (v.convolveSignal K junk k addr st h b) (v', b', .ok ()) ∧
      IsConvolution v h v' := by
  have hsp : h.isComplex = v.isComplex := by
    unfold metaMismatch at hm
    simp only [Bool.or_eq_false_iff, bne_eq_false_iff_eq] at hm
    exact hm.1.1.symm
  have hun : ∀ s, v.convolveSignal K junk k addr st h b s = match v.convPath h with
      | .simd => (v.convolveSignalSimd k addr st h b s).andThen fun r => .finished (r.1, r.2, .ok ())
      | .frequency => .ofOption (v.overlapDiscard K junk h b (nextPowerOfTwo h.len))
      | .scalar => (v.convolveSignalScalar st h b s).andThen fun r => .finished (r.1, r.2, .ok ()) := by
    intro s
    unfold convolveSignal
    rw [if_neg (by simp [hm]), if_neg (by simp [hd]), if_neg (by omega)]
    cases v.convPath h <;> rfl
  cases hp : v.convPath h with
  | scalar =>
    obtain ⟨v', b', e1, e2, e3⟩ := C37_convolve_scalar st v h hv hh hsp hn hle b hb
    refine ⟨v', b', e1.map (fun s hs => ?_) (fun s hs => ?_), e2⟩
    · rw [hun, hp]; simp only [hs]; rfl
    · rw [hun, hp]; simp only [hs]; rfl
  | simd =>
    have hcond : v.len > 1000 ∧ h.len ≤ 202 ∧ h.len > 11 := by
      unfold convPath at hp
      split at hp
      · assumption
      · split at hp <;> cases hp
    have hpts : v.points = v.len / v.stride ∧ h.points = h.len / v.stride := by
      constructor
      · rfl
      · unfold points stride; rw [hsp]; rfl
    have hst : v.stride = 1 ∨ v.stride = 2 := by unfold stride; split <;> simp
    have hk8 : k.len ≤ 8 := by cases k <;> decide
    obtain ⟨v', b', e1, e2, e3⟩ := C38_convolve_simd k addr (hsimd hp) st v h hv hh hsp
      (by rw [hpts.1, hpts.2]; rcases hst with h | h <;> rw [h] <;> omega)
      (by rw [hpts.1, hpts.2]; rcases hst with h | h <;> rw [h] <;> omega) b hb
    refine ⟨v', b', e1.map (fun s hs => ?_) (fun s hs => ?_), e2⟩
    · rw [hun, hp]; simp only [hs]; rfl
    · rw [hun, hp]; simp only [hs]; rfl
  | frequency =>
    have hcond : v.len > 10000 ∧ h.len > 15 ∧ v.len > 10 * h.len ∧ v.isComplex = true := by
      unfold convPath at hp
      split at hp
      · cases hp
      · split at hp
        · assumption
        · cases hp
    obtain ⟨c1, c2, c3, c4⟩ := hcond
    have hc' : h.isComplex = true := by rw [hsp, c4]
    obtain ⟨hg, hev, hbf⟩ := hfreq hp
    obtain ⟨x, hvc, hvl⟩ := hv.content_even c4
    obtain ⟨y, hhc, hhl⟩ := hh.content_even hc'
    obtain ⟨hs, hhs⟩ := exists_fromComplex hev
    have hpv : v.points = x.length := by simp only [points, c4, if_true]; omega
    have hph : h.points = y.length := by simp only [points, hc', if_true]; omega
    unfold len at c1 c2 c3
    obtain ⟨f1, f2, f3, f4⟩ := freqLen_spec h.points (by omega)
    have hfx : freqLen h.points ≤ x.length := by omega
    obtain ⟨tmp, t1, t2⟩ := overlapDiscard_vec K junk v h b x hs c4 hm hvc hhs (by omega) (by omega) hfx hbf
    have hhsl : h.points ≤ hs.length := by
      have := hh.1
      rw [hhs, length_fromComplex] at this; omega
    rw [hpv] at hg
    have hr := C37_overlap_discard_partial K hK junk hj (freqLen h.points) h.points (by omega) f1 (by omega) f4 x hs tmp
      hhsl hfx t1 hg
    obtain ⟨v', e1, e2, e3, e4⟩ := t2 _ hr (circularConv_length _ _)
    have hy : hs.take h.points = y := by
      have h1 := hh.content_eq
      rw [hhc] at h1
      have h2 := Option.some.inj h1
      rw [hhs] at h2
      have h3 : (fromComplex hs).take h.validLen = fromComplex (hs.take h.points) := by
        rw [fromComplex_take]; congr 1; omega
      rw [h3] at h2
      have := congrArg toComplex? h2
      simpa using this.symm
    rw [hy] at e4
    refine ⟨v', b, (Always.const _).congr (fun s => ?_), e2, e3, fun h => by simp [c4] at h, fun _ => ⟨x, y, hvc, hhc, e4⟩⟩
    rw [hun, hp]
    simp only [e1]
    rfl

/-- C37: the errors: different meta data, a vector which is not in time domain and a response which is longer
    than the vector are reported; vector and buffer do not change. -/
theorem C37_convolve_signal_errors [Field T] [LinearOrder T] [IsStrictOrderedRing T] (K : FftKernel T)
    (junk : List (Cx T) → List (Cx T))
    (k : RegKind) (addr : Nat) (st : MultiCoreSettings) (v h : DspVec T) (b : Buffer T) (ho : PosDelta h) :
    (¬ MetaAgree v h → Always (v.convolveSignal K junk k addr st h b) (v, b, .error .inputMetaDataMustAgree)) ∧
    (MetaAgree v h → v.dom ≠ .time →
      Always (v.convolveSignal K junk k addr st h b) (v, b, .error .inputMustBeInTimeDomain)) ∧
    (MetaAgree v h → v.dom = .time → v.points < h.points →
      Always (v.convolveSignal K junk k addr st h b) (v, b, .error .invalidArgumentLength)) := by
  have hm := metaMismatch_iff v h ho
  refine ⟨fun h1 => ?_, fun h1 h2 => ?_, fun h1 h2 h3 => ?_⟩
  · refine (Always.const _).congr (fun s => ?_)
    unfold convolveSignal
    rw [if_pos (hm.mpr h1)]
  · refine (Always.const _).congr (fun s => ?_)
    unfold convolveSignal
    rw [if_neg (fun e => hm.mp e h1), if_pos h2]
  · refine (Always.const _).congr (fun s => ?_)
    unfold convolveSignal
    rw [if_neg (fun e => hm.mp e h1), if_neg (by simp [h2]), if_pos h3]

/-- The result of the implementation in frequency domain has the length of the signal. -/
theorem overlapDiscard_length [Field T] (K : FftKernel T) (hK : K.KeepsLength)
    (junk : List (Cx T) → List (Cx T)) (hj : ∀ l, (junk l).length = l.length) (F m : Nat) (hm : 2 ≤ m)
    (hF : 4 * m ≤ F + 4) (hF1 : m ≤ F) (x hs tmp : List (Cx T)) (hhs : m ≤ hs.length)
    (hx : F ≤ x.length) (ht : tmp.length = F) :
    ∃ r, overlapDiscard K junk F m x hs tmp = some r ∧ r.length = x.length := by
  obtain ⟨r, P, r1, r2, _⟩ := overlapDiscard_spec K junk hj F m (by omega) (by omega) hF1 x hs tmp hhs hx
    ht (fun _ _ => True) (fun _ => trivial) (fun p hp => by
      have hb : ((x.drop p).take F).length = F := by simp; omega
      have hg : (hs.take m ++ List.replicate (F - m) (0 : Cx T)).length = F := by simp; omega
      have hl : (filterBlock K F (K.forward (hs.take m ++ List.replicate (F - m) 0)) ((x.drop p).take F)).length = F := by
        unfold filterBlock
        rw [hK.2, List.length_zipWith, hK.1, hK.1, hb, hg, Nat.min_self]
      exact ⟨hl, fun i _ hi => ⟨_, List.getElem?_eq_getElem (by omega), trivial⟩⟩)
  exact ⟨r, r1, r2⟩

/-- 7600 complex points `1 + 0j`. -/
def onesVec : DspVec ℚ :=
  ⟨⟨.vec, fromComplex (List.replicate 7600 ⟨1, 0⟩)⟩, some 1, .time, .complex, 15200⟩
/-- 514 complex points `0 + 0j`. -/
def zerosVec : DspVec ℚ :=
  ⟨⟨.vec, fromComplex (List.replicate 514 ⟨0, 0⟩)⟩, some 1, .time, .complex, 1028⟩

theorem freqLen_514 : freqLen 514 = 4096 := by decide +kernel

theorem convAt_zeros (x : List (Cx ℚ)) (n i : Nat) : convAt x (List.replicate n ⟨0, 0⟩) i = 0 := by
  unfold convAt
  rw [foldl_add_sum, zero_add]
  apply List.sum_eq_zero
  intro y hy
  rw [List.mem_map] at hy
  obtain ⟨k, _, rfl⟩ := hy
  have : (List.replicate n (⟨0, 0⟩ : Cx ℚ)).getD k 0 = 0 := by
    rw [List.getD_eq_getElem?_getD, List.getElem?_replicate]
    split <;> rfl
  rw [this, mul_zero]

/-- C37 is violated: `convolve_signal` of 7600 ones with 514 zeros does not give zeros, whatever the
    transform library computes: numbers of the input stay in the result. (All conditions of
    `C37_convolve_signal_partial` but `NoGap` are met.) -/
theorem C37_convolve_signal_violated (K : FftKernel ℚ) (hK : K.KeepsLength)
    (junk : List (Cx ℚ) → List (Cx ℚ)) (hj : ∀ l, (junk l).length = l.length)
    (k : RegKind) (addr : Nat) (st : MultiCoreSettings) :
    onesVec.WF ∧ zerosVec.WF ∧ MetaAgree onesVec zerosVec ∧ onesVec.dom = .time ∧
      zerosVec.points ≤ onesVec.points ∧
    ∃ v', Always (onesVec.convolveSignal K junk k addr st zerosVec (.single [])) (v', .single [], .ok ()) ∧
      ¬ IsConvolution onesVec zerosVec v' := by
  have hvp : onesVec.points = 7600 := by
    simp [-List.reduceReplicate, points, onesVec, isComplex, NumberSpace.isComplex]
  have hhp : zerosVec.points = 514 := by
    simp [-List.reduceReplicate, points, zerosVec, isComplex, NumberSpace.isComplex]
  have hma : MetaAgree onesVec zerosVec := by
    refine ⟨rfl, rfl, fun d e h1 h2 => ?_⟩
    cases h1; cases h2; norm_num
  have hpd : PosDelta zerosVec := by
    intro e he; cases he; norm_num
  have hmm : onesVec.metaMismatch zerosVec = false := by
    cases h : onesVec.metaMismatch zerosVec with
    | false => rfl
    | true => exact absurd hma ((metaMismatch_iff _ _ hpd).mp h)
  refine ⟨⟨by simp [-List.reduceReplicate, onesVec], fun _ => rfl⟩, ⟨by simp [-List.reduceReplicate, zerosVec], fun _ => rfl⟩, hma, rfl, by omega, ?_⟩
  have hx : onesVec.content = some (fromComplex (List.replicate 7600 ⟨1, 0⟩)) :=
    content_of_cells (s := []) (by simp [-List.reduceReplicate, onesVec]) (by simp [-List.reduceReplicate, onesVec])
  have hy : zerosVec.content = some (fromComplex (List.replicate 514 ⟨0, 0⟩)) :=
    content_of_cells (s := []) (by simp [-List.reduceReplicate, zerosVec]) (by simp [-List.reduceReplicate, zerosVec])
  obtain ⟨tmp, t1, t2⟩ := overlapDiscard_vec K junk onesVec zerosVec (.single []) (List.replicate 7600 ⟨1, 0⟩)
    (List.replicate 514 ⟨0, 0⟩) rfl hmm hx rfl (by rw [hhp]; rfl) (by omega)
    (by rw [hhp, freqLen_514]; simp [-List.reduceReplicate]) (by intro mem h; cases h)
  rw [hhp, freqLen_514] at t1 t2
  obtain ⟨r, r1, r2⟩ := overlapDiscard_length K hK junk hj 4096 514 (by omega) (by omega) (by omega)
    (List.replicate 7600 ⟨1, 0⟩) (List.replicate 514 ⟨0, 0⟩) tmp (by simp [-List.reduceReplicate]) (by simp [-List.reduceReplicate]) t1
  obtain ⟨r', r1', r3⟩ := C37_overlap_discard_gap K hK junk hj 4096 514 (by omega) (by omega) (by omega)
    (List.replicate 7600 ⟨1, 0⟩) (List.replicate 514 ⟨0, 0⟩) tmp (by simp [-List.reduceReplicate]) (by simp [-List.reduceReplicate]) (by simp [-List.reduceReplicate]) t1 5000 (by omega)
    (by simp [-List.reduceReplicate])
  rw [r1] at r1'
  obtain rfl := Option.some.inj r1'
  obtain ⟨v', e1, e2, e3, e4⟩ := t2 r r1 r2
  have hpath : onesVec.convPath zerosVec = .frequency := by
    unfold convPath; rfl
  refine ⟨v', (Always.const _).congr (fun s => ?_), ?_⟩
  · unfold convolveSignal
    rw [if_neg (by simp [-List.reduceReplicate, hmm]), if_neg (fun h => h rfl), if_neg (by omega), hpath]
    simp only [e1]
    rfl
  · rintro ⟨_, _, _, h4⟩
    obtain ⟨x, y, h1, h2, h3⟩ := h4 rfl
    rw [hx] at h1
    rw [hy] at h2
    rw [e4] at h3
    have inj : ∀ a b : List (Cx ℚ), some (fromComplex a) = some (fromComplex b) → a = b := by
      intro a b h
      have := congrArg toComplex? (Option.some.inj h)
      simpa using this
    have q1 := inj _ _ h1
    have q2 := inj _ _ h2
    have q3 := inj _ _ h3
    rw [q3, ← q1, ← q2] at r3
    unfold circularConv at r3
    rw [List.getElem?_map, List.getElem?_range (by simp [-List.reduceReplicate]), Option.map_some, convAt_zeros,
      List.getElem?_replicate, if_pos (by omega)] at r3
    have := congrArg Cx.re (Option.some.inj r3)
    simp at this

/-- The conditions of `C37_overlap_discard_partial` and `C37_convolve_signal_partial` are met: the
    discrete Fourier transform satisfies the convolution theorem. -/
example : dftKernel.Convolves ∧ NoGap 10000 514 (freqLen 514) ∧ NoGap 7600 100 (freqLen 100) ∧
    ¬ NoGap 7600 514 (freqLen 514) := by
  refine ⟨dft_convolves, ?_, ?_, ?_⟩
  · rw [freqLen_514]; unfold NoGap; omega
  · have : freqLen 100 = 512 := by decide +kernel
    rw [this]; unfold NoGap; omega
  · rw [freqLen_514]; unfold NoGap; omega

example : exampleVec.WF ∧ exampleVec.points ≠ 0 ∧ BufferOk (.single []) exampleVec.data exampleVec.len ∧
    ConvAligned .avxF32x8 4 ∧ ConvAligned .sseF64x2 2 := by decide

/-- A convolution which wraps around at both ends. -/
example : circularConv [1, 2, 3, 4, 5] [10, 1, (100 : Int)] = [521, 132, 243, 354, 415] := by decide

end Dsp
