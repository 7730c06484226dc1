import Verif.Spec.History
import Verif.Lemmas.ShapeOps
import Verif.Lemmas.Pts
/-
C01: vectors stay well formed under every sequence of operations.
-/
namespace Dsp
open DspVec
variable {T : Type} [Zero T] [One T] [Add T] [Sub T] [Mul T] [Div T] [Neg T] [NatCast T]

omit [One T] [Add T] [Sub T] [Mul T] [Div T] [Neg T] [NatCast T] in
theorem toComplexVec_ok {v : DspVec T} {r : DspVec T × VoidResult} (hk : v.NotInline)
    (hr : v.isComplex = false) (hc : v.data.canHold (2 * v.len) = true) (h : v.toComplexVec = some r) :
    r.2 = .ok () := by
  unfold toComplexVec zeroInterleave at h
  simp only [hr, Bool.false_eq_true, if_false] at h
  have hno : ¬ v.len * 2 < v.len := by omega
  simp only [hno, if_false] at h
  have hres : ∃ w, v.resize (v.len * 2) = (w, .ok ()) := by
    unfold resize
    simp only [hr, Bool.false_and, Bool.false_eq_true, if_false]
    split
    · rename_i hlt
      unfold Storage.canHold at hc
      have hlt' : v.data.cells.length < v.len * 2 := hlt
      have hn : ¬ 2 * v.len ≤ v.data.cells.length := by omega
      simp only [hn, decide_false, Bool.false_or] at hc
      unfold Storage.tryResize
      cases hkind : v.data.kind with
      | vec => exact ⟨_, rfl⟩
      | fixed => simp [hkind] at hc
      | inlineStack cap => exact absurd hkind (hk cap)
      | arrayVec cap =>
        simp only [hkind, decide_eq_true_eq] at hc
        have : ¬ v.len * 2 > cap := by omega
        simp only [this, if_false]; exact ⟨_, rfl⟩
      | inlineHeap cap =>
        simp only [hkind, decide_eq_true_eq] at hc
        have : cap ≥ v.len * 2 := by omega
        simp only [this, if_true]; exact ⟨_, rfl⟩
    · exact ⟨_, rfl⟩
  obtain ⟨w, hw⟩ := hres
  rw [hw] at h
  simp only [Option.bind_eq_bind, Option.bind_eq_some_iff, Option.some.injEq, Prod.exists] at h
  obtain ⟨a, b, ⟨d, hd, hab⟩, rfl⟩ := h
  simp at hab
  exact hab.2.symm

omit [Zero T] [One T] [Add T] [Sub T] [Mul T] [Div T] [Neg T] [NatCast T] in
theorem keeps_result {v w : DspVec T} {o : Outcome (List T)} (h : (v.mapOutcome o).result = some w) :
    Keeps v w := mapOutcome_keeps (result_eq_some.1 h)

/-- One operation: the kind of the storage is the same and the vector is well formed again. -/
theorem apply_shape {v w : DspVec T} {op : VecOp T} (hk : v.NotInline) (hv : v.WF) (ha : v.Admits op)
    (h : v.apply op = some w) :
    Shape ((op.buffer.map Buffer.isFixed).getD false) v w := by
  cases op with
  | resize n => simp [apply] at h; subst h; exact shape_resize _ hk hv n
  | resizeB b n =>
    simp only [apply, Option.map_eq_some_iff] at h; obtain ⟨⟨x, b', r⟩, hx, rfl⟩ := h
    exact shape_resizeB hk hv hx
  | zeroPad p o =>
    simp only [apply, Option.map_eq_some_iff] at h; obtain ⟨⟨x, r⟩, hx, rfl⟩ := h
    exact shape_zeroPad hk hv hx
  | zeroPadB b p o =>
    simp only [apply, Option.map_eq_some_iff] at h; obtain ⟨⟨x, b', r⟩, hx, rfl⟩ := h
    exact shape_zeroPadB hv hx
  | zeroInterleave f =>
    simp only [apply, Option.map_eq_some_iff] at h; obtain ⟨⟨x, r⟩, hx, rfl⟩ := h
    exact (shape_zeroInterleave hk hv hx).1
  | zeroInterleaveB b f =>
    simp only [apply, Option.map_eq_some_iff] at h; obtain ⟨⟨x, r⟩, hx, rfl⟩ := h
    exact (shape_zeroInterleaveB hv hx).1
  | reverse => exact shape_of_keeps (onPoints_keeps h) hv
  | swapHalves => exact shape_of_keeps (swapHalvesPriv_keeps h) hv
  | fftShift => exact shape_of_keeps (swapHalvesPriv_keeps h) hv
  | ifftShift => exact shape_of_keeps (swapHalvesPriv_keeps h) hv
  | diff => exact shape_diff hv h
  | diffWithStart => exact shape_of_keeps (keeps_diffWithStart h) hv
  | cumSum => exact shape_of_keeps (keeps_cumSum h) hv
  | decimatei f d => exact shape_decimatei h
  | rededicate ty =>
    simp [apply] at h; subst h
    refine shape_rededicate hk hv (fun hc hr => ?_)
    have h2 := ha.2
    simp only at h2
    by_cases hodd : v.len % 2 = 1
    · obtain ⟨h3, h4⟩ := h2 hr hodd
      left
      cases ty with
      | realTime => simp [rededicateForce, isComplex, NumberSpace.isComplex] at hc
      | realFreq => simp [rededicateForce, isComplex, NumberSpace.isComplex] at hc
      | complexTime =>
        cases hd : v.dom with
        | time => exact absurd ⟨rfl, hd⟩ h3
        | frequency => simp [rededicateForce, dom, Domain.domain]
      | complexFreq =>
        cases hd : v.dom with
        | time => simp [rededicateForce, dom, Domain.domain]
        | frequency => exact absurd ⟨rfl, hd⟩ h4
      | gen =>
        have : (v.rededicateForce .gen).isComplex = v.isComplex := rfl
        rw [this, hr] at hc; simp at hc
    · right; omega
  | toComplex =>
    simp only [apply, Option.map_eq_some_iff] at h; obtain ⟨⟨x, r⟩, hx, rfl⟩ := h
    refine shape_toComplexVec hk hv hx (fun he hr => ?_)
    by_contra hodd
    have := toComplexVec_ok hk hr (ha.2 hr (by omega)) hx
    obtain ⟨e, rfl⟩ := he
    simp at this
  | toComplexB b =>
    simp only [apply, Option.map_eq_some_iff] at h; obtain ⟨⟨x, r⟩, hx, rfl⟩ := h
    exact shape_toComplexVecB hv hx
  | complexToReal op => exact shape_toRealWith hv h
  | complexToRealB op b st sched =>
    simp only [apply, Option.map_eq_some_iff, result_eq_some] at h; obtain ⟨⟨x, r⟩, hx, rfl⟩ := h
    exact shape_toRealBWith hv hx
  | magnitudeB k addr simdOp op b =>
    simp only [apply, Option.map_eq_some_iff] at h; obtain ⟨⟨x, r⟩, hx, rfl⟩ := h
    exact shape_magnitudeBWith hv hx
  | setRealImag re im =>
    simp only [apply, Option.map_eq_some_iff] at h; obtain ⟨⟨x, r⟩, hx, rfl⟩ := h
    exact shape_setRealImag hv hx
  | setMagPhase cart m p =>
    simp only [apply, Option.map_eq_some_iff] at h; obtain ⟨⟨x, r⟩, hx, rfl⟩ := h
    exact shape_setMagPhase hv hx
  | merge sources =>
    simp only [apply, Option.map_eq_some_iff] at h; obtain ⟨⟨x, r⟩, hx, rfl⟩ := h
    exact shape_merge hk hv hx
  | offset k addr st x sched =>
    simp only [apply, result_eq_some] at h
    unfold offset at h
    split at h
    · simp at h
    · split at h <;> exact shape_of_keeps (mapOutcome_keeps h) hv
  | offsetComplex k addr st x sched =>
    simp only [apply, result_eq_some] at h
    unfold offsetComplex at h
    split at h
    · simp at h; subst h; exact shape_markInvalid _ _
    · split at h
      · simp at h
      · exact shape_of_keeps (mapOutcome_keeps h) hv
  | scale k addr st x sched =>
    simp only [apply, result_eq_some] at h
    exact shape_of_keeps (keeps_scale h) hv
  | scaleComplex k addr st x sched =>
    simp only [apply, result_eq_some] at h
    unfold scaleComplex at h
    split at h
    · simp at h; subst h; exact shape_markInvalid _ _
    · split at h
      · simp at h
      · exact shape_of_keeps (mapOutcome_keeps h) hv
  | mathOp lib op st sched =>
    simp only [apply, result_eq_some] at h
    unfold mathOp at h
    split at h
    · exact shape_of_keeps (keeps_pureComplex h) hv
    · exact shape_of_keeps (keeps_pureReal h) hv
  | sqrt lib k addr st sched =>
    simp only [apply, result_eq_some] at h
    unfold DspVec.sqrt at h
    split at h
    · exact shape_of_keeps (keeps_pureComplex h) hv
    · split at h
      · simp at h
      · exact shape_of_keeps (mapOutcome_keeps h) hv
  | square k addr st sched =>
    simp only [apply, result_eq_some] at h
    unfold square at h
    split at h
    · exact shape_of_keeps (keeps_pureComplex h) hv
    · split at h
      · simp at h
      · exact shape_of_keeps (mapOutcome_keeps h) hv
  | abs lib k addr st sched =>
    simp only [apply, result_eq_some] at h
    unfold DspVec.abs at h
    split at h
    · simp at h; subst h; exact shape_markInvalid _ _
    · split at h
      · simp at h
      · exact shape_of_keeps (mapOutcome_keeps h) hv
  | conj k addr st sched =>
    simp only [apply, result_eq_some] at h
    unfold conj at h
    split at h
    · simp at h
    · exact (shape_assertComplex hv).keeps (mapOutcome_keeps h)
  | mapInplace f st sched =>
    simp only [apply, result_eq_some] at h
    unfold mapInplace at h
    split at h
    · simp at h; subst h; exact shape_markInvalid _ _
    · split at h <;> simp at h
      rename_i r hr
      subst h
      exact shape_of_keeps (keeps_withCells v (le_length_executeWithRange hr)) hv
  | mapInplaceComplex f st sched =>
    simp only [apply, result_eq_some] at h
    unfold mapInplaceComplex at h
    split at h
    · simp at h; subst h; exact shape_markInvalid _ _
    · split at h
      · simp at h
      · split at h <;> simp at h
        rename_i r hr
        subst h
        exact shape_of_keeps (keeps_withCells v (le_length_executeWithRange hr)) hv
  | applyWindow w st sched =>
    simp only [apply, result_eq_some] at h
    exact shape_of_keeps (keeps_multiplyWindowBy h) hv
  | unapplyWindow w st sched =>
    simp only [apply, result_eq_some] at h
    exact shape_of_keeps (keeps_multiplyWindowBy h) hv
  | plainFft K b =>
    simp only [apply, Option.map_eq_some_iff] at h; obtain ⟨⟨x, r⟩, hx, rfl⟩ := h
    exact (shape_plainFft hv hx).1
  | fft K b =>
    simp only [apply, Option.map_eq_some_iff] at h; obtain ⟨⟨x, r⟩, hx, rfl⟩ := h
    exact (shape_fft hv hx).1
  | plainIfft K b =>
    simp only [apply, Option.map_eq_some_iff] at h; obtain ⟨⟨x, r⟩, hx, rfl⟩ := h
    exact shape_plainIfft hv hx
  | ifft K k addr st b sched =>
    simp only [apply, Option.map_eq_some_iff, result_eq_some] at h; obtain ⟨⟨x, r⟩, hx, rfl⟩ := h
    exact shape_ifft hv hx
  | plainSfft K b =>
    simp only [apply, Option.map_eq_some_iff] at h; obtain ⟨⟨x, b', r⟩, hx, rfl⟩ := h
    exact shape_plainSfft hk hv hx
  | sfft K b =>
    simp only [apply, Option.map_eq_some_iff] at h; obtain ⟨⟨x, b', r⟩, hx, rfl⟩ := h
    exact shape_sfft hk hv hx
  | mirror b =>
    simp only [apply, Option.map_eq_some_iff] at h; obtain ⟨⟨x, r⟩, hx, rfl⟩ := h
    exact (shape_mirror hx).1
  | plainSifft tiny K st b sched =>
    simp only [apply, Option.map_eq_some_iff, result_eq_some] at h; obtain ⟨⟨x, b', r⟩, hx, rfl⟩ := h
    exact shape_plainSifft ha.2 hx

/-- One admissible operation keeps the vector well formed, whether it reports success or an error. -/
theorem apply_wf {v w : DspVec T} {op : VecOp T} (hk : v.NotInline) (hv : v.WF) (ha : v.Admits op)
    (h : v.apply op = some w) : w.WF ∧ w.data.kind = v.data.kind := by
  have hs := apply_shape hk hv ha h
  refine ⟨⟨?_, hs.even⟩, hs.kind⟩
  cases hb : op.buffer with
  | none => exact hs.fits (by simp [hb])
  | some b =>
    cases b with
    | fixedLen mem =>
      have h1 := ha.1 mem hb w h
      have h2 := hs.grown (by simp [hb, Buffer.isFixed])
      simp only [len, allocLen] at h1
      omega
    | single t => exact hs.fits (by simp [hb, Buffer.isFixed])
    | noBuffer => exact hs.fits (by simp [hb, Buffer.isFixed])

/-- **C01**: after every sequence of admissible operations which does not panic the length of the vector
    fits into its storage and the length of a complex vector is even. Missing for the full statement:
    the excluded cases, in which the code violates it, see below. -/
theorem C01_history_partial (v w : DspVec T) (ops : List (VecOp T)) (hv : v.WF)
    (hk : ∀ cap, v.data.kind ≠ .inlineStack cap) (ha : v.AdmitsAll ops)
    (h : v.applyAll ops = some w) :
    w.len ≤ w.allocLen ∧ (w.isComplex = true → w.len % 2 = 0) := by
  induction ops generalizing v with
  | nil => simp [applyAll] at h; subst h; exact hv
  | cons op ops ih =>
    simp only [applyAll, Option.bind_eq_some_iff] at h
    obtain ⟨u, hu, h⟩ := h
    obtain ⟨h1, h2⟩ := apply_wf hk hv ha.1 hu
    exact ih u h1 (fun cap => by rw [h2]; exact hk cap) (ha.2 u hu) h

/-- **C01**, from the constructors on: the histories which begin with a vector made from a `Vec`, a `Box`,
    a mutable slice, an `ArrayVec` or an `InlineVector` on the heap. -/
theorem C01_constructed_partial (c : Container T) (isComplex : Bool) (d : DataDomain) (w : DspVec T)
    (ops : List (VecOp T)) (hc : ∀ cells, c ≠ .slice cells) (hi : ∀ cap cells, c ≠ .inline false cap cells)
    (ha : (toGenDspVec c isComplex d).AdmitsAll ops)
    (h : (toGenDspVec c isComplex d).applyAll ops = some w) :
    w.len ≤ w.allocLen ∧ (w.isComplex = true → w.len % 2 = 0) := by
  refine C01_history_partial _ w ops ?_ ?_ ha h
  · have key : ∀ n, validLenFor isComplex n ≤ n ∧ (isComplex = true → validLenFor isComplex n % 2 = 0) := by
      intro n
      unfold validLenFor
      by_cases hp : n % 2 = 0
      · simp [hp]
      · have hp' : n % 2 = 1 := by omega
        cases isComplex <;> simp [hp']
    cases c with
    | slice cells => exact absurd rfl (hc cells)
    | vec l s => exact key l.length
    | boxed l => exact key l.length
    | sliceMut l => exact key l.length
    | arrayVec cap l => exact key l.length
    | inline heap cap l => cases heap <;> exact key l.length
  · intro cap
    cases c with
    | inline heap cap' l =>
      cases heap with
      | false => exact absurd rfl (hi cap' l)
      | true => simp [toGenDspVec, Container.storage]
    | _ => simp [toGenDspVec, Container.storage]

/-- A history with a conversion, padding, a buffer and a difference. -/
example :
    let v : DspVec Int := toGenDspVec (.vec [1, 2, 3] 0) false .time
    let ops : List (VecOp Int) :=
      [.toComplex, .zeroPad 5 .center, .reverse, .resizeB (.single [9]) 20, .diff, .complexToReal Cx.re]
    v.AdmitsAll ops ∧ (v.applyAll ops).map (fun w => (w.len, w.isComplex, w.allocLen))
      = some (9, false, 20) := by
  refine ⟨?_, by decide +kernel⟩
  simp [DspVec.AdmitsAll, DspVec.Admits, VecOp.buffer, toGenDspVec, Storage.canHold, Container.storage]

/-! ### The excluded cases -/

omit [One T] [Add T] [Sub T] [Mul T] [Div T] [Neg T] [NatCast T] in
/-- Re-dedicating any real vector with an odd length to the complex type of the same domain results in
    a complex vector with an odd length. -/
theorem C01_rededicate_violated (v : DspVec T) (hr : v.isComplex = false) (ho : v.len % 2 = 1) :
    (v.dom = .time → (v.rededicate .complexTime).isComplex = true ∧
      (v.rededicate .complexTime).len % 2 = 1) ∧
    (v.dom = .frequency → (v.rededicate .complexFreq).isComplex = true ∧
      (v.rededicate .complexFreq).len % 2 = 1) := by
  constructor <;> intro hd <;>
    simp [rededicate, rededicateForce, hr, isComplex, NumberSpace.isComplex, DspVec.dom, Domain.domain,
      len, hd] at * <;> simp [hr, hd, ho]

example : (⟨⟨.vec, [1, 2, 3]⟩, some 1, .time, .real, 3⟩ : DspVec Int).rededicate .complexTime =
    ⟨⟨.vec, [1, 2, 3]⟩, some 1, .time, .complex, 3⟩ := rfl

omit [One T] [Add T] [Sub T] [Mul T] [Div T] [Neg T] [NatCast T] in
/-- `to_complex` on any real vector with an odd length whose storage cannot grow reports an error and
    leaves a complex vector with an odd length behind. -/
theorem C01_to_complex_violated (v : DspVec T) (hk : ∀ cap, v.data.kind ≠ .inlineStack cap)
    (hr : v.isComplex = false) (ho : v.len % 2 = 1) (hc : v.data.canHold (2 * v.len) = false) :
    ∃ w e, v.toComplexVec = some (w, .error e) ∧ w.isComplex = true ∧ w.len % 2 = 1 := by
  have hres : ∃ e, v.resize (v.len * 2) = (v, .error e) := by
    unfold Storage.canHold at hc
    simp only [Bool.or_eq_false_iff, decide_eq_false_iff_not] at hc
    obtain ⟨h1, h2⟩ := hc
    unfold resize
    have hlt : v.len * 2 > v.allocLen := by simp only [allocLen]; omega
    have hlt' : v.len * 2 > v.data.cells.length := hlt
    simp only [hr, Bool.false_and, Bool.false_eq_true, if_false, hlt, if_true]
    unfold Storage.tryResize
    cases hkind : v.data.kind with
    | vec => simp [hkind] at h2
    | fixed => simp only [hlt', if_true]; exact ⟨_, rfl⟩
    | inlineStack cap => exact absurd hkind (hk cap)
    | arrayVec cap =>
      simp only [hkind, decide_eq_false_iff_not] at h2
      have : v.len * 2 > cap := by omega
      simp only [this, if_true]; exact ⟨_, rfl⟩
    | inlineHeap cap =>
      simp only [hkind, decide_eq_false_iff_not] at h2
      have : ¬ cap ≥ v.len * 2 := by omega
      simp only [this, if_false]; exact ⟨_, rfl⟩
  obtain ⟨e, he⟩ := hres
  refine ⟨v.asComplex, e, ?_, isComplex_asComplex v, by rw [len, (data_asComplex v).2]; exact ho⟩
  have hno : ¬ v.len * 2 < v.len := by omega
  simp [toComplexVec, zeroInterleave, hr, hno, he]

example : (⟨⟨.fixed, [1, 2, 3]⟩, some 1, .time, .real, 3⟩ : DspVec Int).toComplexVec =
    some (⟨⟨.fixed, [1, 2, 3]⟩, some 1, .time, .complex, 3⟩, .error .typeCanNotResize) := rfl

omit [One T] [Add T] [Sub T] [Mul T] [Div T] [Neg T] [NatCast T] in
/-- `resize_b` with a buffer of fixed length on a vector which cannot grow reports success although the
    numbers do not fit: the length exceeds the storage (the same happens in `zero_pad_b` and all other
    growing operations with such a buffer). -/
theorem C01_fixed_buffer_violated (v : DspVec T) (mem : List T) (n : Nat) (hv : v.WF)
    (hk : v.data.kind = .fixed) (hn : v.allocLen < n) (hm : n ≤ mem.length)
    (hp : v.isComplex = true → n % 2 = 0) :
    ∃ w b', v.resizeB (.fixedLen mem) n = some (w, b', .ok ()) ∧ w.len = n ∧ w.allocLen < w.len := by
  have hpar : (v.isComplex && n % 2 != 0) = false := by
    cases hc : v.isComplex with
    | false => rfl
    | true => simp [hp hc]
  have hlt : n > v.allocLen := hn
  have hlt' : n > v.data.cells.length := hn
  have hres : v.resize n = (v, .error .typeCanNotResize) := by
    unfold resize
    rw [hpar]
    simp [hlt, Storage.tryResize, hk, hlt']
  obtain ⟨c, s, hcs, hl⟩ := hv.real
  have hcont : v.content = some c := by
    unfold content; rw [hcs, ← hl]; exact slice_append_left c s
  have hb : (Buffer.fixedLen mem).borrow n = some (mem.take n) := by
    simp [Buffer.borrow, Nat.not_lt.2 hm]
  have hcop : ∃ t, copyFromSlice (mem.take n) 0 v.len c = some t ∧ t.length = n := by
    refine ⟨splice (mem.take n) 0 c, ?_, ?_⟩
    · have h1 := hv.1
      simp only [copyFromSlice, len, hl]
      rw [if_pos]; simp; omega
    · rw [length_splice]
      · simp; omega
      · have h1 := hv.1
        simp; omega
  obtain ⟨t, ht, htl⟩ := hcop
  refine ⟨{ v with data := ((Buffer.fixedLen mem).trade t v.data).2, validLen := n },
    ((Buffer.fixedLen mem).trade t v.data).1, ?_, rfl, ?_⟩
  · unfold resizeB
    rw [hpar]
    simp [hres, hb, hcont, ht]
  have : (splice v.data.cells 0 (t.take (min v.data.cells.length t.length))).length
      = v.data.cells.length := length_splice _ _ _ (by simp)
  simp only [allocLen, Buffer.trade, len, this]
  exact hn

example : ((⟨⟨.fixed, [1, 2]⟩, some 1, .time, .real, 2⟩ : DspVec Int).resizeB (.fixedLen [7, 7, 7]) 3).map
    (fun r => (r.1.len, r.1.allocLen)) = some (3, 2) := by decide

omit [One T] [Add T] [Sub T] [Div T] in
/-- `plain_sifft` on any generic vector which succeeds returns a vector which claims to be complex and has
    an odd length. -/
theorem C01_plain_sifft_violated (tiny : T → Bool) (K : FftKernel T) (st : MultiCoreSettings) (v w : DspVec T)
    (b b' : Buffer T) (sched : List Nat) (c : Bool) (hg : v.numberSpace = .realOrComplex c) (hv : v.WF)
    (h : v.plainSifft tiny K st b sched = .finished (w, b', .ok ())) :
    w.isComplex = true ∧ w.len % 2 = 1 := by
  unfold plainSifft at h
  split at h
  · simp at h
  · rename_i hdc
    have hc : v.isComplex = true := by
      cases hcx : v.isComplex with
      | true => rfl
      | false => exact absurd (Or.inr hcx) hdc
    cases hb : v.notConj tiny with
    | none => simp [hb, Outcome.ofOption, Outcome.andThen] at h
    | some bad =>
      simp only [hb, Outcome.ofOption, Outcome.andThen] at h
      split at h
      · simp at h
      · cases hp : v.plainSifftData K b with
        | none => simp [hp] at h
        | some p =>
          simp only [hp] at h
          have hp0 := hp
          unfold plainSifftData at hp
          simp only [Option.bind_eq_bind, Option.bind_eq_some_iff, Option.some.injEq, Prod.exists] at hp
          obtain ⟨m, b1, hm, u, hu, rfl⟩ := hp
          obtain ⟨-, -, hsp, hl⟩ := shape_mirror hm
          have hk := keeps_fftRaw hu
          cases hq : complexToRealB Cx.re st { u with domain := u.domain.toFreq } b1 sched with
          | panic => simp [hq] at h
          | running => simp [hq] at h
          | finished q =>
            simp only [hq, Outcome.finished.injEq, Prod.mk.injEq, and_true] at h
            obtain ⟨rfl, -⟩ := h
            obtain ⟨l, -, -, hl3⟩ := complexToRealB_data hq
            have hns : q.1.numberSpace = u.numberSpace := by
              unfold complexToRealB at hq
              split at hq
              · split at hq
                · simp at hq
                · split at hq <;> simp at hq
                  subst hq; rfl
              · simp at hq
            have hty : v.realTimeType = .gen := by simp [realTimeType, hg]
            have hpos : 1 ≤ v.validLen := by
              unfold mirror at hm
              split at hm
              · rename_i hx; rw [hx.2] at hc; simp at hc
              · split at hm
                · simp at hm
                · simp only [len] at *; omega
            have heven := hv.2 hc
            rw [hty]
            constructor
            · show q.1.numberSpace.isComplex = true
              rw [hns, hk.space, hsp]; exact hc
            · show q.1.validLen % 2 = 1
              rw [hl3]
              show u.validLen / 2 % 2 = 1
              rw [hk.len, hl hc]; omega

/-- The hypotheses are met: a generic vector with two points in the frequency domain. -/
example : ((⟨⟨.vec, [1, 0, 2, 3]⟩, some 1, .timeOrFreq .frequency, .realOrComplex true, 4⟩ :
      DspVec Int).plainSifft (fun x => x == 0) ⟨id, id, fun _ => 0, fun _ => true⟩
      ⟨1, 1, 2, 1, 2⟩ (.single []) []).result.map (fun r => (r.1.len, r.1.isComplex)) =
    some (3, true) := by decide

omit [One T] [Add T] [Sub T] [Mul T] [Div T] [Neg T] [NatCast T] in
/-- The array on the stack used inside of the crate: `resize` reports success without growing. -/
theorem C01_inline_violated (v : DspVec T) (cap n : Nat) (hk : v.data.kind = .inlineStack cap)
    (hn : v.allocLen < n) (hcap : n ≤ cap) (hr : v.isComplex = false) :
    ∃ w, v.resize n = (w, .ok ()) ∧ w.allocLen < w.len := by
  refine ⟨{ v with validLen := n }, ?_, hn⟩
  have hlt : n > v.allocLen := hn
  simp [resize, hr, hlt, Storage.tryResize, hk, hcap]

example : ∃ w, (⟨⟨.inlineStack 64, [1, 2]⟩, some 1, .time, .real, 2⟩ : DspVec Int).resize 3 = (w, .ok ()) ∧
    w.allocLen < w.len := C01_inline_violated _ 64 3 rfl (by decide) (by decide) rfl

end Dsp
