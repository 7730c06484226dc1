import Verif.Props.ProgramUn
/-
C72, operations with an operand: every call means what the specification of programs says.
-/
namespace Dsp
open DspVec
variable {T : Type}

section
variable [Field T] [LinearOrder T] [IsStrictOrderedRing T]

/-- `correlate` with any spectrum as its argument. -/
theorem correlate_spectrum (K : FftKernel T) (hK : K.KeepsLength) (k : RegKind) (addr : Nat) (st : MultiCoreSettings)
    (v o : DspVec T) (a D : List (Cx T)) (g g' : Bool) (x x' : Option T) (h : v.Shows ⟨.complex a, .time, g, x⟩)
    (ho : o.Shows ⟨.complex D, .frequency, g', x'⟩) (hlt : a.length < D.length) (b : Buffer T)
    (hb : BufferOk b v.data (2 * D.length)) (hs : ScratchOk K b D.length)
    (hal : ComplexAlignmentAccepted addr k.len (2 * D.length)) :
    ∃ w b', Always (v.correlate K k addr st o b) (w, b', .ok ()) ∧
      w.Shows ⟨.complex (rotateRight ((K.inverse (List.zipWith (· * ·)
        (K.forward (padSpec 0 a D.length (surroundRightB a.length D.length) .surround)) D)).map (Cx.scaleBy (1 / (D.length : T))))
        (D.length / 2)), .time, g, x⟩ := by
  have hop : o.points = D.length := ho.points
  obtain ⟨u, b1, e1, e2, e3⟩ := shows_padB h b D.length hlt hb
  have hl := padSpec_length (0 : Cx T) a D.length (surroundRightB a.length D.length) .surround
    (by omega) (by unfold surroundRightB; omega)
  generalize padSpec (0 : Cx T) a D.length (surroundRightB a.length D.length) .surround = A at *
  have hup : u.points = D.length := by rw [e3.points]; exact hl
  have hsp := correlateSlices_spec K hK k addr A D hl.symm (by omega) b1
    (by rw [hl]; exact e2.2 _ _ hs) (by rw [hl]; exact hal)
  have hcl : (K.inverse (List.zipWith (· * ·) (K.forward A) D)).length = D.length := by
    rw [hK.2, List.length_zipWith, hK.1, hl, Nat.min_self]
  generalize K.inverse (List.zipWith (· * ·) (K.forward A) D) = R at *
  have hw1 : (u.withCells (splice u.data.cells 0 (fromComplex R))).Shows ⟨.complex R, .time, g, x⟩ := by
    obtain ⟨c1, c2⟩ := content_iff.1 e3.content
    have hlen : (fromComplex R).length = u.validLen := by
      rw [length_fromComplex, hcl, ← hl]
      have := e3.len
      rw [show u.validLen = u.len from rfl, this]; exact (length_fromComplex A).symm
    refine e3.of_content (w := u.withCells (splice u.data.cells 0 (fromComplex R)))
      ⟨rfl, rfl, rfl, rfl⟩ (N := .complex R) rfl (content_iff.2 ⟨?_, ?_⟩)
    · show u.validLen ≤ _
      simp only [withCells, splice]; simp; omega
    · show (splice u.data.cells 0 _).take u.validLen = _
      unfold splice
      simp only [List.take_zero, List.nil_append, Numbers.flat]
      rw [List.take_append_of_le_length (by omega), List.take_of_length_le (by omega)]
  obtain ⟨z, hz1, hz2⟩ := shows_scale hw1 k addr st (1 / ((u.points : Nat) : T)) (by rw [hcl]; exact hal)
  rw [hup] at hz2
  obtain ⟨q, hq1, hq2⟩ := step_swapHalves hz2
  have hq1 : z.swapHalves = some q := hq1
  refine ⟨q, b1, ?_, ?_⟩
  · refine (hz1.andThen (f := fun u => match u.swapHalves with | none => .panic | some x => .finished (x, b1, (.ok () : VoidResult)))
      (by rw [hq1])).congr fun sched => ?_
    have c1 : ¬ (v.dom ≠ .time ∨ v.isComplex = false) := by
      rw [h.dom, h.isComplex]; simp [Numbers.isComplex]
    have c2 : ¬ (o.dom ≠ .frequency ∨ o.isComplex = false) := by
      rw [ho.dom, ho.isComplex]; simp [Numbers.isComplex]
    unfold correlate
    rw [if_neg c1, if_neg c2, hop, e1]
    simp only [e3.content, ho.content, Numbers.flat, hsp]
    rfl
  · have := hq2
    simp only [Call.meaning, Numbers.rearrange] at this
    rw [List.length_map, hcl] at this
    exact this

variable {v o : DspVec T} {s t : Signal T}

omit [IsStrictOrderedRing T] in
theorem metaAgree_iff (h : v.Shows s) (ho : o.Shows t) : MetaAgree v o ↔ s.Agrees t := by
  unfold MetaAgree Signal.Agrees
  rw [h.isComplex, h.dom, h.delta, ho.isComplex, ho.dom, ho.delta]

omit [Field T] [LinearOrder T] [IsStrictOrderedRing T] in
/-- `Cycled` determines the result. -/
theorem eq_cycledWith {α : Type} {f : α → α → α} {a b r : List α} (h : Cycled f a b r) : r = cycledWith f a b := by
  obtain ⟨h1, h2⟩ := h
  apply List.ext_getElem?
  intro i
  unfold cycledWith
  rw [List.getElem?_mapIdx]
  cases e : a[i]? with
  | none =>
    rw [List.getElem?_eq_none_iff] at e
    rw [List.getElem?_eq_none (by omega)]; rfl
  | some x =>
    obtain ⟨y, e1, e2⟩ := h2 i x e
    rw [e2, Option.map_some, e1]; rfl

theorem step_elem (h : v.Shows s) (ho : o.Shows t) (op : ElemOp) (k : RegKind) (addr : Nat)
    (hs : PosDelta o ∧ (v.len = o.len → MetaAgree v o → AlignmentAccepted addr k.len v.len ∧
      (v.isComplex = true → op = .mul ∨ op = .div → addr % 2 = 0 ∧ v.allocLen % 2 = 0))) [FloorRing T] :
    ∃ w, Always2 (fun s1 _ => (BinOp.elem op k addr).run v o s1) (w, ((BinCall.elem op).meaning s t).2) ∧
      w.Shows ((BinCall.elem op).meaning s t).1 := by
  obtain ⟨hp, hs⟩ := hs
  obtain ⟨c1, c2⟩ := C22_operand_checks op k addr v o hp
  have hl : v.len = o.len ↔ s.numbers.flat.length = t.numbers.flat.length := by rw [h.len, ho.len]
  have hm := metaAgree_iff h ho
  by_cases hlen : v.len = o.len
  · by_cases hag : MetaAgree v o
    · obtain ⟨hal, hev⟩ := hs hlen hag
      have e : (BinCall.elem op).meaning s t =
          ({ s with numbers := s.numbers.combine (List.zipWith op.real) (List.zipWith op.cx) t.numbers }, [.result (.ok ())]) := by
        simp only [BinCall.meaning]
        rw [if_neg (by simp [hl.1 hlen]), if_neg (by simp [hm.1 hag])]
      rw [e]
      have hcc := hag.1
      rw [h.isComplex, ho.isComplex] at hcc
      cases hN : s.numbers with
      | real xs =>
        cases hM : t.numbers with
        | complex _ => rw [hN, hM] at hcc; cases hcc
        | real ys =>
          obtain ⟨a, b, w, e1, e2, e3, e4⟩ := C22_real op k addr v o h.wf ho.wf hp hlen hag (by rw [h.isComplex, hN]; rfl) hal
          rw [h.content, hN] at e1; rw [ho.content, hM] at e2
          cases e1; cases e2
          exact ⟨w, always2_some e3 rfl, h.of_replaced (by rw [hN]; rfl) e4 rfl⟩
      | complex cs =>
        cases hM : t.numbers with
        | real _ => rw [hN, hM] at hcc; cases hcc
        | complex ds =>
          have hvc : v.isComplex = true := by rw [h.isComplex, hN]; rfl
          obtain ⟨cs', ds', w, e1, e2, e3, e4⟩ := C22_complex op k addr v o h.wf ho.wf hp hlen hag hvc hal (hev hvc)
          have hc := h.content
          rw [hN] at hc
          have hd := ho.content
          rw [hM] at hd
          have := content_complex_unique e1 hc; subst this
          have := content_complex_unique e2 hd; subst this
          exact ⟨w, always2_some e3 rfl, h.of_replaced (by rw [hN]; rfl) e4 rfl⟩
    · have e : (BinCall.elem op).meaning s t = (s, [.result (.error .inputMetaDataMustAgree)]) := by
        simp only [BinCall.meaning]
        rw [if_neg (by simp [hl.1 hlen]), if_pos (fun hx => hag (hm.2 hx))]
      rw [e]
      exact ⟨v, always2_some (c2 hlen hag) rfl, h⟩
  · have e : (BinCall.elem op).meaning s t = (s, [.result (.error .inputMustHaveTheSameSize)]) := by
      simp only [BinCall.meaning]
      rw [if_pos (fun hx => hlen (hl.2 hx))]
    rw [e]
    exact ⟨v, always2_some (c1 hlen) rfl, h⟩

theorem step_elemSmaller (h : v.Shows s) (ho : o.Shows t) (op : ElemOp) (hs : PosDelta o ∧ o.len ≠ 0) [FloorRing T] :
    ∃ w, Always2 (fun s1 _ => (BinOp.elemSmaller op).run v o s1) (w, ((BinCall.elemSmaller op).meaning s t).2) ∧
      w.Shows ((BinCall.elemSmaller op).meaning s t).1 := by
  obtain ⟨hp, h0⟩ := hs
  have hpos : 0 < o.len := by omega
  obtain ⟨c1, c2⟩ := C23_operand_checks op v o hp hpos
  have hl : o.len ∣ v.len ↔ t.numbers.flat.length ∣ s.numbers.flat.length := by rw [h.len, ho.len]
  have hm := metaAgree_iff h ho
  by_cases hlen : o.len ∣ v.len
  · by_cases hag : MetaAgree v o
    · have e : (BinCall.elemSmaller op).meaning s t =
          ({ s with numbers := s.numbers.combine (cycledWith op.real) (cycledWith op.cx) t.numbers }, [.result (.ok ())]) := by
        simp only [BinCall.meaning]
        rw [if_neg (fun hx => hx (hl.1 hlen)), if_neg (fun hx => hx (hm.1 hag))]
      rw [e]
      have hcc := hag.1
      rw [h.isComplex, ho.isComplex] at hcc
      cases hN : s.numbers with
      | real xs =>
        cases hM : t.numbers with
        | complex _ => rw [hN, hM] at hcc; cases hcc
        | real ys =>
          obtain ⟨a, b, r, w, e1, e2, e3, e4, e5⟩ := C23_real op v o h.wf ho.wf hp hpos hlen hag (by rw [h.isComplex, hN]; rfl)
          rw [h.content, hN] at e1; rw [ho.content, hM] at e2
          cases e1; cases e2
          rw [eq_cycledWith e5] at e4
          exact ⟨w, always2_some e3 rfl, h.of_replaced (by rw [hN]; rfl) e4 rfl⟩
      | complex cs =>
        cases hM : t.numbers with
        | real _ => rw [hN, hM] at hcc; cases hcc
        | complex ds =>
          have hvc : v.isComplex = true := by rw [h.isComplex, hN]; rfl
          obtain ⟨cs', ds', r, w, e1, e2, e3, e4, e5⟩ := C23_complex op v o h.wf ho.wf hp hpos hlen hag hvc
          have hc := h.content
          rw [hN] at hc
          have hd := ho.content
          rw [hM] at hd
          have := content_complex_unique e1 hc; subst this
          have := content_complex_unique e2 hd; subst this
          rw [eq_cycledWith e5] at e4
          exact ⟨w, always2_some e3 rfl, h.of_replaced (by rw [hN]; rfl) e4 rfl⟩
    · have e : (BinCall.elemSmaller op).meaning s t = (s, [.result (.error .inputMetaDataMustAgree)]) := by
        simp only [BinCall.meaning]
        rw [if_neg (fun hx => hx (hl.1 hlen)), if_pos (fun hx => hag (hm.2 hx))]
      rw [e]
      exact ⟨v, always2_some (c2 hlen hag) rfl, h⟩
  · have e : (BinCall.elemSmaller op).meaning s t = (s, [.result (.error .invalidArgumentLength)]) := by
      simp only [BinCall.meaning]
      rw [if_pos (fun hx => hlen (hl.2 hx))]
    rw [e]
    exact ⟨v, always2_some (c1 hlen) rfl, h⟩

theorem step_convolveSignal (h : v.Shows s) (ho : o.Shows t) [FloorRing T] (K : FftKernel T) (junk : List (Cx T) → List (Cx T)) (k : RegKind)
    (addr : Nat) (st : MultiCoreSettings) (buf : Buffer T) (hs : (BinOp.convolveSignal K junk k addr st buf).Safe v o) :
    ∃ w, Always2 (fun s1 _ => (BinOp.convolveSignal K junk k addr st buf).run v o s1)
        (w, ((BinCall.convolveSignal : BinCall T).meaning s t).2) ∧
      w.Shows ((BinCall.convolveSignal : BinCall T).meaning s t).1 := by
  obtain ⟨hp, hs⟩ := hs
  obtain ⟨c1, c2, c3⟩ := C37_convolve_signal_errors K junk k addr st v o buf hp
  have hm := metaAgree_iff h ho
  have hpv := h.points
  have hpo := ho.points
  have hd := h.dom
  have give : ∀ {w : DspVec T} {b' : Buffer T} {r : VoidResult}, Always (v.convolveSignal K junk k addr st o buf) (w, b', r) →
      Always2 (fun s1 _ => (BinOp.convolveSignal K junk k addr st buf).run v o s1) (w, [.result r]) :=
    fun e => e.give fun r => (r.1, [Out.result r.2.2])
  by_cases hag : MetaAgree v o
  · by_cases hdom : v.dom = .time
    · by_cases hle : o.points ≤ v.points
      · obtain ⟨hK, hj, hn, hb, hsimd, hfreq⟩ := hs hag hdom hle
        have e : (BinCall.convolveSignal : BinCall T).meaning s t =
            ({ s with numbers := s.numbers.combine circularConv circularConv t.numbers }, [.result (.ok ())]) := by
          simp only [BinCall.meaning]
          rw [if_neg (fun hx => hx (hm.1 hag)), if_neg (fun hx => hx (hd.symm.trans hdom)), if_neg (by omega)]
        rw [e]
        have hmm : v.metaMismatch o = false := by
          cases hx : v.metaMismatch o with
          | false => rfl
          | true => exact absurd hag ((metaMismatch_iff v o hp).1 hx)
        obtain ⟨w, b', e1, e2, e3, e4, e5⟩ := C37_convolve_signal_partial K hK junk hj k addr st v o h.wf ho.wf hmm hdom hn hle buf hb
          hsimd hfreq
        refine ⟨w, give e1, ?_⟩
        have hcc := hag.1
        rw [h.isComplex, ho.isComplex] at hcc
        cases hN : s.numbers with
        | real xs =>
          cases hM : t.numbers with
          | complex _ => rw [hN, hM] at hcc; cases hcc
          | real ys =>
            obtain ⟨a, b, f1, f2, f3⟩ := e4 (by rw [h.isComplex, hN]; rfl)
            rw [h.content, hN] at f1; rw [ho.content, hM] at f2
            cases f1; cases f2
            exact h.of_content e3 (N := .real (circularConv xs ys)) (by rw [hN]; rfl) f3
        | complex cs =>
          cases hM : t.numbers with
          | real _ => rw [hN, hM] at hcc; cases hcc
          | complex ds =>
            obtain ⟨a, b, f1, f2, f3⟩ := e5 (by rw [h.isComplex, hN]; rfl)
            have hc := h.content
            rw [hN] at hc
            have hd := ho.content
            rw [hM] at hd
            have := content_complex_unique f1 hc; subst this
            have := content_complex_unique f2 hd; subst this
            exact h.of_content e3 (N := .complex (circularConv a b)) (by rw [hN]; rfl) f3
      · have e : (BinCall.convolveSignal : BinCall T).meaning s t = (s, [.result (.error .invalidArgumentLength)]) := by
          simp only [BinCall.meaning]
          rw [if_neg (fun hx => hx (hm.1 hag)), if_neg (fun hx => hx (hd.symm.trans hdom)), if_pos (by omega)]
        rw [e]
        exact ⟨v, give (c3 hag hdom (by omega)), h⟩
    · have e : (BinCall.convolveSignal : BinCall T).meaning s t = (s, [.result (.error .inputMustBeInTimeDomain)]) := by
        simp only [BinCall.meaning]
        rw [if_neg (fun hx => hx (hm.1 hag)), if_pos (fun hx => hdom (hd.trans hx))]
      rw [e]
      exact ⟨v, give (c2 hag hdom), h⟩
  · have e : (BinCall.convolveSignal : BinCall T).meaning s t = (s, [.result (.error .inputMetaDataMustAgree)]) := by
      simp only [BinCall.meaning]
      rw [if_pos (fun hx => hag (hm.2 hx))]
    rw [e]
    exact ⟨v, give (c1 hag), h⟩

theorem step_correlate (h : v.Shows s) (ho : o.Shows t) [FloorRing T] (K : FftKernel T) (k : RegKind)
    (addr : Nat) (st : MultiCoreSettings) (buf : Buffer T) (hs : (BinOp.correlate K k addr st buf).Safe v o) :
    ∃ w, Always2 (fun s1 _ => (BinOp.correlate K k addr st buf).run v o s1) (w, ((BinCall.correlate K).meaning s t).2) ∧
      w.Shows ((BinCall.correlate K).meaning s t).1 := by
  obtain ⟨hc, hd, hoc, hod, hs⟩ := hs
  obtain ⟨a, hN⟩ := shows_complex h hc
  obtain ⟨D, hM⟩ := shows_complex ho hoc
  have hd := h.dom.symm.trans hd
  have hod := ho.dom.symm.trans hod
  obtain ⟨N, dom, g, x⟩ := s
  obtain ⟨M, dom', g', x'⟩ := t
  simp only at hN hM hd hod
  subst hN hM hd hod
  have hpv : v.points = a.length := h.points
  have hpo : o.points = D.length := ho.points
  rw [hpv, hpo] at hs
  by_cases hle : D.length ≤ a.length
  · have e : (BinCall.correlate K).meaning (⟨.complex a, .time, g, x⟩ : Signal T) ⟨.complex D, .frequency, g', x'⟩ =
        (⟨.complex a, .time, g, x⟩, [.result (.error .invalidArgumentLength)]) := by
      simp only [BinCall.meaning]
      rw [if_pos (by exact hle)]
    rw [e]
    have e1 := C54_unpadded_violated K k addr st v o a D g g' x x' h ho hle buf
    have e2 : Always (v.correlate K k addr st o buf) (v, buf, .error .invalidArgumentLength) := (Always.const _).congr e1
    exact ⟨v, e2.give fun r => (r.1, [Out.result r.2.2]), h⟩
  · obtain ⟨hK, hb, hsc, hal⟩ := hs (by omega)
    obtain ⟨w, b', e1, e2⟩ := correlate_spectrum K hK k addr st v o a D g g' x x' h ho (by omega) buf hb hsc hal
    have e : (BinCall.correlate K).meaning (⟨.complex a, .time, g, x⟩ : Signal T) ⟨.complex D, .frequency, g', x'⟩ =
        (⟨.complex (rotateRight ((K.inverse (List.zipWith (· * ·)
          (K.forward (padSpec 0 a D.length (surroundRightB a.length D.length) .surround)) D)).map (Cx.scaleBy (1 / (D.length : T))))
          (D.length / 2)), .time, g, x⟩, [.result (.ok ())]) := by
      simp only [BinCall.meaning]
      rw [if_neg (by exact hle)]
      rfl
    rw [e]
    exact ⟨w, e1.give fun r => (r.1, [Out.result r.2.2]), e2⟩

/-- C72, operations with an operand. -/
theorem binary_step [FloorRing T] (h : v.Shows s) (ho : o.Shows t) (op : BinOp T) (hs : op.Safe v o) :
    ∃ w, Always2 (fun s1 _ => op.run v o s1) (w, (op.call.meaning s t).2) ∧ w.Shows (op.call.meaning s t).1 := by
  cases op with
  | elem op k addr => exact step_elem h ho op k addr hs
  | elemSmaller op => exact step_elemSmaller h ho op hs
  | convolveSignal K junk k addr st buf => exact step_convolveSignal h ho K junk k addr st buf hs
  | correlate K k addr st buf => exact step_correlate h ho K k addr st buf hs

end
end Dsp
