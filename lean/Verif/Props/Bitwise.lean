import Verif.Props.RoundingComplex
import Verif.Props.RealOps
import Verif.Props.ComplexReal
import Verif.Model.Stats
/-
C74: results bit for bit: which results depend on the register type, the address, the settings and the order of the workers.
No law of the arithmetic is used but the commutativity of addition and multiplication where complex numbers are multiplied.
-/
namespace Dsp
open DspVec
variable {T : Type}

/-! ### Element by element -/

/-- Replacing determines the vector. -/
theorem Replaced.unique {v a b : DspVec T} {c : List T} (ha : Replaced v a c) (hb : Replaced v b c) : a = b := by
  obtain ⟨a1, a2, ⟨a3, a4, a5, a6⟩, a7, a8⟩ := ha
  obtain ⟨b1, b2, ⟨b3, b4, b5, b6⟩, b7, b8⟩ := hb
  have key : ∀ w : DspVec T, w.content = some c → w.validLen = v.validLen →
      w.data.cells.drop v.validLen = v.data.cells.drop v.validLen → w.data.cells = c ++ v.data.cells.drop v.validLen := by
    intro w h1 h2 h3
    unfold content slice at h1
    split at h1
    · rw [h2] at h1
      simp only [List.drop_zero, Option.some.injEq] at h1
      rw [← List.take_append_drop v.validLen w.data.cells, h3]
      congr 1
    · simp at h1
  have ka := key a a1 a2 a8
  have kb := key b b1 b2 b8
  obtain ⟨⟨ka', ca⟩, da, xa, na, la⟩ := a
  obtain ⟨⟨kb', cb⟩, db, xb, nb, lb⟩ := b
  simp only at *
  subst ka kb a2 b2
  simp only [a3, a4, a5, a6, b3, b4, b5, b6]

section
variable [Add T] [Sub T] [Mul T] [Div T] [Zero T] [LT T] [DecidableLT T] [DecidableEq T] [DeltaBounds T]

theorem run_ok {op : ElemOp} {k : RegKind} {addr : Nat} {v o v' : DspVec T} (h : op.run k addr v o = some (v', .ok ())) :
    v.len = o.len ∧ v.metaMismatch o = false := by
  have e1 : ∀ (r : ErrorReason), (some (v, (.error r : VoidResult)) : Option (DspVec T × VoidResult)) ≠ some (v', .ok ()) := by
    intro r h; simp at h
  by_cases hl : v.len = o.len
  · refine ⟨hl, ?_⟩
    by_contra hm
    rw [Bool.not_eq_false] at hm
    cases op <;> simp only [ElemOp.run, add, sub, mul, div, binaryReal, ne_eq, hl, not_true_eq_false, if_false, hm, if_true] at h <;>
      exact e1 _ h
  · exfalso
    cases op <;> simp only [ElemOp.run, add, sub, mul, div, binaryReal, ne_eq, hl, not_false_eq_true, if_true] at h <;>
      exact e1 _ h

/-- C74: if the operation succeeds on real vectors, then every number of the result is the operator of the number type applied to the
    numbers at this position: no law of the arithmetic is used, so this holds bit for bit. -/
theorem C74_real (op : ElemOp) (k : RegKind) (addr : Nat) (v o v' : DspVec T) (hv : v.WF) (ho : o.WF) (hr : v.isComplex = false)
    (hal : AlignmentAccepted addr k.len v.len) (hok : op.run k addr v o = some (v', .ok ())) :
    ∃ a b, v.content = some a ∧ o.content = some b ∧ Replaced v v' (List.zipWith op.real a b) := by
  obtain ⟨hlen, hmm⟩ := run_ok hok
  have hb : ∀ f, binaryReal k addr f v o =
      some (v.withCells (splice v.data.cells 0 (List.zipWith f (v.data.cells.take v.validLen)
        (o.data.cells.take o.validLen))), .ok ()) := by
    intro f
    unfold binaryReal
    rw [if_neg (not_not.mpr hlen), if_neg (by rw [hmm]; decide), hv.content_eq, ho.content_eq]
    have e1 := hv.content_length hv.content_eq
    have e2 := ho.content_length ho.content_eq
    simp only [Option.bind_eq_bind, Option.bind_some]
    rw [C20_elementwise k addr f _ _ (by rw [e1, e2]; exact hlen.symm) (by rw [e1]; exact hal)]
    rfl
  have e1 := hv.content_length hv.content_eq
  have e2 := ho.content_length ho.content_eq
  have hlen' : v.validLen = o.validLen := hlen
  have hrun : op.run k addr v o = some (v.withCells (splice v.data.cells 0 (List.zipWith op.real (v.data.cells.take v.validLen)
        (o.data.cells.take o.validLen))), .ok ()) := by
    cases op <;> simp only [ElemOp.run, add, sub, mul, div, if_neg (not_not.mpr hlen), hmm, hr, hb, ElemOp.real] <;> rfl
  rw [hrun] at hok
  simp only [Option.some.injEq, Prod.mk.injEq, and_true] at hok
  subst hok
  refine ⟨_, _, hv.content_eq, ho.content_eq, replaced_splice hv _ ?_⟩
  rw [List.length_zipWith, e1, e2]; omega

/-- C74: the result does not depend on the register type and on the address (real vectors). -/
theorem C74_real_same (op : ElemOp) (k k' : RegKind) (addr addr' : Nat) (v o w w' : DspVec T) (hv : v.WF) (ho : o.WF)
    (hr : v.isComplex = false) (hal : AlignmentAccepted addr k.len v.len) (hal' : AlignmentAccepted addr' k'.len v.len)
    (hok : op.run k addr v o = some (w, .ok ())) (hok' : op.run k' addr' v o = some (w', .ok ())) : w = w' := by
  obtain ⟨a, b, h1, h2, h3⟩ := C74_real op k addr v o w hv ho hr hal hok
  obtain ⟨a', b', h1', h2', h3'⟩ := C74_real op k' addr' v o w' hv ho hr hal' hok'
  rw [h1, Option.some.injEq] at h1'
  rw [h2, Option.some.injEq] at h2'
  subst h1' h2'
  exact h3.unique h3'

end

section
variable [AddCommMagma T] [Sub T] [CommMagma T] [Div T] [Zero T] [LT T] [DecidableLT T] [DecidableEq T] [DeltaBounds T]

/-- C74 for complex vectors: every point of the result is computed by the formula for a single complex number, up to the order of the
    operands of additions and multiplications. -/
theorem C74_complex (op : ElemOp) (k : RegKind) (addr : Nat) (v o v' : DspVec T) (hv : v.WF) (ho : o.WF) (hc : v.isComplex = true)
    (hal : ComplexAlignmentAccepted addr k.len v.len) (hok : op.run k addr v o = some (v', .ok ())) :
    ∃ cs ds, v.content = some (fromComplex cs) ∧ o.content = some (fromComplex ds) ∧
      Replaced v v' (fromComplex (List.zipWith op.cx cs ds)) := by
  obtain ⟨hlen, hmm⟩ := run_ok hok
  have hmm' := hmm
  unfold metaMismatch at hmm'
  simp only [Bool.or_eq_false_iff, bne_eq_false_iff_eq] at hmm'
  obtain ⟨cs, c1, c2⟩ := hv.content_even hc
  obtain ⟨ds, d1, d2⟩ := ho.content_even (by rw [← hmm'.1.1]; exact hc)
  have hlen' : v.validLen = o.validLen := hlen
  have hal' : ComplexAlignmentAccepted addr k.len (2 * cs.length) := by rw [c2]; exact hal
  have hadd : ∀ f, binaryReal k addr f v o =
      some (v.withCells (splice v.data.cells 0 (fromComplex
        (List.zipWith (fun a b => ⟨f a.re b.re, f a.im b.im⟩) cs ds))), .ok ()) := by
    intro f
    unfold binaryReal
    rw [if_neg (not_not.mpr hlen), if_neg (by rw [hmm]; decide), c1, d1]
    simp only [Option.bind_eq_bind, Option.bind_some]
    rw [C20_elementwise k addr f _ _ (by simp; omega) (by simpa using hal'.1),
      zipWith_fromComplex]
    rfl
  have hmul : ∀ g f, simdBinaryComplex addr k.len g f (fromComplex cs) (fromComplex ds) =
        some (fromComplex (List.zipWith f cs ds)) → binaryComplex k addr g f v o = some (v', .ok ()) →
      v' = v.withCells (splice v.data.cells 0 (fromComplex (List.zipWith f cs ds))) := by
    intro g f h hr
    unfold binaryComplex at hr
    rw [if_neg (not_not.mpr hlen), if_neg (by rw [hmm]; decide), c1, d1] at hr
    simp only [Option.bind_eq_bind, Option.bind_some, h] at hr
    rw [Option.bind_eq_some_iff] at hr
    obtain ⟨x, -, hx⟩ := hr
    simp only [Option.some.injEq, Prod.mk.injEq, and_true] at hx
    exact hx.symm
  have hres : v' = v.withCells (splice v.data.cells 0 (fromComplex (List.zipWith op.cx cs ds))) := by
    cases op with
    | add =>
      have := (hadd (· + ·)).symm.trans hok
      simp only [Option.some.injEq, Prod.mk.injEq, and_true] at this
      exact this.symm
    | sub =>
      have := (hadd (· - ·)).symm.trans hok
      simp only [Option.some.injEq, Prod.mk.injEq, and_true] at this
      exact this.symm
    | mul =>
      simp only [ElemOp.run, mul, if_neg (not_not.mpr hlen), hmm, hc, if_true] at hok
      exact hmul _ _ (C20_complex_mul_div k addr cs ds (by omega) hal').1 hok
    | div =>
      simp only [ElemOp.run, div, if_neg (not_not.mpr hlen), hmm, hc, if_true] at hok
      exact hmul _ _ (C20_complex_mul_div k addr cs ds (by omega) hal').2 hok
  subst hres
  exact ⟨cs, ds, c1, d1, replaced_splice hv _ (by simp; omega)⟩

/-- C74: the result does not depend on the register type and on the address (complex vectors). -/
theorem C74_complex_same (op : ElemOp) (k k' : RegKind) (addr addr' : Nat) (v o w w' : DspVec T) (hv : v.WF) (ho : o.WF)
    (hc : v.isComplex = true) (hal : ComplexAlignmentAccepted addr k.len v.len)
    (hal' : ComplexAlignmentAccepted addr' k'.len v.len)
    (hok : op.run k addr v o = some (w, .ok ())) (hok' : op.run k' addr' v o = some (w', .ok ())) : w = w' := by
  obtain ⟨a, b, h1, h2, h3⟩ := C74_complex op k addr v o w hv ho hc hal hok
  obtain ⟨a', b', h1', h2', h3'⟩ := C74_complex op k' addr' v o w' hv ho hc hal' hok'
  rw [h1, Option.some.injEq] at h1'
  rw [h2, Option.some.injEq] at h2'
  have e1 := fromComplex_injective h1'
  have e2 := fromComplex_injective h2'
  subst e1 e2
  exact h3.unique h3'

end

/-- C74: `offset` and `scale` of complex vectors, bit for bit, for every register type, address, settings and schedule. -/
theorem C74_offset_scale_complex [AddCommMagma T] [Sub T] [CommMagma T] [Div T] [Zero T] (k : RegKind) (addr : Nat)
    (st : MultiCoreSettings) (x : T) (z : Cx T) (v : DspVec T) (hv : v.WF) (hc : v.isComplex = true)
    (hal : ComplexAlignmentAccepted addr k.len v.len) :
    ∃ cs, v.content = some (fromComplex cs) ∧
      (∃ v', Always (v.offset k addr st x) v' ∧
        Replaced v v' (fromComplex (cs.map (fun a => ⟨a.re + x, a.im + 0⟩)))) ∧
      (∃ v', Always (v.scale k addr st x) v' ∧
        Replaced v v' (fromComplex (cs.map (fun a => ⟨a.re * x, a.im * x⟩)))) ∧
      (∃ v', Always (v.offsetComplex k addr st z) v' ∧
        Replaced v v' (fromComplex (cs.map (fun a => ⟨a.re + z.re, a.im + z.im⟩)))) ∧
      (∃ v', Always (v.scaleComplex k addr st z) v' ∧
        Replaced v v' (fromComplex (cs.map (fun a => ⟨a.re * z.re - a.im * z.im, a.re * z.im + a.im * z.re⟩)))) := by
  obtain ⟨cs, c1, c2⟩ := hv.content_even hc
  have hal' : ComplexAlignmentAccepted addr k.len (2 * cs.length) := by rw [c2]; exact hal
  have hx := (C20_complex_offset_scale k addr ⟨x, 0⟩ cs st hal').1
  obtain ⟨h1, h2⟩ := C20_complex_offset_scale k addr z cs st hal'
  have h3 := (C20_offset_scale k addr x (fromComplex cs) st (by simpa using hal'.1)).2
  have em : (fromComplex cs).map (· * x) = fromComplex (cs.map (fun a => ⟨a.re * x, a.im * x⟩)) := by
    clear c1 c2 hal' hx h1 h2 h3
    induction cs with
    | nil => rfl
    | cons c cs ih => simp [fromComplex, ih]
  rw [em] at h3
  refine ⟨cs, c1, ⟨_, hx.mapOutcome.congr (fun s => ?_), replaced_splice hv _ (by simp; omega)⟩,
    ⟨_, h3.mapOutcome.congr (fun s => ?_), replaced_splice hv _ (by simp; omega)⟩,
    ⟨_, h1.mapOutcome.congr (fun s => ?_), replaced_splice hv _ (by simp; omega)⟩,
    ⟨_, h2.mapOutcome.congr (fun s => ?_), replaced_splice hv _ (by simp; omega)⟩⟩
  · unfold offset; rw [c1]; simp only [hc]; rfl
  · unfold scale; rw [c1]
  · unfold offsetComplex; rw [c1]; simp only [hc]; rfl
  · unfold scaleComplex; rw [c1]; simp only [hc]; rfl

/-! ### Sums and statistics: settings and order of the workers -/

/-- C74: sums, dot products and statistics do not depend on the multi core settings and on the order in which workers finish, bit for
    bit (the register type and the address are fixed). -/
theorem C74_settings [Add T] [Sub T] [Mul T] [Div T] [Zero T] (k : RegKind) (addr : Nat) (prec : Bool)
    (st st' : MultiCoreSettings) (order order' : List Nat) (v o : DspVec T) :
    v.sum k addr st order = v.sum k addr st' order' ∧
    v.sumSq k addr st order = v.sumSq k addr st' order' ∧
    v.sumComplex k addr st order = v.sumComplex k addr st' order' ∧
    v.sumSqComplex k addr st order = v.sumSqComplex k addr st' order' ∧
    v.dotProduct prec k addr st o order = v.dotProduct prec k addr st' o order' ∧
    v.dotProductComplex prec k addr st o order = v.dotProductComplex prec k addr st' o order' ∧
    v.sumPrec st order = v.sumPrec st' order' ∧ v.sumSqPrec st order = v.sumSqPrec st' order' ∧
    v.sumPrecComplex st order = v.sumPrecComplex st' order' ∧ v.sumSqPrecComplex st order = v.sumSqPrecComplex st' order' := by
  refine ⟨?_, ?_, ?_, ?_, ?_, ?_, ?_, ?_, ?_, ?_⟩
  · simp only [DspVec.sum, sumRealWith, chunkedResults_small]
  · simp only [sumSq, sumRealWith, chunkedResults_small]
  · simp only [sumComplex, sumComplexWith, chunkedResults_small]
  · simp only [sumSqComplex, sumComplexWith, chunkedResults_small]
  · simp only [dotProduct, dotRealWith, getZipped_small]
  · simp only [dotProductComplex, dotComplexWith, getZipped_small]
  · simp only [sumPrec, sumPrecWith, chunkedResults_small]
  · simp only [sumSqPrec, sumPrecWith, chunkedResults_small]
  · simp only [sumPrecComplex, sumPrecComplexWith, chunkedResults_small]
  · simp only [sumSqPrecComplex, sumPrecComplexWith, chunkedResults_small]

/-- C74: the statistics. -/
theorem C74_statistics {K : Type} [Add T] [Sub T] [Mul T] [Zero T] [LT K] [DecidableLT K] (ops : StatOps T K)
    (opsC : StatOps (Cx T) K) (st st' : MultiCoreSettings) (order order' : List Nat) (v : DspVec T) (n : Nat) :
    v.statistics ops st order = v.statistics ops st' order' ∧
    v.statisticsComplex opsC st order = v.statisticsComplex opsC st' order' ∧
    v.statisticsSplit ops st n order = v.statisticsSplit ops st' n order' ∧
    v.statisticsSplitComplex opsC st n order = v.statisticsSplitComplex opsC st' n order' ∧
    v.statisticsPrec ops st order = v.statisticsPrec ops st' order' ∧
    v.statisticsPrecComplex opsC st order = v.statisticsPrecComplex opsC st' order' ∧
    v.statisticsSplitPrec ops st n order = v.statisticsSplitPrec ops st' n order' ∧
    v.statisticsSplitPrecComplex opsC st n order = v.statisticsSplitPrecComplex opsC st' n order' := by
  refine ⟨?_, ?_, ?_, ?_, ?_, ?_, ?_, ?_⟩
  · simp only [statistics, chunkedResults_small]
  · simp only [statisticsComplex, chunkedResults_small]
  · simp only [statisticsSplit, chunkedResults_small]
  · simp only [statisticsSplitComplex, chunkedResults_small]
  · simp only [statisticsPrec, chunkedResults_small]
  · simp only [statisticsPrecComplex, chunkedResults_small]
  · simp only [statisticsSplitPrec, chunkedResults_small]
  · simp only [statisticsSplitPrecComplex, chunkedResults_small]

/-! ### Where the result depends on the position -/

/-- Position `i` of `len` numbers at address `addr` is handled in a register of `w` numbers. -/
def InRegister (addr w len i : Nat) : Prop :=
  addr % w + w ≤ len ∧ addr % w ≤ i ∧ i < len - (len - addr % w) % w

instance (addr w len i : Nat) : Decidable (InRegister addr w len i) := by unfold InRegister; infer_instance

/-- An operation which is `f` in registers and `g` outside of registers. -/
theorem simdReal_mixed (addr w : Nat) (hw : 0 < w) (op : List T → List T) (f g : T → T) (hop : LaneWise w op f)
    (st : MultiCoreSettings) (a : List T) (hal : AlignmentAccepted addr w a.length) :
    Always (fun sched => simdRealOperation addr w op g .small st sched a)
      (a.mapIdx fun i x => if InRegister addr w a.length i then f x else g x) := by
  obtain ⟨l, ctr, r, ha, hl, hr, hcm, h1, h2, h3⟩ := split_parts addr w hw a
  have hlen : a.length = l.length + ctr.length + r.length := by rw [ha]; simp; omega
  have hctr : (calcDataAlignmentReqs addr w a.length).center a = some ctr := by
    obtain ⟨g1, g2, g3⟩ := calc_wf addr w a.length hw
    generalize calcDataAlignmentReqs addr w a.length = p at *
    unfold SimdPartition.center
    split
    · rename_i h; rw [h1 (by omega)]
    · rw [slice_ok _ _ _ (by omega) (by omega), ha, g1]
      rw [show a.length - p.right - p.left = ctr.length by omega, ← hl, List.append_assoc]
      simp
  have hbm : IsBlockMap w w (fun _ b => op b) 0 ctr (ctr.map f) := by
    refine ⟨by simp, fun k hk => ?_⟩
    show blk w (ctr.map f) k = op (blk w ctr k)
    rw [hop.2 _ (blk_full hw ctr hcm hk)]
    simp [blk, List.map_take, List.map_drop]
  have hfin : l.map g ++ ctr.map f ++ r.map g = a.mapIdx fun i x => if InRegister addr w a.length i then f x else g x := by
    apply List.ext_getElem?
    intro i
    rw [List.getElem?_mapIdx]
    have hin : InRegister addr w a.length i ↔ l.length ≤ i ∧ i < l.length + ctr.length := by
      unfold InRegister
      rw [hl]
      by_cases hc : ctr = []
      · have := h2 hc
        subst hc
        simp only [List.length_nil] at *
        omega
      · have e := h3 hc
        have hpos := List.length_pos_iff.2 hc
        have hrr : (calcDataAlignmentReqs addr w a.length).right = (a.length - addr % w) % w := by
          have hwc : w ≤ ctr.length := Nat.le_of_dvd hpos (Nat.dvd_of_mod_eq_zero hcm)
          unfold calcDataAlignmentReqs
          simp only
          rw [if_neg (by omega)]
        rw [hrr] at hr
        have hwc : w ≤ ctr.length := Nat.le_of_dvd hpos (Nat.dvd_of_mod_eq_zero hcm)
        omega
    by_cases hi : l.length ≤ i ∧ i < l.length + ctr.length
    · simp only [if_pos (hin.2 hi)]
      rw [ha, List.append_assoc, List.append_assoc, List.getElem?_append_right (by simpa using hi.1),
        List.getElem?_append_left (by simp; omega), List.getElem?_append_right hi.1, List.getElem?_append_left (by omega)]
      simp
    · simp only [if_neg (mt hin.1 hi)]
      rw [ha]
      by_cases hlt : i < l.length
      · rw [List.append_assoc, List.append_assoc, List.getElem?_append_left (by simpa using hlt), List.getElem?_append_left hlt]
        simp
      · rw [List.getElem?_append_right (by simp; omega), List.getElem?_append_right (by simp; omega)]
        simp
  rw [← hfin]
  refine (simdCenter_eq addr w hw op hop.1 .small st a hal (.inr (small_empty st)) l ctr r ha hl hctr _ hbm).map
    (fun sched h => ?_) (fun sched h => ?_)
  · unfold simdRealOperation; simp only [h]
  · unfold simdRealOperation
    simp only [h]
    rw [← hl, ← hr]
    have := mapEdges_eq g l (ctr.map f) r
    rw [this]

/-- C74: `abs` of real vectors, bit for bit: the square root of the square in registers, the absolute value outside of registers. -/
theorem C74_abs [Mul T] (lib : MathLib T) (k : RegKind) (addr : Nat) (st : MultiCoreSettings) (v : DspVec T) (hv : v.WF)
    (hr : v.isComplex = false) (hal : AlignmentAccepted addr k.len v.len) :
    ∃ a w, v.content = some a ∧ Always (v.abs lib k addr st) w ∧
      Replaced v w (a.mapIdx fun i x => if InRegister addr k.len v.len i then lib.sqrt (x * x) else lib.abs x) := by
  have hl := hv.content_length hv.content_eq
  have h := simdReal_mixed addr k.len (RegKind.len_pos k) (fun r => r.map fun x => lib.sqrt (x * x)) _ lib.abs (laneWise_map _ _) st
    (v.data.cells.take v.validLen) (by rw [hl]; exact hal)
  rw [hl] at h
  refine ⟨_, _, hv.content_eq, h.mapOutcome.congr fun s => ?_, replaced_splice hv _ (by rw [List.length_mapIdx]; exact hl)⟩
  unfold DspVec.abs; rw [hr, hv.content_eq]; rfl

/-- C74 is violated by `abs` in every arithmetic in which the square root of a square is not always the absolute value (overflow,
    underflow): a machine with SSE and a machine with AVX give different results for the same vector. -/
theorem C74_abs_violated [Mul T] (lib : MathLib T) (x : T) (hx : lib.sqrt (x * x) ≠ lib.abs x) (st : MultiCoreSettings) :
    let v : DspVec T := ⟨⟨.vec, [x, x, x, x]⟩, none, .time, .real, 4⟩
    ∃ w w', v.WF ∧ Always (v.abs lib .sseF32x4 0 st) w ∧ Always (v.abs lib .avxF32x8 0 st) w' ∧
      w.content = some (List.replicate 4 (lib.sqrt (x * x))) ∧ w'.content = some (List.replicate 4 (lib.abs x)) ∧
      w.content ≠ w'.content := by
  intro v
  have hv : v.WF := by simp [DspVec.WF, v]
  obtain ⟨a, w, h1, h2, h3⟩ := C74_abs lib .sseF32x4 0 st v hv rfl (.inl rfl)
  obtain ⟨b, w', g1, g2, g3⟩ := C74_abs lib .avxF32x8 0 st v hv rfl (.inl rfl)
  have ha : v.content = some [x, x, x, x] := rfl
  rw [ha, Option.some.injEq] at h1 g1
  subst h1 g1
  have e1 : w.content = some (List.replicate 4 (lib.sqrt (x * x))) := h3.1.trans (by
    simp [InRegister, v, DspVec.len, RegKind.len, List.mapIdx_cons, List.replicate])
  have e2 : w'.content = some (List.replicate 4 (lib.abs x)) := g3.1.trans (by
    simp [InRegister, v, DspVec.len, RegKind.len, List.mapIdx_cons, List.replicate])
  refine ⟨w, w', hv, h2, g2, e1, e2, ?_⟩
  rw [e1, e2]
  intro h
  simp only [Option.some.injEq, List.replicate_succ, List.cons.injEq] at h
  exact hx h.1

/-- Decimal numbers with two digits after the point: products are rounded down. -/
structure Hundredths where
  n : Int
deriving DecidableEq

instance : Add Hundredths := ⟨fun a b => ⟨a.n + b.n⟩⟩
instance : Mul Hundredths := ⟨fun a b => ⟨a.n * b.n / 100⟩⟩
instance : Zero Hundredths := ⟨⟨0⟩⟩

/-- The square root for these numbers. -/
def Hundredths.sqrt (x : Hundredths) : Hundredths := ⟨(Nat.sqrt (100 * x.n).toNat : Nat)⟩

/-- The square of 0.05 is too small to be represented. -/
example : Hundredths.sqrt (⟨5⟩ * ⟨5⟩) = ⟨0⟩ ∧ Hundredths.sqrt (⟨500⟩ * ⟨500⟩) = ⟨500⟩ := by decide +kernel

/-- The norm without overflow and underflow, like `hypot`. -/
def Hundredths.norm (c : Cx Hundredths) : Hundredths := ⟨(Nat.sqrt (c.re.n * c.re.n + c.im.n * c.im.n).toNat : Nat)⟩

/-- C74 is violated by `magnitude_b`: in registers the square root of the sum of the squares is calculated, outside of registers the
    norm of `num_complex` (which avoids overflow and underflow). The norm of 0.03 + 0.04i is 0.05, but the squares are too small: for
    the same vector a machine with SSE gives 0 and a machine with AVX 0.05. -/
theorem C74_magnitude_violated :
    let v : DspVec Hundredths := ⟨⟨.vec, [⟨3⟩, ⟨4⟩, ⟨3⟩, ⟨4⟩]⟩, none, .time, .complex, 4⟩
    v.WF ∧ (v.magnitudeBWith .sseF32x4 0 (regComplexAbs Hundredths.sqrt .sseF32x4) Hundredths.norm .noBuffer).map (·.1.content) =
        some (some [⟨0⟩, ⟨0⟩]) ∧
    (v.magnitudeBWith .avxF32x8 0 (regComplexAbs Hundredths.sqrt .avxF32x8) Hundredths.norm .noBuffer).map (·.1.content) =
        some (some [⟨5⟩, ⟨5⟩]) := by
  intro v
  exact ⟨by simp [DspVec.WF, v, DspVec.isComplex, NumberSpace.isComplex], by decide +kernel, by decide +kernel⟩

/-! ### Sums depend on the register type and on the address -/

/-- An arithmetic with rounding: an addition of `b` to `a` gives `a + b`, except that 4 can't be represented. -/
structure NoFour where
  n : Nat
deriving DecidableEq

instance : Add NoFour := ⟨fun a b => ⟨if a.n + b.n = 4 then 3 else a.n + b.n⟩⟩
instance : Zero NoFour := ⟨⟨0⟩⟩

/-- C74 is violated by `sum`: the result depends on the register type and on the address of the data (the addition is commutative). -/
theorem C74_sum_violated (st : MultiCoreSettings) (order order' : List Nat) :
    let v : DspVec NoFour := ⟨⟨.vec, [⟨1⟩, ⟨2⟩, ⟨1⟩, ⟨3⟩]⟩, none, .time, .real, 4⟩
    v.WF ∧ (∀ a b : NoFour, a + b = b + a) ∧
    v.sum .sseF64x2 0 st order = some ⟨7⟩ ∧ v.sum .avxF64x4 0 st order' = some ⟨6⟩ ∧ v.sum .sseF64x2 1 st order' = some ⟨6⟩ := by
  intro v
  refine ⟨by simp [DspVec.WF, v], fun a b => ?_, ?_, ?_, ?_⟩
  · show NoFour.mk _ = NoFour.mk _
    rw [Nat.add_comm]
  all_goals
    unfold DspVec.sum sumRealWith
    simp only [chunkedResults_small]
    decide +kernel

/-! ### The hypotheses are met -/

instance : Sub NoFour := ⟨fun a b => ⟨a.n - b.n⟩⟩
instance : Mul NoFour := ⟨fun a b => ⟨if a.n * b.n = 4 then 3 else a.n * b.n⟩⟩
instance : Div NoFour := ⟨fun a b => ⟨a.n / b.n⟩⟩
instance : LT NoFour := ⟨fun a b => a.n < b.n⟩
instance : DecidableLT NoFour := fun a b => inferInstanceAs (Decidable (a.n < b.n))
instance : DeltaBounds NoFour := ⟨⟨1⟩, ⟨1⟩⟩
instance : AddCommMagma NoFour := ⟨fun a b => by show NoFour.mk _ = NoFour.mk _; rw [Nat.add_comm]⟩
instance : CommMagma NoFour := ⟨fun a b => by show NoFour.mk _ = NoFour.mk _; rw [Nat.mul_comm]⟩

/-- An arithmetic without associativity: real vectors with SSE and AVX. -/
example : let v : DspVec NoFour := ⟨⟨.vec, [⟨1⟩, ⟨2⟩, ⟨1⟩, ⟨3⟩, ⟨2⟩]⟩, some ⟨1⟩, .time, .real, 5⟩
    v.WF ∧ v.isComplex = false ∧ AlignmentAccepted 0 RegKind.sseF32x4.len v.len ∧ AlignmentAccepted 2 RegKind.avxF64x4.len v.len ∧
    (ElemOp.add.run .sseF32x4 0 v v).map (fun r => (r.1.content, r.2)) = some (some [⟨2⟩, ⟨3⟩, ⟨2⟩, ⟨6⟩, ⟨3⟩], .ok ()) ∧
    (ElemOp.add.run .avxF64x4 2 v v).map (fun r => (r.1.content, r.2)) = some (some [⟨2⟩, ⟨3⟩, ⟨2⟩, ⟨6⟩, ⟨3⟩], .ok ()) := by
  intro v
  exact ⟨by simp [DspVec.WF, v, DspVec.isComplex, NumberSpace.isComplex], rfl, .inl rfl, .inl rfl, by decide +kernel, by decide +kernel⟩

/-- Complex vectors. -/
example : let v : DspVec NoFour := ⟨⟨.vec, [⟨1⟩, ⟨0⟩, ⟨1⟩, ⟨0⟩, ⟨2⟩, ⟨1⟩]⟩, some ⟨1⟩, .time, .complex, 6⟩
    v.WF ∧ v.isComplex = true ∧ ComplexAlignmentAccepted 0 RegKind.sseF32x4.len v.len ∧
    ComplexAlignmentAccepted 2 RegKind.sseF64x2.len v.len ∧
    (ElemOp.mul.run .sseF32x4 0 v v).map (fun r => (r.1.content, r.2)) =
      some (some [⟨1⟩, ⟨0⟩, ⟨1⟩, ⟨0⟩, ⟨2⟩, ⟨3⟩], .ok ()) ∧
    (ElemOp.mul.run .sseF64x2 2 v v).map (fun r => (r.1.content, r.2)) =
      some (some [⟨1⟩, ⟨0⟩, ⟨1⟩, ⟨0⟩, ⟨2⟩, ⟨3⟩], .ok ()) := by
  intro v
  exact ⟨by simp [DspVec.WF, v, DspVec.isComplex, NumberSpace.isComplex], rfl, ⟨.inl rfl, rfl⟩, ⟨.inl rfl, rfl⟩, by decide +kernel,
    by decide +kernel⟩

end Dsp
