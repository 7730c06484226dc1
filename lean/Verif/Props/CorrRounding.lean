import Verif.Spec.CorrRounding
import Verif.Props.ConvFftRounding
import Verif.Props.Correlation
/-
C96: the cross correlation with rounded numbers.
-/
namespace Dsp
open DspVec
open scoped ComplexConjugate

/-! ### `conj` -/
section
variable {T : Type}

/-- Complex operations whose register version differs from the scalar one: every point is computed by one of the two. -/
theorem complex_mixed (addr w : Nat) (hw : 0 < w) (hw2 : w % 2 = 0) (op : List T → List T)
    (f f' : Cx T → Cx T) (hop : PointWise w op f') (c : Complexity) (st : MultiCoreSettings)
    (cs : List (Cx T)) (hal : AlignmentAccepted addr w (2 * cs.length)) (heven : addr % 2 = 0)
    (hempty : addr % w + w ≤ 2 * cs.length ∨ determineNumberOfChunks 0 c st ≤ 1) :
    ∃ ds, Always (fun sched => simdComplexOperation addr w op f c st sched (fromComplex cs)) (fromComplex ds) ∧
      List.Forall₂ (fun a d => d = f a ∨ d = f' a) cs ds := by
  obtain ⟨l, ctr, r, ha, hl, hr, hcm, hctr, _⟩ := split_complex addr w hw hw2 heven cs
  have hlen := length_fromComplex cs
  have hbm : IsBlockMap w w (fun _ b => op b) 0 (fromComplex ctr) (fromComplex (ctr.map f')) := by
    refine ⟨by simp, fun k hk => ?_⟩
    show blk w (fromComplex (ctr.map f')) k = op (blk w (fromComplex ctr) k)
    obtain ⟨h, rfl⟩ := Nat.dvd_of_mod_eq_zero hw2
    have hf := blk_full hw (fromComplex ctr) (s := 2 * h) (k := k) (by simpa using hcm) hk
    rw [fromComplex_blk] at hf
    rw [fromComplex_blk, fromComplex_blk, hop.2 _ (by simpa using hf)]
    simp [blk, List.map_take, List.map_drop]
  have hc := simdCenter_eq addr w hw op hop.1 c st (fromComplex cs) (by rw [hlen]; exact hal)
    (by rw [hlen]; exact hempty) (fromComplex l) (fromComplex ctr) (fromComplex r)
    (by rw [ha]; simp) (by rw [hlen, length_fromComplex]; exact hl) (by rw [hlen]; exact hctr) _ hbm
  have hf : ∀ l : List (Cx T), List.Forall₂ (fun a d => d = f a ∨ d = f' a) l (l.map f) := fun l => by
    rw [List.forall₂_map_right_iff]; exact List.forall₂_same.2 fun _ _ => .inl rfl
  have hf' : ∀ l : List (Cx T), List.Forall₂ (fun a d => d = f a ∨ d = f' a) l (l.map f') := fun l => by
    rw [List.forall₂_map_right_iff]; exact List.forall₂_same.2 fun _ _ => .inr rfl
  refine ⟨l.map f ++ ctr.map f' ++ r.map f, hc.map (fun sched h => ?_) (fun sched h => ?_), ?_⟩
  · unfold simdComplexOperation; simp only [h]
  · unfold simdComplexOperation
    simp only [h]
    rw [← fromComplex_append, ← fromComplex_append, toComplex?_fromComplex]
    simp only
    rw [hlen, ← hl, ← hr, Nat.mul_div_cancel_left _ (by decide), Nat.mul_div_cancel_left _ (by decide)]
    rw [mapEdges_eq f l (ctr.map f') r]
  · rw [ha]
    exact List.rel_append (List.rel_append (hf l) (hf' ctr)) (hf r)

theorem conj_registers [Mul T] [Neg T] [One T] : ∀ cs : List (Cx T),
    regZip (· * ·) (fromComplex cs) (fromComplex (List.replicate cs.length ⟨1, -1⟩)) =
      fromComplex (cs.map fun c => ⟨c.re * 1, c.im * -1⟩)
  | [] => rfl
  | c :: cs => by
    have ih := conj_registers cs
    unfold regZip at *
    simp only [List.length_cons, List.replicate_succ, fromComplex, List.zipWith_cons_cons, List.map_cons, ih]

/-- `conj`, for all kinds of numbers. -/
theorem conj_bits [Add T] [Mul T] [Neg T] [One T] (k : RegKind) (addr : Nat) (st : MultiCoreSettings) (v : DspVec T)
    (hv : v.WF) (hc : v.isComplex = true) (cs : List (Cx T)) (h : v.content = some (fromComplex cs))
    (hal : ComplexAlignmentAccepted addr k.len v.len) :
    ∃ w ds, Always (v.conj k addr st) w ∧ Replaced v w (fromComplex ds) ∧
      List.Forall₂ (fun a d => d = Cx.conj a ∨ d = ⟨a.re * 1, a.im * -1⟩) cs ds := by
  have hl := (cells_of_content h).2
  rw [length_fromComplex] at hl
  have he : addr % k.len + k.len ≤ 2 * cs.length ∨ determineNumberOfChunks 0 .small st ≤ 1 := by
    right; simp only [determineNumberOfChunks]; split <;> simp_all
  have hp : PointWise k.len (fun r => regZip (· * ·) r (regFromComplex k (⟨1, -1⟩ : Cx T))) (fun c => ⟨c.re * 1, c.im * -1⟩) := by
    refine ⟨fun r h => ?_, fun cs h => ?_⟩
    · have : (regFromComplex k (⟨1, -1⟩ : Cx T)).length = k.len := by cases k <;> rfl
      simp [regZip, this]; omega
    · rw [regFromComplex_eq, ← h, Nat.mul_div_cancel_left _ (by decide)]
      exact conj_registers cs
  obtain ⟨ds, h1, h2⟩ := complex_mixed addr k.len (by cases k <;> decide) (by cases k <;> decide) _ Cx.conj _
    hp .small st cs (by rw [← hl]; exact hal.1) hal.2 he
  have ha : v.assertComplex = v := by simp [assertComplex, hc]
  refine ⟨_, ds, h1.mapOutcome.congr fun s => ?_, replaced_splice hv _ (by rw [length_fromComplex, ← h2.length_eq, ← hl]), h2⟩
  unfold DspVec.conj
  rw [ha, h]

/-! ### The argument -/

/-- `prepare_argument`, for all kinds of numbers. -/
theorem prepareArgument_bits [Zero T] [NatCast T] [Add T] [Mul T] [Neg T] [One T] (K : FftKernel T) (hK : K.KeepsLength) (k : RegKind)
    (addr : Nat) (st : MultiCoreSettings)
    (v : DspVec T) (a : List (Cx T)) (g : Bool) (x : Option T) (h : v.Shows ⟨.complex a, .time, g, x⟩) (b : Buffer T)
    (hb : ScratchOk K b a.length) (hal : ComplexAlignmentAccepted addr k.len (2 * a.length)) :
    ∃ w b' D, Always (v.prepareArgument K k addr st b) (w, b') ∧ w.content = some (fromComplex D) ∧ w.isComplex = true ∧
      w.dom = .frequency ∧ List.Forall₂ (fun a d => d = Cx.conj a ∨ d = ⟨a.re * 1, a.im * -1⟩) (K.forward a) D := by
  have hvc : v.isComplex = true := h.isComplex
  obtain ⟨w, b', cs, e1, e2, e3, e4, e5, e6, e7, e8, e9, -, -, -⟩ := C34_plain_fft K hK v h.wf h.typed h.dom b
    ⟨(fun hr => by rw [hvc] at hr; cases hr), by rw [h.points]; exact hb⟩
  have hca : cs = a := by
    have := (cpoints_complex hvc).mp e2
    rw [h.content] at this
    exact (fromComplex_injective (Option.some.inj this)).symm
  subst hca
  have hwc := (cpoints_complex e5).mp e3
  have hl : w.len = 2 * cs.length := by
    have := (cells_of_content hwc).2
    rw [length_fromComplex, hK.1] at this
    exact this
  obtain ⟨u, D, u1, u2, u3⟩ := conj_bits k addr st w e9 e5 _ hwc (by rw [hl]; exact hal)
  obtain ⟨r1, r2, ⟨m1, m2, m3, m4⟩, -⟩ := u2
  refine ⟨u, b', D, ?_, r1, by unfold isComplex; rw [m3]; exact e5, by unfold dom; rw [m2]; exact e6, u3⟩
  refine (u1.andThen (f := fun u => .finished (u, b')) rfl).congr fun sched => ?_
  simp only [prepareArgument, e1]

/-- `prepare_argument_padded`, for all kinds of numbers. -/
theorem prepareArgumentPadded_bits [Zero T] [NatCast T] [Add T] [Mul T] [Neg T] [One T] (K : FftKernel T) (hK : K.KeepsLength)
    (k : RegKind) (addr : Nat)
    (st : MultiCoreSettings) (v : DspVec T) (a : List (Cx T)) (g : Bool) (x : Option T)
    (h : v.Shows ⟨.complex a, .time, g, x⟩) (hn : 2 ≤ a.length) (b : Buffer T) (hb : BufferOk b v.data (2 * (2 * a.length - 1)))
    (hs : ScratchOk K b (2 * a.length - 1)) (hal : ComplexAlignmentAccepted addr k.len (2 * (2 * a.length - 1))) :
    ∃ w b' D, Always (v.prepareArgumentPadded K k addr st b) (w, b') ∧ w.content = some (fromComplex D) ∧ w.isComplex = true ∧
      w.dom = .frequency ∧ List.Forall₂ (fun a d => d = Cx.conj a ∨ d = ⟨a.re * 1, a.im * -1⟩)
        (K.forward (padSpec 0 a (2 * a.length - 1) (surroundRightB a.length (2 * a.length - 1)) .surround)) D := by
  have hp : v.points = a.length := h.points
  obtain ⟨u, b1, e1, e2, e3⟩ := shows_padB h b (2 * a.length - 1) (by omega) hb
  have hl := padSpec_length (0 : Cx T) a (2 * a.length - 1) (surroundRightB a.length (2 * a.length - 1)) .surround
    (by omega) (by unfold surroundRightB; omega)
  obtain ⟨w, b', D, f1, f2⟩ := prepareArgument_bits K hK k addr st u _ g x e3 b1 (by rw [hl]; exact e2.2 _ _ hs)
    (by rw [hl]; exact hal)
  refine ⟨w, b', D, f1.congr fun sched => ?_, f2⟩
  simp only [prepareArgumentPadded, hp]
  rw [if_neg (by omega), e1]

/-! ### The correlation -/

/-- The computation on slices, for all kinds of numbers. -/
theorem correlateSlices_bits [AddCommMagma T] [Sub T] [CommMagma T] [Div T] [Zero T] [One T] [NatCast T] [LT T] [DecidableLT T]
    [DecidableEq T] [DeltaBounds T]
    (K : FftKernel T) (hK : K.KeepsLength) (k : RegKind) (addr : Nat) (A D : List (Cx T))
    (hl : D.length = A.length) (b : Buffer T) (hb : ScratchOk K b A.length)
    (hal : ComplexAlignmentAccepted addr k.len (2 * A.length))
    (hbounds : ∀ d : T, d = 1 ∨ d = (A.length : T) * 1 → deltaRatioBad DeltaBounds.hi DeltaBounds.lo (some d) (some d) = false) :
    correlateSlices K k addr (fromComplex A) (fromComplex D) b =
      some (fromComplex (K.inverse (List.zipWith Cx.mul (K.forward A) D)), .ok ()) := by
  obtain ⟨a1, a2, a3⟩ := toStaticVec_slice A (.sliceMut (fromComplex A)) rfl (.inr rfl) false
  obtain ⟨o1, o2, o3⟩ := toStaticVec_slice D (.slice (fromComplex D)) rfl (.inl rfl) true
  obtain ⟨w, e1, e2, e3, e4, e5, e6, e7⟩ := plainFft_static K hK _ rfl rfl b A a1 hb
  have hdelta : ∃ d : T, w.delta = some d ∧ (d = 1 ∨ d = (A.length : T) * 1) := by
    rw [e7]
    split
    · exact ⟨(A.length : T) * 1, rfl, .inr rfl⟩
    · exact ⟨1, rfl, .inl rfl⟩
  obtain ⟨d, hd, hdd⟩ := hdelta
  generalize hO : ({ toStaticVec (.slice (fromComplex D)) true true with delta := w.delta } : DspVec T) = O
  have hOc : O.content = some (fromComplex D) := by rw [← hO]; exact o1
  have hOl : O.len = 2 * D.length := by rw [← hO]; exact o3
  have hOw : O.WF := wf_of_content_complex hOc
  have hww : w.WF := wf_of_content_complex e2
  have hwl : w.len = 2 * A.length := by show w.validLen = _; rw [e3, a3]
  have hwc : w.isComplex = true := by unfold isComplex; rw [e5]; rfl
  have hOd : O.delta = some d := by rw [← hO]; exact hd
  have hOcx : O.isComplex = true := by rw [← hO]; rfl
  have hOdom : O.dom = .frequency := by rw [← hO]; rfl
  have hwdom : w.dom = .frequency := by unfold dom; rw [e6]; rfl
  have hmm : w.metaMismatch O = false := by
    unfold metaMismatch
    rw [hwc, hOcx, hwdom, hOdom, hd, hOd, hbounds d hdd]; rfl
  obtain ⟨cs, ds, p, m1, m2, m3, m4⟩ := runs_complex .mul k addr w O hww hOw (by rw [hwl, hOl, hl]) hmm hwc
    (by rw [hwl]; exact hal.1)
    (fun _ => ⟨hal.2, by show w.data.cells.length % 2 = 0; rw [e4, a2, length_fromComplex]; omega⟩)
  have hcs : cs = K.forward A := by
    rw [e2] at m1
    exact (fromComplex_injective (Option.some.inj m1)).symm
  have hds : ds = D := by
    rw [hOc] at m2
    exact (fromComplex_injective (Option.some.inj m2)).symm
  subst hcs hds
  obtain ⟨r1, r2, ⟨s1, s2, s3, s4⟩, r4, -⟩ := m4
  have hz : (List.zipWith ElemOp.mul.cx (K.forward A) ds) = List.zipWith Cx.mul (K.forward A) ds := rfl
  rw [hz] at r1
  have hzl : (List.zipWith Cx.mul (K.forward A) ds).length = A.length := by
    rw [List.length_zipWith, hK.1, hl, Nat.min_self]
  obtain ⟨u, i1, i2, i3, i4⟩ := plainIfft_static K hK p (by rw [s3, e5]) (by rw [s2, e6]) b _ r1 (by rw [hzl]; exact hb)
  have hu : u.data.cells = fromComplex (K.inverse (List.zipWith Cx.mul (K.forward A) ds)) := by
    obtain ⟨t1, t2⟩ := content_iff.1 i2
    rw [← t2, List.take_of_length_le]
    rw [i4, r4, e4, a2, length_fromComplex, i3, r2, e3, a3]
  have hm : w.mul k addr O = some (p, .ok ()) := m3
  simp only [correlateSlices, Option.bind_eq_bind, e1, Option.bind_some, hO, hm, i1, hu]

/-- `correlate`, for all kinds of numbers. -/
theorem correlate_bits [AddCommMagma T] [Sub T] [CommMagma T] [Div T] [Zero T] [One T] [NatCast T] [LT T] [DecidableLT T]
    [DecidableEq T] [DeltaBounds T] (K : FftKernel T) (hK : K.KeepsLength) (k : RegKind) (addr : Nat) (st : MultiCoreSettings)
    (v o : DspVec T) (a D : List (Cx T)) (g : Bool) (x : Option T) (h : v.Shows ⟨.complex a, .time, g, x⟩)
    (hoc : o.content = some (fromComplex D)) (hocx : o.isComplex = true) (hod : o.dom = .frequency) (hlt : a.length < D.length)
    (b : Buffer T) (hb : BufferOk b v.data (2 * D.length)) (hs : ScratchOk K b D.length)
    (hal : ComplexAlignmentAccepted addr k.len (2 * D.length))
    (hbounds : ∀ d : T, d = 1 ∨ d = (D.length : T) * 1 → deltaRatioBad DeltaBounds.hi DeltaBounds.lo (some d) (some d) = false) :
    ∃ w b', Always (v.correlate K k addr st o b) (w, b', .ok ()) ∧
      w.Shows ⟨.complex (rotateRight ((K.inverse (List.zipWith Cx.mul
        (K.forward (padSpec 0 a D.length (surroundRightB a.length D.length) .surround)) D)).map
          fun c => ⟨c.re * (1 / (D.length : T)), c.im * (1 / (D.length : T))⟩) (D.length / 2)), .time, g, x⟩ := by
  have hop : o.points = D.length := by
    have := (cells_of_content hoc).2
    rw [length_fromComplex] at this
    unfold points; rw [if_pos hocx]; show o.validLen / 2 = _; omega
  obtain ⟨u, b1, e1, e2, e3⟩ := shows_padB h b D.length hlt hb
  have hl := padSpec_length (0 : Cx T) a D.length (surroundRightB a.length D.length) .surround
    (by omega) (by unfold surroundRightB; omega)
  generalize padSpec (0 : Cx T) a D.length (surroundRightB a.length D.length) .surround = A at *
  have hup : u.points = D.length := by rw [e3.points]; exact hl
  have hsp := correlateSlices_bits K hK k addr A D hl.symm b1
    (by rw [hl]; exact e2.2 _ _ hs) (by rw [hl]; exact hal) (by rw [hl]; exact hbounds)
  have hZl : (K.inverse (List.zipWith Cx.mul (K.forward A) D)).length = D.length := by
    rw [hK.2, List.length_zipWith, hK.1, hl, Nat.min_self]
  generalize K.inverse (List.zipWith Cx.mul (K.forward A) D) = Z at *
  have hw1 : (u.withCells (splice u.data.cells 0 (fromComplex Z))).Shows ⟨.complex Z, .time, g, x⟩ := by
    obtain ⟨c1, c2⟩ := content_iff.1 e3.content
    have hlen : (fromComplex Z).length = u.validLen := by
      rw [length_fromComplex, hZl, ← hl]
      have := e3.len
      rw [show u.validLen = u.len from rfl, this]; exact (length_fromComplex A).symm
    refine e3.of_content (w := u.withCells (splice u.data.cells 0 (fromComplex Z)))
      ⟨rfl, rfl, rfl, rfl⟩ (N := .complex Z) rfl (content_iff.2 ⟨?_, ?_⟩)
    · show u.validLen ≤ _
      simp only [withCells, splice]; simp; omega
    · show (splice u.data.cells 0 _).take u.validLen = _
      unfold splice
      simp only [List.take_zero, List.nil_append, Numbers.flat]
      rw [List.take_append_of_le_length (by omega), List.take_of_length_le (by omega)]
  have hwl : (u.withCells (splice u.data.cells 0 (fromComplex Z))).len = 2 * D.length := by
    rw [hw1.len]; show (fromComplex Z).length = _; rw [length_fromComplex, hZl]
  obtain ⟨cc, z, s1, hz1, s3⟩ := scale_bits k addr st (1 / ((u.points : Nat) : T)) _ hw1.wf (by rw [hwl]; exact hal.1)
  rw [hw1.content] at s1
  have s1' : cc = fromComplex Z := (Option.some.inj s1).symm
  subst s1'
  have hz2 : z.Shows ⟨.complex (Z.map fun c => ⟨c.re * (1 / (D.length : T)), c.im * (1 / (D.length : T))⟩), .time, g, x⟩ :=
    hw1.of_replaced (N := .complex (Z.map fun c => ⟨c.re * (1 / (D.length : T)), c.im * (1 / (D.length : T))⟩)) rfl s3
      (by rw [hup]; exact map_fromComplex _ Z)
  obtain ⟨q, hq1, hp⟩ := C06_swap_halves z hz2.wf
  have hq2 := hz2.permutes (fun l => rotateRight l (l.length / 2)) natural_rotateRight hp
  refine ⟨q, b1, ?_, ?_⟩
  · refine (hz1.andThen (f := fun u => match u.swapHalves with | none => .panic | some x => .finished (x, b1, (.ok () : VoidResult)))
      (by rw [hq1])).congr fun sched => ?_
    have c1 : ¬ (v.dom ≠ .time ∨ v.isComplex = false) := by
      rw [h.dom, h.isComplex]; simp [Numbers.isComplex]
    have c2 : ¬ (o.dom ≠ .frequency ∨ o.isComplex = false) := by
      rw [hod, hocx]; simp
    unfold correlate
    rw [if_neg c1, if_neg c2, hop, e1]
    simp only [e3.content, hoc, Numbers.flat, hsp]
    rfl
  · simp only [Numbers.rearrange, List.length_map, hZl] at hq2
    exact hq2
end

/-! ### The errors -/
noncomputable section
variable {R : Rounding}

theorem norm_conj' (z : ℂ) : ‖conj z‖ = ‖z‖ := Complex.norm_conj z

/-- A conjugation which may round. -/
theorem conj_error (a d : Cx (Fl R)) (h : d = Cx.conj a ∨ d = ⟨a.re * 1, a.im * -1⟩) :
    ‖Fl.complex d - conj (Fl.complex a)‖ ≤ R.u * ‖Fl.complex a‖ := by
  have h0 := R.u_nonneg
  rcases h with rfl | rfl
  · have : Fl.complex (Cx.conj a) = conj (Fl.complex a) := rfl
    rw [this, sub_self, norm_zero]
    positivity
  · have e1 : Fl.complex (⟨a.re * 1, a.im * -1⟩ : Cx (Fl R)) = ⟨R.rnd a.re.val, R.rnd (-a.im.val)⟩ := by
      show (⟨R.rnd (a.re.val * 1), R.rnd (a.im.val * -1)⟩ : ℂ) = _
      rw [mul_one, mul_neg_one]
    have e2 : conj (Fl.complex a) = (⟨a.re.val, -a.im.val⟩ : ℂ) := rfl
    have h1 := rnd_parts (R := R) a.re.val (-a.im.val)
    rw [← e2, norm_conj'] at h1
    rw [e1]
    exact h1

/-- C96: `conj` with rounded numbers: the registers multiply with `(1, -1)`; at most one rounding for every part of a point. -/
theorem C96_conj_error (k : RegKind) (addr : Nat) (st : MultiCoreSettings) (v : DspVec (Fl R))
    (hv : v.WF) (hc : v.isComplex = true) (cs : List (Cx (Fl R))) (h : v.content = some (fromComplex cs))
    (hal : ComplexAlignmentAccepted addr k.len v.len) :
    ∃ w ds, Always (v.conj k addr st) w ∧ Replaced v w (fromComplex ds) ∧ ds.length = cs.length ∧
      ∀ (i : Nat) (a d : Cx (Fl R)), cs[i]? = some a → ds[i]? = some d →
        ‖Fl.complex d - conj (Fl.complex a)‖ ≤ R.u * ‖Fl.complex a‖ := by
  obtain ⟨w, ds, h1, h2, h3⟩ := conj_bits k addr st v hv hc cs h hal
  refine ⟨w, ds, h1, h2, h3.length_eq.symm, fun i a d ha hd => ?_⟩
  obtain ⟨i1, rfl⟩ := List.getElem?_eq_some_iff.mp ha
  obtain ⟨i2, rfl⟩ := List.getElem?_eq_some_iff.mp hd
  exact conj_error _ _ (h3.get i1 i2)

example : (roundedVec (binaryRounding 23) .complex).WF ∧ (roundedVec (binaryRounding 23) .complex).isComplex = true ∧
    ∃ cs, (roundedVec (binaryRounding 23) .complex).content = some (fromComplex cs) :=
  ⟨rounded_wf _ _, by simp [roundedVec, isComplex, NumberSpace.isComplex],
    ⟨_, ((rounded_wf (binaryRounding 23) .complex).content_even (by simp [roundedVec, isComplex, NumberSpace.isComplex])).choose_spec.1⟩⟩

theorem l2_conj (n : Nat) (f : Nat → ℂ) : l2 n (fun i => conj (f i)) = l2 n f := by
  unfold l2
  simp only [norm_conj']

theorem l2_div (n m : Nat) (a : Nat → ℂ) : l2 n (fun k => a k / m) = l2 n a / m := by
  have h := l2_mul n (1 / m : ℂ) a
  rw [norm_div, norm_one, Complex.norm_natCast] at h
  rw [div_eq_mul_one_div (l2 n a), mul_comm, ← h]
  exact l2_congr fun k _ => by ring

/-- The circular correlation with rounded numbers, in terms of exact transforms. -/
theorem circular_error (K : FftKernel (Fl R)) {e : ℝ} (he : 0 ≤ e) (hK : K.Accurate e) (hu : R.u ≤ 1 / 1000) (n : Nat) (hn0 : n ≠ 0)
    (hn : R.rnd n = n) (A B D : List (Cx (Fl R))) (hA : A.length = n) (hB : B.length = n)
    (hD : List.Forall₂ (fun a d => d = Cx.conj a ∨ d = ⟨a.re * 1, a.im * -1⟩) (K.forward B) D) :
    l2 n (fun i => pointValue ((K.inverse (List.zipWith Cx.mul (K.forward A) D)).map
        fun c => (⟨c.re * (1 / (n : Fl R)), c.im * (1 / (n : Fl R))⟩ : Cx (Fl R))) i -
        (1 / n) * dftAt n (fun k => dftAt n (pointValue A) k * conj (dftAt n (pointValue B) k)) (-i)) ≤
      correlationError e R.u n * (l2 n (pointValue A) * l1 B) := by
  have h0 := R.u_nonneg
  have hn' : (0 : ℝ) < n := by positivity
  have hs0 : 0 < Real.sqrt n := Real.sqrt_pos.mpr hn'
  have hss : Real.sqrt n * Real.sqrt n = n := Real.mul_self_sqrt hn'.le
  obtain ⟨e', he'⟩ : ∃ e', e' = (1 + e) * (1 + R.u) - 1 := ⟨_, rfl⟩
  have hee : e ≤ e' := by rw [he']; nlinarith
  have he0 : 0 ≤ e' := he.trans hee
  have hH := l1_nonneg B
  have hBH : l2 n (pointValue B) ≤ l1 B := by
    have := l2_sum_le B.length (pointValue B)
    rw [sum_pointValue, hB] at this
    exact this
  have hDl : D.length = n := by rw [← hD.length_eq, hK.forward_length, hB]
  have hFl : (K.forward A).length = n := by rw [hK.forward_length, hA]
  have hGl : (K.forward B).length = n := by rw [hK.forward_length, hB]
  obtain ⟨M, hM⟩ : ∃ M, M = List.zipWith Cx.mul (K.forward A) D := ⟨_, rfl⟩
  have hMl : M.length = n := by rw [hM, List.length_zipWith, hFl, hDl, Nat.min_self]
  obtain ⟨Z, hZ⟩ : ∃ Z, Z = K.inverse M := ⟨_, rfl⟩
  have hZl : Z.length = n := by rw [hZ, hK.inverse_length, hMl]
  rw [← hM, ← hZ]
  -- the spectra
  have hX : l2 n (fun k => pointValue (K.forward A) k - dftAt n (pointValue A) k) ≤ e' * (Real.sqrt n * l2 n (pointValue A)) := by
    have h1 := hK.forward A
    rw [l2_dft, hA] at h1
    exact h1.trans (mul_le_mul_of_nonneg_right hee (mul_nonneg hs0.le (l2_nonneg _ _)))
  have hFB : l2 n (fun k => pointValue (K.forward B) k - dftAt n (pointValue B) k) ≤ e * (Real.sqrt n * l2 n (pointValue B)) := by
    have h1 := hK.forward B
    rw [l2_dft, hB] at h1
    exact h1
  have hFB2 : l2 n (pointValue (K.forward B)) ≤ (1 + e) * (Real.sqrt n * l2 n (pointValue B)) := by
    have h := l2_add_le n (fun k => pointValue (K.forward B) k - dftAt n (pointValue B) k) (fun k => dftAt n (pointValue B) k)
    simp only [sub_add_cancel] at h
    rw [l2_dft] at h
    linarith
  have hG : l2 n (fun k => pointValue D k - conj (dftAt n (pointValue B) k)) ≤ e' * (Real.sqrt n * l1 B) := by
    have h := l2_add_le n (fun k => pointValue D k - conj (pointValue (K.forward B) k))
      (fun k => conj (pointValue (K.forward B) k - dftAt n (pointValue B) k))
    have e1 : l2 n (fun k => pointValue D k - conj (pointValue (K.forward B) k) +
        conj (pointValue (K.forward B) k - dftAt n (pointValue B) k)) =
        l2 n (fun k => pointValue D k - conj (dftAt n (pointValue B) k)) := l2_congr fun k _ => by rw [map_sub]; ring
    rw [e1, l2_conj] at h
    have h1 : l2 n (fun k => pointValue D k - conj (pointValue (K.forward B) k)) ≤ R.u * l2 n (pointValue (K.forward B)) :=
      l2_mul_le h0 fun k hk => by
        rw [pointValue_lt _ (by rw [hDl]; exact hk), pointValue_lt _ (by rw [hGl]; exact hk)]
        exact conj_error _ _ (hD.get (by rw [hGl]; exact hk) (by rw [hDl]; exact hk))
    have h2 := mul_le_mul_of_nonneg_left hFB2 h0
    have h3 := mul_le_mul_of_nonneg_left (mul_le_mul_of_nonneg_left hBH hs0.le) he0
    calc _ ≤ _ := h
      _ ≤ R.u * ((1 + e) * (Real.sqrt n * l2 n (pointValue B))) + e * (Real.sqrt n * l2 n (pointValue B)) := by linarith
      _ = e' * (Real.sqrt n * l2 n (pointValue B)) := by rw [he']; ring
      _ ≤ _ := h3
  have hS : ∀ k < n, ‖conj (dftAt n (pointValue B) k)‖ ≤ l1 B := fun k _ => by
    rw [norm_conj']
    have := norm_dft_le n (pointValue B) k
    have h2 := sum_pointValue B
    rw [hB] at h2
    rw [h2] at this
    exact this
  -- the product
  have hP : ∀ k < n, ‖pointValue M k / n - pointValue (K.forward A) k * pointValue D k / n‖ ≤
      (1 + 3 * R.u - 1) * ‖pointValue (K.forward A) k * pointValue D k / n‖ := fun k hk => by
    have e1 : pointValue M k = Fl.complex (Cx.mul ((K.forward A)[k]'(by rw [hFl]; exact hk)) (D[k]'(by rw [hDl]; exact hk))) := by
      rw [pointValue_lt _ (by rw [hMl]; exact hk)]
      simp only [hM, List.getElem_zipWith]
    rw [e1, pointValue_lt (K.forward A) (by rw [hFl]; exact hk), pointValue_lt D (by rw [hDl]; exact hk), ← sub_div, norm_div, norm_div,
      add_sub_cancel_left, ← mul_div_assoc]
    have h1 := cx_error .mul ((K.forward A)[k]'(by rw [hFl]; exact hk)) (D[k]'(by rw [hDl]; exact hk)) hu (by simp)
    exact div_le_div_of_nonneg_right h1 (norm_nonneg _)
  have hz : l2 n (fun i => pointValue Z i / n - dftAt n (fun k => pointValue M k / n) (-i)) ≤
      e' * (Real.sqrt n * l2 n (fun k => pointValue M k / n)) := by
    have h1 := hK.inverse M
    rw [l2_dft_neg, hMl, ← hZ] at h1
    have e1 : l2 n (fun i => pointValue Z i / n - dftAt n (fun k => pointValue M k / n) (-i)) =
        l2 n (fun i => (pointValue Z i - dftAt n (pointValue M) (-i)) / n) := l2_congr fun i _ => by
      have : dftAt n (fun k => pointValue M k / n) (-i) = dftAt n (pointValue M) (-i) / n := by
        have := dftAt_mul n (1 / n) (pointValue M) (-i)
        rw [div_eq_mul_one_div (dftAt n (pointValue M) (-i)), mul_comm, ← this]
        congr 1
        funext k
        ring
      rw [this, sub_div]
    rw [e1, l2_div, l2_div]
    have h2 := div_le_div_of_nonneg_right h1 hn'.le
    have h3 : e * (Real.sqrt n * l2 n (pointValue M)) / n ≤ e' * (Real.sqrt n * l2 n (pointValue M)) / n :=
      div_le_div_of_nonneg_right (mul_le_mul_of_nonneg_right hee (mul_nonneg hs0.le (l2_nonneg _ _))) hn'.le
    calc _ ≤ _ := h2
      _ ≤ _ := h3
      _ = _ := by ring
  have hblock := spectra_block hn0 (f := pointValue A) (S := fun k => conj (dftAt n (pointValue B) k)) (q := 1 + 3 * R.u) he0 (by linarith)
    hH hX hG hS hP hz
  obtain ⟨E, hE⟩ : ∃ E, E = (1 + e') ^ 2 * (1 + e' * Real.sqrt n) * (1 + 3 * R.u) - 1 := ⟨_, rfl⟩
  rw [← hE] at hblock
  obtain ⟨C, hC⟩ : ∃ C, C = l2 n (pointValue A) * l1 B := ⟨_, rfl⟩
  rw [← hC] at hblock
  rw [← hC]
  obtain ⟨ex, hex⟩ : ∃ ex : Nat → ℂ, ex = fun i : Nat => (1 / n : ℂ) * dftAt n (fun k => dftAt n (pointValue A) k * conj (dftAt n (pointValue B) k)) (-i) :=
    ⟨_, rfl⟩
  -- the size of the exact result
  have hexl : l2 n ex ≤ C := by
    rw [hex, l2_mul, l2_dft_neg, norm_div, norm_one, Complex.norm_natCast]
    have h1 : l2 n (fun k => dftAt n (pointValue A) k * conj (dftAt n (pointValue B) k)) ≤ l1 B * l2 n (fun k => dftAt n (pointValue A) k) :=
      l2_mul_le hH fun k hk => by
        rw [norm_mul, mul_comm]
        exact mul_le_mul_of_nonneg_right (hS k hk) (norm_nonneg _)
    rw [l2_dft] at h1
    have h2 := mul_le_mul_of_nonneg_left (mul_le_mul_of_nonneg_left h1 hs0.le) (by positivity : (0 : ℝ) ≤ 1 / n)
    calc _ ≤ _ := h2
      _ = (Real.sqrt n * Real.sqrt n / n) * C := by rw [hC]; ring
      _ = C := by rw [hss, div_self hn'.ne', one_mul]
  have hzl : l2 n (fun i => pointValue Z i / n) ≤ (1 + E) * C := by
    have h := l2_add_le n (fun i => pointValue Z i / n - ex i) ex
    simp only [sub_add_cancel] at h
    rw [hex] at h hexl
    linarith
  have hY : l2 n (fun i => pointValue (Z.map fun c => (⟨c.re * (1 / (n : Fl R)), c.im * (1 / (n : Fl R))⟩ : Cx (Fl R))) i -
      pointValue Z i / n) ≤ ((1 + R.u) ^ 2 - 1) * l2 n (fun i => pointValue Z i / n) :=
    l2_mul_le (by nlinarith) fun i hi => by
      rw [pointValue_lt _ (by rw [List.length_map, hZl]; exact hi), pointValue_lt _ (by rw [hZl]; exact hi), List.getElem_map]
      exact divided_error n hn _
  have hfin := l2_add_le n (fun i => pointValue (Z.map fun c => (⟨c.re * (1 / (n : Fl R)), c.im * (1 / (n : Fl R))⟩ : Cx (Fl R))) i -
      pointValue Z i / n) (fun i => pointValue Z i / n - ex i)
  simp only [sub_add_sub_cancel] at hfin
  rw [hex] at hfin
  have h5 := mul_le_mul_of_nonneg_left hzl (by nlinarith : 0 ≤ (1 + R.u) ^ 2 - 1)
  have hdef : correlationError e R.u n = (1 + E) * (1 + R.u) ^ 2 - 1 := by
    unfold correlationError
    rw [hE, he']; ring
  rw [hdef]
  calc _ ≤ _ := hfin
    _ ≤ ((1 + R.u) ^ 2 - 1) * ((1 + E) * C) + E * C := by linarith
    _ = _ := by ring

/-! ### The exact values -/

theorem correlation_exact (n : Nat) (A B : List (Cx (Fl R))) (hA : A.length = n) (hB : B.length = n) (i : Nat) (hi : i < n) :
    (1 / n : ℂ) * dftAt n (fun k => dftAt n (pointValue A) k * conj (dftAt n (pointValue B) k)) (-i) =
      ((circularCorrelation (A.map Fl.toReal) (B.map Fl.toReal)).getD i ⟨0, 0⟩).toC := by
  have hn0 : (n : ℂ) ≠ 0 := by
    have : n ≠ 0 := by omega
    exact_mod_cast this
  have hA' : (A.map Fl.toReal).length = n := by rw [List.length_map, hA]
  have hB' : (B.map Fl.toReal).length = n := by rw [List.length_map, hB]
  have h := dft_correlates.2 (A.map Fl.toReal) (B.map Fl.toReal) (by rw [hA', hB'])
  obtain ⟨xs, hxs⟩ : ∃ xs, xs = List.zipWith (· * ·) (dftKernel.forward (A.map Fl.toReal)) ((dftKernel.forward (B.map Fl.toReal)).map Cx.conj) :=
    ⟨_, rfl⟩
  rw [← hxs] at h
  have hf1 : (dftKernel.forward (A.map Fl.toReal)).length = n := by rw [dft_isDft.forward_length, hA']
  have hf2 : (dftKernel.forward (B.map Fl.toReal)).length = n := by rw [dft_isDft.forward_length, hB']
  have hl : xs.length = n := by rw [hxs, List.length_zipWith, List.length_map, hf1, hf2, Nat.min_self]
  have h1 := dft_isDft.inverse xs i (by rw [hl]; exact hi)
  have hcl : (circularCorrelation (A.map Fl.toReal) (B.map Fl.toReal)).length = n := by rw [circularCorrelation_length, hA']
  rw [h, getD_lt _ _ (by rw [List.length_map, hcl]; exact hi), List.getElem_map, hA'] at h1
  rw [getD_lt _ _ (by rw [hcl]; exact hi)]
  have h2 : ∀ c : Cx ℝ, (Cx.scaleBy (n : ℝ) c).toC = n * c.toC := fun c => by
    apply Complex.ext <;> simp [Cx.scaleBy, Cx.toC]
  rw [h2] at h1
  have h3 : fourierAt xs (-i) = dftAt n (fun k => dftAt n (pointValue A) k * conj (dftAt n (pointValue B) k)) (-i) := by
    unfold fourierAt
    rw [hl]
    refine Eq.trans ?_ (dftAt.eq_1 n _ _).symm
    refine Finset.sum_congr rfl fun k hk => ?_
    have hk := Finset.mem_range.mp hk
    have f1 := dft_isDft.forward (A.map Fl.toReal) k (by rw [hA']; exact hk)
    have f2 := dft_isDft.forward (B.map Fl.toReal) k (by rw [hB']; exact hk)
    rw [getD_lt _ _ (by rw [hf1]; exact hk), ← dftAt_pointValue, hA] at f1
    rw [getD_lt _ _ (by rw [hf2]; exact hk), ← dftAt_pointValue, hB] at f2
    have e1 : (xs.getD k ⟨0, 0⟩).toC = dftAt n (pointValue A) k * conj (dftAt n (pointValue B) k) := by
      rw [getD_lt _ _ (by rw [hl]; exact hk)]
      simp only [hxs, List.getElem_zipWith, List.getElem_map]
      rw [Cx.toC_mul, Cx.toC_conj, f1, f2]
    rw [e1]
  rw [h3] at h1
  rw [← h1, ← mul_assoc, one_div, inv_mul_cancel₀ hn0, one_mul]

theorem atOrZero_toReal (a : List (Cx (Fl R))) (i : ℤ) : (atOrZero (a.map Fl.toReal) i).toC = valueOrZero a i := by
  unfold atOrZero valueOrZero
  split
  · exact pointValue_toReal a i.toNat
  · rfl

theorem cross_toReal (a c : List (Cx (Fl R))) (r : Nat) (hr : r < 2 * c.length - 1) :
    ((crossCorrelation (a.map Fl.toReal) (c.map Fl.toReal)).getD r ⟨0, 0⟩).toC = exactCorrelation a c (r - (c.length - 1 : Nat)) := by
  have e1 : (crossCorrelation (a.map Fl.toReal) (c.map Fl.toReal)).getD r ⟨0, 0⟩ =
      ((List.range c.length).map fun (k : Nat) =>
        atOrZero (a.map Fl.toReal) ((k : Int) + r - (c.length - 1 : Nat)) * ((c.map Fl.toReal).getD k 0).conj).sum := by
    rw [List.getD_eq_getElem?_getD]
    unfold crossCorrelation
    rw [List.length_map, List.getElem?_map, List.getElem?_range hr]
    rfl
  rw [e1, toC_sum_range]
  unfold exactCorrelation
  refine Finset.sum_congr rfl fun k _ => ?_
  have := pointValue_toReal c k
  rw [Cx.toC_mul, Cx.toC_conj, atOrZero_toReal, ← this, add_sub_assoc]
  rfl

/-! ### The sizes -/

theorem sum_sq_pointValue (g : List (Cx (Fl R))) :
    ∑ i ∈ Finset.range g.length, ‖pointValue g i‖ ^ 2 = (g.map fun c => ‖Fl.complex c‖ ^ 2).sum := by
  have h : ((List.range g.length).map fun i => ‖pointValue g i‖ ^ 2) = g.map fun c => ‖Fl.complex c‖ ^ 2 := by
    apply List.ext_getElem
    · simp
    · intro k g1 g2
      have hk : k < g.length := by simpa using g2
      simp only [List.getElem_map, List.getElem_range]
      rw [pointValue_lt _ hk]
  rw [← h]
  rfl

theorem complex_zero_norm : ‖Fl.complex (0 : Cx (Fl R))‖ = 0 := by rw [norm_eq_zero]; rfl

theorem l2_pad (a : List (Cx (Fl R))) (N r : Nat) (hN : (padSpec (0 : Cx (Fl R)) a N r .surround).length = N) :
    l2 N (pointValue (padSpec (0 : Cx (Fl R)) a N r .surround)) = l2 a.length (pointValue a) := by
  unfold l2
  have h1 := sum_sq_pointValue (padSpec (0 : Cx (Fl R)) a N r .surround)
  rw [hN] at h1
  rw [h1, sum_sq_pointValue]
  simp [padSpec, complex_zero_norm]

theorem l1_pad (a : List (Cx (Fl R))) (N r : Nat) : l1 (padSpec (0 : Cx (Fl R)) a N r .surround) = l1 a := by
  unfold l1
  simp [padSpec, complex_zero_norm]

/-! ### The operation -/

/-- The check of the sampling distances accepts equal ones. -/
theorem equal_deltas [DeltaBounds (Fl R)] (hhi : 1 + R.u ≤ (DeltaBounds.hi : Fl R).val) (hlo : (DeltaBounds.lo : Fl R).val ≤ 1 - R.u)
    (d : Fl R) : deltaRatioBad DeltaBounds.hi DeltaBounds.lo (some d) (some d) = false := by
  unfold deltaRatioBad
  dsimp only
  by_cases h : d = 0
  · rw [if_pos h]; simp [h]
  · have hd : d.val ≠ 0 := fun hc => h (by cases d; simp only at hc; subst hc; rfl)
    have h1 := R.error 1
    rw [abs_one, mul_one, abs_le] at h1
    have hq : (d / d).val = R.rnd 1 := by
      show R.rnd (d.val / d.val) = _
      rw [div_self hd]
    rw [if_neg h]
    simp only [Bool.or_eq_false_iff, decide_eq_false_iff_not, not_lt, gt_iff_lt]
    constructor
    · show (d / d).val ≤ _
      rw [hq]; linarith
    · show _ ≤ (d / d).val
      rw [hq]; linarith

/-- C96: two complex signals with `n ≥ 2` points each, with rounded numbers: `prepare_argument_padded` of the one and `correlate` of the
    other give the cross correlation for all lags from `-(n - 1)` to `n - 1`; the error of every point is at most
    `correlationError` times the sizes of the two signals, for every buffer, register type, accepted address, settings and schedule. -/
theorem C96_cross_correlation_error [DeltaBounds (Fl R)] (hhi : 1 + R.u ≤ (DeltaBounds.hi : Fl R).val)
    (hlo : (DeltaBounds.lo : Fl R).val ≤ 1 - R.u) (K : FftKernel (Fl R)) (e : ℝ) (he : 0 ≤ e) (hK : K.Accurate e) (hu : R.u ≤ 1 / 1000)
    (k k' : RegKind) (addr addr' : Nat)
    (st st' : MultiCoreSettings) (v o : DspVec (Fl R)) (a c : List (Cx (Fl R))) (g g' : Bool) (x x' : Option (Fl R))
    (h : v.Shows ⟨.complex a, .time, g, x⟩) (ho : o.Shows ⟨.complex c, .time, g', x'⟩) (hl : a.length = c.length)
    (hn : 2 ≤ a.length) (hr : R.rnd (2 * a.length - 1 : Nat) = (2 * a.length - 1 : Nat))
    (b b' : Buffer (Fl R)) (hb : BufferOk b v.data (2 * (2 * a.length - 1)))
    (hb' : BufferOk b' o.data (2 * (2 * a.length - 1))) (hs : ScratchOk K b (2 * a.length - 1))
    (hs' : ScratchOk K b' (2 * a.length - 1)) (hal : ComplexAlignmentAccepted addr k.len (2 * (2 * a.length - 1)))
    (hal' : ComplexAlignmentAccepted addr' k'.len (2 * (2 * a.length - 1))) :
    ∃ o' b1 w b2 ys, Always (o.prepareArgumentPadded K k' addr' st' b') (o', b1) ∧
      Always (v.correlate K k addr st o' b) (w, b2, .ok ()) ∧
      w.Shows ⟨.complex ys, .time, g, x⟩ ∧ ys.length = 2 * a.length - 1 ∧
      ∀ r < 2 * a.length - 1, ‖pointValue ys r - exactCorrelation a c (r - (a.length - 1 : Nat))‖ ≤
        correlationError e R.u (2 * a.length - 1) * (l2 a.length (pointValue a) * l1 c) := by
  have hkeep := accurate_keeps hK
  obtain ⟨n, hnn⟩ : ∃ n, n = a.length := ⟨_, rfl⟩
  obtain ⟨N, hN⟩ : ∃ N, N = 2 * a.length - 1 := ⟨_, rfl⟩
  rw [hl] at hb' hs' hal'
  obtain ⟨o', b1, D, p1, p2, p3, p4, p5⟩ := prepareArgumentPadded_bits K hkeep k' addr' st' o c g' x' ho (by omega) b'
    hb' hs' hal'
  have hpc : (padSpec (0 : Cx (Fl R)) c N (surroundRightB c.length N) .surround).length = N :=
    padSpec_length _ _ _ _ _ (by omega) (by unfold surroundRightB; omega)
  have hpa : (padSpec (0 : Cx (Fl R)) a N (surroundRightB a.length N) .surround).length = N :=
    padSpec_length _ _ _ _ _ (by omega) (by unfold surroundRightB; omega)
  rw [← hl, ← hN, hl] at p5
  have hDl : D.length = N := by rw [← p5.length_eq, hK.forward_length, hpc]
  rw [← hN] at hr hb hs hal
  obtain ⟨w, b2, q1, q2⟩ := correlate_bits K hkeep k addr st v o' a D g x h p2 p3 p4 (by omega) b (by rw [hDl]; exact hb)
    (by rw [hDl]; exact hs) (by rw [hDl]; exact hal) (fun d _ => equal_deltas hhi hlo d)
  rw [hDl] at q2
  have herr := circular_error K he hK hu N (by omega) hr _ _ D hpa hpc p5
  rw [l2_pad a N _ hpa, l1_pad] at herr
  obtain ⟨Z, hZ⟩ : ∃ Z, Z = (K.inverse (List.zipWith Cx.mul (K.forward (padSpec 0 a N (surroundRightB a.length N) .surround)) D)).map
      fun c => (⟨c.re * (1 / (N : Fl R)), c.im * (1 / (N : Fl R))⟩ : Cx (Fl R)) := ⟨_, rfl⟩
  have hZl : Z.length = N := by
    rw [hZ, List.length_map, hK.inverse_length, List.length_zipWith, hK.forward_length, hpa, hDl, Nat.min_self]
  rw [← hZ] at q2 herr
  refine ⟨o', b1, w, b2, _, p1, q1, q2, by rw [rotateRight_length, hZl, hN], fun r hr' => ?_⟩
  rw [← hN] at hr' ⊢
  have hj : (r + (N - N / 2)) % N < N := Nat.mod_lt _ (by omega)
  have e1 : pointValue (rotateRight Z (N / 2)) r = pointValue Z ((r + (N - N / 2)) % N) := by
    unfold pointValue
    rw [rotateRight_getD _ _ _ _ (by omega) (by omega), hZl]
  have hx := correlation_exact N _ _ hpa hpc _ hj
  have hrot := rotated_correlation (a.map Fl.toReal) (c.map Fl.toReal) n (by rw [List.length_map, hnn])
    (by rw [List.length_map, ← hl, hnn]) (by omega)
  have hpad : ∀ d : List (Cx (Fl R)), padSpec (0 : Cx ℝ) (d.map Fl.toReal) N (surroundRightB n N) .surround =
      (padSpec (0 : Cx (Fl R)) d N (surroundRightB n N) .surround).map Fl.toReal := fun d => by
    have h0 : (0 : Cx ℝ) = Fl.toReal (0 : Cx (Fl R)) := rfl
    rw [h0]
    simp [padSpec]
  rw [show 2 * n - 1 = N by omega, hpad, hpad] at hrot
  have hr2 := cross_toReal a c r (by omega)
  rw [← hrot, rotateRight_getD _ _ _ _ (by rw [circularCorrelation_length, List.length_map, hnn, hpa]; omega)
    (by rw [circularCorrelation_length, List.length_map, hnn, hpa]; omega), circularCorrelation_length, List.length_map, hnn, hpa] at hr2
  rw [← hl] at hx hr2
  have h3 := norm_le_l2 _ hj |>.trans herr
  rw [e1]
  rw [← hl] at h3
  rw [hx.trans hr2] at h3
  exact h3

/-- Numbers like `f64`, an FFT library with an error of 10^-15 and two complex signals with three points each. -/
example :
    let R := binaryRounding 52
    let _ : DeltaBounds (Fl R) := ⟨⟨11 / 10⟩, ⟨9 / 10⟩⟩
    let K := tooLarge R (1 / 10 ^ 15)
    let a : List (Cx (Fl R)) := [⟨⟨1⟩, ⟨1 / 3⟩⟩, ⟨⟨-2⟩, ⟨0⟩⟩, ⟨⟨1 / 7⟩, ⟨5⟩⟩]
    let v : DspVec (Fl R) := ⟨⟨.vec, fromComplex a⟩, none, .time, .complex, 6⟩
    1 + R.u ≤ (DeltaBounds.hi : Fl R).val ∧ (DeltaBounds.lo : Fl R).val ≤ 1 - R.u ∧
    K.Accurate (1 / 10 ^ 15) ∧ R.u ≤ 1 / 1000 ∧ v.Shows ⟨.complex a, .time, false, none⟩ ∧ 2 ≤ a.length ∧
    R.rnd (2 * a.length - 1 : Nat) = (2 * a.length - 1 : Nat) ∧ BufferOk .noBuffer v.data (2 * (2 * a.length - 1)) ∧
    ScratchOk K .noBuffer (2 * a.length - 1) ∧
    ComplexAlignmentAccepted 0 RegKind.avxF64x4.len (2 * (2 * a.length - 1)) := by
  intro R i K a v
  have h1 : 1 + (binaryRounding 52).u ≤ (11 / 10 : ℝ) := by norm_num [binaryRounding]
  have h2 : (9 / 10 : ℝ) ≤ 1 - (binaryRounding 52).u := by norm_num [binaryRounding]
  refine ⟨h1, h2, tooLarge_accurate (by norm_num),
    by norm_num [R, binaryRounding], ⟨rfl, rfl, rfl, rfl⟩, by decide, count_exact 52 5 (by norm_num), trivial, trivial,
    .inl (by decide), by decide⟩

end
end Dsp
