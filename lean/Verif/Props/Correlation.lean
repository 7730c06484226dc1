import Verif.Model.Correlation
import Verif.Spec.Correlation
import Verif.Props.Refinement
import Verif.Props.DftCorr
/-
C54: cross correlation.
-/
namespace Dsp
open DspVec
variable {T : Type}

theorem zeroPadB_kept [Zero T] {b b' : Buffer T} {p : Nat} {o : PaddingOption} {v v' : DspVec T} {r : VoidResult}
    (e : v.zeroPadB b p o = some (v', b', r)) : BufferKept b v b' v' := by
  unfold zeroPadB at e
  dsimp only at e
  generalize hst : (if v.isComplex = true then 2 else 1) = st at e
  split at e
  · cases e; exact .refl _ _
  · simp only [Option.bind_eq_bind, Option.bind_eq_some_iff, Option.some.injEq, Prod.mk.injEq] at e
    obtain ⟨_, _, _, _, rfl, rfl, _⟩ := e
    exact .of_trade _ rfl

theorem natural_padB (p : Nat) (o : PaddingOption) :
    Natural fun z l => padSpec z l p (surroundRightB l.length p) o := fun g z l => by
  cases o <;> simp [padSpec, List.map_drop, List.map_take]

/-- `plain_fft` of a complex vector of static type: the buffer lends scratch memory only. -/
theorem plainFft_static [Zero T] [Mul T] [NatCast T] (K : FftKernel T) (hK : K.KeepsLength) (v : DspVec T)
    (hn : v.numberSpace = .complex) (hd : v.domain = .time) (b : Buffer T) (cs : List (Cx T))
    (h : v.content = some (fromComplex cs)) (hb : ScratchOk K b cs.length) :
    ∃ w, v.plainFft K b = some (w, b) ∧ w.content = some (fromComplex (K.forward cs)) ∧
      w.validLen = v.validLen ∧ w.data.cells.length = v.data.cells.length ∧ w.numberSpace = .complex ∧
      w.domain = .freq ∧
      w.delta = if K.useRust v.len then v.delta.map (fun d => (cs.length : T) * d) else v.delta := by
  obtain ⟨u, f1, f2, f3, f4, f5, f6, f7, f8⟩ := fftRaw_spec K hK .forward v b cs h hb
  have hc : v.isComplex = true := by unfold isComplex; rw [hn]; rfl
  have hdom : v.dom = .time := by unfold dom; rw [hd]; rfl
  have hft : v.freqType = .complexFreq := by unfold freqType; rw [hn]
  refine ⟨{ u with domain := u.domain.toFreq }.rededicateForce v.freqType, ?_, ?_, ?_, ?_, ?_, ?_, ?_⟩
  · unfold plainFft
    rw [if_neg (by simp [hdom])]
    simp only [ensureComplex, hc, if_true, Option.bind_eq_bind, Option.bind_some, f1]
  · rw [rededicateForce_content]; exact f2
  all_goals rw [hft]; first | rfl | assumption

/-- `plain_ifft` of a complex vector of static type. -/
theorem plainIfft_static [Zero T] [Mul T] [NatCast T] (K : FftKernel T) (hK : K.KeepsLength) (v : DspVec T)
    (hn : v.numberSpace = .complex) (hd : v.domain = .freq) (b : Buffer T) (cs : List (Cx T))
    (h : v.content = some (fromComplex cs)) (hb : ScratchOk K b cs.length) :
    ∃ w, v.plainIfft K b = some (w, b) ∧ w.content = some (fromComplex (K.inverse cs)) ∧
      w.validLen = v.validLen ∧ w.data.cells.length = v.data.cells.length := by
  obtain ⟨u, f1, f2, f3, f4, f5, f6, f7, f8⟩ := fftRaw_spec K hK .inverse v b cs h hb
  have hc : v.isComplex = true := by unfold isComplex; rw [hn]; rfl
  have hdom : v.dom = .frequency := by unfold dom; rw [hd]; rfl
  have hft : v.timeType = .complexTime := by unfold timeType; rw [hn]
  refine ⟨{ u with domain := u.domain.toFreq }.rededicateForce v.timeType, ?_, ?_, ?_, ?_⟩
  · unfold plainIfft
    rw [if_neg (by simp [hdom])]
    simp only [ensureComplex, hc, if_true, Option.bind_eq_bind, Option.bind_some, f1]
  · rw [rededicateForce_content]; exact f2
  all_goals rw [hft]; first | rfl | assumption

/-- A slice of complex numbers as a vector. -/
theorem toStaticVec_slice [Zero T] [One T] (cs : List (Cx T)) (c : Container T) (hc : c.cells = fromComplex cs)
    (hs : c = .slice (fromComplex cs) ∨ c = .sliceMut (fromComplex cs)) (f : Bool) :
    (toStaticVec c true f).content = some (fromComplex cs) ∧
    (toStaticVec c true f).data.cells = fromComplex cs ∧ (toStaticVec c true f).validLen = 2 * cs.length := by
  have e : (fromComplex cs).length % 2 = 0 := by rw [length_fromComplex]; omega
  have h1 : (toStaticVec c true f).data.cells = fromComplex cs := by rcases hs with rfl | rfl <;> rfl
  have h2 : (toStaticVec c true f).validLen = 2 * cs.length := by
    show validLenFor true c.cells.length = _
    rw [hc, length_fromComplex]
    simp [validLenFor]
  refine ⟨content_iff.2 ⟨by rw [h1, h2, length_fromComplex], ?_⟩, h1, h2⟩
  rw [h1, h2, ← length_fromComplex, List.take_length]

theorem getD_padSurround (a : List (Cx T)) [Zero T] (N right p : Nat) :
    (padSpec (0 : Cx T) a N right .surround).getD p 0 = atOrZero a ((p : Int) - (N - a.length - right : Nat)) := by
  simp only [padSpec]
  generalize hL : N - a.length - right = L
  unfold atOrZero
  rw [List.getD_eq_getElem?_getD, List.getD_eq_getElem?_getD]
  by_cases h1 : p < L
  · rw [if_neg (by omega), List.append_assoc, List.getElem?_append_left (by simpa using h1), List.getElem?_replicate, if_pos h1]
    rfl
  · rw [if_pos (by omega), show ((p : Int) - (L : Nat)).toNat = p - L by omega]
    rw [List.append_assoc, List.getElem?_append_right (by simpa using h1), List.length_replicate]
    by_cases h2 : p - L < a.length
    · rw [List.getElem?_append_left h2]
    · rw [List.getElem?_append_right (by omega), List.getElem?_eq_none (l := a) (by omega), List.getElem?_replicate]
      split <;> rfl

theorem sum_range_pad [AddCommMonoid T] (f : Nat → T) (L n R : Nat) (h0 : ∀ i < L, f i = 0) (h1 : ∀ i, L + n ≤ i → f i = 0) :
    ((List.range (L + n + R)).map f).sum = ((List.range n).map fun k => f (L + k)).sum := by
  rw [List.range_add, List.range_add]
  simp only [List.map_append, List.sum_append, List.map_map]
  have e0 : ((List.range L).map f).sum = 0 := by
    refine List.sum_eq_zero ?_
    simp only [List.mem_map, List.mem_range]
    rintro x ⟨i, hi, rfl⟩; exact h0 i hi
  have e1 : ((List.range R).map (f ∘ fun x => L + n + x)).sum = 0 := by
    refine List.sum_eq_zero ?_
    simp only [List.mem_map, List.mem_range]
    rintro x ⟨i, hi, rfl⟩; exact h1 (L + n + i) (by omega)
  rw [e0, e1, zero_add, add_zero]
  rfl

/-- The circular correlation of padded signals is the cross correlation of the signals. -/
theorem rotated_correlation [CommRing T] (a b : List (Cx T)) (n : Nat) (ha : a.length = n) (hb : b.length = n) (hn : 1 ≤ n) :
    rotateRight (circularCorrelation (padSpec 0 a (2 * n - 1) (surroundRightB n (2 * n - 1)) .surround)
      (padSpec 0 b (2 * n - 1) (surroundRightB n (2 * n - 1)) .surround)) ((2 * n - 1) / 2) = crossCorrelation a b := by
  have hR : surroundRightB n (2 * n - 1) = (n - 1) / 2 := by unfold surroundRightB; congr 1; omega
  have hla : (padSpec (0 : Cx T) a (2 * n - 1) (surroundRightB n (2 * n - 1)) .surround).length = 2 * n - 1 :=
    padSpec_length _ _ _ _ _ (by omega) (by rw [hR]; omega)
  have hga := getD_padSurround a (2 * n - 1) (surroundRightB n (2 * n - 1))
  have hgb := getD_padSurround b (2 * n - 1) (surroundRightB n (2 * n - 1))
  rw [ha, hR] at hga
  rw [hb, hR] at hgb
  rw [hR] at hla ⊢
  generalize padSpec (0 : Cx T) a (2 * n - 1) ((n - 1) / 2) .surround = pa at *
  generalize padSpec (0 : Cx T) b (2 * n - 1) ((n - 1) / 2) .surround = pb at *
  have hlc : (circularCorrelation pa pb).length = 2 * n - 1 := by simp [circularCorrelation, hla]
  apply List.ext_getElem?
  intro r
  by_cases hr : r < 2 * n - 1
  · have : (rotateRight (circularCorrelation pa pb) ((2 * n - 1) / 2))[r]? =
      (circularCorrelation pa pb)[(r + n) % (2 * n - 1)]? := by
      have hh : (2 * n - 1) / 2 = n - 1 := by omega
      rw [hh]
      unfold rotateRight
      rw [hlc]
      by_cases h1 : r < n - 1
      · rw [List.getElem?_append_left (by rw [List.length_drop, hlc]; omega), List.getElem?_drop,
          Nat.mod_eq_of_lt (by omega)]
        congr 1; omega
      · rw [List.getElem?_append_right (by rw [List.length_drop, hlc]; omega), List.length_drop, hlc, List.getElem?_take,
          if_pos (by omega), Nat.mod_eq_sub_mod (by omega), Nat.mod_eq_of_lt (by omega)]
        congr 1; omega
    rw [this]
    have hi : (r + n) % (2 * n - 1) < 2 * n - 1 := Nat.mod_lt _ (by omega)
    generalize hie : (r + n) % (2 * n - 1) = i at *
    simp only [circularCorrelation, crossCorrelation, hla, hb, List.getElem?_map, List.getElem?_range hi, List.getElem?_range hr,
      Option.map_some, Option.some.injEq]
    generalize hLe : 2 * n - 1 - n - (n - 1) / 2 = L at *
    have hN : 2 * n - 1 = L + n + (n - 1) / 2 := by omega
    conv_lhs => rw [hN]
    rw [sum_range_pad]
    · congr 1
      apply List.map_congr_left
      intro k hk
      have hk := List.mem_range.mp hk
      rw [hga, hgb]
      have hbk : atOrZero b (((L + k : Nat) : Int) - (L : Nat)) = b.getD k 0 := by
        unfold atOrZero
        rw [if_pos (by omega)]
        congr 1; omega
      rw [hbk]
      congr 1
      have hmod : (L + k + i) % (2 * n - 1) = (L + k + (r + n)) % (2 * n - 1) := by rw [← hie, Nat.add_mod_mod]
      rw [← hN, hmod]
      have h3 : (L + k + (r + n)) % (2 * n - 1) = L + k + (r + n) ∨
          (2 * n - 1 ≤ L + k + (r + n) ∧ (L + k + (r + n)) % (2 * n - 1) = L + k + (r + n) - (2 * n - 1)) ∨
          (2 * (2 * n - 1) ≤ L + k + (r + n) ∧ (L + k + (r + n)) % (2 * n - 1) = L + k + (r + n) - 2 * (2 * n - 1)) := by
        by_cases c1 : L + k + (r + n) < 2 * n - 1
        · left; exact Nat.mod_eq_of_lt c1
        · rw [Nat.mod_eq_sub_mod (by omega)]
          by_cases c2 : L + k + (r + n) - (2 * n - 1) < 2 * n - 1
          · right; left; exact ⟨by omega, Nat.mod_eq_of_lt c2⟩
          · right; right
            refine ⟨by omega, ?_⟩
            rw [Nat.mod_eq_sub_mod (by omega), Nat.mod_eq_of_lt (by omega)]; omega
      have h4 : (L + k + (r + n)) % (2 * n - 1) < 2 * n - 1 := Nat.mod_lt _ (by omega)
      generalize (L + k + (r + n)) % (2 * n - 1) = q at h3 h4 ⊢
      have hLn : L ≤ n - 1 := by omega
      unfold atOrZero
      rcases lt_or_ge ((k : Int) + r - (n - 1 : Nat)) 0 with hneg | hpos
      · rw [if_neg (show ¬ (0 ≤ (k : Int) + r - (n - 1 : Nat)) by omega)]
        split
        · rename_i hq
          have : a.length ≤ ((q : Int) - L).toNat := by clear hga hgb; rcases h3 with h3 | h3 | h3 <;> omega
          rw [List.getD_eq_getElem?_getD, List.getElem?_eq_none this]; rfl
        · rfl
      · rw [if_pos hpos]
        by_cases hlt : k + r - (n - 1) < n
        · have hq : q = L + (k + r - (n - 1)) := by clear hga hgb; rcases h3 with h3 | h3 | h3 <;> omega
          rw [if_pos (by omega)]
          congr 1; omega
        · have h5 : a.length ≤ ((k : Int) + r - (n - 1 : Nat)).toNat := by clear hga hgb; omega
          rw [List.getD_eq_getElem?_getD (i := ((k : Int) + r - (n - 1 : Nat)).toNat), List.getElem?_eq_none h5]
          split
          · rename_i hq
            have : a.length ≤ ((q : Int) - L).toNat := by clear hga hgb; rcases h3 with h3 | h3 | h3 <;> omega
            rw [List.getD_eq_getElem?_getD, List.getElem?_eq_none this]
          · rfl
    · intro i hi
      rw [hgb]
      unfold atOrZero
      rw [if_neg (by omega)]
      ext <;> simp [Cx.conj]
    · intro i hi
      rw [hgb]
      unfold atOrZero
      have h6 : b.length ≤ ((i : Int) - (L : Nat)).toNat := by clear hga hgb; omega
      rw [if_pos (by omega), List.getD_eq_getElem?_getD (l := b), List.getElem?_eq_none h6]
      ext <;> simp [Cx.conj]
  · rw [List.getElem?_eq_none, List.getElem?_eq_none]
    · simp [crossCorrelation, hb]; omega
    · simp [rotateRight, hlc]; omega

/-- `zero_pad_b` with `Surround` in terms of signals. -/
theorem shows_padB [Zero T] {v : DspVec T} {a : List (Cx T)} {d : DataDomain} {g : Bool} {x : Option T}
    (h : v.Shows ⟨.complex a, d, g, x⟩) (b : Buffer T) (N : Nat) (hN : a.length < N) (hb : BufferOk b v.data (2 * N)) :
    ∃ w b', v.zeroPadB b N .surround = some (w, b', .ok ()) ∧ BufferKept b v b' w ∧
      w.Shows ⟨.complex (padSpec 0 a N (surroundRightB a.length N) .surround), d, g, x⟩ := by
  have hst : v.stride = 2 := h.stride
  have hp : v.points = a.length := h.points
  obtain ⟨w, b', l, e1, e2, e3, e4⟩ := zero_pad_b_spec v h.wf b N (by rw [hst, Nat.mul_comm]; exact hb) .surround (by simp)
    (by omega)
  refine ⟨w, b', e1, zeroPadB_kept e1, ?_⟩
  rw [h.pts] at e2; cases e2
  refine h.rearrange (fun z l => padSpec z l N (surroundRightB l.length N) .surround) (natural_padB N _) e4 ?_
  rw [e3]
  simp only [Numbers.length_pointLists, hp]; rfl

section
variable [Field T] [LinearOrder T] [IsStrictOrderedRing T]

/-- The computation on slices. -/
theorem correlateSlices_spec (K : FftKernel T) (hK : K.KeepsLength) (k : RegKind) (addr : Nat) (A D : List (Cx T))
    (hl : D.length = A.length) (hne : A.length ≠ 0) (b : Buffer T) (hb : ScratchOk K b A.length)
    (hal : ComplexAlignmentAccepted addr k.len (2 * A.length)) :
    correlateSlices K k addr (fromComplex A) (fromComplex D) b =
      some (fromComplex (K.inverse (List.zipWith (· * ·) (K.forward A) D)), .ok ()) := by
  obtain ⟨a1, a2, a3⟩ := toStaticVec_slice A (.sliceMut (fromComplex A)) rfl (.inr rfl) false
  obtain ⟨o1, o2, o3⟩ := toStaticVec_slice D (.slice (fromComplex D)) rfl (.inl rfl) true
  obtain ⟨w, e1, e2, e3, e4, e5, e6, e7⟩ := plainFft_static K hK _ rfl rfl b A a1 hb
  have hdelta : ∃ d : T, w.delta = some d ∧ 0 < d := by
    rw [e7]
    split
    · refine ⟨(A.length : T) * 1, rfl, ?_⟩
      rw [mul_one]; exact_mod_cast Nat.pos_of_ne_zero hne
    · exact ⟨1, rfl, one_pos⟩
  obtain ⟨d, hd, hdpos⟩ := hdelta
  generalize hO : ({ toStaticVec (.slice (fromComplex D)) true true with delta := w.delta } : DspVec T) = O
  have hOc : O.content = some (fromComplex D) := by rw [← hO]; exact o1
  have hOl : O.len = 2 * D.length := by rw [← hO]; exact o3
  have hOw : O.WF := wf_of_content_complex hOc
  have hww : w.WF := wf_of_content_complex e2
  have hwl : w.len = 2 * A.length := by show w.validLen = _; rw [e3, a3]
  have hwc : w.isComplex = true := by unfold isComplex; rw [e5]; rfl
  have hOd : O.delta = some d := by rw [← hO]; exact hd
  obtain ⟨cs, ds, p, m1, m2, m3, m4⟩ := C22_complex .mul k addr w O hww hOw
    (fun e he => by rw [hOd] at he; cases he; exact hdpos) (by rw [hwl, hOl, hl])
    ⟨by rw [hwc, ← hO]; rfl, by rw [← hO]; unfold dom; rw [e6]; rfl, fun d1 d2 h1 h2 => by
      rw [hd] at h1; rw [hOd] at h2; cases h1; cases h2
      constructor <;> nlinarith⟩ hwc (by rw [hwl]; exact hal.1)
    (fun _ => ⟨hal.2, by show w.data.cells.length % 2 = 0; rw [e4, a2, length_fromComplex]; omega⟩)
  have hcs : cs = K.forward A := by
    rw [e2] at m1
    have := congrArg toComplex? (Option.some.inj m1)
    rw [toComplex?_fromComplex, toComplex?_fromComplex] at this
    exact (Option.some.inj this).symm
  have hds : ds = D := by
    rw [hOc] at m2
    have := congrArg toComplex? (Option.some.inj m2)
    rw [toComplex?_fromComplex, toComplex?_fromComplex] at this
    exact (Option.some.inj this).symm
  subst hcs hds
  obtain ⟨r1, r2, ⟨s1, s2, s3, s4⟩, r4, -⟩ := m4
  have hz : (List.zipWith ElemOp.mul.cx (K.forward A) ds) = List.zipWith (· * ·) (K.forward A) ds := rfl
  rw [hz] at r1
  have hzl : (List.zipWith (· * ·) (K.forward A) ds).length = A.length := by
    rw [List.length_zipWith, hK.1, hl, Nat.min_self]
  obtain ⟨u, i1, i2, i3, i4⟩ := plainIfft_static K hK p (by rw [s3, e5]) (by rw [s2, e6]) b _ r1 (by rw [hzl]; exact hb)
  have hu : u.data.cells = fromComplex (K.inverse (List.zipWith (· * ·) (K.forward A) ds)) := by
    obtain ⟨t1, t2⟩ := content_iff.1 i2
    rw [← t2, List.take_of_length_le]
    rw [i4, r4, e4, a2, length_fromComplex, i3, r2, e3, a3]
  have hm : w.mul k addr O = some (p, .ok ()) := m3
  simp only [correlateSlices, Option.bind_eq_bind, e1, Option.bind_some, hO, hm, i1, hu]

omit [LinearOrder T] [IsStrictOrderedRing T] in
/-- The scaling of a complex vector in terms of signals. -/
theorem shows_scale {v : DspVec T} {a : List (Cx T)} {d : DataDomain} {g : Bool} {x : Option T}
    (h : v.Shows ⟨.complex a, d, g, x⟩) (k : RegKind) (addr : Nat) (st : MultiCoreSettings) (c : T)
    (hal : ComplexAlignmentAccepted addr k.len (2 * a.length)) :
    ∃ w, Always (v.scale k addr st c) w ∧ w.Shows ⟨.complex (a.map (Cx.scaleBy c)), d, g, x⟩ := by
  have hl : v.len = 2 * a.length := by rw [h.len]; exact length_fromComplex a
  obtain ⟨cs, h1, -, ⟨w, hw, hr⟩, -⟩ := C20_complex_vector k addr st c ⟨c, c⟩ v h.wf h.isComplex (by rw [hl]; exact hal)
  have := content_complex_unique h1 h.content
  subst this
  refine ⟨w, hw, h.of_replaced (N := .complex (cs.map (Cx.scaleBy c))) rfl hr ?_⟩
  show _ = fromComplex _
  congr 2
  funext z
  simp [Cx.scaleBy, mul_comm]

/-! ### C54 -/

omit [LinearOrder T] [IsStrictOrderedRing T] in
/-- C54: `prepare_argument` gives the conjugated spectrum, in the frequency domain. -/
theorem C54_prepare_argument (K : FftKernel T) (hK : K.KeepsLength) (k : RegKind) (addr : Nat) (st : MultiCoreSettings)
    (v : DspVec T) (a : List (Cx T)) (g : Bool) (x : Option T) (h : v.Shows ⟨.complex a, .time, g, x⟩) (b : Buffer T)
    (hb : ScratchOk K b a.length) (hal : ComplexAlignmentAccepted addr k.len (2 * a.length)) :
    ∃ w b' y, Always (v.prepareArgument K k addr st b) (w, b') ∧
      w.Shows ⟨.complex ((K.forward a).map Cx.conj), .frequency, g, y⟩ := by
  obtain ⟨w, b', cs, e1, e2, e3, e4, e5, e6, e7, e8, -, -, -, e9⟩ := C34_plain_fft K hK v h.wf h.typed h.dom b
    ⟨(fun hr => by rw [h.isComplex] at hr; cases hr), by rw [h.points]; exact hb⟩
  rw [cpoints_shows h] at e2; cases e2
  have hw : w.Shows ((⟨.complex a, .time, g, x⟩ : Signal T).transform K .frequency K.forward) :=
    shows_transform h e3 e5 e6 e7 e8 e9
  have hl : w.len = 2 * a.length := by
    rw [hw.len]; show (fromComplex (K.forward a)).length = _; rw [length_fromComplex, hK.1]
  obtain ⟨u, hu, hus⟩ := step_conj hw k addr st e5 (by unfold AddrSafe; rw [if_pos e5, hl]; exact hal)
  refine ⟨u, b', _, ?_, hus⟩
  refine (hu.andThen (f := fun u => .finished (u, b')) rfl).congr fun sched => ?_
  simp only [prepareArgument, e1]

omit [LinearOrder T] [IsStrictOrderedRing T] in
/-- C54: `prepare_argument_padded` does the same for the signal which is padded with zeros on both sides to
    `2 n - 1` points. -/
theorem C54_prepare_argument_padded (K : FftKernel T) (hK : K.KeepsLength) (k : RegKind) (addr : Nat)
    (st : MultiCoreSettings) (v : DspVec T) (a : List (Cx T)) (g : Bool) (x : Option T)
    (h : v.Shows ⟨.complex a, .time, g, x⟩) (hn : 2 ≤ a.length) (b : Buffer T) (hb : BufferOk b v.data (2 * (2 * a.length - 1)))
    (hs : ScratchOk K b (2 * a.length - 1)) (hal : ComplexAlignmentAccepted addr k.len (2 * (2 * a.length - 1))) :
    ∃ w b' y, Always (v.prepareArgumentPadded K k addr st b) (w, b') ∧
      w.Shows ⟨.complex ((K.forward (padSpec 0 a (2 * a.length - 1) (surroundRightB a.length (2 * a.length - 1)) .surround)).map
        Cx.conj), .frequency, g, y⟩ := by
  have hp : v.points = a.length := h.points
  obtain ⟨u, b1, e1, e2, e3⟩ := shows_padB h b (2 * a.length - 1) (by omega) hb
  have hl := padSpec_length (0 : Cx T) a (2 * a.length - 1) (surroundRightB a.length (2 * a.length - 1)) .surround
    (by omega) (by unfold surroundRightB; omega)
  obtain ⟨w, b', y, f1, f2⟩ := C54_prepare_argument K hK k addr st u _ g x e3 b1 (by rw [hl]; exact e2.2 _ _ hs)
    (by rw [hl]; exact hal)
  refine ⟨w, b', y, f1.congr fun sched => ?_, f2⟩
  simp only [prepareArgumentPadded, hp]
  rw [if_neg (by omega), e1]

/-- C54: `correlate` with the conjugated spectrum of `B`, where `B` has more points than the signal: the signal
    is padded with zeros on both sides, and the result is the circular correlation with `B`, with the
    lag 0 moved to the middle. It does not depend on buffers, registers and addresses. -/
theorem C54_correlate (K : FftKernel T) (hK : K.Correlates) (k : RegKind) (addr : Nat) (st : MultiCoreSettings)
    (v o : DspVec T) (a B : List (Cx T)) (g g' : Bool) (x x' : Option T) (h : v.Shows ⟨.complex a, .time, g, x⟩)
    (ho : o.Shows ⟨.complex ((K.forward B).map Cx.conj), .frequency, g', x'⟩) (hlt : a.length < B.length) (b : Buffer T)
    (hb : BufferOk b v.data (2 * B.length)) (hs : ScratchOk K b B.length)
    (hal : ComplexAlignmentAccepted addr k.len (2 * B.length)) :
    ∃ w b', Always (v.correlate K k addr st o b) (w, b', .ok ()) ∧
      w.Shows ⟨.complex (rotateRight (circularCorrelation
        (padSpec 0 a B.length (surroundRightB a.length B.length) .surround) B) (B.length / 2)), .time, g, x⟩ := by
  have hop : o.points = B.length := by rw [ho.points]; simp [Numbers.count, hK.1.1]
  obtain ⟨u, b1, e1, e2, e3⟩ := shows_padB h b B.length hlt hb
  have hl := padSpec_length (0 : Cx T) a B.length (surroundRightB a.length B.length) .surround
    (by omega) (by unfold surroundRightB; omega)
  generalize padSpec (0 : Cx T) a B.length (surroundRightB a.length B.length) .surround = A at *
  have hup : u.points = B.length := by rw [e3.points]; exact hl
  have hsp := correlateSlices_spec K hK.1 k addr A ((K.forward B).map Cx.conj) (by simp [hK.1.1, hl]) (by omega) b1
    (by rw [hl]; exact e2.2 _ _ hs) (by rw [hl]; exact hal)
  rw [hK.2 A B hl] at hsp
  have hcl : (circularCorrelation A B).length = B.length := by simp [circularCorrelation, hl]
  have hne : ((A.length : Nat) : T) ≠ 0 := by
    rw [hl]; exact_mod_cast (show B.length ≠ 0 by omega)
  -- the vector with the unscaled result
  have hw1 : (u.withCells (splice u.data.cells 0 (fromComplex ((circularCorrelation A B).map (Cx.scaleBy (A.length : T)))))).Shows
      ⟨.complex ((circularCorrelation A B).map (Cx.scaleBy (A.length : T))), .time, g, x⟩ := by
    obtain ⟨c1, c2⟩ := content_iff.1 e3.content
    have hlen : (fromComplex ((circularCorrelation A B).map (Cx.scaleBy (A.length : T)))).length = u.validLen := by
      rw [length_fromComplex, List.length_map, hcl, ← hl]
      have := e3.len
      rw [show u.validLen = u.len from rfl, this]; exact (length_fromComplex A).symm
    refine e3.of_content (w := u.withCells (splice u.data.cells 0 (fromComplex ((circularCorrelation A B).map (Cx.scaleBy (A.length : T))))))
      ⟨rfl, rfl, rfl, rfl⟩ (N := .complex ((circularCorrelation A B).map (Cx.scaleBy (A.length : T)))) rfl
      (content_iff.2 ⟨?_, ?_⟩)
    · show u.validLen ≤ _
      simp only [withCells, splice]; simp; omega
    · show (splice u.data.cells 0 _).take u.validLen = _
      unfold splice
      simp only [List.take_zero, List.nil_append, Numbers.flat]
      rw [List.take_append_of_le_length (by omega), List.take_of_length_le (by omega)]
  obtain ⟨z, hz1, hz2⟩ := shows_scale hw1 k addr st (1 / ((u.points : Nat) : T)) (by
    rw [List.length_map, hcl]; exact hal)
  have hscale : ((circularCorrelation A B).map (Cx.scaleBy (A.length : T))).map (Cx.scaleBy (1 / ((u.points : Nat) : T))) =
      circularCorrelation A B := by
    rw [List.map_map, hup, ← hl]
    conv_rhs => rw [← List.map_id (circularCorrelation A B)]
    congr 1
    funext c
    ext
    · simp only [Function.comp, Cx.scaleBy, id]; field_simp
    · simp only [Function.comp, Cx.scaleBy, id]; field_simp
  rw [hscale] at hz2
  obtain ⟨q, hq1, hq2⟩ := step_swapHalves hz2
  have hq1 : z.swapHalves = some q := hq1
  refine ⟨q, b1, ?_, ?_⟩
  · refine (hz1.andThen (f := fun u => match u.swapHalves with | none => .panic | some x => .finished (x, b1, (.ok () : VoidResult)))
      (by rw [hq1])).congr fun sched => ?_
    have c1 : ¬ (v.dom ≠ .time ∨ v.isComplex = false) := by
      rw [h.dom, h.isComplex]; simp [Numbers.isComplex]
    have c2 : ¬ (o.dom ≠ .frequency ∨ o.isComplex = false) := by
      rw [ho.dom, ho.isComplex]; simp [Numbers.isComplex]
    unfold correlate
    rw [if_neg c1, if_neg c2, hop, e1]
    simp only [e3.content, ho.content, Numbers.flat, hsp]
    rfl
  · have := hq2
    simp only [Call.meaning, Numbers.rearrange] at this
    rw [hcl] at this
    exact this

/-- C54: two complex signals with `n ≥ 2` points each: `prepare_argument_padded` of the one and `correlate` of the
    other give the cross correlation for all lags from `-(n - 1)` to `n - 1`. -/
theorem C54_cross_correlation (K : FftKernel T) (hK : K.Correlates) (k : RegKind) (addr addr' : Nat)
    (st st' : MultiCoreSettings) (v o : DspVec T) (a c : List (Cx T)) (g g' : Bool) (x x' : Option T)
    (h : v.Shows ⟨.complex a, .time, g, x⟩) (ho : o.Shows ⟨.complex c, .time, g', x'⟩) (hl : a.length = c.length)
    (hn : 2 ≤ a.length) (b b' : Buffer T) (hb : BufferOk b v.data (2 * (2 * a.length - 1)))
    (hb' : BufferOk b' o.data (2 * (2 * a.length - 1))) (hs : ScratchOk K b (2 * a.length - 1))
    (hs' : ScratchOk K b' (2 * a.length - 1)) (hal : ComplexAlignmentAccepted addr k.len (2 * (2 * a.length - 1)))
    (hal' : ComplexAlignmentAccepted addr' k.len (2 * (2 * a.length - 1))) :
    ∃ o' b1 w b2, Always (o.prepareArgumentPadded K k addr' st' b') (o', b1) ∧
      Always (v.correlate K k addr st o' b) (w, b2, .ok ()) ∧
      w.Shows ⟨.complex (crossCorrelation a c), .time, g, x⟩ := by
  obtain ⟨o', b1, y, f1, f2⟩ := C54_prepare_argument_padded K hK.1 k addr' st' o c g' x' ho (by omega) b'
    (by rw [← hl]; exact hb') (by rw [← hl]; exact hs') (by rw [← hl]; exact hal')
  have hpl := padSpec_length (0 : Cx T) c (2 * c.length - 1) (surroundRightB c.length (2 * c.length - 1)) .surround
    (by omega) (by unfold surroundRightB; omega)
  obtain ⟨w, b2, e1, e2⟩ := C54_correlate K hK k addr st v o' a _ g g' x y h f2 (by rw [hpl]; omega) b
    (by rw [hpl, ← hl]; exact hb) (by rw [hpl, ← hl]; exact hs) (by rw [hpl, ← hl]; exact hal)
  refine ⟨o', b1, w, b2, f1, e1, ?_⟩
  rw [hpl, hl, rotated_correlation a c c.length hl rfl (by omega)] at e2
  exact e2

omit [IsStrictOrderedRing T] in
/-- C54: an argument which does not have more points than the signal, as `prepare_argument` gives for signals of
    the same length: always an error. -/
theorem C54_unpadded_violated (K : FftKernel T) (k : RegKind) (addr : Nat) (st : MultiCoreSettings) (v o : DspVec T)
    (a B : List (Cx T)) (g g' : Bool) (x x' : Option T) (h : v.Shows ⟨.complex a, .time, g, x⟩)
    (ho : o.Shows ⟨.complex B, .frequency, g', x'⟩) (hle : B.length ≤ a.length) (b : Buffer T) (sched : List Nat) :
    v.correlate K k addr st o b sched = .finished (v, b, .error .invalidArgumentLength) := by
  have c1 : ¬ (v.dom ≠ .time ∨ v.isComplex = false) := by
    rw [h.dom, h.isComplex]; simp [Numbers.isComplex]
  have c2 : ¬ (o.dom ≠ .frequency ∨ o.isComplex = false) := by
    rw [ho.dom, ho.isComplex]; simp [Numbers.isComplex]
  unfold correlate
  rw [if_neg c1, if_neg c2, C08_zero_pad_b_error v h.wf b o.points .surround (by rw [h.points, ho.points]; exact hle)]

omit [LinearOrder T] [IsStrictOrderedRing T] in
/-- C54, C51: `prepare_argument_padded` panics for a signal with one point or none. -/
theorem C54_one_point_violated (K : FftKernel T) (k : RegKind) (addr : Nat) (st : MultiCoreSettings)
    (v : DspVec T) (hv : v.WF) (hp : v.points ≤ 1) (b : Buffer T) (sched : List Nat) :
    v.prepareArgumentPadded K k addr st b sched = .panic := by
  unfold prepareArgumentPadded
  by_cases h0 : v.points = 0
  · rw [if_pos h0]
  · rw [if_neg h0, C08_zero_pad_b_error v hv b _ .surround (by omega)]

omit [IsStrictOrderedRing T] in
/-- C54: vectors which are real or in the wrong domain are rejected; the vector is marked as invalid. -/
theorem C54_rejects (K : FftKernel T) (k : RegKind) (addr : Nat) (st : MultiCoreSettings) (v o : DspVec T)
    (h : v.dom = .frequency ∨ v.isComplex = false ∨ o.dom = .time ∨ o.isComplex = false) (b : Buffer T) (sched : List Nat) :
    ∃ w, v.correlate K k addr st o b sched = .finished (w, b, .error .inputMustBeInTimeDomain) ∧ w.validLen = 0 ∧
      w.delta = none := by
  refine ⟨v.transformError, ?_, rfl, rfl⟩
  unfold correlate
  by_cases c1 : v.dom ≠ .time ∨ v.isComplex = false
  · rw [if_pos c1]
  · rw [if_neg c1, if_pos]
    rcases h with h | h | h | h
    · exact absurd (.inl (by rw [h]; simp)) c1
    · exact absurd (.inr h) c1
    · left; rw [h]; simp
    · exact .inr h

end

/-! ### Non-vacuity -/

/-- Two complex numbers, with unused storage. -/
def corrVec : DspVec ℝ := ⟨⟨.vec, [1, 0, 2, 5, 9, 9]⟩, some 1, .time, .complex, 4⟩
/-- Another two complex numbers, in a vector of a generic type. -/
def corrArg : DspVec ℝ := ⟨⟨.vec, [3, 0, 4, 1]⟩, some 2, .timeOrFreq .time, .realOrComplex true, 4⟩

/-- The hypotheses of `C54_cross_correlation` hold for two vectors and the discrete Fourier transform. -/
example : dftKernel.Correlates ∧ corrVec.Shows ⟨.complex [⟨1, 0⟩, ⟨2, 5⟩], .time, false, some 1⟩ ∧
    corrArg.Shows ⟨.complex [⟨3, 0⟩, ⟨4, 1⟩], .time, true, some 2⟩ ∧
    BufferOk (.single []) corrVec.data 6 ∧ ScratchOk dftKernel (.single []) 3 ∧
    BufferOk .noBuffer corrArg.data 6 ∧ ScratchOk dftKernel .noBuffer 3 ∧ ComplexAlignmentAccepted 0 (RegKind.sseF32x4).len 6 :=
  ⟨dft_correlates, ⟨rfl, rfl, rfl, rfl⟩, ⟨rfl, rfl, rfl, rfl⟩, trivial, trivial, trivial, trivial, .inl (by decide), by decide⟩

/-- The hypotheses of `C54_correlate`: an argument with three points. -/
example : ∃ o : DspVec ℝ, o.Shows ⟨.complex ((dftKernel.forward [⟨3, 0⟩, ⟨4, 1⟩, ⟨1, 1⟩]).map Cx.conj), .frequency, false, none⟩ := by
  obtain ⟨w, b', y, -, hw⟩ := C54_prepare_argument dftKernel dft_correlates.1 .sseF32x4 0 ⟨1, 0, 0, 0, 0⟩
    ⟨⟨.vec, [3, 0, 4, 1, 1, 1]⟩, none, .time, .complex, 6⟩ [⟨3, 0⟩, ⟨4, 1⟩, ⟨1, 1⟩] false none ⟨rfl, rfl, rfl, rfl⟩ .noBuffer
    trivial ⟨.inl (by decide), by decide⟩
  exact ⟨{ w with delta := none }, ⟨hw.content, hw.space, hw.domain, rfl⟩⟩

example : crossCorrelation ([⟨1, 0⟩, ⟨2, 5⟩] : List (Cx Int)) [⟨3, 0⟩, ⟨4, 1⟩] = [⟨4, -1⟩, ⟨16, 18⟩, ⟨6, 15⟩] := by decide
example : circularCorrelation ([⟨1, 0⟩, ⟨2, 0⟩, ⟨0, 1⟩] : List (Cx Int)) [⟨3, 0⟩, ⟨4, 1⟩, ⟨0, 0⟩] =
    [⟨11, -2⟩, ⟨7, 4⟩, ⟨4, 2⟩] := by decide

/-- The hypotheses of `C54_unpadded_violated` and `C54_one_point_violated`. -/
example : corrVec.Shows ⟨.complex [⟨1, 0⟩, ⟨2, 5⟩], .time, false, some 1⟩ ∧
    (⟨⟨.vec, [3, 0, 4, 1]⟩, some 1, .freq, .complex, 4⟩ : DspVec ℝ).Shows ⟨.complex [⟨3, 0⟩, ⟨4, 1⟩], .frequency, false, some 1⟩ ∧
    (⟨⟨.vec, [3, 0]⟩, some 1, .time, .complex, 2⟩ : DspVec ℝ).points = 1 :=
  ⟨⟨rfl, rfl, rfl, rfl⟩, ⟨rfl, rfl, rfl, rfl⟩, rfl⟩
end Dsp
