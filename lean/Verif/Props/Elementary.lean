import Verif.Spec.Elementary
import Verif.Props.Registers
import Verif.Lemmas.Points
import Verif.Lemmas.Pts
import Mathlib.Algebra.Order.Field.Basic
import Mathlib.Algebra.Order.Field.Rat
import Mathlib.Tactic.NormNum
/-
C22: binary operations check their operands. C23: operations with smaller operands.
-/
namespace Dsp
open DspVec
variable {T : Type}

/-! ### Helpers -/

theorem DspVec.WF.content_eq {v : DspVec T} (h : v.WF) :
    v.content = some (v.data.cells.take v.validLen) := by
  unfold content; rw [slice_ok _ _ _ (by omega) h.1]; simp

theorem DspVec.WF.content_length {v : DspVec T} (h : v.WF) {c : List T} (hc : v.content = some c) :
    c.length = v.validLen := by
  rw [h.content_eq] at hc
  rw [← Option.some.inj hc]; have := h.1; simp; omega

theorem DspVec.WF.content_even {v : DspVec T} (h : v.WF) (hc : v.isComplex = true) :
    ∃ cs, v.content = some (fromComplex cs) ∧ 2 * cs.length = v.validLen := by
  obtain ⟨p, s, h1, h2⟩ := h.complex hc
  refine ⟨p, ?_, h2⟩
  rw [h.content_eq, h1, ← h2]
  simp

/-- Writing back as many numbers as there were. -/
theorem replaced_splice {v : DspVec T} (h : v.WF) (r : List T) (hr : r.length = v.validLen) :
    Replaced v (v.withCells (splice v.data.cells 0 r)) r := by
  obtain ⟨c, s, h1, h2⟩ := h.real
  have e : splice v.data.cells 0 r = r ++ s := by
    rw [h1, splice_append_left _ _ _ (by omega)]
  refine ⟨?_, rfl, ⟨rfl, rfl, rfl, rfl⟩, ?_, ?_⟩
  · unfold content withCells
    simp only [e]
    rw [← hr]; exact slice_append_left r s
  · show (splice v.data.cells 0 r).length = _
    rw [e, h1]; simp only [List.length_append]; omega
  · show (splice v.data.cells 0 r).drop _ = _
    rw [e, h1, List.drop_left' hr, List.drop_left' h2]

theorem zipWith_fromComplex (f : T → T → T) : ∀ cs ds : List (Cx T),
    List.zipWith f (fromComplex cs) (fromComplex ds) =
      fromComplex (List.zipWith (fun a b => ⟨f a.re b.re, f a.im b.im⟩) cs ds)
  | [], _ => by simp [fromComplex]
  | _ :: _, [] => by simp [fromComplex]
  | c :: cs, d :: ds => by simp [fromComplex, zipWith_fromComplex f cs ds]

theorem metaMismatch_iff [Field T] [LinearOrder T] [IsStrictOrderedRing T] (v o : DspVec T)
    (ho : PosDelta o) : v.metaMismatch o = true ↔ ¬ MetaAgree v o := by
  unfold metaMismatch MetaAgree
  simp only [show (DeltaBounds.hi : T) = 11 / 10 from rfl, show (DeltaBounds.lo : T) = 9 / 10 from rfl]
  have hd : deltaRatioBad (11 / 10 : T) (9 / 10) v.delta o.delta = true ↔
      ¬ ∀ d e, v.delta = some d → o.delta = some e → 9 / 10 * e ≤ d ∧ d ≤ 11 / 10 * e := by
    cases hv : v.delta with
    | none => simp [deltaRatioBad]
    | some d =>
      cases hoo : o.delta with
      | none => simp [deltaRatioBad]
      | some e =>
        have he := ho e hoo
        have hs : (∀ d' e', some d = some d' → some e = some e' →
            9 / 10 * e' ≤ d' ∧ d' ≤ 11 / 10 * e') ↔ (9 / 10 * e ≤ d ∧ d ≤ 11 / 10 * e) :=
          ⟨fun h => h d e rfl rfl, by
            intro h d' e' h1 h2
            rw [← Option.some.inj h1, ← Option.some.inj h2]; exact h⟩
        rw [hs]
        simp only [deltaRatioBad, if_neg he.ne', Bool.or_eq_true,
          decide_eq_true_eq, not_and_or, not_le]
        rw [gt_iff_lt, lt_div_iff₀ he, div_lt_iff₀ he]
        exact Or.comm
  simp only [Bool.or_eq_true, bne_iff_ne, ne_eq, hd, not_and_or]
  rw [or_assoc]

/-! ### C22 -/

/-- C22: operands of another length or with other meta data are rejected, in this order, and the
    vector is unchanged. Holds for all vectors (valid or not), register types and addresses. -/
theorem C22_operand_checks [Field T] [LinearOrder T] [IsStrictOrderedRing T] (op : ElemOp)
    (k : RegKind) (addr : Nat) (v o : DspVec T) (ho : PosDelta o) :
    (v.len ≠ o.len → op.run k addr v o = some (v, .error .inputMustHaveTheSameSize)) ∧
    (v.len = o.len → ¬ MetaAgree v o →
      op.run k addr v o = some (v, .error .inputMetaDataMustAgree)) := by
  refine ⟨fun h => ?_, fun h hm => ?_⟩
  · cases op <;> simp only [ElemOp.run, add, sub, mul, div, binaryReal, if_pos h]
  · rw [← metaMismatch_iff v o ho] at hm
    cases op <;> simp only [ElemOp.run, add, sub, mul, div, binaryReal, if_neg (not_not.mpr h), hm,
      if_true]

/-- Two vectors with equal lengths and a sampling distance which differs by a fifth. -/
example :
    let v : DspVec ℚ := ⟨⟨.vec, [1, 2]⟩, some 1, .time, .real, 2⟩
    let o : DspVec ℚ := ⟨⟨.vec, [3, 4]⟩, some (5/6), .time, .real, 2⟩
    PosDelta o ∧ v.len = o.len ∧ ¬ MetaAgree v o := by
  refine ⟨?_, rfl, ?_⟩
  · intro e he; simp at he; rw [← he]; norm_num
  · intro h; have := (h.2.2 1 (5/6) rfl rfl).2; norm_num at this

/-- C22: with an acceptable operand every number is combined with the number at the same position
    (real vectors). The restriction to the alignments which the SIMD code accepts is C19. -/
theorem C22_real [Field T] [LinearOrder T] [IsStrictOrderedRing T] (op : ElemOp)
    (k : RegKind) (addr : Nat) (v o : DspVec T) (hv : v.WF) (ho : o.WF) (hd : PosDelta o)
    (hlen : v.len = o.len) (hm : MetaAgree v o) (hr : v.isComplex = false)
    (hal : AlignmentAccepted addr k.len v.len) :
    ∃ a b v', v.content = some a ∧ o.content = some b ∧ op.run k addr v o = some (v', .ok ()) ∧
      Replaced v v' (List.zipWith op.real a b) := by
  have hmm : v.metaMismatch o = false := by
    rw [← Bool.not_eq_true, metaMismatch_iff v o hd]; exact not_not.mpr hm
  have hb : ∀ f, binaryReal k addr f v o =
      some (v.withCells (splice v.data.cells 0 (List.zipWith f (v.data.cells.take v.validLen)
        (o.data.cells.take o.validLen))), .ok ()) := by
    intro f
    unfold binaryReal
    rw [if_neg (not_not.mpr hlen), if_neg (by rw [hmm]; decide), hv.content_eq, ho.content_eq]
    have e1 := hv.content_length hv.content_eq
    have e2 := ho.content_length ho.content_eq
    simp only [Option.bind_eq_bind, Option.bind_some]
    rw [C20_elementwise k addr f _ _ (by rw [e1, e2]; exact hlen.symm) (by rw [e1]; exact hal)]
    rfl
  have e1 := hv.content_length hv.content_eq
  have e2 := ho.content_length ho.content_eq
  have hlen' : v.validLen = o.validLen := hlen
  refine ⟨_, _, v.withCells (splice v.data.cells 0 (List.zipWith op.real (v.data.cells.take v.validLen)
        (o.data.cells.take o.validLen))), hv.content_eq, ho.content_eq, ?_, replaced_splice hv _ ?_⟩
  · cases op <;> simp only [ElemOp.run, add, sub, mul, div, if_neg (not_not.mpr hlen), hmm, hr, hb,
      ElemOp.real] <;> rfl
  · rw [List.length_zipWith, e1, e2]; omega

/-- C22 for complex vectors: point by point. For `mul` and `div` the storage must in addition have
    an even number of elements (see `C52_mul_violated`) and an even address. -/
theorem C22_complex [Field T] [LinearOrder T] [IsStrictOrderedRing T] (op : ElemOp)
    (k : RegKind) (addr : Nat) (v o : DspVec T) (hv : v.WF) (ho : o.WF) (hd : PosDelta o)
    (hlen : v.len = o.len) (hm : MetaAgree v o) (hc : v.isComplex = true)
    (hal : AlignmentAccepted addr k.len v.len)
    (heven : op = .mul ∨ op = .div → addr % 2 = 0 ∧ v.allocLen % 2 = 0) :
    ∃ cs ds v', v.content = some (fromComplex cs) ∧ o.content = some (fromComplex ds) ∧
      op.run k addr v o = some (v', .ok ()) ∧
      Replaced v v' (fromComplex (List.zipWith op.cx cs ds)) := by
  have hmm : v.metaMismatch o = false := by
    rw [← Bool.not_eq_true, metaMismatch_iff v o hd]; exact not_not.mpr hm
  obtain ⟨cs, c1, c2⟩ := hv.content_even hc
  obtain ⟨ds, d1, d2⟩ := ho.content_even (by rw [← hm.1]; exact hc)
  have hlen' : v.validLen = o.validLen := hlen
  have hal' : AlignmentAccepted addr k.len (2 * cs.length) := by rw [c2]; exact hal
  have hadd : ∀ f, binaryReal k addr f v o =
      some (v.withCells (splice v.data.cells 0 (fromComplex
        (List.zipWith (fun a b => ⟨f a.re b.re, f a.im b.im⟩) cs ds))), .ok ()) := by
    intro f
    unfold binaryReal
    rw [if_neg (not_not.mpr hlen), if_neg (by rw [hmm]; decide), c1, d1]
    simp only [Option.bind_eq_bind, Option.bind_some]
    rw [C20_elementwise k addr f _ _ (by simp; omega) (by simpa using hal'),
      zipWith_fromComplex]
    rfl
  have hmul : ∀ g f, v.allocLen % 2 = 0 →
      simdBinaryComplex addr k.len g f (fromComplex cs) (fromComplex ds) =
        some (fromComplex (List.zipWith f cs ds)) → binaryComplex k addr g f v o =
      some (v.withCells (splice v.data.cells 0 (fromComplex (List.zipWith f cs ds))), .ok ()) := by
    intro g f ha h
    unfold binaryComplex
    obtain ⟨q, hq⟩ := exists_fromComplex (l := v.data.cells) ha
    rw [if_neg (not_not.mpr hlen), if_neg (by rw [hmm]; decide), c1, d1]
    simp only [Option.bind_eq_bind, Option.bind_some, h]
    rw [show toComplex? v.data.cells = some q by rw [hq, toComplex?_fromComplex]]
    rfl
  refine ⟨cs, ds, v.withCells (splice v.data.cells 0 (fromComplex (List.zipWith op.cx cs ds))), c1, d1,
    ?_, replaced_splice hv _ (by simp; omega)⟩
  cases op with
  | add => exact hadd _
  | sub => exact hadd _
  | mul =>
    obtain ⟨h1, h2⟩ := heven (.inl rfl)
    simp only [ElemOp.run, mul, if_neg (not_not.mpr hlen), hmm, hc, if_true, ElemOp.cx]
    exact hmul _ _ h2 (C20_complex_mul_div k addr cs ds (by omega) ⟨hal', h1⟩).1
  | div =>
    obtain ⟨h1, h2⟩ := heven (.inr rfl)
    simp only [ElemOp.run, div, if_neg (not_not.mpr hlen), hmm, hc, if_true, ElemOp.cx]
    exact hmul _ _ h2 (C20_complex_mul_div k addr cs ds (by omega) ⟨hal', h1⟩).2

/-- Two complex vectors of two points which meet all hypotheses. -/
example :
    let v : DspVec ℚ := ⟨⟨.vec, [1, 2, 3, 4, 5, 6]⟩, some 1, .time, .complex, 4⟩
    let o : DspVec ℚ := ⟨⟨.vec, [0, 1, 1, 0]⟩, some 1, .time, .complex, 4⟩
    v.WF ∧ o.WF ∧ PosDelta o ∧ v.len = o.len ∧ MetaAgree v o ∧
      AlignmentAccepted 0 RegKind.sseF32x4.len v.len ∧ v.allocLen % 2 = 0 := by
  refine ⟨⟨by decide, by decide⟩, ⟨by decide, by decide⟩, ?_, rfl, ⟨rfl, rfl, ?_⟩, .inl (by decide), rfl⟩
  · intro e he; simp at he; rw [← he]; norm_num
  · intro d e hd he; simp at hd he; rw [← hd, ← he]; norm_num

/-- C22 is violated (the operation panics) for a valid complex vector whose storage has an odd
    number of elements, e.g. after `resize` from 3 numbers to 2. -/
theorem C52_mul_violated (k : RegKind) (addr : Nat) :
    let v : DspVec ℚ := ⟨⟨.vec, [1, 2, 3]⟩, some 1, .time, .complex, 2⟩
    let o : DspVec ℚ := ⟨⟨.vec, [4, 5]⟩, some 1, .time, .complex, 2⟩
    v.WF ∧ o.WF ∧ v.len = o.len ∧ MetaAgree v o ∧ v.mul k addr o = none := by
  refine ⟨⟨by decide, by decide⟩, ⟨by decide, by decide⟩, rfl, ⟨rfl, rfl, ?_⟩, ?_⟩
  · intro d e hd he; simp at hd he; rw [← hd, ← he]; norm_num
  · have : deltaRatioBad (DeltaBounds.hi : ℚ) DeltaBounds.lo (some 1) (some 1) = false := by
      norm_num [deltaRatioBad, DeltaBounds.hi, DeltaBounds.lo]
    simp [mul, binaryComplex, metaMismatch, DspVec.len, isComplex, dom, NumberSpace.isComplex, this,
      content, slice, toComplex?]

/-! ### C23 -/

theorem smallerLoop_eq {α : Type} (f : α → α → α) (operand target : List α) (h : operand ≠ []) :
    ∃ r, smallerLoop f operand target = some r ∧ r.length = target.length ∧
      ∀ i x, target[i]? = some x → ∃ y, operand[i % operand.length]? = some y ∧ r[i]? = some (f x y) := by
  have hpos : 0 < operand.length := List.length_pos_iff.mpr h
  unfold smallerLoop
  have := forRange_inv
    (P := fun n t => t.length = target.length ∧ ∀ i x, target[i]? = some x →
      if i < n then ∃ y, operand[i % operand.length]? = some y ∧ t[i]? = some (f x y)
      else t[i]? = some x)
    (fun i t => do
      if operand.length = 0 then none
      else do
        let x ← get t i
        let y ← get operand (i % operand.length)
        put t i (f x y)) 0 target.length target ⟨rfl, fun i x hx => by simp [hx]⟩
    (by
      intro i t _ hi ⟨h1, h2⟩
      have hi' : i < target.length := by omega
      have hx := h2 i target[i] (by simp [hi'])
      rw [if_neg (by omega)] at hx
      have hm := Nat.mod_lt i hpos
      have hp : put t i (f target[i] operand[i % operand.length]) =
          some (t.set i (f target[i] operand[i % operand.length])) := put_eq (by omega) _
      refine ⟨t.set i (f target[i] operand[i % operand.length]), ?_, by simp [h1], ?_⟩
      · simp only [if_neg hpos.ne', get, hx, Option.bind_eq_bind, Option.bind_some,
          List.getElem?_eq_getElem hm, hp]
      · intro j x hj
        have h3 := h2 j x hj
        by_cases hji : j = i
        · subst hji
          rw [List.getElem?_eq_getElem hi'] at hj
          rw [if_pos (by omega)]
          refine ⟨operand[j % operand.length], List.getElem?_eq_getElem hm, ?_⟩
          rw [List.getElem?_set_self (by omega), ← Option.some.inj hj]
        · rw [List.getElem?_set_ne (Ne.symm hji)]
          by_cases hlt : j < i
          · rw [if_pos hlt] at h3; rw [if_pos (by omega)]; exact h3
          · rw [if_neg hlt] at h3; rw [if_neg (by omega)]; exact h3)
  obtain ⟨r, h1, h2, h3⟩ := this
  refine ⟨r, h1, h2, fun i x hx => ?_⟩
  have := h3 i x hx
  have hi : i < target.length := by
    by_contra hn; rw [List.getElem?_eq_none (by omega)] at hx; simp at hx
  rwa [if_pos (by omega)] at this

/-- C23: a length which is not a multiple of the length of the operand and different meta data are
    rejected without effect. -/
theorem C23_operand_checks [Field T] [LinearOrder T] [IsStrictOrderedRing T] (op : ElemOp)
    (v o : DspVec T) (hd : PosDelta o) (hpos : 0 < o.len) :
    (¬ o.len ∣ v.len → op.runSmaller v o = some (v, .error .invalidArgumentLength)) ∧
    (o.len ∣ v.len → ¬ MetaAgree v o →
      op.runSmaller v o = some (v, .error .inputMetaDataMustAgree)) := by
  have h0 : ¬ o.len = 0 := by omega
  refine ⟨fun h => ?_, fun h hm => ?_⟩
  · have h' : v.len % o.len ≠ 0 := fun e => h (Nat.dvd_of_mod_eq_zero e)
    cases op <;> simp only [ElemOp.runSmaller, addSmaller, subSmaller, mulSmaller, divSmaller,
      smallerReal, if_neg h0, if_pos h']
  · rw [← metaMismatch_iff v o hd] at hm
    have h' : ¬ v.len % o.len ≠ 0 := not_not.mpr (Nat.mod_eq_zero_of_dvd h)
    cases op <;> simp only [ElemOp.runSmaller, addSmaller, subSmaller, mulSmaller, divSmaller,
      smallerReal, if_neg h0, if_neg h', hm, if_true]

example : ∃ o : DspVec ℚ, PosDelta o ∧ 0 < o.len ∧ ¬ o.len ∣ 5 :=
  ⟨⟨⟨.vec, [1, 2]⟩, some 1, .time, .real, 2⟩, fun e he => by simp at he; rw [← he]; norm_num,
    by decide, by decide⟩

/-- The methods for smaller operands on real vectors, without any law for the arithmetic. -/
theorem smaller_real [Add T] [Sub T] [Mul T] [Div T] [Zero T] [LT T] [DecidableLT T] [DecidableEq T]
    [DeltaBounds T] (op : ElemOp)
    (v o : DspVec T) (hv : v.WF) (ho : o.WF) (hpos : 0 < o.len)
    (hdvd : o.len ∣ v.len) (hmm : v.metaMismatch o = false) (hr : v.isComplex = false) :
    ∃ a b r v', v.content = some a ∧ o.content = some b ∧ op.runSmaller v o = some (v', .ok ()) ∧
      Replaced v v' r ∧ Cycled op.real a b r := by
  have e1 := hv.content_length hv.content_eq
  have e2 := ho.content_length ho.content_eq
  have h0 : ¬ o.len = 0 := by omega
  have h' : ¬ v.len % o.len ≠ 0 := not_not.mpr (Nat.mod_eq_zero_of_dvd hdvd)
  obtain ⟨r, r1, r2, r3⟩ := smallerLoop_eq op.real (o.data.cells.take o.validLen)
    (v.data.cells.take v.validLen) (by
      apply List.ne_nil_of_length_pos; rw [e2]; exact hpos)
  have hb : smallerReal op.real v o =
      some (v.withCells (splice v.data.cells 0 r), .ok ()) := by
    unfold smallerReal
    rw [if_neg h0, if_neg h', if_neg (by rw [hmm]; decide), hv.content_eq, ho.content_eq]
    simp only [Option.bind_eq_bind, Option.bind_some, r1]
  refine ⟨_, _, r, _, hv.content_eq, ho.content_eq, ?_, replaced_splice hv r (by rw [r2, e1]), r2, r3⟩
  cases op <;> simp only [ElemOp.runSmaller, addSmaller, subSmaller, mulSmaller, divSmaller,
      if_neg h0, if_neg h', hmm, hr] <;> exact hb

/-- C23 for real vectors, for every operand with at least one element whose length divides the
    length of the vector. -/
theorem C23_real [Field T] [LinearOrder T] [IsStrictOrderedRing T] (op : ElemOp)
    (v o : DspVec T) (hv : v.WF) (ho : o.WF) (hd : PosDelta o) (hpos : 0 < o.len)
    (hdvd : o.len ∣ v.len) (hm : MetaAgree v o) (hr : v.isComplex = false) :
    ∃ a b r v', v.content = some a ∧ o.content = some b ∧ op.runSmaller v o = some (v', .ok ()) ∧
      Replaced v v' r ∧ Cycled op.real a b r := by
  exact smaller_real op v o hv ho hpos hdvd (by rw [← Bool.not_eq_true, metaMismatch_iff v o hd]; exact not_not.mpr hm) hr

/-- The methods for smaller operands on complex vectors, without any law for the arithmetic. -/
theorem smaller_complex [Add T] [Sub T] [Mul T] [Div T] [Zero T] [LT T] [DecidableLT T] [DecidableEq T]
    [DeltaBounds T] (op : ElemOp)
    (v o : DspVec T) (hv : v.WF) (ho : o.WF) (hpos : 0 < o.len)
    (hdvd : o.len ∣ v.len) (hmm : v.metaMismatch o = false) (hc : v.isComplex = true) :
    ∃ cs ds rs v', v.content = some (fromComplex cs) ∧ o.content = some (fromComplex ds) ∧
      op.runSmaller v o = some (v', .ok ()) ∧
      Replaced v v' (fromComplex rs) ∧ Cycled op.cx cs ds rs := by
  have hco : v.isComplex = o.isComplex := by
    unfold metaMismatch at hmm
    simp only [Bool.or_eq_false_iff, bne_eq_false_iff_eq] at hmm
    exact hmm.1.1
  obtain ⟨cs, c1, c2⟩ := hv.content_even hc
  obtain ⟨ds, d1, d2⟩ := ho.content_even (by rw [← hco]; exact hc)
  have hlen0 : 0 < o.validLen := hpos
  have h0 : ¬ o.len = 0 := by omega
  have h' : ¬ v.len % o.len ≠ 0 := not_not.mpr (Nat.mod_eq_zero_of_dvd hdvd)
  have hds : ds ≠ [] := by rintro rfl; simp at d2; omega
  have hds0 : 0 < ds.length := List.length_pos_iff.mpr hds
  obtain ⟨rs, r1, r2, r3⟩ := smallerLoop_eq op.cx ds cs hds
  have hcx : smallerComplex op.cx v o =
      some (v.withCells (splice v.data.cells 0 (fromComplex rs)), .ok ()) := by
    unfold smallerComplex
    rw [if_neg h0, if_neg h', if_neg (by rw [hmm]; decide), c1, d1]
    simp only [Option.bind_eq_bind, Option.bind_some, toComplex?_fromComplex, r1]
  have hre : ∀ f : T → T → T, (∀ a b : Cx T, op.cx a b = ⟨f a.re b.re, f a.im b.im⟩) →
      smallerReal f v o = some (v.withCells (splice v.data.cells 0 (fromComplex rs)), .ok ()) := by
    intro f hf
    obtain ⟨q, q1, q2, q3⟩ := smallerLoop_eq f (fromComplex ds) (fromComplex cs) (by
      apply List.ne_nil_of_length_pos; simp; omega)
    have hq : q = fromComplex rs := by
      have hpar : ∀ i, (2 * i) % (2 * ds.length) = 2 * (i % ds.length) ∧
          (2 * i + 1) % (2 * ds.length) = 2 * (i % ds.length) + 1 := by
        intro i
        refine ⟨Nat.mul_mod_mul_left 2 i ds.length, ?_⟩
        have hm := Nat.mod_lt i hds0
        rw [Nat.add_mod, Nat.mul_mod_mul_left, Nat.mod_eq_of_lt (a := 1) (by omega),
          Nat.mod_eq_of_lt (by omega)]
      apply List.ext_getElem?
      intro i
      by_cases hi : i < 2 * cs.length
      · obtain ⟨j, hj | hj⟩ : ∃ j, i = 2 * j ∨ i = 2 * j + 1 := ⟨i / 2, by omega⟩
        · subst hj
          have hjc : cs[j]? = some cs[j] := List.getElem?_eq_getElem (by omega)
          obtain ⟨y, y1, y2⟩ := r3 j _ hjc
          obtain ⟨z, z1, z2⟩ := q3 (2 * j) cs[j].re (by rw [getElem?_fromComplex_even, hjc]; rfl)
          rw [length_fromComplex, (hpar j).1, getElem?_fromComplex_even, y1] at z1
          rw [z2, getElem?_fromComplex_even, y2, hf]
          simp at z1; simp [z1]
        · subst hj
          have hjc : cs[j]? = some cs[j] := List.getElem?_eq_getElem (by omega)
          obtain ⟨y, y1, y2⟩ := r3 j _ hjc
          obtain ⟨z, z1, z2⟩ := q3 (2 * j + 1) cs[j].im (by rw [getElem?_fromComplex_odd, hjc]; rfl)
          rw [length_fromComplex, (hpar j).2, getElem?_fromComplex_odd, y1] at z1
          rw [z2, getElem?_fromComplex_odd, y2, hf]
          simp at z1; simp [z1]
      · rw [List.getElem?_eq_none (by rw [q2]; simp; omega),
          List.getElem?_eq_none (by simp; omega)]
    unfold smallerReal
    rw [if_neg h0, if_neg h', if_neg (by rw [hmm]; decide), c1, d1]
    simp only [Option.bind_eq_bind, Option.bind_some, q1, hq]
  refine ⟨cs, ds, rs, _, c1, d1, ?_, replaced_splice hv _ (by simp; omega), r2, r3⟩
  cases op with
  | add => exact hre _ (fun _ _ => rfl)
  | sub => exact hre _ (fun _ _ => rfl)
  | mul =>
    simp only [ElemOp.runSmaller, mulSmaller, if_neg h0, if_neg h', hmm, hc]
    exact hcx
  | div =>
    simp only [ElemOp.runSmaller, divSmaller, if_neg h0, if_neg h', hmm, hc]
    exact hcx

/-- C23 for complex vectors: point `i` is combined with point `i mod m` of the operand. -/
theorem C23_complex [Field T] [LinearOrder T] [IsStrictOrderedRing T] (op : ElemOp)
    (v o : DspVec T) (hv : v.WF) (ho : o.WF) (hd : PosDelta o) (hpos : 0 < o.len)
    (hdvd : o.len ∣ v.len) (hm : MetaAgree v o) (hc : v.isComplex = true) :
    ∃ cs ds rs v', v.content = some (fromComplex cs) ∧ o.content = some (fromComplex ds) ∧
      op.runSmaller v o = some (v', .ok ()) ∧
      Replaced v v' (fromComplex rs) ∧ Cycled op.cx cs ds rs := by
  exact smaller_complex op v o hv ho hpos hdvd (by rw [← Bool.not_eq_true, metaMismatch_iff v o hd]; exact not_not.mpr hm) hc

/-- Four points and an operand of two points. -/
example :
    let v : DspVec ℚ := ⟨⟨.vec, [1, 2, 3, 4, 5, 6, 7, 8]⟩, some 1, .time, .complex, 8⟩
    let o : DspVec ℚ := ⟨⟨.vec, [0, 1, 1, 0]⟩, some 1, .time, .complex, 4⟩
    v.WF ∧ o.WF ∧ PosDelta o ∧ 0 < o.len ∧ o.len ∣ v.len ∧ MetaAgree v o := by
  refine ⟨⟨by decide, by decide⟩, ⟨by decide, by decide⟩, ?_, by decide, by decide, ⟨rfl, rfl, ?_⟩⟩
  · intro e he; simp at he; rw [← he]; norm_num
  · intro d e hd he; simp at hd he; rw [← hd, ← he]; norm_num

/-- An empty operand panics instead of reporting an error (excluded by the quantifier of C23). -/
theorem C23_empty_operand_panics [Field T] [LinearOrder T] (op : ElemOp) (v o : DspVec T)
    (h : o.len = 0) : op.runSmaller v o = none := by
  cases op <;> simp only [ElemOp.runSmaller, addSmaller, subSmaller, mulSmaller, divSmaller,
    smallerReal, if_pos h]

/-! ### C20 at the level of vectors: offset and scale -/

theorem Always.mapOutcome {v : DspVec T} {run : List Nat → Outcome (List T)} {r : List T}
    (h : Always run r) :
    Always (fun s => v.mapOutcome (run s)) (v.withCells (splice v.data.cells 0 r)) :=
  h.map (fun s e => by simp [DspVec.mapOutcome, e]) (fun s e => by simp [DspVec.mapOutcome, e])

/-- C20: `offset` and `scale` with a real number on real vectors. -/
theorem C20_real_vector [Add T] [Mul T] [Zero T] (k : RegKind) (addr : Nat) (st : MultiCoreSettings) (x : T)
    (v : DspVec T) (hv : v.WF) (hr : v.isComplex = false)
    (hal : AlignmentAccepted addr k.len v.len) :
    ∃ a, v.content = some a ∧
      (∃ v', Always (v.offset k addr st x) v' ∧ Replaced v v' (a.map (· + x))) ∧
      (∃ v', Always (v.scale k addr st x) v' ∧ Replaced v v' (a.map (· * x))) := by
  have e1 := hv.content_length hv.content_eq
  obtain ⟨h1, h2⟩ := C20_offset_scale k addr x (v.data.cells.take v.validLen) st
    (by rw [e1]; exact hal)
  refine ⟨_, hv.content_eq, ⟨_, h1.mapOutcome.congr (fun s => ?_), replaced_splice hv _ (by rw [List.length_map, e1])⟩,
    ⟨_, h2.mapOutcome.congr (fun s => ?_), replaced_splice hv _ (by rw [List.length_map, e1])⟩⟩
  · unfold offset; rw [hv.content_eq]; simp only [hr]; rfl
  · unfold scale; rw [hv.content_eq]

/-- C20: `offset` and `scale` on complex vectors: the offset of a real number is added to the real
    parts only, the scaling with a real number multiplies both parts. -/
theorem C20_complex_vector [AddCommMonoid T] [Sub T] [CommMagma T] [Div T] (k : RegKind) (addr : Nat) (st : MultiCoreSettings) (x : T)
    (z : Cx T) (v : DspVec T) (hv : v.WF) (hc : v.isComplex = true)
    (hal : ComplexAlignmentAccepted addr k.len v.len) :
    ∃ cs, v.content = some (fromComplex cs) ∧
      (∃ v', Always (v.offset k addr st x) v' ∧
        Replaced v v' (fromComplex (cs.map (fun a => ⟨a.re + x, a.im⟩)))) ∧
      (∃ v', Always (v.scale k addr st x) v' ∧
        Replaced v v' (fromComplex (cs.map (fun a => ⟨a.re * x, a.im * x⟩)))) ∧
      (∃ v', Always (v.offsetComplex k addr st z) v' ∧ Replaced v v' (fromComplex (cs.map (·.add z)))) ∧
      (∃ v', Always (v.scaleComplex k addr st z) v' ∧ Replaced v v' (fromComplex (cs.map (·.mul z)))) := by
  obtain ⟨cs, c1, c2⟩ := hv.content_even hc
  have hal' : ComplexAlignmentAccepted addr k.len (2 * cs.length) := by rw [c2]; exact hal
  have hx := (C20_complex_offset_scale k addr ⟨x, 0⟩ cs st hal').1
  obtain ⟨h1, h2⟩ := C20_complex_offset_scale k addr z cs st hal'
  have h3 := (C20_offset_scale k addr x (fromComplex cs) st (by simpa using hal'.1)).2
  have em : (fromComplex cs).map (· * x) = fromComplex (cs.map (fun a => ⟨a.re * x, a.im * x⟩)) := by
    clear c1 c2 hal' hx h1 h2 h3
    induction cs with
    | nil => rfl
    | cons c cs ih => simp [fromComplex, ih]
  rw [em] at h3
  have ea : cs.map (fun a => a.add ⟨x, 0⟩) = cs.map (fun a => ⟨a.re + x, a.im⟩) := by
    simp [Cx.add]
  rw [ea] at hx
  refine ⟨cs, c1, ⟨_, hx.mapOutcome.congr (fun s => ?_), replaced_splice hv _ (by simp; omega)⟩,
    ⟨_, h3.mapOutcome.congr (fun s => ?_), replaced_splice hv _ (by simp; omega)⟩,
    ⟨_, h1.mapOutcome.congr (fun s => ?_), replaced_splice hv _ (by simp; omega)⟩,
    ⟨_, h2.mapOutcome.congr (fun s => ?_), replaced_splice hv _ (by simp; omega)⟩⟩
  · unfold offset; rw [c1]; simp only [hc]; rfl
  · unfold scale; rw [c1]
  · unfold offsetComplex; rw [c1]; simp only [hc]; rfl
  · unfold scaleComplex; rw [c1]; simp only [hc]; rfl

example : exampleVec.WF ∧ exampleVec.isComplex = true ∧
    ComplexAlignmentAccepted 0 RegKind.fallbackF32x4.len exampleVec.len :=
  ⟨⟨by decide, by decide⟩, by decide, .inl (by decide), by decide⟩

end Dsp
