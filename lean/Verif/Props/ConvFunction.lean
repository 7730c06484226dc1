import Verif.Model.ConvFunction
import Verif.Spec.ConvFunction
import Verif.Props.Refinement
import Verif.Props.ConvVec
import Verif.Props.DftConv
/-
C55: convolution with a function.
-/
namespace Dsp
open DspVec
variable {T α : Type}

theorem list_sum_range [AddCommMonoid α] (f : Nat → α) (n : Nat) :
    ((List.range n).map f).sum = ∑ k ∈ Finset.range n, f k := by
  induction n with
  | zero => rfl
  | succ n ih => rw [List.range_succ, List.map_append, List.sum_append, Finset.sum_range_succ, ← ih]; simp

theorem list_sum_reflect [AddCommMonoid α] (f : Nat → α) (n : Nat) :
    ((List.range (n + 1)).map f).sum = ((List.range (n + 1)).map fun k => f (n - k)).sum := by
  rw [list_sum_range, list_sum_range, ← Finset.sum_range_reflect]
  simp

theorem convFunLoop_eq [CommRing α] [Field T] (ratio : T) (fn : T → α) (l : List α) (z : α) (j : T) :
    (convFunLoop ratio fn (z, j) l).1 =
      z + ((List.range l.length).map fun (k : Nat) => l.getD k 0 * fn (-(j + k) * ratio)).sum := by
  induction l generalizing z j with
  | nil => simp [convFunLoop]
  | cons c l ih =>
    rw [convFunLoop, ih, List.length_cons, List.range_succ_eq_map, List.map_cons, List.sum_cons, List.map_map, add_assoc]
    congr 1
    congr 1
    · simp
    · congr 1
      apply List.map_congr_left
      intro k _
      simp only [Function.comp, List.getD_cons_succ]
      congr 2
      push_cast; ring

theorem convFunAt_eq [CommRing α] [Field T] (ratio : T) (L : Nat) (fn : T → α) (x : List α) (hx : x ≠ []) (i : Nat) :
    convFunAt ratio L fn x i = some ((List.range (2 * L + 1)).map fun (m : Nat) =>
      (cyclic x ((i : Int) - ((m : Int) - L))).getD 0 * fn (((m : T) - L) * ratio)).sum := by
  obtain ⟨l, h1, h2, h3⟩ := C39_wrapping x hx ((i : Int) - L - 1) (2 * L + 1)
  unfold convFunAt
  simp only [Option.bind_eq_bind, h1, Option.bind_some, Option.some.injEq]
  rw [convFunLoop_eq, zero_add, h2, list_sum_reflect (fun (m : Nat) =>
    (cyclic x ((i : Int) - ((m : Int) - L))).getD 0 * fn (((m : T) - L) * ratio))]
  congr 1
  apply List.map_congr_left
  intro k hk
  have hk := List.mem_range.mp hk
  have e1 : (i : Int) - L - 1 + 1 + k = (i : Int) - (((2 * L - k : Nat) : Int) - L) := by omega
  have e2 : -(-(L : T) + k) * ratio = (((2 * L - k : Nat) : T) - L) * ratio := by
    rw [Nat.cast_sub (by omega : k ≤ 2 * L)]; push_cast; ring
  rw [List.getD_eq_getElem?_getD, h3 k hk, e1, e2]

theorem convFunValues_eq [CommRing α] [Field T] (ratio : T) (L : Nat) (fn : T → α) (x : List α) :
    convFunValues ratio L fn x = some (convolveWith fn ratio (min L x.length) x) := by
  unfold convFunValues convolveWith
  have : (if L > x.length then x.length else L) = min L x.length := by split <;> omega
  rw [this]
  by_cases hx : x = []
  · subst hx; rfl
  · exact mapM_some_range _ _ _ fun i _ => convFunAt_eq ratio _ fn x hx i

theorem convolveWith_length [CommRing α] [Field T] (ratio : T) (L : Nat) (fn : T → α) (x : List α) :
    (convolveWith fn ratio L x).length = x.length := by simp [convolveWith]

section
variable [Field T]

/-- A result which is written to memory of the buffer and traded. -/
theorem shows_traded {v : DspVec T} {s : Signal T} (h : v.Shows s) (b : Buffer T) (N : Numbers T)
    (hN : N.isComplex = s.numbers.isComplex) (hb : BufferOk b v.data N.flat.length) :
    ({ v with data := (b.trade N.flat v.data).2, validLen := N.flat.length } : DspVec T).Shows { s with numbers := N } ∧
      BufferKept b v (b.trade N.flat v.data).1 { v with data := (b.trade N.flat v.data).2, validLen := N.flat.length } := by
  obtain ⟨rest, hrest⟩ := trade_ok b v.data N.flat hb
  refine ⟨?_, .of_trade _ rfl⟩
  generalize hw : ({ v with data := (b.trade N.flat v.data).2, validLen := N.flat.length } : DspVec T) = w
  have h1 : w.data = ⟨v.data.kind, N.flat ++ rest⟩ := by rw [← hw]; exact hrest
  have h2 : w.validLen = N.flat.length := by rw [← hw]
  have h3 : w.SameMeta v := ⟨by rw [← hw], by rw [← hw], by rw [← hw], by rw [h1]⟩
  exact h.of_content h3 hN (content_of_cells (s := rest) (by rw [h1]) h2)

/-- `convolve_function_priv` for complex vectors. -/
theorem shows_convolveFunction_complex {v : DspVec T} {a : List (Cx T)} {d : DataDomain} {g : Bool} {x : Option T}
    (h : v.Shows ⟨.complex a, d, g, x⟩) (b : Buffer T) (hb : BufferOk b v.data v.len) (ratio : T) (len : Nat)
    (fr : T → T) (fc : T → Cx T) :
    ∃ w b', v.convolveFunction b ratio len fr fc = some (w, b') ∧ BufferKept b v b' w ∧
      w.Shows ⟨.complex (convolveWith fc ratio (min len a.length) a), d, g, x⟩ := by
  obtain ⟨t, t1, t2⟩ := borrow_ok b v.data v.len hb
  have hl : v.len = 2 * a.length := by rw [h.len]; exact length_fromComplex a
  have hrl : (fromComplex (convolveWith fc ratio (min len a.length) a)).length = v.len := by
    rw [length_fromComplex, convolveWith_length, hl]
  have hlen : (Numbers.complex (convolveWith fc ratio (min len a.length) a)).flat.length = v.validLen := hrl
  obtain ⟨e1, e2⟩ := shows_traded h b (.complex (convolveWith fc ratio (min len a.length) a)) rfl (by rw [hlen]; exact hb)
  rw [hlen] at e1 e2
  refine ⟨_, _, ?_, e2, e1⟩
  have hc : v.isComplex = true := h.isComplex
  have hcont : v.content = some (fromComplex a) := h.content
  simp only [convolveFunction, Option.bind_eq_bind, t1, Option.bind_some, hcont, hc, if_true, toComplex?_fromComplex,
    convFunValues_eq]
  rfl

/-- `convolve_function_priv` for real vectors. -/
theorem shows_convolveFunction_real {v : DspVec T} {a : List T} {d : DataDomain} {g : Bool} {x : Option T}
    (h : v.Shows ⟨.real a, d, g, x⟩) (b : Buffer T) (hb : BufferOk b v.data v.len) (ratio : T) (len : Nat)
    (fr : T → T) (fc : T → Cx T) :
    ∃ w b', v.convolveFunction b ratio len fr fc = some (w, b') ∧ BufferKept b v b' w ∧
      w.Shows ⟨.real (convolveWith fr ratio (min len a.length) a), d, g, x⟩ := by
  obtain ⟨t, t1, t2⟩ := borrow_ok b v.data v.len hb
  have hl : v.len = a.length := h.len
  have hrl : (convolveWith fr ratio (min len a.length) a).length = v.len := by
    rw [convolveWith_length, hl]
  have hlen : (Numbers.real (convolveWith fr ratio (min len a.length) a)).flat.length = v.validLen := hrl
  obtain ⟨e1, e2⟩ := shows_traded h b (.real (convolveWith fr ratio (min len a.length) a)) rfl (by rw [hlen]; exact hb)
  rw [hlen] at e1 e2
  refine ⟨_, _, ?_, e2, e1⟩
  have hc : v.isComplex = false := h.isComplex
  have hcont : v.content = some a := h.content
  simp only [convolveFunction, Option.bind_eq_bind, t1, Option.bind_some, hcont, hc, Bool.false_eq_true, if_false,
    convFunValues_eq]
  rfl

end

section
variable [Field T] [LinearOrder T] [FloorRing T]

omit [LinearOrder T] [FloorRing T] in
theorem fillResponse_eq (fn : T → T) (r : T) (fuel i : Nat) (j : T) (cells : List T) (hf : cells.length ≤ i + 2 * fuel) (p : Nat) :
    (fillResponse fn r fuel i j cells)[p]? =
      if p < cells.length ∧ i ≤ p ∧ (p - i) % 2 = 0 then some (fn ((j + ((p - i) / 2 : Nat)) * r)) else cells[p]? := by
  induction fuel generalizing i j cells with
  | zero =>
    rw [fillResponse, if_neg (by omega)]
  | succ fuel ih =>
    rw [fillResponse]
    by_cases hi : i < cells.length
    · rw [if_pos hi, ih (i + 2) (j + 1) _ (by rw [List.length_set]; omega), List.length_set]
      by_cases h1 : p < cells.length ∧ i + 2 ≤ p ∧ (p - (i + 2)) % 2 = 0
      · rw [if_pos h1, if_pos (by omega)]
        have : (p - i) / 2 = (p - (i + 2)) / 2 + 1 := by omega
        rw [this]; push_cast
        congr 3; ring
      · rw [if_neg h1]
        by_cases h2 : p = i
        · subst h2
          rw [if_pos (by omega), List.getElem?_set_self hi]; simp
        · rw [if_neg (by omega), List.getElem?_set_ne (by omega)]
    · rw [if_neg hi, if_neg (by omega)]

/-- The impulse response which is sampled with the distance `1 / ratio`. -/
def sampledResponse (fn : T → α) (ratio : T) (len : Nat) : List α :=
  (List.range (2 * len + 1)).map fun (m : Nat) => fn (((m : T) - len) * (1 / ratio))

omit [LinearOrder T] [FloorRing T] in
/-- For complex vectors the loop fills the real parts. -/
theorem fillResponse_complex (fn : T → T) (ratio : T) (len : Nat) :
    fillResponse fn (1 / ratio) (2 * (2 * len + 1)) 0 (-(len : T)) (List.replicate (2 * (2 * len + 1)) 0) =
      fromComplex (sampledResponse (fun x => (⟨fn x, 0⟩ : Cx T)) ratio len) := by
  apply List.ext_getElem?
  intro p
  rw [fillResponse_eq _ _ _ _ _ _ (by simp), List.length_replicate]
  obtain ⟨q, rfl | rfl⟩ : ∃ q, p = 2 * q ∨ p = 2 * q + 1 := ⟨p / 2, by omega⟩
  · rw [getElem?_fromComplex_even]
    unfold sampledResponse
    by_cases h : q < 2 * len + 1
    · rw [if_pos (by omega), List.getElem?_map, List.getElem?_range h]
      simp only [Option.map_some, Nat.sub_zero]
      rw [show 2 * q / 2 = q by omega]
      congr 2; ring
    · rw [if_neg (by omega), List.getElem?_eq_none (by simp; omega), List.getElem?_eq_none (by simp; omega)]; rfl
  · rw [getElem?_fromComplex_odd, if_neg (by omega)]
    unfold sampledResponse
    by_cases h : q < 2 * len + 1
    · rw [List.getElem?_map, List.getElem?_range h, List.getElem?_replicate, if_pos (by omega)]
      rfl
    · rw [List.getElem?_eq_none (by simp; omega), List.getElem?_eq_none (by simp; omega)]; rfl

omit [LinearOrder T] [FloorRing T] in
/-- The circular convolution with the sampled response. -/
theorem circularConv_sampled [CommRing α] (fn : T → α) (ratio : T) (len : Nat) (x : List α) :
    circularConv x (sampledResponse fn ratio len) = convolveWith fn (1 / ratio) len x := by
  unfold circularConv convolveWith
  apply List.map_congr_left
  intro i _
  unfold convAt
  have hl : (sampledResponse fn ratio len).length = 2 * len + 1 := by simp [sampledResponse]
  rw [hl]
  have key : ∀ (g : Nat → α) (n : Nat) (z : α), (List.range n).foldl (fun s k => s + g k) z = z + ((List.range n).map g).sum := by
    intro g n
    induction n with
    | zero => simp
    | succ n ih => intro z; rw [List.range_succ, List.foldl_append, ih]; simp [add_assoc]
  rw [key (fun (k : Nat) => (cyclic x ((i : Int) + ((2 * len + 1 - 1) / 2 : Nat) - k)).getD 0 * (sampledResponse fn ratio len).getD k 0),
    zero_add]
  congr 1
  apply List.map_congr_left
  intro m hm
  have hm := List.mem_range.mp hm
  have e1 : (i : Int) + ((2 * len + 1 - 1) / 2 : Nat) - m = (i : Int) - ((m : Int) - len) := by omega
  rw [e1]
  congr 1
  rw [List.getD_eq_getElem?_getD]
  simp [sampledResponse, hm]

theorem roundAway_near_one [IsStrictOrderedRing T] {ratio : T} (h1 : 1 / 2 ≤ ratio) (h2 : ratio < 3 / 2) : toUsize (roundAway |ratio|) = some 1 := by
  have h0 : 0 < ratio := by linarith [show (0 : T) < 1 / 2 by norm_num]
  have hf : ⌊ratio + 1 / 2⌋ = 1 := by
    rw [Int.floor_eq_iff]; push_cast; constructor <;> linarith
  rw [abs_of_pos h0]
  unfold roundAway
  rw [if_neg (not_lt.2 h0.le), hf]
  unfold toUsize
  rw [if_neg (by push_cast; norm_num)]
  simp

variable [IsStrictOrderedRing T]

omit [FloorRing T] in
theorem metaMismatch_same (v h : DspVec T) (h1 : h.isComplex = v.isComplex) (h2 : h.dom = v.dom) (h3 : h.delta = v.delta) :
    v.metaMismatch h = false := by
  unfold metaMismatch
  rw [h1, h2, h3]
  simp only [bne_self_eq_false, Bool.false_or]
  unfold deltaRatioBad
  simp only [show (DeltaBounds.hi : T) = 11 / 10 from rfl, show (DeltaBounds.lo : T) = 9 / 10 from rfl]
  cases hd : v.delta with
  | none => rfl
  | some d =>
    simp only
    by_cases h0 : d = 0
    · simp [h0]
    · rw [if_neg h0, div_self h0]
      simp only [Bool.or_eq_false_iff, decide_eq_false_iff_not, not_lt, gt_iff_lt]
      constructor <;> norm_num

theorem toUsize_round_abs (ratio : T) : ∃ q, toUsize (roundAway |ratio|) = some q := by
  unfold toUsize roundAway
  rw [if_neg (not_lt.2 (abs_nonneg ratio)), if_neg]
  · exact ⟨_, rfl⟩
  · rw [not_le]
    have : (0 : Int) ≤ ⌊|ratio| + 1 / 2⌋ := Int.floor_nonneg.2 (by positivity)
    have : (0 : T) ≤ ((⌊|ratio| + 1 / 2⌋ : Int) : T) := by exact_mod_cast this
    linarith

/-- C55: `convolve` with a real function on a real vector, where the special implementation is not selected: the
    convolution with the function. -/
theorem C55_convolve_real_partial (K : FftKernel T) (junk : List (Cx T) → List (Cx T)) (k : RegKind) (addr : Nat)
    (st : MultiCoreSettings) (v : DspVec T) (a : List T) (g : Bool) (x : Option T)
    (h : v.Shows ⟨.real a, .time, g, x⟩) (b : Buffer T) (hb : BufferOk b v.data v.len) (fn : T → T) (ratio : T) (len : Nat)
    (hp : ¬ wouldBenefitFromSimd v.len len ratio) :
    ∃ w b', Always (v.convolveReal K junk k addr st b fn ratio len) (w, b') ∧
      w.Shows ⟨.real (convolveWith fn ratio (min len a.length) a), .time, g, x⟩ := by
  obtain ⟨w, b', e1, -, e3⟩ := shows_convolveFunction_real h b hb ratio len fn (fun x => ⟨fn x, 0⟩)
  refine ⟨w, b', (Always.const (w, b')).congr fun sched => ?_, e3⟩
  obtain ⟨q, hq⟩ := toUsize_round_abs ratio
  unfold convolveReal
  rw [if_neg (by rw [h.dom]; simp), show calcPoints len ratio v.isComplex = some _ from by unfold calcPoints; rw [hq]; rfl]
  simp only [if_neg hp, e1]
  rfl

/-- C55: the special implementation on complex vectors evaluates the function in the distance `1 / ratio`. -/
theorem C55_convolve_complex_simd (K : FftKernel T) (hK : K.Convolves) (junk : List (Cx T) → List (Cx T))
    (hj : ∀ l, (junk l).length = l.length) (k : RegKind) (addr : Nat)
    (st : MultiCoreSettings) (v : DspVec T) (a : List (Cx T)) (g : Bool) (x : Option T)
    (h : v.Shows ⟨.complex a, .time, g, x⟩) (b : Buffer T) (hb : BufferOk b v.data v.len) (fn : T → T) (ratio : T) (len : Nat)
    (hp : wouldBenefitFromSimd v.len len ratio) (hr : ratio < 3 / 2) (hal : ConvAligned k addr)
    (hgap : 50 < len → 5000 < a.length → 10 * (2 * len + 1) < a.length →
      NoGap a.length (2 * len + 1) (freqLen (2 * len + 1)) ∧ FreqBufferOk K b a.length (2 * len + 1)) :
    ∃ w b', Always (v.convolveReal K junk k addr st b fn ratio len) (w, b') ∧
      w.Shows ⟨.complex (convolveWith (fun t => ⟨fn t, 0⟩) (1 / ratio) len a), .time, g, x⟩ := by
  have hvl : v.len = 2 * a.length := by rw [h.len]; exact length_fromComplex a
  have hvc : v.isComplex = true := h.isComplex
  have hvp : v.points = a.length := h.points
  obtain ⟨p1, p2, p3, p4⟩ := id hp
  have hcp : calcPoints len ratio v.isComplex = some (2 * (2 * len + 1)) := by
    unfold calcPoints
    rw [roundAway_near_one p4.le hr, hvc]; simp
  generalize hH : v.impulseResponse fn ratio len (2 * (2 * len + 1)) = H
  have hHd : H.data.cells = fromComplex (sampledResponse (fun x => (⟨fn x, 0⟩ : Cx T)) ratio len) := by
    rw [← hH]; exact fillResponse_complex fn ratio len
  have hHv : H.validLen = 2 * (2 * len + 1) := by rw [← hH]; rfl
  have hHl : (fromComplex (sampledResponse (fun x => (⟨fn x, 0⟩ : Cx T)) ratio len)).length = 2 * (2 * len + 1) := by
    rw [length_fromComplex]; simp [sampledResponse]
  have hHc : H.content = some (fromComplex (sampledResponse (fun x => (⟨fn x, 0⟩ : Cx T)) ratio len)) :=
    content_iff.2 ⟨by rw [hHv, hHd, hHl], by rw [hHd, hHv, ← hHl, List.take_length]⟩
  have hHx : H.isComplex = v.isComplex := by rw [← hH]; rfl
  have hHp : H.points = 2 * len + 1 := by
    unfold points; rw [hHx, hvc, hHv]; simp
  have hHw : H.WF := wf_of_content_complex hHc
  have hpath : v.convPath H = .frequency → 50 < len ∧ 5000 < a.length ∧ 10 * (2 * len + 1) < a.length := by
    intro he
    unfold convPath at he
    have hHlen : H.len = 2 * (2 * len + 1) := hHv
    rw [hHlen, hvl] at he
    split at he
    · cases he
    · split at he
      · omega
      · cases he
  obtain ⟨w, b', e1, e2⟩ := C37_convolve_signal_partial K hK junk hj k addr st v H h.wf hHw
    (metaMismatch_same v H hHx (by rw [← hH]; rfl) (by rw [← hH]; rfl)) h.dom (by omega) (by omega) b hb (fun _ => hal)
    (fun he => by
      obtain ⟨c1, c2, c3⟩ := hpath he
      obtain ⟨g1, g2⟩ := hgap c1 c2 c3
      rw [hHp, hvp]
      exact ⟨g1, by rw [hHd, hHl]; omega, g2⟩)
  refine ⟨w, b', ?_, ?_⟩
  · refine (e1.andThen (f := fun r => match r with
      | (w, b', .ok ()) => .finished (w, b')
      | (_, _, .error _) => .panic) rfl).congr fun sched => ?_
    unfold convolveReal
    rw [if_neg (by rw [h.dom]; simp), hcp]
    simp only [if_pos hp, hH]
    rfl
  · obtain ⟨r1, r2, -, r4⟩ := e2
    obtain ⟨y, z, y1, y2, y3⟩ := r4 hvc
    have := content_complex_unique y1 h.content
    subst this
    have := content_complex_unique y2 hHc
    subst this
    rw [circularConv_sampled] at y3
    exact h.of_content r2 (N := .complex (convolveWith (fun t => (⟨fn t, 0⟩ : Cx T)) (1 / ratio) len y)) rfl y3

/-- C55: `convolve` with a real function on a complex vector: the convolution with the function, if `ratio` is 1 or
    the special implementation is not selected. -/
theorem C55_convolve_complex_partial (K : FftKernel T) (hK : K.Convolves) (junk : List (Cx T) → List (Cx T))
    (hj : ∀ l, (junk l).length = l.length) (k : RegKind) (addr : Nat)
    (st : MultiCoreSettings) (v : DspVec T) (a : List (Cx T)) (g : Bool) (x : Option T)
    (h : v.Shows ⟨.complex a, .time, g, x⟩) (b : Buffer T) (hb : BufferOk b v.data v.len) (fn : T → T) (ratio : T) (len : Nat)
    (hp : ratio = 1 ∨ ¬ wouldBenefitFromSimd v.len len ratio) (hal : ConvAligned k addr)
    (hgap : 50 < len → 5000 < a.length → 10 * (2 * len + 1) < a.length →
      NoGap a.length (2 * len + 1) (freqLen (2 * len + 1)) ∧ FreqBufferOk K b a.length (2 * len + 1)) :
    ∃ w b', Always (v.convolveReal K junk k addr st b fn ratio len) (w, b') ∧
      w.Shows ⟨.complex (convolveWith (fun t => ⟨fn t, 0⟩) ratio (min len a.length) a), .time, g, x⟩ := by
  by_cases hs : wouldBenefitFromSimd v.len len ratio
  · have h1 : ratio = 1 := hp.resolve_right (fun n => n hs)
    have hvl : v.len = 2 * a.length := by rw [h.len]; exact length_fromComplex a
    have hm : min len a.length = len := by have := hs.1; have := hs.2.1; omega
    obtain ⟨w, b', e1, e2⟩ := C55_convolve_complex_simd K hK junk hj k addr st v a g x h b hb fn ratio len hs
      (by rw [h1]; norm_num) hal hgap
    rw [hm]
    refine ⟨w, b', e1, ?_⟩
    rw [h1, one_div_one] at e2
    rw [h1]; exact e2
  · obtain ⟨w, b', e1, -, e3⟩ := shows_convolveFunction_complex h b hb ratio len fn (fun x => ⟨fn x, 0⟩)
    refine ⟨w, b', (Always.const (w, b')).congr fun sched => ?_, e3⟩
    obtain ⟨q, hq⟩ := toUsize_round_abs ratio
    unfold convolveReal
    rw [if_neg (by rw [h.dom]; simp), show calcPoints len ratio v.isComplex = some _ from by unfold calcPoints; rw [hq]; rfl]
    simp only [if_neg hs, e1]
    rfl

/-- C55: `convolve` with a complex function, where the special implementation is not selected. -/
theorem C55_complex_response_partial (K : FftKernel T) (junk : List (Cx T) → List (Cx T)) (k : RegKind) (addr : Nat)
    (st : MultiCoreSettings) (v : DspVec T) (a : List (Cx T)) (g : Bool) (x : Option T)
    (h : v.Shows ⟨.complex a, .time, g, x⟩) (b : Buffer T) (hb : BufferOk b v.data v.len) (fn : T → Cx T) (ratio : T) (len : Nat)
    (hp : ¬ wouldBenefitFromSimd v.len len ratio) :
    ∃ w b', Always (v.convolveComplex K junk k addr st b fn ratio len) (w, b') ∧
      w.Shows ⟨.complex (convolveWith fn ratio (min len a.length) a), .time, g, x⟩ := by
  obtain ⟨w, b', e1, -, e3⟩ := shows_convolveFunction_complex h b hb ratio len (fun _ => 0) fn
  refine ⟨w, b', (Always.const (w, b')).congr fun sched => ?_, e3⟩
  obtain ⟨q, hq⟩ := toUsize_round_abs ratio
  have hc : ¬ (v.isComplex = false) := by rw [h.isComplex]; simp [Numbers.isComplex]
  unfold convolveComplex
  rw [if_neg hc, if_neg (by rw [h.dom]; simp), show calcPoints len ratio v.isComplex = some _ from by unfold calcPoints; rw [hq]; rfl]
  simp only [if_neg hp, e1]
  rfl

omit [LinearOrder T] [FloorRing T] [IsStrictOrderedRing T] in
/-- The loop advances in steps of three: it runs out of the data if their number is no multiple of three. -/
theorem fillComplexResponse_none (fn : T → Cx T) (r : T) (n : Nat) (hn : n % 3 ≠ 0) :
    ∀ (fuel i : Nat) (j : T) (cells : List T), i % 3 = 0 → i < n → n ≤ i + fuel → fillComplexResponse fn r n fuel i j cells = none := by
  intro fuel
  induction fuel with
  | zero => intro i j cells _ h1 h2; omega
  | succ fuel ih =>
    intro i j cells h0 h1 h2
    rw [fillComplexResponse, if_pos h1]
    by_cases hc : cells.length < n ∨ n ≤ i + 2
    · rw [if_pos hc]
    · rw [if_neg hc]
      exact ih _ _ _ (by omega) (by omega) (by omega)

/-- C55, C51: where the special implementation is selected for a complex function (more than 1000 points, a short
    response and for example the ratio 1), `convolve` always panics: if the ratio rounds to one, and also otherwise unless the
    number of points is a multiple of three. -/
theorem C55_complex_response_violated (K : FftKernel T) (junk : List (Cx T) → List (Cx T)) (k : RegKind) (addr : Nat)
    (st : MultiCoreSettings) (v : DspVec T) (a : List (Cx T)) (g : Bool) (x : Option T)
    (h : v.Shows ⟨.complex a, .time, g, x⟩) (b : Buffer T) (fn : T → Cx T) (ratio : T) (len : Nat)
    (hp : wouldBenefitFromSimd v.len len ratio) (hr : ratio < 3 / 2 ∨ a.length % 3 ≠ 0) (sched : List Nat) :
    v.convolveComplex K junk k addr st b fn ratio len sched = .panic := by
  have hc : v.isComplex = true := h.isComplex
  obtain ⟨p1, p2, p3, p4⟩ := id hp
  have p2 : 2000 < v.validLen := p2
  obtain ⟨f, hf⟩ : ∃ f, v.validLen = f + 1 := ⟨v.validLen - 1, by omega⟩
  have hlen : v.validLen = 2 * a.length := by
    have h1 : v.len = 2 * a.length := by rw [h.len]; exact length_fromComplex a
    exact h1
  obtain ⟨q, hq⟩ := toUsize_round_abs ratio
  obtain ⟨points, hcp, hnone⟩ : ∃ points, calcPoints len ratio v.isComplex = some points ∧
      fillComplexResponse fn (1 / ratio) v.validLen v.validLen 0 (-(len : T)) (List.replicate (2 * points) 0) = none := by
    by_cases hr' : ratio < 3 / 2
    · refine ⟨2 * (2 * len + 1), ?_, ?_⟩
      · unfold calcPoints
        rw [roundAway_near_one p4.le hr', hc]; simp
      · conv_lhs => rw [hf, fillComplexResponse]
        rw [if_pos (by omega), if_pos]
        left; simp; omega
    · refine ⟨_, show calcPoints len ratio v.isComplex = some _ from by unfold calcPoints; rw [hq]; rfl, ?_⟩
      have := hr.resolve_left hr'
      exact fillComplexResponse_none fn _ _ (by omega) _ _ _ _ rfl (by omega) (by omega)
  unfold convolveComplex
  rw [if_neg (by rw [hc]; simp), if_neg (by rw [h.dom]; simp), hcp]
  simp only [if_pos hp, hnone]

omit [IsStrictOrderedRing T] in
/-- C55: signals in the frequency domain, and real vectors for a complex function, are marked as invalid. -/
theorem C55_rejects (K : FftKernel T) (junk : List (Cx T) → List (Cx T)) (k : RegKind) (addr : Nat)
    (st : MultiCoreSettings) (v : DspVec T) (b : Buffer T) (ratio : T) (len : Nat) (sched : List Nat) :
    (v.dom = .frequency → ∀ fn, v.convolveReal K junk k addr st b fn ratio len sched = .finished (v.markInvalid, b)) ∧
    (v.dom = .frequency ∨ v.isComplex = false → ∀ fn,
      v.convolveComplex K junk k addr st b fn ratio len sched = .finished (v.markInvalid, b)) := by
  constructor
  · intro h fn
    unfold convolveReal
    rw [if_pos (by rw [h]; simp)]
  · intro h fn
    unfold convolveComplex
    by_cases hc : v.isComplex = false
    · rw [if_pos hc]
    · rw [if_neg hc, if_pos (by rw [h.resolve_right hc]; simp)]

omit [LinearOrder T] [FloorRing T] [IsStrictOrderedRing T] in
/-- A sum with one term. -/
theorem convolveWith_single [CommRing α] (fn : T → α) (ratio : T) (L : Nat) (a : List α) (q : Nat) (hq : q < 2 * L + 1)
    (h1 : fn (((q : T) - L) * ratio) = 1) (h0 : ∀ m < 2 * L + 1, m ≠ q → fn (((m : T) - L) * ratio) = 0) :
    convolveWith fn ratio L a = (List.range a.length).map fun (i : Nat) => (cyclic a ((i : Int) - ((q : Int) - L))).getD 0 := by
  unfold convolveWith
  apply List.map_congr_left
  intro i _
  rw [list_sum_range, Finset.sum_eq_single q]
  · rw [h1, mul_one]
  · intro m hm hne
    rw [h0 m (Finset.mem_range.mp hm) hne, mul_zero]
  · intro hn; exact absurd (Finset.mem_range.mpr hq) hn

omit [LinearOrder T] [FloorRing T] [IsStrictOrderedRing T] in
theorem cyclic_self (a : List α) [Zero α] : ((List.range a.length).map fun (i : Nat) => (cyclic a ((i : Int) - (0 : Int))).getD 0) = a := by
  apply List.ext_getElem?
  intro i
  by_cases hi : i < a.length
  · rw [List.getElem?_map, List.getElem?_range hi]
    simp only [Option.map_some, cyclic, sub_zero]
    rw [Int.emod_eq_of_lt (by omega) (by omega)]
    simp [hi]
  · rw [List.getElem?_eq_none (by simp; omega), List.getElem?_eq_none (by omega)]

/-- The unit impulse. -/
def unitImpulse (t : T) : T := if t = 0 then 1 else 0

omit [FloorRing T] in
/-- C55 (about the specification): the convolution with the unit impulse changes nothing. -/
theorem C55_unit_impulse (ratio : T) (hr : ratio ≠ 0) (L : Nat) (a : List T) : convolveWith unitImpulse ratio L a = a := by
  rw [convolveWith_single unitImpulse ratio L a L (by omega) (by simp [unitImpulse])]
  · conv_rhs => rw [← cyclic_self a]
    simp
  · intro m hm hne
    have : ((m : T) - L) * ratio ≠ 0 := mul_ne_zero (sub_ne_zero.2 (by exact_mod_cast hne)) hr
    simp [unitImpulse, this]

theorem roundAway_one : roundAway (1 : T) = 1 := by
  unfold roundAway
  rw [if_neg (by norm_num)]
  have : ⌊(1 : T) + 1 / 2⌋ = 1 := by
    rw [Int.floor_eq_iff]; push_cast; constructor <;> norm_num
  rw [this]; simp

/-- The special implementation is selected for the ratio 1. -/
theorem benefit_one {n len : Nat} (h1 : len ≤ 202) (h2 : 2000 < n) : wouldBenefitFromSimd n len (1 : T) :=
  ⟨h1, h2, by rw [one_div_one, roundAway_one]; simp, by norm_num⟩

/-- C55 is violated for real vectors: with the ratio 1 and more than 2000 points, `convolve` with the unit impulse delays the
    signal by `len` points instead of leaving it as it is (`C55_unit_impulse`): the loop fills only every second value
    of the impulse response. -/
theorem C55_real_vector_violated (K : FftKernel T) (hK : K.Convolves) (junk : List (Cx T) → List (Cx T))
    (hj : ∀ l, (junk l).length = l.length) (k : RegKind) (addr : Nat)
    (st : MultiCoreSettings) (v : DspVec T) (a : List T) (g : Bool) (x : Option T)
    (h : v.Shows ⟨.real a, .time, g, x⟩) (b : Buffer T) (hb : BufferOk b v.data v.len) (len : Nat)
    (hl : len ≤ 202) (hn : 2000 < a.length) (hal : ConvAligned k addr) :
    ∃ w b', Always (v.convolveReal K junk k addr st b unitImpulse 1 len) (w, b') ∧
      w.Shows ⟨.real ((List.range a.length).map fun (i : Nat) => (cyclic a ((i : Int) - len)).getD 0), .time, g, x⟩ := by
  have hvl : v.len = a.length := h.len
  have hvc : v.isComplex = false := h.isComplex
  have hvp : v.points = a.length := h.points
  have hp : wouldBenefitFromSimd v.len len (1 : T) := benefit_one hl (by omega)
  have hcp : calcPoints len (1 : T) v.isComplex = some (2 * len + 1) := by
    unfold calcPoints
    rw [roundAway_near_one (by norm_num) (by norm_num), hvc]; simp
  generalize hH : v.impulseResponse unitImpulse 1 len (2 * len + 1) = H
  have hHd : H.data.cells = (List.range (2 * len + 1)).map fun p => if p = 2 * len then (1 : T) else 0 := by
    rw [← hH]
    show fillResponse _ _ _ _ _ _ = _
    apply List.ext_getElem?
    intro p
    rw [fillResponse_eq _ _ _ _ _ _ (by simp), List.length_replicate]
    by_cases hp1 : p < 2 * len + 1
    · rw [List.getElem?_map, List.getElem?_range hp1, Option.map_some]
      by_cases hp2 : p % 2 = 0
      · rw [if_pos (by omega)]
        congr 1
        unfold unitImpulse
        by_cases hp3 : p = 2 * len
        · subst hp3
          rw [if_pos rfl, if_pos]
          rw [show (2 * len - 0) / 2 = len by omega]; ring
        · rw [if_neg hp3, if_neg]
          rw [one_div_one, mul_one, Nat.sub_zero]
          have : ((p / 2 : Nat) : T) ≠ (len : T) := by exact_mod_cast (by omega : p / 2 ≠ len)
          intro h0
          exact this (by linear_combination h0)
      · rw [if_neg (by omega), if_neg (by omega), List.getElem?_replicate, if_pos hp1]
    · rw [if_neg (by omega), List.getElem?_eq_none (by simp; omega), List.getElem?_eq_none (by simp; omega)]
  have hHv : H.validLen = 2 * len + 1 := by rw [← hH]; rfl
  have hHc : H.content = some ((List.range (2 * len + 1)).map fun p => if p = 2 * len then (1 : T) else 0) :=
    content_iff.2 ⟨by rw [hHv, hHd]; simp, by rw [hHd, hHv]; exact List.take_of_length_le (by simp)⟩
  have hHx : H.isComplex = v.isComplex := by rw [← hH]; rfl
  have hHp : H.points = 2 * len + 1 := by
    unfold points; rw [hHx, hvc, hHv]; simp
  have hHw : H.WF := ⟨by rw [hHd, hHv]; simp, fun hc => by rw [hHx, hvc] at hc; cases hc⟩
  obtain ⟨w, b', e1, e2⟩ := C37_convolve_signal_partial K hK junk hj k addr st v H h.wf hHw
    (metaMismatch_same v H hHx (by rw [← hH]; rfl) (by rw [← hH]; rfl)) h.dom (by omega) (by omega) b hb (fun _ => hal)
    (fun he => by
      unfold convPath at he
      split at he
      · cases he
      · split at he
        · rename_i hcc; rw [hvc] at hcc; simp at hcc
        · cases he)
  refine ⟨w, b', ?_, ?_⟩
  · refine (e1.andThen (f := fun r => match r with
      | (w, b', .ok ()) => .finished (w, b')
      | (_, _, .error _) => .panic) rfl).congr fun sched => ?_
    unfold convolveReal
    rw [if_neg (by rw [h.dom]; simp), hcp]
    simp only [if_pos hp, hH]
    rfl
  · obtain ⟨r1, r2, r3, -⟩ := e2
    obtain ⟨y, z, y1, y2, y3⟩ := r3 hvc
    have ya : y = a := by rw [h.content] at y1; exact (Option.some.inj y1).symm
    subst ya
    rw [hHc] at y2; cases y2
    refine h.of_content r2 (N := .real _) rfl ?_
    rw [y3]
    show some _ = some _
    congr 1
    unfold circularConv
    apply List.map_congr_left
    intro i _
    unfold convAt
    simp only [List.length_map, List.length_range]
    have key : ∀ (g : Nat → T) (n : Nat) (z : T), (List.range n).foldl (fun s k => s + g k) z = z + ∑ k ∈ Finset.range n, g k := by
      intro g n
      induction n with
      | zero => simp
      | succ n ih => intro z; rw [List.range_succ, List.foldl_append, ih, Finset.sum_range_succ]; simp [add_assoc]
    rw [key (fun (k : Nat) => (cyclic y ((i : Int) + ((2 * len + 1 - 1) / 2 : Nat) - k)).getD 0 *
      ((List.range (2 * len + 1)).map fun p => if p = 2 * len then (1 : T) else 0).getD k 0), zero_add,
      Finset.sum_eq_single (2 * len)]
    · rw [List.getD_eq_getElem?_getD (i := 2 * len), List.getElem?_map, List.getElem?_range (by omega)]
      simp only [Option.map_some, if_true, Option.getD_some, mul_one]
      congr 2; omega
    · intro m hm hne
      have hm := Finset.mem_range.mp hm
      rw [List.getD_eq_getElem?_getD (i := m), List.getElem?_map, List.getElem?_range hm]
      simp [hne]
    · intro hn; exact absurd (Finset.mem_range.mpr (by omega)) hn

omit [FloorRing T] in
theorem half_numerals : (1 : T) / (5000001 / 10000000) = 10000000 / 5000001 := by norm_num

/-- C55 is violated for ratios near 1/2: the special implementation is selected and evaluates the function in
    the distance `1 / ratio` (about 2) instead of `ratio`: a function which is zero at all points which the
    specification names gives a delayed signal instead of zeros. -/
theorem C55_ratio_violated (K : FftKernel T) (hK : K.Convolves) (junk : List (Cx T) → List (Cx T))
    (hj : ∀ l, (junk l).length = l.length) (k : RegKind) (addr : Nat)
    (st : MultiCoreSettings) (v : DspVec T) (a : List (Cx T)) (g : Bool) (x : Option T)
    (h : v.Shows ⟨.complex a, .time, g, x⟩) (b : Buffer T) (hb : BufferOk b v.data v.len) (len : Nat)
    (hl1 : 1 ≤ len) (hl : len ≤ 50) (hn : 1000 < a.length) (hal : ConvAligned k addr) :
    ∃ (ratio : T) (fn : T → T) (w : DspVec T) (b' : Buffer T), Always (v.convolveReal K junk k addr st b fn ratio len) (w, b') ∧
      (∀ m : Int, fn (m * ratio) = 0) ∧
      w.Shows ⟨.complex ((List.range a.length).map fun (i : Nat) => (cyclic a ((i : Int) - 1)).getD 0), .time, g, x⟩ := by
  have hvl : v.len = 2 * a.length := by rw [h.len]; exact length_fromComplex a
  have hben : wouldBenefitFromSimd v.len len ((5000001 : T) / 10000000) := by
    refine ⟨by omega, by omega, ?_, by norm_num⟩
    rw [half_numerals]
    have : roundAway ((10000000 : T) / 5000001) = 2 := by
      unfold roundAway
      rw [if_neg (by norm_num)]
      have : ⌊(10000000 : T) / 5000001 + 1 / 2⌋ = 2 := by
        rw [Int.floor_eq_iff]; push_cast; constructor <;> norm_num
      rw [this]; simp
    rw [this, abs_lt]
    constructor <;> norm_num
  obtain ⟨w, b', e1, e2⟩ := C55_convolve_complex_simd K hK junk hj k addr st v a g x h b hb
    (fun t => if t = 10000000 / 5000001 then 1 else 0) (5000001 / 10000000) len hben (by norm_num) hal (fun hc => by omega)
  refine ⟨5000001 / 10000000, _, w, b', e1, ?_, ?_⟩
  · intro m
    show (if _ then _ else _) = _
    rw [if_neg]
    intro he
    have h2 : (m : T) * (5000001 * 5000001) = 10000000 * 10000000 := by
      field_simp at he
      linarith
    have h3 : m * (5000001 * 5000001) = 10000000 * 10000000 := by exact_mod_cast h2
    omega
  · rw [half_numerals, convolveWith_single _ _ len a (len + 1) (by omega)] at e2
    · rw [show (fun (i : Nat) => (cyclic a ((i : Int) - (((len + 1 : Nat) : Int) - len))).getD 0) =
        fun (i : Nat) => (cyclic a ((i : Int) - 1)).getD 0 from by
          funext i; congr 2; push_cast; ring] at e2
      exact e2
    · push_cast
      rw [add_sub_cancel_left, one_mul, if_pos rfl]; rfl
    · intro m hm hne
      have : ¬ ((m : T) - len) * (10000000 / 5000001) = 10000000 / 5000001 := by
        intro he
        have h1 : (m : T) - len = 1 := by
          have hz : (10000000 : T) / 5000001 ≠ 0 := by norm_num
          exact mul_right_cancel₀ hz (by rw [he, one_mul])
        have : (m : T) = (len + 1 : Nat) := by push_cast; linear_combination h1
        exact hne (by exact_mod_cast this)
      rw [if_neg this]; rfl

end

/-! Vectors which meet the hypotheses -/

/-- Three real numbers, with unused storage. -/
def funVec : DspVec ℚ := ⟨⟨.vec, [1, 2, 4, 9]⟩, some 1, .time, .real, 3⟩

/-- A real vector with 2001 points. -/
def longReal : DspVec ℝ := ⟨⟨.vec, List.replicate 2001 5⟩, some 1, .time, .real, 2001⟩

/-- A complex vector with 1001 points. -/
def longComplex : DspVec ℝ := ⟨⟨.vec, fromComplex (List.replicate 1001 ⟨1, 2⟩)⟩, some 1, .time, .complex, 2002⟩

theorem longReal_shows : longReal.Shows ⟨.real (List.replicate 2001 5), .time, false, some 1⟩ :=
  ⟨content_of_cells (s := []) (by rw [List.append_nil]; rfl) (by simp [-List.reduceReplicate, Numbers.flat, longReal]), rfl, rfl, rfl⟩

theorem longComplex_shows : longComplex.Shows ⟨.complex (List.replicate 1001 ⟨1, 2⟩), .time, false, some 1⟩ :=
  ⟨content_of_cells (s := []) (by rw [List.append_nil]; rfl) (by simp [-List.reduceReplicate, Numbers.flat, longComplex]), rfl, rfl, rfl⟩

/-- The hypotheses of `C55_convolve_real_partial`. -/
example : funVec.Shows ⟨.real [1, 2, 4], .time, false, some 1⟩ ∧ BufferOk (.single []) funVec.data funVec.len ∧
    ¬ wouldBenefitFromSimd funVec.len 1 (1 / 2 : ℚ) :=
  ⟨⟨rfl, rfl, rfl, rfl⟩, trivial, fun h => absurd h.2.1 (by decide)⟩

/-- The function `t ↦ 4 t + 1`, sampled in the distance 1/2 at -1, 0 and 1. -/
example : convolveWith (fun t : Int => 4 * t + 1) 2 1 [1, 2, 4] = [23, -17, 15] := by decide

/-- The hypotheses of `C55_convolve_complex_partial` and `C55_convolve_complex_simd` with the special implementation. -/
example : dftKernel.Convolves ∧ longComplex.Shows ⟨.complex (List.replicate 1001 ⟨1, 2⟩), .time, false, some 1⟩ ∧
    BufferOk (.single []) longComplex.data longComplex.len ∧ wouldBenefitFromSimd longComplex.len 50 (1 : ℝ) ∧
    (1 : ℝ) < 3 / 2 ∧ ConvAligned .avxF32x8 4 :=
  ⟨dft_convolves, longComplex_shows, trivial, benefit_one (by omega) (by decide), by norm_num, by decide⟩

/-- The hypotheses of `C55_complex_response_violated` with 1001 points and a ratio which does not round to one. -/
example : wouldBenefitFromSimd longComplex.len 5 (2000000 : ℚ) ∧ ¬ ((2000000 : ℚ) < 3 / 2) ∧ 1001 % 3 ≠ 0 := by decide +kernel

/-- A larger response: the convolution with blocks, without a gap. -/
example : 50 < 100 ∧ 5000 < 7600 ∧ 10 * (2 * 100 + 1) < 7600 ∧ NoGap 7600 (2 * 100 + 1) (freqLen (2 * 100 + 1)) := by
  have : freqLen (2 * 100 + 1) = 1024 := by decide +kernel
  rw [this]
  unfold NoGap
  omega

/-- The hypotheses of `C55_complex_response_partial`. -/
example : (⟨⟨.vec, [1, 2, 4, 9]⟩, none, .time, .complex, 4⟩ : DspVec ℚ).Shows ⟨.complex [⟨1, 2⟩, ⟨4, 9⟩], .time, false, none⟩ ∧
    ¬ wouldBenefitFromSimd 4 1 (1 : ℚ) :=
  ⟨⟨rfl, rfl, rfl, rfl⟩, fun h => absurd h.2.1 (by decide)⟩

/-- The hypotheses of `C55_real_vector_violated`. -/
example : longReal.Shows ⟨.real (List.replicate 2001 5), .time, false, some 1⟩ ∧
    2000 < (List.replicate 2001 (5 : ℝ)).length ∧ BufferOk (.single []) longReal.data longReal.len :=
  ⟨longReal_shows, by simp [-List.reduceReplicate], trivial⟩

end Dsp
