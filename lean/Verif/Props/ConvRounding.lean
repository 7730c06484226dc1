import Verif.Props.ConvVec
import Verif.Props.RoundingComplex
import Verif.Spec.ConvRounding
/-
C84: rounding errors of the convolution.
-/
namespace Dsp
open DspVec
variable {T α : Type}

section
variable [Zero α] [Add α] [Mul α]

theorem convAt_pairs (x h : List α) (i : Nat) :
    convAt x h i = (convPairs x h i).foldl (fun s p => s + p.1 * p.2) 0 := by
  unfold convAt convPairs
  rw [List.foldl_map]

/-- The additions of the convolution without registers. -/
theorem convAt_sumOf (x h : List α) (i : Nat) :
    SumOf h.length (convAt x h i) ((convPairs x h i).map fun p => p.1 * p.2 : Multiset α) := by
  have := (SumOf.zero (T := α) 0).foldl_leaves (fun p : α × α => p.1 * p.2) (convPairs x h i)
  rw [zero_add, ← convAt_pairs] at this
  simpa [convPairs] using this

omit [Add α] [Mul α] in
/-- Away from the ends nothing wraps around. -/
theorem convPairs_interior (x h : List α) (i : Nat) (h1 : h.length ≤ i + (h.length - h.length / 2))
    (h2 : i + (h.length - h.length / 2) ≤ x.length) :
    convPairs x h i = ((x.drop (i + (h.length - h.length / 2) - h.length)).take h.length).reverse.zip h := by
  have hlen : ((x.drop (i + (h.length - h.length / 2) - h.length)).take h.length).length = h.length := by
    simp; omega
  unfold convPairs
  apply List.ext_getElem (by simp; omega)
  intro k g1 g2
  have hk : k < h.length := by simpa using g1
  simp only [List.getElem_map, List.getElem_range, List.getElem_zip, List.getElem_reverse, hlen,
    List.getElem_take, List.getElem_drop]
  have e : ((i : Int) + ((h.length - 1) / 2 : Nat) - k) % (x.length : Int) =
      ((i + (h.length - h.length / 2) - h.length + (h.length - 1 - k) : Nat) : Int) := by
    rw [Int.emod_eq_of_lt (by omega) (by omega)]; omega
  unfold cyclic
  rw [e, Int.toNat_natCast, List.getElem?_eq_getElem (by omega)]
  simp [hk]

omit [Add α] [Mul α] in
/-- Pairs with a zero of the padding do not contribute. -/
theorem sum_pairs_padded (f : α × α → ℝ) (hf : ∀ a, f (a, 0) = 0) (x h W : List α) (i p q : Nat)
    (hW : W.length = p + h.length + q)
    (h1 : h.length ≤ i + (h.length - h.length / 2)) (h2 : i + (h.length - h.length / 2) ≤ x.length)
    (hwin : (W.drop p).take h.length = (x.drop (i + (h.length - h.length / 2) - h.length)).take h.length) :
    ((W.zip (List.replicate p 0 ++ h.reverse ++ List.replicate q 0)).map f).sum = ((convPairs x h i).map f).sum := by
  have hz : ∀ (a : List α) (n : Nat), ((a.zip (List.replicate n 0)).map f).sum = 0 := by
    intro a
    induction a with
    | nil => intro n; simp
    | cons b a ih =>
      intro n
      cases n with
      | zero => simp
      | succ n => rw [List.replicate_succ, List.zip_cons_cons, List.map_cons, List.sum_cons, ih, hf, add_zero]
  rw [convPairs_interior x h i h1 h2, ← hwin]
  obtain ⟨a, b, c, rfl, e1, e2, e3⟩ := split3 W p h.length (by omega)
  subst e1
  have hwb : ((a ++ b ++ c).drop a.length).take h.length = b := by
    rw [List.append_assoc, List.drop_left, ← e2, List.take_left]
  rw [hwb, List.zip_append (by simp; omega), List.zip_append (by simp), List.map_append, List.map_append, List.sum_append,
    List.sum_append, hz, hz, zero_add, add_zero]
  rw [← List.sum_reverse, ← List.map_reverse, List.zip, List.reverse_zipWith (by simp [e2]), List.reverse_reverse]

/-- The products which are accumulated in the lanes of a register. -/
theorem middle_sumOf (s : Nat) (A B : List (List α)) (hAB : A.length = B.length) (hA : ∀ r ∈ A, r.length = s)
    (hB : ∀ r ∈ B, r.length = s) :
    SumOf (B.length + s) (regSumReal ((A.zip B).foldl
        (fun sum p => List.zipWith (· + ·) sum (List.zipWith (· * ·) p.1 p.2)) (List.replicate s 0)))
      ((A.flatten.zip B.flatten).map fun p => p.1 * p.2 : Multiset α) := by
  have key : ∀ (A B : List (List α)) (acc : List α), A.length = B.length → (∀ r ∈ A, r.length = s) → (∀ r ∈ B, r.length = s) →
      (A.zip B).foldl (fun sum p => List.zipWith (· + ·) sum (List.zipWith (· * ·) p.1 p.2)) acc =
        (List.zipWith (List.zipWith (· * ·)) A B).foldl (regZip (· + ·)) acc ∧
      (List.zipWith (List.zipWith (· * ·)) A B).flatten = (A.flatten.zip B.flatten).map fun p => p.1 * p.2 := by
    intro A
    induction A with
    | nil => intro B acc _ _ _; simp
    | cons a A ih =>
      intro B acc h ha hb
      cases B with
      | nil => simp at h
      | cons b B =>
        have la : a.length = s := ha a (by simp)
        have lb : b.length = s := hb b (by simp)
        obtain ⟨i1, i2⟩ := ih B (List.zipWith (· + ·) acc (List.zipWith (· * ·) a b)) (by simpa using h)
          (fun r hr => ha r (by simp [hr])) (fun r hr => hb r (by simp [hr]))
        refine ⟨?_, ?_⟩
        · rw [List.zip_cons_cons, List.foldl_cons, i1]; rfl
        · rw [List.zipWith_cons_cons, List.flatten_cons, i2, List.flatten_cons, List.flatten_cons, List.zip_append (by omega),
            List.map_append]
          congr 1
          rw [List.zip, List.map_zipWith]
  obtain ⟨k1, k2⟩ := key A B (List.replicate s 0) hAB hA hB
  have h0 : ∀ n, List.Forall₂ (SumOf 0) (List.replicate n (0 : α)) (List.replicate n (0 : Multiset α)) := by
    intro n
    induction n with
    | zero => exact .nil
    | succ n ih => rw [List.replicate_succ, List.replicate_succ]; exact .cons (.zero 0) ih
  obtain ⟨S, e1, e2, e3⟩ := plainRegSum_sumOf s (List.zipWith (List.zipWith (· * ·)) A B) (List.replicate s 0) 0
    (List.replicate s 0) (by simp) (h0 _) (by
      intro r hr
      obtain ⟨n, hn, rfl⟩ := List.getElem_of_mem hr
      simp only [List.length_zipWith] at hn
      simp [hA A[n] (by simp), hB B[n] (by simp)])
  have := regSumReal_sumOf e1
  rw [e3, e2, k2] at this
  rw [k1]
  simpa [hAB] using this

end

/-! ### Registers of points -/

theorem regSum_real_enc [Zero T] [Add T] [Mul T] (k : RegKind) :
    RegEnc k.len 1 (fun l : List T => l) (regZip (· * ·)) regSumReal regSumReal where
  pos := by omega
  dvd := ⟨k.len, by omega, by cases k <;> decide⟩
  nil := rfl
  len l := by simp
  app _ _ := rfl
  zero n := by simp
  mul _ _ _ _ := rfl
  add _ _ _ := rfl
  hsum _ := rfl
  loop := shiftedLoop_real

theorem part_regSum [Zero T] [Add T] (b : Bool) (q : List (Cx T)) : (regSumReal q).part b = regSumReal (q.map (Cx.part b)) := by
  cases q with
  | nil => exact part_zero b
  | cons a q =>
    have := foldl_part b (fun x : Cx T => x) q a
    simp only [regSumReal, List.map_cons, List.foldl_map]
    exact this

theorem regSum_complex_enc [AddCommMagma T] [Zero T] [Sub T] [CommMagma T] [Div T] (k : RegKind) :
    RegEnc k.len 2 (fromComplex (T := T)) (regMulComplex k) regSumComplex regSumReal where
  pos := by omega
  dvd := ⟨k.len / 2, by cases k <;> decide, by cases k <;> decide⟩
  nil := rfl
  len l := by simp
  app _ _ := by simp
  zero n := fromComplex_replicate n 0
  mul a b h1 h2 := (C45_complex_pairs k).1 a b h1 h2
  add := fromComplex_add
  hsum a := by
    have h1 := regSumComplex_part false a
    have h2 := regSumComplex_part true a
    rw [← part_regSum] at h1 h2
    exact Cx.ext h1 h2
  loop := shiftedLoop_complex

/-! ### Rounding errors -/

section
variable {R : Rounding}

theorem SumOf.part {d : Nat} {r : Cx (Fl R)} {S : Multiset (Cx (Fl R))} (h : SumOf d r S) (b : Bool) :
    SumOf d (r.part b) (S.map (Cx.part b)) := by
  induction h with
  | zero d => rw [part_zero]; exact .zero d
  | leaf d x => rw [Multiset.map_singleton]; exact .leaf d _
  | add _ _ i1 i2 => rw [part_add, Multiset.map_add]; exact i1.add i2

/-- The error of one number. -/
theorem pairs_error {d : Nat} {r : Fl R} (l : List (Fl R × Fl R)) (h : SumOf d r (l.map fun p => p.1 * p.2 : Multiset (Fl R))) :
    |r.val - (l.map fun p => p.1.val * p.2.val).sum| ≤
      ((1 + R.u) ^ (d + 1) - 1) * (l.map fun p => |p.1.val * p.2.val|).sum := by
  have := Approx.leaves l _ _ _ h.approx (fun p _ => Approx.mul p.1 p.2) (by linarith [R.u_nonneg])
  rw [← pow_succ] at this
  exact this.1

/-- The errors of the parts of one complex number. -/
theorem complex_pairs_error {d : Nat} {r : Cx (Fl R)} (l : List (Cx (Fl R) × Cx (Fl R)))
    (h : SumOf d r (l.map fun p => p.1 * p.2 : Multiset (Cx (Fl R)))) :
    |r.re.val - (l.map fun p => p.1.re.val * p.2.re.val - p.1.im.val * p.2.im.val).sum| ≤
      ((1 + R.u) ^ (d + 2) - 1) * (l.map fun p => |p.1.re.val * p.2.re.val| + |p.1.im.val * p.2.im.val|).sum ∧
    |r.im.val - (l.map fun p => p.1.re.val * p.2.im.val + p.1.im.val * p.2.re.val).sum| ≤
      ((1 + R.u) ^ (d + 2) - 1) * (l.map fun p => |p.1.re.val * p.2.im.val| + |p.1.im.val * p.2.re.val|).sum := by
  have hone : (1 : ℝ) ≤ (1 + R.u) ^ 2 := one_le_pow₀ (by linarith [R.u_nonneg])
  constructor
  · have h1 := h.part false
    rw [Multiset.map_coe, List.map_map] at h1
    have := Approx.leaves l _ _ _ h1.approx (fun p _ => Approx.mul_re p.1 p.2) hone
    rw [← pow_add] at this
    exact this.1
  · have h1 := h.part true
    rw [Multiset.map_coe, List.map_map] at h1
    have := Approx.leaves l _ _ _ h1.approx (fun p _ => Approx.mul_im p.1 p.2) hone
    rw [← pow_add] at this
    exact this.1

theorem circularConv_within (x h : List (Fl R)) : ConvWithin h.length x h (circularConv x h) := by
  refine ⟨circularConv_length _ _, fun i y hy => ?_⟩
  have hi : i < x.length := by
    by_contra hc
    rw [List.getElem?_eq_none (by rw [circularConv_length]; omega)] at hy; cases hy
  unfold circularConv at hy
  rw [List.getElem?_map, List.getElem?_range hi] at hy
  rw [← Option.some.inj hy]
  exact pairs_error _ (convAt_sumOf x h i)

theorem circularConv_complex_within (x h : List (Cx (Fl R))) : ComplexConvWithin h.length x h (circularConv x h) := by
  refine ⟨circularConv_length _ _, fun i y hy => ?_⟩
  have hi : i < x.length := by
    by_contra hc
    rw [List.getElem?_eq_none (by rw [circularConv_length]; omega)] at hy; cases hy
  unfold circularConv at hy
  rw [List.getElem?_map, List.getElem?_range hi] at hy
  rw [← Option.some.inj hy]
  exact complex_pairs_error _ (convAt_sumOf x h i)

/-- C84: the implementation without registers. -/
theorem C84_scalar_error (st : MultiCoreSettings) (v h : DspVec (Fl R))
    (hv : v.WF) (hh : h.WF) (hsp : h.isComplex = v.isComplex) (hn : v.points ≠ 0)
    (hle : h.points ≤ v.points) (b : Buffer (Fl R)) (hb : BufferOk b v.data v.len) :
    ∃ v' b', Always (v.convolveSignalScalar st h b) (v', b') ∧ IsConvolutionWithin h.points v h v' := by
  obtain ⟨v', b', e1, ⟨e2, e3, e4, e5⟩, -⟩ := C37_convolve_scalar st v h hv hh hsp hn hle b hb
  refine ⟨v', b', e1, e2, e3, fun hc => ?_, fun hc => ?_⟩
  · obtain ⟨x, y, f1, f2, f3⟩ := e4 hc
    refine ⟨x, y, _, f1, f2, f3, ?_⟩
    have : h.points = y.length := by
      rw [hh.content_length f2]; simp [points, hsp, hc]
    rw [this]; exact circularConv_within x y
  · obtain ⟨x, y, f1, f2, f3⟩ := e5 hc
    refine ⟨x, y, _, f1, f2, f3, ?_⟩
    have : h.points = y.length := by
      have := hh.content_length f2
      rw [length_fromComplex] at this
      simp only [points, hsp, hc, if_true]; omega
    rw [this]; exact circularConv_complex_within x y

theorem convolveSimd_within (k : RegKind) (addr : Nat) (st : MultiCoreSettings) (x h dest : List (Fl R)) (hd : dest.length = x.length)
    (hlen : 2 * (h.length - h.length / 2 + k.len) < x.length) (hhx : h.length < x.length)
    (ha1 : (2 * (addr % k.len)) % k.len = 0) :
    ∃ z, Always (convolveSimd addr k.len 1 (regZip (· * ·)) regSumReal st x h x h dest) z ∧
      ConvWithin (h.length + k.len + 2) x h z := by
  obtain ⟨z, z1, z2, z3⟩ := convolveSimd_form (regSum_real_enc (T := Fl R) k) addr st x h dest hd hlen hhx ha1 (by omega)
    (fun i y => |y.val - ((convPairs x h i).map fun p => p.1.val * p.2.val).sum| ≤
      ((1 + R.u) ^ (h.length + k.len + 2 + 1) - 1) * ((convPairs x h i).map fun p => |p.1.val * p.2.val|).sum)
    (fun i _ _ => pairs_error _ ((convAt_sumOf x h i).mono (by omega)))
    (fun s hw hs i A B p q a1 a2 a3 a4 a5 a6 b1 b2 a7 _ _ _ => by
      have hz : (0 : Fl R).val = 0 := rfl
      have hdiv := Nat.div_le_self h.length s
      have := pairs_error _ ((middle_sumOf s A B a1 a2 a3).mono (e := h.length + k.len + 2) (by omega))
      rw [a5, sum_pairs_padded (fun p : Fl R × Fl R => p.1.val * p.2.val) (fun a => by simp [hz]) x h _ i p q a6 b1 b2 a7,
        sum_pairs_padded (fun p : Fl R × Fl R => |p.1.val * p.2.val|) (fun a => by simp [hz]) x h _ i p q a6 b1 b2 a7] at this
      exact this)
  exact ⟨z, z1, z2, z3⟩

theorem convolveSimd_complex_within (k : RegKind) (addr : Nat) (st : MultiCoreSettings) (x h dest : List (Cx (Fl R)))
    (hd : dest.length = x.length)
    (hlen : 2 * (h.length - h.length / 2 + k.len) < x.length) (hhx : h.length < x.length)
    (ha1 : (2 * (addr % k.len)) % k.len = 0) (ha2 : (addr % k.len) % 2 = 0) :
    ∃ z, Always (convolveSimd addr k.len 2 (regMulComplex k) regSumComplex st (fromComplex x) (fromComplex h) x h dest) z ∧
      ComplexConvWithin (h.length + k.len + 2) x h z := by
  obtain ⟨z, z1, z2, z3⟩ := convolveSimd_form (regSum_complex_enc (T := Fl R) k) addr st x h dest hd hlen hhx ha1 ha2
    (fun i y =>
      |y.re.val - ((convPairs x h i).map fun p => p.1.re.val * p.2.re.val - p.1.im.val * p.2.im.val).sum| ≤
        ((1 + R.u) ^ (h.length + k.len + 2 + 2) - 1) *
          ((convPairs x h i).map fun p => |p.1.re.val * p.2.re.val| + |p.1.im.val * p.2.im.val|).sum ∧
      |y.im.val - ((convPairs x h i).map fun p => p.1.re.val * p.2.im.val + p.1.im.val * p.2.re.val).sum| ≤
        ((1 + R.u) ^ (h.length + k.len + 2 + 2) - 1) *
          ((convPairs x h i).map fun p => |p.1.re.val * p.2.im.val| + |p.1.im.val * p.2.re.val|).sum)
    (fun i _ _ => complex_pairs_error _ ((convAt_sumOf x h i).mono (by omega)))
    (fun s hw hs i A B p q a1 a2 a3 a4 a5 a6 b1 b2 a7 _ _ _ => by
      have hz : (0 : Fl R).val = 0 := rfl
      have hdiv := Nat.div_le_self h.length s
      have := complex_pairs_error _ ((middle_sumOf s A B a1 a2 a3).mono (e := h.length + k.len + 2) (by omega))
      rw [a5, sum_pairs_padded (fun p : Cx (Fl R) × Cx (Fl R) => p.1.re.val * p.2.re.val - p.1.im.val * p.2.im.val)
          (fun a => by simp [hz]) x h _ i p q a6 b1 b2 a7,
        sum_pairs_padded (fun p : Cx (Fl R) × Cx (Fl R) => |p.1.re.val * p.2.re.val| + |p.1.im.val * p.2.im.val|)
          (fun a => by simp [hz]) x h _ i p q a6 b1 b2 a7,
        sum_pairs_padded (fun p : Cx (Fl R) × Cx (Fl R) => p.1.re.val * p.2.im.val + p.1.im.val * p.2.re.val)
          (fun a => by simp [hz]) x h _ i p q a6 b1 b2 a7,
        sum_pairs_padded (fun p : Cx (Fl R) × Cx (Fl R) => |p.1.re.val * p.2.im.val| + |p.1.im.val * p.2.re.val|)
          (fun a => by simp [hz]) x h _ i p q a6 b1 b2 a7] at this
      exact this)
  exact ⟨z, z1, z2, z3⟩

/-- C84: the implementation with registers. -/
theorem C84_simd_error (k : RegKind) (addr : Nat) (hal : ConvAligned k addr)
    (st : MultiCoreSettings) (v h : DspVec (Fl R)) (hv : v.WF) (hh : h.WF)
    (hsp : h.isComplex = v.isComplex) (hle : h.points < v.points)
    (hlen : 2 * (h.points - h.points / 2 + k.len) < v.points) (b : Buffer (Fl R))
    (hb : BufferOk b v.data v.len) :
    ∃ v' b', Always (v.convolveSignalSimd k addr st h b) (v', b') ∧ IsConvolutionWithin (h.points + k.len + 2) v h v' := by
  obtain ⟨t, t1, t2⟩ := borrow_ok b v.data v.len hb
  have hal2 : (addr % k.len) % 2 = 0 := by
    have := hal.2
    cases k <;> simp only [RegKind.len] <;> omega
  cases hc : v.isComplex with
  | false =>
    have hc' : h.isComplex = false := by rw [hsp, hc]
    have hvl := hv.content_length hv.content_eq
    have hhl := hh.content_length hh.content_eq
    generalize hx : v.data.cells.take v.validLen = x at hvl
    generalize hy : h.data.cells.take h.validLen = y at hhl
    have hvc := hv.content_eq
    have hhc := hh.content_eq
    rw [hx] at hvc
    rw [hy] at hhc
    have hpts : h.points = y.length := by simp [points, hc', hhl]
    simp only [points, hc, hc', Nat.div_one, Bool.false_eq_true, if_false] at hlen hle
    obtain ⟨z, z1, z2⟩ := convolveSimd_within k addr st x y t (by unfold len at t2; omega)
      (by rw [hvl, hhl]; exact hlen) (by omega) hal.1
    obtain ⟨v', b', e1, e2, e3, e4, e5⟩ := tradeOutcome_spec v b hb z
      (by rw [z2.1]; unfold len; omega) _ z1
    refine ⟨v', b', e1.congr (fun s => ?_), e3, e4, fun _ => ⟨x, y, z, hvc, hhc, e2, by rw [hpts]; exact z2⟩,
      fun h => by simp [hc] at h⟩
    unfold convolveSignalSimd
    rw [t1, hvc, hhc]
    simp only [hc, Bool.false_eq_true, if_false]
  | true =>
    have hc' : h.isComplex = true := by rw [hsp, hc]
    obtain ⟨x, hvc, hvl⟩ := hv.content_even hc
    obtain ⟨y, hhc, hhl⟩ := hh.content_even hc'
    obtain ⟨tc, rfl⟩ := exists_fromComplex (l := t) (by rw [t2]; exact hv.2 hc)
    have htl := length_fromComplex tc
    have hpts : h.points = y.length := by simp only [points, hc', if_true]; omega
    simp only [points, hc, hc', if_true] at hlen hle
    have hx2 : v.validLen / 2 = x.length := by omega
    have hy2 : h.validLen / 2 = y.length := by omega
    rw [hx2, hy2] at hlen
    obtain ⟨z, z1, z2⟩ := convolveSimd_complex_within k addr st x y tc (by unfold len at t2; omega)
      hlen (by omega) hal.1 hal2
    have hmain2 : Always (fun s => (convolveSimd addr k.len 2 (regMulComplex k) regSumComplex st
          (fromComplex x) (fromComplex y) x y tc s).andThen fun r => .finished (fromComplex r)) (fromComplex z) :=
      z1.map (fun s hs => by rw [hs]; rfl) (fun s hs => by rw [hs]; rfl)
    obtain ⟨v', b', e1, e2, e3, e4, e5⟩ := tradeOutcome_spec v b hb (fromComplex z)
      (by rw [length_fromComplex, z2.1]; unfold len; omega) _ hmain2
    refine ⟨v', b', e1.congr (fun s => ?_), e3, e4, fun h => by simp [hc] at h,
      fun _ => ⟨x, y, z, hvc, hhc, e2, by rw [hpts]; exact z2⟩⟩
    unfold convolveSignalSimd
    rw [t1, hvc, hhc]
    simp only [hc, if_true, toComplex?_fromComplex]

theorem IsConvolutionWithin.mono {d e : Nat} {v h v' : DspVec (Fl R)} (H : IsConvolutionWithin d v h v') (hde : d ≤ e) :
    IsConvolutionWithin e v h v' := by
  have hu := R.u_nonneg
  have hp : ∀ n, (1 + R.u) ^ (d + n) - 1 ≤ (1 + R.u) ^ (e + n) - 1 := fun n =>
    sub_le_sub_right (pow_le_pow_right₀ (by linarith) (by omega)) 1
  have hs : ∀ {E : Type} (f : E → ℝ), (∀ x, 0 ≤ f x) → ∀ l : List E, 0 ≤ (l.map f).sum := by
    intro E f hf l
    induction l with
    | nil => simp
    | cons x l ih => rw [List.map_cons, List.sum_cons]; exact add_nonneg (hf x) ih
  obtain ⟨h1, h2, h3, h4⟩ := H
  refine ⟨h1, h2, fun hc => ?_, fun hc => ?_⟩
  · obtain ⟨x, y, z, a, b, c, l, w⟩ := h3 hc
    exact ⟨x, y, z, a, b, c, l, fun i q hq => (w i q hq).trans
      (mul_le_mul_of_nonneg_right (hp 1) (hs _ (fun _ => abs_nonneg _) _))⟩
  · obtain ⟨x, y, z, a, b, c, l, w⟩ := h4 hc
    refine ⟨x, y, z, a, b, c, l, fun i q hq => ⟨(w i q hq).1.trans ?_, (w i q hq).2.trans ?_⟩⟩
    · exact mul_le_mul_of_nonneg_right (hp 2) (hs _ (fun _ => add_nonneg (abs_nonneg _) (abs_nonneg _)) _)
    · exact mul_le_mul_of_nonneg_right (hp 2) (hs _ (fun _ => add_nonneg (abs_nonneg _) (abs_nonneg _)) _)

/-- C84: `convolve_signal` with rounded numbers: whenever the method computes in time domain, every number of the result is the exact
    one up to the errors of `m + w + 2` additions and the multiplications, relative to the sum of the absolute values of the products,
    for every register type, number of threads, schedule and buffer. -/
theorem C84_convolve_error [DeltaBounds (Fl R)] (K : FftKernel (Fl R))
    (junk : List (Cx (Fl R)) → List (Cx (Fl R)))
    (k : RegKind) (addr : Nat) (st : MultiCoreSettings) (v h : DspVec (Fl R)) (hv : v.WF) (hh : h.WF)
    (hm : v.metaMismatch h = false) (hd : v.dom = .time) (hn : v.points ≠ 0)
    (hle : h.points ≤ v.points) (b : Buffer (Fl R)) (hb : BufferOk b v.data v.len)
    (hsimd : v.convPath h = .simd → ConvAligned k addr) (hfreq : v.convPath h ≠ .frequency) :
    ∃ v' b', Always (v.convolveSignal K junk k addr st h b) (v', b', .ok ()) ∧
      IsConvolutionWithin (h.points + k.len + 2) v h v' := by
  have hsp : h.isComplex = v.isComplex := by
    unfold metaMismatch at hm
    simp only [Bool.or_eq_false_iff, bne_eq_false_iff_eq] at hm
    exact hm.1.1.symm
  have hun : ∀ s, v.convolveSignal K junk k addr st h b s = match v.convPath h with
      | .simd => (v.convolveSignalSimd k addr st h b s).andThen fun r => .finished (r.1, r.2, .ok ())
      | .frequency => .ofOption (v.overlapDiscard K junk h b (nextPowerOfTwo h.len))
      | .scalar => (v.convolveSignalScalar st h b s).andThen fun r => .finished (r.1, r.2, .ok ()) := by
    intro s
    unfold convolveSignal
    rw [if_neg (by simp [hm]), if_neg (by simp [hd]), if_neg (by omega)]
    cases v.convPath h <;> rfl
  cases hp : v.convPath h with
  | scalar =>
    obtain ⟨v', b', e1, e2⟩ := C84_scalar_error st v h hv hh hsp hn hle b hb
    refine ⟨v', b', e1.map (fun s hs => ?_) (fun s hs => ?_), e2.mono (by omega)⟩
    · rw [hun, hp]; simp only [hs]; rfl
    · rw [hun, hp]; simp only [hs]; rfl
  | simd =>
    have hcond : v.len > 1000 ∧ h.len ≤ 202 ∧ h.len > 11 := by
      unfold convPath at hp
      split at hp
      · assumption
      · split at hp <;> cases hp
    have hpts : v.points = v.len / v.stride ∧ h.points = h.len / v.stride := by
      constructor
      · rfl
      · unfold points stride; rw [hsp]; rfl
    have hst : v.stride = 1 ∨ v.stride = 2 := by unfold stride; split <;> simp
    have hk8 : k.len ≤ 8 := by cases k <;> decide
    obtain ⟨v', b', e1, e2⟩ := C84_simd_error k addr (hsimd hp) st v h hv hh hsp
      (by rw [hpts.1, hpts.2]; rcases hst with h | h <;> rw [h] <;> omega)
      (by rw [hpts.1, hpts.2]; rcases hst with h | h <;> rw [h] <;> omega) b hb
    refine ⟨v', b', e1.map (fun s hs => ?_) (fun s hs => ?_), e2⟩
    · rw [hun, hp]; simp only [hs]; rfl
    · rw [hun, hp]; simp only [hs]; rfl
  | frequency => exact absurd hp hfreq

/-- C84: two results which both satisfy the bound (e.g. computed with different registers) differ only by rounding errors. -/
theorem C84_agree {d e : Nat} {x h y z : List (Fl R)} (hy : ConvWithin d x h y) (hz : ConvWithin e x h z) (i : Nat) (a b : Fl R)
    (ha : y[i]? = some a) (hb : z[i]? = some b) :
    |a.val - b.val| ≤ ((1 + R.u) ^ (d + 1) + (1 + R.u) ^ (e + 1) - 2) * ((convPairs x h i).map fun p => |p.1.val * p.2.val|).sum := by
  have h1 := hy.2 i a ha
  have h2 := hz.2 i b hb
  rw [abs_sub_comm] at h2
  have := abs_add_le (a.val - ((convPairs x h i).map fun p => p.1.val * p.2.val).sum)
    (((convPairs x h i).map fun p => p.1.val * p.2.val).sum - b.val)
  rw [sub_add_sub_cancel] at this
  linarith

/-- The pairs are those of the definition of the convolution: in exact arithmetic the sum of their products is its value. -/
theorem C84_pairs {α : Type} [CommRing α] (x h : List α) (i : Nat) :
    ((convPairs x h i).map fun p => p.1 * p.2).sum = convAt x h i := by
  rw [convAt_pairs, ← List.foldl_map (f := fun p : α × α => p.1 * p.2) (g := fun s x => s + x), List.sum_eq_foldl]

/-- A complex vector and a response of rounded numbers (53 binary digits) for which the method uses registers. -/
example :
    let _ : DeltaBounds (Fl (binaryRounding 52)) := ⟨⟨11 / 10⟩, ⟨9 / 10⟩⟩
    let v : DspVec (Fl (binaryRounding 52)) := ⟨⟨.vec, List.replicate 1002 ⟨1 / 3⟩⟩, none, .time, .complex, 1002⟩
    let h : DspVec (Fl (binaryRounding 52)) := ⟨⟨.vec, List.replicate 20 ⟨-5⟩⟩, none, .time, .complex, 20⟩
    v.WF ∧ h.WF ∧ v.metaMismatch h = false ∧ v.dom = .time ∧ v.points = 501 ∧ h.points = 10 ∧
      BufferOk (.single []) v.data v.len ∧ v.convPath h = .simd ∧ ConvAligned .avxF64x4 6 := by
  refine ⟨⟨by simp [-List.reduceReplicate], fun _ => rfl⟩, ⟨by simp [-List.reduceReplicate], fun _ => rfl⟩, rfl, rfl, rfl, rfl, ?_, ?_, by decide⟩
  · exact trivial
  · unfold convPath
    rw [if_pos (by decide)]

end
end Dsp
