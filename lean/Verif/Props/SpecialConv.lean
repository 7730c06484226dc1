import Verif.Spec.SpecialConv
import Verif.Props.Special
import Verif.Props.ConvRounding
/-
C93: infinities and NaN in a convolution.
-/
namespace Dsp
open DspVec

/-! ### Sums -/

theorem SumOf.eq_sum {M : Type} [AddCommMonoid M] {d : Nat} {r : M} {S : Multiset M} (h : SumOf d r S) : r = S.sum := by
  induction h with
  | zero d => simp
  | leaf d x => simp
  | add _ _ i1 i2 => rw [i1, i2, Multiset.sum_add]

theorem SumOf.part_gen {U : Type} [Add U] [Zero U] {d : Nat} {r : Cx U} {S : Multiset (Cx U)} (h : SumOf d r S) (b : Bool) :
    SumOf d (r.part b) (S.map (Cx.part b)) := by
  induction h with
  | zero d => rw [part_zero]; exact .zero d
  | leaf d x => rw [Multiset.map_singleton]; exact .leaf d _
  | add _ _ i1 i2 => rw [part_add, Multiset.map_add]; exact i1.add i2

/-- The window and the points around it. -/
theorem zip_padded {α : Type} [Zero α] (W h : List α) (p q : Nat) (hW : W.length = p + h.length + q) :
    W.zip (List.replicate p 0 ++ h.reverse ++ List.replicate q 0) =
      (W.take p).map (fun a => (a, (0 : α))) ++ (((W.drop p).take h.length).zip h.reverse) ++ (W.drop (p + h.length)).map (fun a => (a, (0 : α))) := by
  obtain ⟨a, b, c, rfl, e1, e2, e3⟩ := split3 W p h.length (by omega)
  subst e1
  have hc : c.length = q := by simp only [List.length_append] at hW; omega
  have hz : ∀ (a : List α), a.zip (List.replicate a.length 0) = a.map fun a => (a, (0 : α)) := by
    intro a
    induction a with
    | nil => rfl
    | cons x a ih => rw [List.length_cons, List.replicate_succ, List.zip_cons_cons, ih]; rfl
  rw [List.zip_append (by simp; omega), List.zip_append (by simp), hz, ← hc, hz]
  congr 1
  · congr 1
    · simp
    · rw [List.append_assoc, List.drop_left, ← e2, List.take_left]
  · rw [← e2, ← List.length_append, List.drop_left]

theorem sum_zero_of {M : Type} [AddCommMonoid M] (l : List M) (h : ∀ x ∈ l, x = 0) : l.sum = 0 := by
  induction l with
  | nil => rfl
  | cons x l ih => rw [List.sum_cons, h x (by simp), zero_add, ih fun y hy => h y (by simp [hy])]

/-- A sum of products of a window, padded with zeros: the pairs outside of the window do not matter if their products are zero. -/
theorem sum_padded_zero {α M : Type} [Zero α] [AddCommMonoid M] (f : α × α → M) (x h W : List α) (i p q : Nat)
    (hW : W.length = p + h.length + q)
    (h1 : h.length ≤ i + (h.length - h.length / 2)) (h2 : i + (h.length - h.length / 2) ≤ x.length)
    (hwin : (W.drop p).take h.length = (x.drop (i + (h.length - h.length / 2) - h.length)).take h.length)
    (hf : ∀ a ∈ W.take p ++ W.drop (p + h.length), f (a, 0) = 0) :
    ((W.zip (List.replicate p 0 ++ h.reverse ++ List.replicate q 0)).map f).sum = ((convPairs x h i).map f).sum := by
  have hl : ((x.drop (i + (h.length - h.length / 2) - h.length)).take h.length).length = h.length := by simp; omega
  rw [zip_padded W h p q hW, List.map_append, List.map_append, List.sum_append, List.sum_append, sum_zero_of _ (by
      intro y hy
      simp only [List.mem_map] at hy
      obtain ⟨z, ⟨a, ha, rfl⟩, rfl⟩ := hy
      exact hf a (List.mem_append_left _ ha)), sum_zero_of ((List.map (fun a => (a, (0 : α))) (W.drop (p + h.length))).map f) (by
      intro y hy
      simp only [List.mem_map] at hy
      obtain ⟨z, ⟨a, ha, rfl⟩, rfl⟩ := hy
      exact hf a (List.mem_append_right _ ha)), zero_add, add_zero, convPairs_interior x h i h1 h2, hwin]
  rw [← List.sum_reverse, ← List.map_reverse, List.zip, List.reverse_zipWith (by simp only [List.length_reverse]; exact hl), List.reverse_reverse]

/-- The points around the window are those which share a register with it. -/
theorem around_window {α : Type} {s lp : Nat} (hs : 0 < s) {x : List α} {i m p q : Nat} {W : List α}
    (hw : RegWindow s lp x (i + (m - m / 2)) m p q W) (hm : 1 ≤ m) (a : α) :
    a ∈ W.take p ++ W.drop (p + m) ↔ ∃ j : Nat, x[j]? = some a ∧ SharesRegister s lp m i j := by
  obtain ⟨w1, w2, w3, ⟨c1, w4⟩, ⟨c2, w5⟩, w6, rfl⟩ := hw
  have hhalf : m - m / 2 = (m - 1) / 2 + 1 := by omega
  generalize he : i + (m - m / 2) = e at *
  have he' : i + (m - 1) / 2 + 1 = e := by omega
  have hlast : i + (m - 1) / 2 = e - 1 := by omega
  have hlen : ((x.drop (e - m - p)).take (p + m + q)).length = p + m + q := by simp; omega
  have hget : ∀ n < p + m + q, ((x.drop (e - m - p)).take (p + m + q))[n]? = x[e - m - p + n]? := by
    intro n hn
    rw [List.getElem?_take_of_lt hn, List.getElem?_drop]
  have hd1 : (e - m - lp) / s = c1 := by
    have : e - m - lp = p + s * c1 := by omega
    rw [this, Nat.add_mul_div_left _ _ hs, Nat.div_eq_of_lt w1, zero_add]
  have hc2 : 1 ≤ c2 := by
    rcases Nat.eq_zero_or_pos c2 with h0 | h0
    · subst h0; rw [Nat.mul_zero] at w5; omega
    · exact h0
  have hd2 : (e - 1 - lp) / s = c2 - 1 := by
    have h5 : s * c2 = s * (c2 - 1) + s := by
      obtain ⟨c, rfl⟩ : ∃ c, c2 = c + 1 := ⟨c2 - 1, by omega⟩
      rw [Nat.mul_add, Nat.mul_one]; simp
    have : e - 1 - lp = (s - 1 - q) + s * (c2 - 1) := by omega
    rw [this, Nat.add_mul_div_left _ _ hs, Nat.div_eq_of_lt (by omega), zero_add]
  unfold SharesRegister
  rw [he', hlast, hd1, hd2]
  rw [List.mem_append]
  constructor
  · rintro (h | h)
    · obtain ⟨n, hn, e1⟩ := List.getElem_of_mem h
      have hn' : n < p := by simp only [List.length_take] at hn; omega
      have e2 : ((x.drop (e - m - p)).take (p + m + q))[n]? = some a := by
        rw [← e1, List.getElem_take, List.getElem?_eq_getElem]
      rw [hget n (by omega)] at e2
      refine ⟨e - m - p + n, e2, by omega, by omega, ?_, ?_⟩
      · rw [Nat.le_div_iff_mul_le hs, Nat.mul_comm]; omega
      · rw [← hd2]; exact Nat.div_le_div_right (by omega)
    · obtain ⟨n, hn, e1⟩ := List.getElem_of_mem h
      have hn' : p + m + n < p + m + q := by simp only [List.length_drop, hlen] at hn; omega
      have e2 : ((x.drop (e - m - p)).take (p + m + q))[p + m + n]? = some a := by
        rw [← e1, List.getElem_drop, List.getElem?_eq_getElem]
      rw [hget _ hn'] at e2
      refine ⟨e - m - p + (p + m + n), e2, by omega, by omega, ?_, ?_⟩
      · rw [← hd1]; exact Nat.div_le_div_right (by omega)
      · have h5 : s * c2 = s * (c2 - 1) + s := by
          obtain ⟨c, rfl⟩ : ∃ c, c2 = c + 1 := ⟨c2 - 1, by omega⟩
          rw [Nat.mul_add, Nat.mul_one]; simp
        have h6 : e - m - p + (p + m + n) - lp < s * (c2 - 1 + 1) := by rw [Nat.mul_add, Nat.mul_one]; omega
        have := (Nat.div_lt_iff_lt_mul hs).mpr (by rw [Nat.mul_comm]; exact h6)
        omega
  · rintro ⟨j, h1, h2, h3, h4, h5⟩
    have h6 : s * c1 ≤ j - lp := by
      rw [Nat.mul_comm]; exact (Nat.le_div_iff_mul_le hs).mp h4
    have h7 : j - lp < s * c2 := by
      have := (Nat.div_lt_iff_lt_mul hs).mp (show (j - lp) / s < c2 by omega)
      rw [Nat.mul_comm]; exact this
    by_cases hj : j < e - m
    · left
      have e1 := hget (j - (e - m - p)) (by omega)
      rw [show e - m - p + (j - (e - m - p)) = j by omega, h1] at e1
      have e2 : (((x.drop (e - m - p)).take (p + m + q)).take p)[j - (e - m - p)]? = some a := by
        rw [List.getElem?_take_of_lt (by omega)]; exact e1
      exact List.mem_of_getElem? e2
    · right
      have e1 := hget (j - (e - m - p)) (by omega)
      rw [show e - m - p + (j - (e - m - p)) = j by omega, h1] at e1
      have e2 : (((x.drop (e - m - p)).take (p + m + q)).drop (p + m))[j - (e - m - p) - (p + m)]? = some a := by
        rw [List.getElem?_drop, show p + m + (j - (e - m - p) - (p + m)) = j - (e - m - p) by omega]; exact e1
      exact List.mem_of_getElem? e2

section
variable {T : Type} [Field T] [LinearOrder T]

/-! ### Products with zero -/

theorem wide_mul_zero_nan {a : Wide T} (h : a.Special) : (a * 0 : Wide T) = .nan := by
  cases a with
  | num t => exact absurd rfl (h t)
  | nan => rfl
  | posInf =>
    change Wide.inf (0 : T) = _
    simp [Wide.inf]
  | negInf =>
    change Wide.inf (-0 : T) = _
    simp [Wide.inf]

theorem wide_mul_zero_num {a : Wide T} (h : ¬ a.Special) : (a * 0 : Wide T) = 0 := by
  cases a with
  | num t =>
    change Wide.num (t * 0) = _
    rw [mul_zero]; rfl
  | _ => exact absurd (fun t ht => by cases ht) h

theorem sum_nan {l : List (Wide T)} (h : .nan ∈ l) : l.sum = .nan := (isSum_sum l).1 (.inl h)

/-- The value computed with registers. -/
theorem middle_value {α : Type} [Zero α] (special : α → Prop) (x h W : List α) (s lp i p q : Nat) (hs : 0 < s) (hm : 1 ≤ h.length)
    (hW : W.length = p + h.length + q)
    (h1 : h.length ≤ i + (h.length - h.length / 2)) (h2 : i + (h.length - h.length / 2) ≤ x.length)
    (hwin : (W.drop p).take h.length = (x.drop (i + (h.length - h.length / 2) - h.length)).take h.length)
    (hw : RegWindow s lp x (i + (h.length - h.length / 2)) h.length p q W) (f : α × α → Wide T)
    (hf1 : ∀ a, special a → f (a, 0) = .nan) (hf2 : ∀ a, ¬ special a → f (a, 0) = 0) :
    ((∃ (j : Nat) (a : α), x[j]? = some a ∧ special a ∧ SharesRegister s lp h.length i j) →
      ((W.zip (List.replicate p 0 ++ h.reverse ++ List.replicate q 0)).map f).sum = .nan) ∧
    (¬ (∃ (j : Nat) (a : α), x[j]? = some a ∧ special a ∧ SharesRegister s lp h.length i j) →
      ((W.zip (List.replicate p 0 ++ h.reverse ++ List.replicate q 0)).map f).sum = ((convPairs x h i).map f).sum) := by
  constructor
  · rintro ⟨j, a, j1, j2, j3⟩
    have := (around_window hs hw hm a).mpr ⟨j, j1, j3⟩
    apply sum_nan
    rw [zip_padded W h p q hW, List.mem_map]
    refine ⟨(a, 0), ?_, hf1 a j2⟩
    rw [List.mem_append] at this
    rcases this with h | h
    · exact List.mem_append_left _ (List.mem_append_left _ (List.mem_map_of_mem h))
    · exact List.mem_append_right _ (List.mem_map_of_mem h)
  · intro hn
    refine sum_padded_zero f x h W i p q hW h1 h2 hwin fun a ha => hf2 a ?_
    intro hsp
    obtain ⟨j, j1, j2⟩ := (around_window hs hw hm a).mp ha
    exact hn ⟨j, a, j1, hsp, j2⟩

theorem convAt_isSum (x h : List (Wide T)) (i : Nat) : IsSum ((convPairs x h i).map fun p => p.1 * p.2) (convAt x h i) := by
  have := (convAt_sumOf x h i).eq_sum
  rw [Multiset.sum_coe] at this
  rw [this]; exact isSum_sum _

theorem convAt_complex_isSum (x h : List (Cx (Wide T))) (i : Nat) :
    IsSum ((convPairs x h i).map fun p => p.1.re * p.2.re - p.1.im * p.2.im) (convAt x h i).re ∧
    IsSum ((convPairs x h i).map fun p => p.1.re * p.2.im + p.1.im * p.2.re) (convAt x h i).im := by
  have h0 := convAt_sumOf x h i
  constructor
  · have := (h0.part_gen false).eq_sum
    rw [Multiset.map_coe, List.map_map, Multiset.sum_coe] at this
    exact (show (convAt x h i).re = _ from this) ▸ isSum_sum _
  · have := (h0.part_gen true).eq_sum
    rw [Multiset.map_coe, List.map_map, Multiset.sum_coe] at this
    exact (show (convAt x h i).im = _ from this) ▸ isSum_sum _

theorem circularConv_isSum (x h : List (Wide T)) : ConvIsSum x h (circularConv x h) := by
  refine ⟨circularConv_length _ _, fun i y hy => ?_⟩
  have hi : i < x.length := by
    by_contra hc
    rw [List.getElem?_eq_none (by rw [circularConv_length]; omega)] at hy; cases hy
  unfold circularConv at hy
  rw [List.getElem?_map, List.getElem?_range hi] at hy
  rw [← Option.some.inj hy]
  exact convAt_isSum x h i

theorem circularConv_complex_isSum (x h : List (Cx (Wide T))) : ComplexConvIsSum x h (circularConv x h) := by
  refine ⟨circularConv_length _ _, fun i y hy => ?_⟩
  have hi : i < x.length := by
    by_contra hc
    rw [List.getElem?_eq_none (by rw [circularConv_length]; omega)] at hy; cases hy
  unfold circularConv at hy
  rw [List.getElem?_map, List.getElem?_range hi] at hy
  rw [← Option.some.inj hy]
  exact convAt_complex_isSum x h i

theorem convolveSimd_special (k : RegKind) (addr : Nat) (st : MultiCoreSettings) (x h dest : List (Wide T)) (hd : dest.length = x.length)
    (hlen : 2 * (h.length - h.length / 2 + k.len) < x.length) (hhx : h.length < x.length) (hm : 1 ≤ h.length)
    (ha1 : (2 * (addr % k.len)) % k.len = 0) :
    ∃ z, Always (convolveSimd addr k.len 1 (regZip (· * ·)) regSumReal st x h x h dest) z ∧
      ConvInRegisters ((h.length + 1) / 2 + k.len) k.len (addr % k.len) x h z := by
  have hhalf : h.length - h.length / 2 = (h.length + 1) / 2 := by omega
  obtain ⟨z, z1, z2, z3⟩ := convolveSimd_form (regSum_real_enc (T := Wide T) k) addr st x h dest hd hlen hhx ha1 (by omega)
    (fun i y => (Contaminated Wide.Special ((h.length + 1) / 2 + k.len) k.len (addr % k.len) h.length x i → y = .nan) ∧
      (¬ Contaminated Wide.Special ((h.length + 1) / 2 + k.len) k.len (addr % k.len) h.length x i →
        IsSum ((convPairs x h i).map fun p => p.1 * p.2) y))
    (fun i hi he => ⟨fun hc => absurd hc.1 (by have := hc.2.1; omega), fun _ => convAt_isSum x h i⟩)
    (fun s hw hs i A B p q a1 a2 a3 a4 a5 a6 b1 b2 a7 c1 c2 c3 => by
      have hks : k.len = s := by omega
      rw [Nat.div_one, ← hks] at c1
      have e1 := (middle_sumOf s A B a1 a2 a3).eq_sum
      rw [a5, Multiset.sum_coe] at e1
      obtain ⟨f1, f2⟩ := middle_value Wide.Special x h A.flatten k.len (addr % k.len) i p q (by omega) hm a6 b1 b2 a7 c1
        (fun p => p.1 * p.2) (fun a => wide_mul_zero_nan) (fun a => wide_mul_zero_num)
      refine ⟨fun hc => e1.trans (f1 hc.2.2), fun hc => ?_⟩
      rw [e1, f2 fun hc' => hc ⟨by omega, by omega, hc'⟩]
      exact isSum_sum _)
  exact ⟨z, z1, z2, z3⟩

theorem convolveSimd_complex_special (k : RegKind) (addr : Nat) (st : MultiCoreSettings) (x h dest : List (Cx (Wide T)))
    (hd : dest.length = x.length) (hlen : 2 * (h.length - h.length / 2 + k.len) < x.length) (hhx : h.length < x.length) (hm : 1 ≤ h.length)
    (ha1 : (2 * (addr % k.len)) % k.len = 0) (ha2 : (addr % k.len) % 2 = 0) :
    ∃ z, Always (convolveSimd addr k.len 2 (regMulComplex k) regSumComplex st (fromComplex x) (fromComplex h) x h dest) z ∧
      ComplexConvInRegisters ((h.length + 1) / 2 + k.len) (k.len / 2) (addr % k.len / 2) x h z := by
  have hhalf : h.length - h.length / 2 = (h.length + 1) / 2 := by omega
  have hr : ∀ a : Cx (Wide T), Cx.Special a → a.re * 0 - a.im * 0 = .nan ∧ a.re * 0 + a.im * 0 = .nan := by
    rintro a (h | h) <;> rw [wide_mul_zero_nan h] <;> exact ⟨by simp, by simp⟩
  have hn : ∀ a : Cx (Wide T), ¬ Cx.Special a → a.re * 0 - a.im * 0 = 0 ∧ a.re * 0 + a.im * 0 = 0 := by
    intro a h
    unfold Cx.Special at h
    push Not at h
    rw [wide_mul_zero_num h.1, wide_mul_zero_num h.2]
    exact ⟨by simp, by simp⟩
  obtain ⟨z, z1, z2, z3⟩ := convolveSimd_form (regSum_complex_enc (T := Wide T) k) addr st x h dest hd hlen hhx ha1 ha2
    (fun i y => (Contaminated Cx.Special ((h.length + 1) / 2 + k.len) (k.len / 2) (addr % k.len / 2) h.length x i → y = ⟨.nan, .nan⟩) ∧
      (¬ Contaminated Cx.Special ((h.length + 1) / 2 + k.len) (k.len / 2) (addr % k.len / 2) h.length x i →
        IsSum ((convPairs x h i).map fun p => p.1.re * p.2.re - p.1.im * p.2.im) y.re ∧
        IsSum ((convPairs x h i).map fun p => p.1.re * p.2.im + p.1.im * p.2.re) y.im))
    (fun i hi he => ⟨fun hc => absurd hc.1 (by have := hc.2.1; omega), fun _ => convAt_complex_isSum x h i⟩)
    (fun s hw hs i A B p q a1 a2 a3 a4 a5 a6 b1 b2 a7 c1 c2 c3 => by
      have hks : k.len / 2 = s := by omega
      rw [← hks] at c1
      have e0 := middle_sumOf s A B a1 a2 a3
      have e1 := (e0.part_gen false).eq_sum
      have e2 := (e0.part_gen true).eq_sum
      rw [a5, Multiset.map_coe, List.map_map, Multiset.sum_coe] at e1 e2
      obtain ⟨f1, f2⟩ := middle_value Cx.Special x h A.flatten (k.len / 2) (addr % k.len / 2) i p q (by omega) hm a6 b1 b2 a7 c1
        (fun p => p.1.re * p.2.re - p.1.im * p.2.im) (fun a ha => (hr a ha).1) (fun a ha => (hn a ha).1)
      obtain ⟨g1, g2⟩ := middle_value Cx.Special x h A.flatten (k.len / 2) (addr % k.len / 2) i p q (by omega) hm a6 b1 b2 a7 c1
        (fun p => p.1.re * p.2.im + p.1.im * p.2.re) (fun a ha => (hr a ha).2) (fun a ha => (hn a ha).2)
      refine ⟨fun hc => Cx.ext (e1.trans (f1 hc.2.2)) (e2.trans (g1 hc.2.2)), fun hc => ?_⟩
      have f3 := e1.trans (f2 fun hc' => hc ⟨by omega, by omega, hc'⟩)
      have g3 := e2.trans (g2 fun hc' => hc ⟨by omega, by omega, hc'⟩)
      exact ⟨(show Cx.re _ = _ from f3) ▸ isSum_sum _, (show Cx.im _ = _ from g3) ▸ isSum_sum _⟩)
  exact ⟨z, z1, z2, z3⟩

/-- C93: the implementation without registers: every value is the sum of its products, a special value reaches exactly the values to which it
    belongs. -/
theorem C93_scalar (st : MultiCoreSettings) (v h : DspVec (Wide T))
    (hv : v.WF) (hh : h.WF) (hsp : h.isComplex = v.isComplex) (hn : v.points ≠ 0)
    (hle : h.points ≤ v.points) (b : Buffer (Wide T)) (hb : BufferOk b v.data v.len) :
    ∃ v' b', Always (v.convolveSignalScalar st h b) (v', b') ∧ ConvolvedAs ConvIsSum ComplexConvIsSum v h v' := by
  obtain ⟨v', b', e1, ⟨e2, e3, e4, e5⟩, -⟩ := C37_convolve_scalar st v h hv hh hsp hn hle b hb
  refine ⟨v', b', e1, e2, e3, fun hc => ?_, fun hc => ?_⟩
  · obtain ⟨x, y, f1, f2, f3⟩ := e4 hc
    exact ⟨x, y, _, f1, f2, f3, circularConv_isSum x y⟩
  · obtain ⟨x, y, f1, f2, f3⟩ := e5 hc
    exact ⟨x, y, _, f1, f2, f3, circularConv_complex_isSum x y⟩

/-- C93: the implementation with registers: in addition, a special value reaches the values whose points share a register with it, they become
    NaN. Everything else is as without registers. -/
theorem C93_simd (k : RegKind) (addr : Nat) (hal : ConvAligned k addr)
    (st : MultiCoreSettings) (v h : DspVec (Wide T)) (hv : v.WF) (hh : h.WF)
    (hsp : h.isComplex = v.isComplex) (hm : 1 ≤ h.points) (hle : h.points < v.points)
    (hlen : 2 * (h.points - h.points / 2 + k.len) < v.points) (b : Buffer (Wide T))
    (hb : BufferOk b v.data v.len) :
    ∃ v' b', Always (v.convolveSignalSimd k addr st h b) (v', b') ∧
      ConvolvedAs (fun x y z => ConvInRegisters ((y.length + 1) / 2 + k.len) k.len (addr % k.len) x y z)
        (fun x y z => ComplexConvInRegisters ((y.length + 1) / 2 + k.len) (k.len / 2) (addr % k.len / 2) x y z) v h v' := by
  obtain ⟨t, t1, t2⟩ := borrow_ok b v.data v.len hb
  have hal2 : (addr % k.len) % 2 = 0 := by
    have := hal.2
    cases k <;> simp only [RegKind.len] <;> omega
  cases hc : v.isComplex with
  | false =>
    have hc' : h.isComplex = false := by rw [hsp, hc]
    have hvl := hv.content_length hv.content_eq
    have hhl := hh.content_length hh.content_eq
    generalize hx : v.data.cells.take v.validLen = x at hvl
    generalize hy : h.data.cells.take h.validLen = y at hhl
    have hvc := hv.content_eq
    have hhc := hh.content_eq
    rw [hx] at hvc
    rw [hy] at hhc
    have hpts : h.points = y.length := by simp [points, hc', hhl]
    simp only [points, hc, hc', Nat.div_one, Bool.false_eq_true, if_false] at hlen hle hm
    obtain ⟨z, z1, z2⟩ := convolveSimd_special k addr st x y t (by unfold len at t2; omega)
      (by rw [hvl, hhl]; exact hlen) (by omega) (by omega) hal.1
    obtain ⟨v', b', e1, e2, e3, e4, e5⟩ := tradeOutcome_spec v b hb z
      (by rw [z2.1]; unfold len; omega) _ z1
    refine ⟨v', b', e1.congr (fun s => ?_), e3, e4, fun _ => ⟨x, y, z, hvc, hhc, e2, z2⟩,
      fun h => by simp [hc] at h⟩
    unfold convolveSignalSimd
    rw [t1, hvc, hhc]
    simp only [hc, Bool.false_eq_true, if_false]
  | true =>
    have hc' : h.isComplex = true := by rw [hsp, hc]
    obtain ⟨x, hvc, hvl⟩ := hv.content_even hc
    obtain ⟨y, hhc, hhl⟩ := hh.content_even hc'
    obtain ⟨tc, rfl⟩ := exists_fromComplex (l := t) (by rw [t2]; exact hv.2 hc)
    have htl := length_fromComplex tc
    have hpts : h.points = y.length := by simp only [points, hc', if_true]; omega
    simp only [points, hc, hc', if_true] at hlen hle hm
    have hx2 : v.validLen / 2 = x.length := by omega
    have hy2 : h.validLen / 2 = y.length := by omega
    rw [hx2, hy2] at hlen
    obtain ⟨z, z1, z2⟩ := convolveSimd_complex_special k addr st x y tc (by unfold len at t2; omega)
      hlen (by omega) (by omega) hal.1 hal2
    have hmain2 : Always (fun s => (convolveSimd addr k.len 2 (regMulComplex k) regSumComplex st
          (fromComplex x) (fromComplex y) x y tc s).andThen fun r => .finished (fromComplex r)) (fromComplex z) :=
      z1.map (fun s hs => by rw [hs]; rfl) (fun s hs => by rw [hs]; rfl)
    obtain ⟨v', b', e1, e2, e3, e4, e5⟩ := tradeOutcome_spec v b hb (fromComplex z)
      (by rw [length_fromComplex, z2.1]; unfold len; omega) _ hmain2
    refine ⟨v', b', e1.congr (fun s => ?_), e3, e4, fun h => by simp [hc] at h,
      fun _ => ⟨x, y, z, hvc, hhc, e2, z2⟩⟩
    unfold convolveSignalSimd
    rw [t1, hvc, hhc]
    simp only [hc, if_true, toComplex?_fromComplex]

/-- C93: `convolve_signal` in time domain, for every register type, accepted address, number of threads, schedule and buffer: short vectors and
    very short or long responses are convolved without registers, all others with registers. -/
theorem C93_convolve [NatCast (Wide T)] [DeltaBounds (Wide T)] (K : FftKernel (Wide T)) (junk : List (Cx (Wide T)) → List (Cx (Wide T)))
    (k : RegKind) (addr : Nat) (st : MultiCoreSettings) (v h : DspVec (Wide T)) (hv : v.WF) (hh : h.WF)
    (hm : v.metaMismatch h = false) (hd : v.dom = .time) (hn : v.points ≠ 0)
    (hle : h.points ≤ v.points) (b : Buffer (Wide T)) (hb : BufferOk b v.data v.len)
    (hsimd : v.len > 1000 ∧ h.len ≤ 202 ∧ h.len > 11 → ConvAligned k addr)
    (hfreq : v.isComplex = true → v.len ≤ 10000 ∨ h.len ≤ 202) :
    ∃ v' b', Always (v.convolveSignal K junk k addr st h b) (v', b', .ok ()) ∧
      (v.len ≤ 1000 ∨ 202 < h.len ∨ h.len ≤ 11 → ConvolvedAs ConvIsSum ComplexConvIsSum v h v') ∧
      (v.len > 1000 ∧ h.len ≤ 202 ∧ h.len > 11 →
        ConvolvedAs (fun x y z => ConvInRegisters ((y.length + 1) / 2 + k.len) k.len (addr % k.len) x y z)
          (fun x y z => ComplexConvInRegisters ((y.length + 1) / 2 + k.len) (k.len / 2) (addr % k.len / 2) x y z) v h v') := by
  have hsp : h.isComplex = v.isComplex := by
    unfold metaMismatch at hm
    simp only [Bool.or_eq_false_iff, bne_eq_false_iff_eq] at hm
    exact hm.1.1.symm
  have hun : ∀ s, v.convolveSignal K junk k addr st h b s = match v.convPath h with
      | .simd => (v.convolveSignalSimd k addr st h b s).andThen fun r => .finished (r.1, r.2, .ok ())
      | .frequency => .ofOption (v.overlapDiscard K junk h b (nextPowerOfTwo h.len))
      | .scalar => (v.convolveSignalScalar st h b s).andThen fun r => .finished (r.1, r.2, .ok ()) := by
    intro s
    unfold convolveSignal
    rw [if_neg (by simp [hm]), if_neg (by simp [hd]), if_neg (by omega)]
    cases v.convPath h <;> rfl
  by_cases hcond : v.len > 1000 ∧ h.len ≤ 202 ∧ h.len > 11
  · have hp : v.convPath h = .simd := by unfold convPath; rw [if_pos hcond]
    have hpts : v.points = v.len / v.stride ∧ h.points = h.len / v.stride := by
      constructor
      · rfl
      · unfold points stride; rw [hsp]; rfl
    have hst : v.stride = 1 ∨ v.stride = 2 := by unfold stride; split <;> simp
    have hk8 : k.len ≤ 8 := by cases k <;> decide
    obtain ⟨v', b', e1, e2⟩ := C93_simd k addr (hsimd hcond) st v h hv hh hsp
      (by rw [hpts.2]; rcases hst with h | h <;> rw [h] <;> omega)
      (by rw [hpts.1, hpts.2]; rcases hst with h | h <;> rw [h] <;> omega)
      (by rw [hpts.1, hpts.2]; rcases hst with h | h <;> rw [h] <;> omega) b hb
    refine ⟨v', b', e1.map (fun s hs => ?_) (fun s hs => ?_), fun hc => by omega, fun _ => e2⟩
    · rw [hun, hp]; simp only [hs]; rfl
    · rw [hun, hp]; simp only [hs]; rfl
  · have hp : v.convPath h = .scalar := by
      unfold convPath
      rw [if_neg hcond, if_neg]
      rintro ⟨g1, g2, g3, g4⟩
      have := hfreq g4
      omega
    obtain ⟨v', b', e1, e2⟩ := C93_scalar st v h hv hh hsp hn hle b hb
    refine ⟨v', b', e1.map (fun s hs => ?_) (fun s hs => ?_), fun _ => e2, fun hc => absurd hc hcond⟩
    · rw [hun, hp]; simp only [hs]; rfl
    · rw [hun, hp]; simp only [hs]; rfl

/-- A vector of zeros with one NaN. -/
def nanVector : DspVec (Wide ℚ) := ⟨⟨.vec, List.replicate 513 (.num 0) ++ .nan :: List.replicate 600 (.num 0)⟩, none, .time, .real, 1114⟩

/-- A response of twelve ones. -/
def onesVector : DspVec (Wide ℚ) := ⟨⟨.vec, List.replicate 12 (.num 1)⟩, none, .time, .real, 12⟩

/-- C93 is violated by registers: value 507 is the sum of twelve products of numbers, and without registers it is zero, but `convolve_signal`
    returns NaN for every register type: the NaN at position 513 is multiplied with a zero with which the response is filled up. -/
theorem C93_convolve_violated [NatCast (Wide ℚ)] [DeltaBounds (Wide ℚ)] (K : FftKernel (Wide ℚ))
    (junk : List (Cx (Wide ℚ)) → List (Cx (Wide ℚ))) (k : RegKind) (addr : Nat) (ha : addr % 8 = 0) (st : MultiCoreSettings)
    (b : Buffer (Wide ℚ)) (hb : BufferOk b nanVector.data nanVector.len) :
    ∃ v' w' b1 b2 z y, Always (nanVector.convolveSignal K junk k addr st onesVector b) (v', b1, .ok ()) ∧
      Always (nanVector.convolveSignalScalar st onesVector b) (w', b2) ∧
      v'.content = some z ∧ w'.content = some y ∧ z[507]? = some .nan ∧ y[507]? = some (.num 0) ∧
      ∀ j, 507 - 6 ≤ j ∧ j ≤ 507 + 5 → (List.replicate 513 (.num 0) ++ .nan :: List.replicate 600 (.num 0) : List (Wide ℚ))[j]? = some (.num 0) := by
  have hwf : nanVector.WF := ⟨by simp [nanVector, -List.reduceReplicate], fun h => by cases h⟩
  have hwf2 : onesVector.WF := ⟨by simp [onesVector, -List.reduceReplicate], fun h => by cases h⟩
  have hle : nanVector.content = some (List.replicate 513 (.num 0) ++ .nan :: List.replicate 600 (.num 0)) := by
    rw [hwf.content_eq]
    refine congrArg some ?_
    exact List.take_of_length_le (by simp [nanVector, -List.reduceReplicate])
  have hle2 : onesVector.content = some (List.replicate 12 (.num 1)) := by
    rw [hwf2.content_eq]
    congr 1
  have hmd : k.len = 2 ∨ k.len = 4 ∨ k.len = 8 := by cases k <;> simp [RegKind.len]
  have hzero : addr % k.len = 0 := by rcases hmd with h | h | h <;> rw [h] <;> omega
  have hal : ConvAligned k addr := by
    refine ⟨by rw [hzero]; simp, by omega⟩
  obtain ⟨v', b1, e1, -, e3⟩ := C93_convolve K junk k addr st nanVector onesVector hwf hwf2 rfl rfl (by decide) (by decide) b hb
    (fun _ => hal) (fun h => by cases h)
  obtain ⟨-, -, f3, -⟩ := e3 (by decide)
  obtain ⟨x, y, z, g1, g2, g3, g4⟩ := f3 rfl
  rw [hle] at g1
  rw [hle2] at g2
  cases g1
  cases g2
  obtain ⟨w', b2, i1, i2⟩ := C93_scalar st nanVector onesVector hwf hwf2 rfl (by decide) (by decide) b hb
  obtain ⟨-, -, j3, -⟩ := i2
  obtain ⟨x', y', z', k1, k2, k3, k4⟩ := j3 rfl
  rw [hle] at k1
  rw [hle2] at k2
  cases k1
  cases k2
  have hx : ∀ j, 507 - 6 ≤ j ∧ j ≤ 507 + 5 →
      (List.replicate 513 (.num 0) ++ .nan :: List.replicate 600 (.num 0) : List (Wide ℚ))[j]? = some (.num 0) := by
    intro j hj
    rw [List.getElem?_append_left (by rw [List.length_replicate]; omega), List.getElem?_replicate, if_pos (by omega)]
  have hxl : (List.replicate 513 (.num 0) ++ .nan :: List.replicate 600 (.num 0) : List (Wide ℚ)).length = 1114 := by
    simp [-List.reduceReplicate]
  have hz : 507 < z.length := by rw [g4.1, hxl]; omega
  have hy : 507 < z'.length := by rw [k4.1, hxl]; omega
  refine ⟨v', w', b1, b2, z, z', e1, i1, g3, k3, ?_, ?_, hx⟩
  · rw [List.getElem?_eq_getElem hz]
    refine congrArg some ?_
    apply (g4.2 507 _ (List.getElem?_eq_getElem hz)).1
    refine ⟨?_, ?_, 513, .nan, ?_, (fun t ht => by cases ht), ?_⟩
    · simp only [List.length_replicate]; rcases hmd with h | h | h <;> rw [h] <;> omega
    · rw [hxl]; simp only [List.length_replicate]; rcases hmd with h | h | h <;> rw [h] <;> omega
    · rw [List.getElem?_append_right (by rw [List.length_replicate]), List.length_replicate]; rfl
    · unfold SharesRegister
      rw [hzero]
      simp only [List.length_replicate]
      rcases hmd with h | h | h <;> rw [h] <;> decide
  · rw [List.getElem?_eq_getElem hy]
    refine congrArg some ?_
    have hc := (k4.2 507 _ (List.getElem?_eq_getElem hy)).2.2.2 ((convPairs (List.replicate 513 (.num 0) ++ .nan :: List.replicate 600 (.num 0) :
      List (Wide ℚ)) (List.replicate 12 (.num 1)) 507).map fun _ => 0)
    rw [hc, sum_zero_of]
    · intro x hx
      obtain ⟨-, -, rfl⟩ := List.mem_map.mp hx
      rfl
    · unfold Wide.Finite
      rw [List.map_map]
      apply List.map_congr_left
      intro p hp
      rw [convPairs_interior _ _ _ (by simp [-List.reduceReplicate]) (by rw [hxl]; simp [-List.reduceReplicate])] at hp
      have h1 := (List.of_mem_zip (a := p.1) (b := p.2) hp).1
      have h2 := (List.of_mem_zip (a := p.1) (b := p.2) hp).2
      rw [List.mem_replicate] at h2
      rw [h2.2]
      have h3 : p.1 = .num 0 := by
        rw [List.mem_reverse] at h1
        obtain ⟨n, hn, e⟩ := List.getElem_of_mem h1
        have hn' : n < 12 := by simp only [List.length_take, List.length_replicate] at hn; omega
        simp only [List.length_replicate] at e hn
        rw [List.getElem_take, List.getElem_drop] at e
        have := hx (507 + (12 - 12 / 2) - 12 + n) (by omega)
        rw [← e]
        exact Option.some.inj ((List.getElem?_eq_getElem _).symm.trans this)
      rw [h3]
      change Wide.num ((0 : ℚ) * 1) = Wide.num 0
      rw [zero_mul]

/-- The hypotheses hold for this vector and an empty buffer; position 512 is used for value 507, position 513 is not, but shares its register. -/
example : BufferOk (.single []) nanVector.data nanVector.len ∧ ConvAligned .avxF64x4 8 ∧ SharesRegister 4 0 12 507 513 ∧
    ¬ SharesRegister 4 0 12 507 512 ∧ ¬ SharesRegister 4 0 12 507 516 := by
  refine ⟨trivial, by decide, ?_, ?_, ?_⟩ <;> unfold SharesRegister <;> decide

/-- A complex vector with an infinity, for which registers are used. -/
example : let _ : DeltaBounds (Wide ℚ) := ⟨.num (11 / 10), .num (9 / 10)⟩
    let v : DspVec (Wide ℚ) := ⟨⟨.vec, List.replicate 1001 (.num 2) ++ [.posInf]⟩, none, .time, .complex, 1002⟩
    let h : DspVec (Wide ℚ) := ⟨⟨.vec, List.replicate 20 (.num (-5))⟩, none, .time, .complex, 20⟩
    v.WF ∧ h.WF ∧ v.metaMismatch h = false ∧ v.points = 501 ∧ h.points = 10 ∧ (v.len > 1000 ∧ h.len ≤ 202 ∧ h.len > 11) := by
  refine ⟨⟨by simp [-List.reduceReplicate], fun _ => rfl⟩, ⟨by simp [-List.reduceReplicate], fun _ => rfl⟩, rfl, rfl, rfl, by decide⟩

end
end Dsp
