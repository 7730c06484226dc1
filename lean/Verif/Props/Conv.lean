import Verif.Model.Conv
import Verif.Spec.Conv
import Verif.Spec.Schedule
import Verif.Lemmas.BlockMap
import Verif.Lemmas.ConvSimd
import Verif.Lemmas.Pts
import Verif.Props.Fft
/-
C39: wrapping iterators. C37: convolution of two vectors in time domain.
-/
namespace Dsp
variable {α T : Type}

/-! ### C39 -/

theorem wrapUp_eq (n : Int) (fuel : Nat) (p : Int) (h1 : -n < p)
    (h3 : p < 0 → 1 ≤ fuel) : wrapUp n fuel p = if p < 0 then p + n else p := by
  cases fuel with
  | zero => rw [if_neg (by intro h; have := h3 h; omega)]; rfl
  | succ f =>
    unfold wrapUp
    split
    · cases f with
      | zero => rfl
      | succ f => unfold wrapUp; rw [if_neg (by omega)]
    · rfl

theorem wrapStart_eq (n : Nat) (hn : 0 < n) (pos : Int) :
    wrapStart n pos = some (pos % (n : Int)) := by
  unfold wrapStart
  rw [if_neg (by omega), wrapUp_eq n]
  · congr 1
    split
    · rename_i h
      rw [Int.tmod_eq_emod] at h ⊢
      have := Int.emod_nonneg pos (b := (n : Int)) (by omega)
      split at h
      · omega
      · rw [if_neg (by assumption)]; simp
    · rename_i h
      rw [Int.tmod_eq_emod] at h ⊢
      have := Int.emod_lt_of_pos pos (b := (n : Int)) (by omega)
      split at h
      · rw [if_pos (by assumption)]; simp
      · rename_i h'
        simp at h; omega
  · have := Int.lt_tmod_of_pos pos (b := (n : Int)) (by omega); omega
  · intro h; omega

theorem wrapNext_eq (n : Nat) (hn : 0 < n) (p : Int) :
    wrapNext n (p % (n : Int)) = (p + 1) % (n : Int) := by
  have h1 := Int.emod_nonneg p (b := (n : Int)) (by omega)
  have h2 := Int.emod_lt_of_pos p (b := (n : Int)) (by omega)
  unfold wrapNext
  rw [← Int.emod_add_emod]
  generalize p % (n : Int) = q at h1 h2 ⊢
  split
  · rw [Int.emod_eq_of_lt (by omega) (by omega)]
  · have : q + 1 = n := by omega
    rw [this, Int.emod_self]

theorem revNext_eq (n : Nat) (hn : 0 < n) (p : Int) :
    revNext n (p % (n : Int)) = (p - 1) % (n : Int) := by
  have h1 := Int.emod_nonneg p (b := (n : Int)) (by omega)
  have h2 := Int.emod_lt_of_pos p (b := (n : Int)) (by omega)
  unfold revNext
  rw [← Int.emod_sub_emod]
  generalize p % (n : Int) = q at h1 h2 ⊢
  split
  · rw [Int.emod_eq_of_lt (by omega) (by omega)]
  · have : q - 1 = (n - 1) + n * (-1) := by omega
    rw [this, Int.add_mul_emod_self_left, Int.emod_eq_of_lt (by omega) (by omega)]

/-- Iterating a step which moves `d` places around the circle. -/
theorem iterate_eq (s : List α) (hs : s ≠ []) (step : Int → Int) (d : Int)
    (hstep : ∀ p : Int, step (p % (s.length : Int)) = (p + d) % (s.length : Int)) (count : Nat) (p : Int) :
    ∃ l, iterate step s count (p % (s.length : Int)) = some l ∧ l.length = count ∧
      ∀ k < count, l[k]? = cyclic s (p + d * (k + 1)) := by
  have hn : 0 < s.length := List.length_pos_of_ne_nil hs
  induction count generalizing p with
  | zero => exact ⟨[], rfl, rfl, by simp⟩
  | succ c ih =>
    obtain ⟨l, h1, h2, h3⟩ := ih (p + d)
    have e1 := Int.emod_nonneg (p + d) (b := (s.length : Int)) (by omega)
    have e2 := Int.emod_lt_of_pos (p + d) (b := (s.length : Int)) (by omega)
    have hlt : ((p + d) % (s.length : Int)).toNat < s.length := by omega
    refine ⟨s[((p + d) % (s.length : Int)).toNat] :: l, ?_, by simp [h2], ?_⟩
    · unfold iterate
      simp only [hstep]
      rw [if_neg (by omega), List.getElem?_eq_getElem hlt]
      simp [h1]
    · intro k hk
      cases k with
      | zero => simp [cyclic, List.getElem?_eq_getElem hlt]
      | succ k =>
        rw [List.getElem?_cons_succ, h3 k (by omega)]
        congr 1
        push_cast; ring

/-- C39: `WrappingIterator::new(s, pos, count)` never reads outside of the slice and produces exactly
    `count` elements, the elements at `pos + 1, pos + 2, …` modulo the length of the slice. -/
theorem C39_wrapping (s : List α) (hs : s ≠ []) (pos : Int) (count : Nat) :
    ∃ l, wrappingIter s pos count = some l ∧ l.length = count ∧
      ∀ k < count, l[k]? = cyclic s (pos + 1 + k) := by
  have hn : 0 < s.length := List.length_pos_of_ne_nil hs
  obtain ⟨l, h1, h2, h3⟩ := iterate_eq s hs (wrapNext s.length) 1 (wrapNext_eq _ hn) count pos
  refine ⟨l, ?_, h2, fun k hk => ?_⟩
  · unfold wrappingIter; rw [wrapStart_eq _ hn]; exact h1
  · rw [h3 k hk]; congr 1; ring

/-- C39: `ReverseWrappingIterator::new(s, pos, count)` never reads outside of the slice and produces
    exactly `count` elements, the elements at `pos - 1, pos - 2, …` modulo the length. -/
theorem C39_reverse_wrapping (s : List α) (hs : s ≠ []) (pos : Int) (count : Nat) :
    ∃ l, revWrappingIter s pos count = some l ∧ l.length = count ∧
      ∀ k < count, l[k]? = cyclic s (pos - 1 - k) := by
  have hn : 0 < s.length := List.length_pos_of_ne_nil hs
  obtain ⟨l, h1, h2, h3⟩ := iterate_eq s hs (revNext s.length) (-1)
    (fun p => by rw [revNext_eq _ hn]; rfl) count pos
  refine ⟨l, ?_, h2, fun k hk => ?_⟩
  · unfold revWrappingIter; rw [wrapStart_eq _ hn]; exact h1
  · rw [h3 k hk]; congr 1; ring

/-- C39: the elements really exist. -/
theorem C39_cyclic_exists (s : List α) (hs : s ≠ []) (p : Int) : ∃ x, cyclic s p = some x := by
  have hn : 0 < s.length := List.length_pos_of_ne_nil hs
  have e1 := Int.emod_nonneg p (b := (s.length : Int)) (by omega)
  have e2 := Int.emod_lt_of_pos p (b := (s.length : Int)) (by omega)
  exact ⟨_, List.getElem?_eq_getElem (by omega)⟩

/-- C39: an empty slice makes both constructors panic (division by zero). -/
theorem C39_empty (pos : Int) (count : Nat) :
    wrappingIter ([] : List α) pos count = none ∧ revWrappingIter ([] : List α) pos count = none :=
  ⟨rfl, rfl⟩

example : wrappingIter [10, 20, 30] (-5) 4 = some [30, 10, 20, 30] ∧
    revWrappingIter [10, 20, 30] (-5) 4 = some [10, 30, 20, 10] := by decide

/-! ### C37 -/

theorem foldl_zip_range (l h : List α) (f : α → α → α → α) (hl : l.length = h.length) (z : α) :
    (l.zip h).foldl (fun s p => f s p.1 p.2) z =
      (List.range h.length).foldl (fun s k => f s (l.getD k z) (h.getD k z)) z := by
  have key : ∀ (l h : List α) (_ : l.length = h.length) (z0 : α),
      (l.zip h).foldl (fun s p => f s p.1 p.2) z0 =
        (List.range h.length).foldl (fun s k => f s (l.getD k z) (h.getD k z)) z0 := by
    intro l
    induction l with
    | nil =>
      intro h hl z0
      have := List.length_eq_zero_iff.mp hl.symm
      subst this; rfl
    | cons a l ih =>
      intro h hl z0
      cases h with
      | nil => simp at hl
      | cons b h =>
        simp only [List.zip_cons_cons, List.foldl_cons, List.length_cons, List.range_succ_eq_map,
          List.foldl_map]
        rw [ih h (by simpa using hl)]
        simp
  exact key l h hl z

section
variable [Zero α] [Add α] [Mul α]

/-- One value of the convolution. -/
theorem convolveIteration_eq (x h : List α) (hx : x ≠ []) (i : Nat) :
    convolveIteration x h i ((h.length - h.length / 2 : Nat) : Int) h.length = some (convAt x h i) := by
  obtain ⟨l, h1, h2, h3⟩ := C39_reverse_wrapping x hx ((i : Int) + ((h.length - h.length / 2 : Nat) : Int)) h.length
  unfold convolveIteration
  rw [h1]
  simp only [Option.bind_eq_bind, Option.bind_some]
  rw [foldl_zip_range l h (fun s a b => s + a * b) h2]
  unfold convAt
  congr 1
  apply List.foldl_ext
  intro acc k hk
  rw [List.mem_range] at hk
  rw [List.getD_eq_getElem?_getD, h3 k hk]
  have : (i : Int) + ((h.length - h.length / 2 : Nat) : Int) - 1 - k =
      (i : Int) + (((h.length - 1) / 2 : Nat) : Int) - k := by omega
  rw [this]

theorem mapM_some_range {β : Type} (f : Nat → Option β) (g : Nat → β) (n : Nat)
    (h : ∀ i < n, f i = some (g i)) : (List.range n).mapM f = some ((List.range n).map g) := by
  have key : ∀ l : List Nat, (∀ i ∈ l, f i = some (g i)) → l.mapM f = some (l.map g) := by
    intro l
    induction l with
    | nil => intro _; rfl
    | cons a l ih =>
      intro hl
      rw [List.mapM_cons, hl a (by simp), ih (fun i hi => hl i (by simp [hi]))]
      rfl
  exact key _ (fun i hi => h i (List.mem_range.mp hi))

theorem convValues_eq (x h : List α) (hx : x ≠ []) (hh : h.length ≤ x.length) (n : Nat) :
    convValues x h n = some ((List.range n).map (convAt x h)) := by
  unfold convValues convRange
  rw [if_neg (by omega)]
  simp only [slice, Nat.zero_le, le_refl, and_self, if_true, Option.bind_some, List.drop_zero,
    Nat.sub_zero, List.take_length]
  exact mapM_some_range _ _ _ (fun i _ => convolveIteration_eq x h hx i)

theorem convolveScalar_spec (st : MultiCoreSettings) (x h dest : List α) (hx : x ≠ [])
    (hh : h.length ≤ x.length) (hd : dest.length = x.length) :
    Always (convolveScalar st x h dest) (circularConv x h) := by
  have hne : dest ≠ [] := by
    intro e; subst e; exact hx (List.length_eq_zero_iff.mp hd.symm)
  have := executeWithRange_mapIdx dest hne
    (fun (_ : α) i => ((List.range dest.length).map (convAt x h)).getD i 0) .large st
  have e : dest.mapIdx (fun i _ => ((List.range dest.length).map (convAt x h)).getD i 0) =
      circularConv x h := by
    unfold circularConv
    apply List.ext_getElem (by simp [hd])
    intro i h1 h2
    simp at h1 h2
    simp [h1]
  rw [e] at this
  refine this.congr (fun s => ?_)
  unfold convolveScalar
  rw [convValues_eq x h hx hh]

end

/-! ### C38: the SIMD implementation -/

theorem setFold (f : Nat → Option α) (g : Nat → α) : ∀ (n s : Nat) (d : List α), s + n ≤ d.length →
    (∀ i, s ≤ i → i < s + n → f i = some (g i)) →
    ∃ d', (ipos s n).foldlM (init := d) (fun d (p : Int) =>
        if p < 0 then none else do
          let y ← f p.toNat
          put d p.toNat y) = some d' ∧ d'.length = d.length ∧
      ∀ j, d'[j]? = if s ≤ j ∧ j < s + n then some (g j) else d[j]?
  | 0, s, d, _, _ => ⟨d, rfl, rfl, fun j => by rw [if_neg (by omega)]⟩
  | n + 1, s, d, h, hf => by
    obtain ⟨d', h1, h2, h3⟩ := setFold f g n (s + 1) (d.set s (g s)) (by simp; omega)
      (fun i hi hi' => hf i (by omega) (by omega))
    refine ⟨d', ?_, by simpa using h2, fun j => ?_⟩
    · rw [ipos_succ, List.foldlM_cons, if_neg (by omega), Int.toNat_natCast, hf s (by omega) (by omega)]
      simp only [Option.bind_eq_bind, Option.bind_some, put]
      rw [if_pos (by omega)]
      exact h1
    · rw [h3 j]
      by_cases hj : j = s
      · subst hj
        rw [if_neg (by omega), if_pos (by omega), List.getElem?_set_self (by omega)]
      · rw [List.getElem?_set_ne (by omega)]
        by_cases hc : s + 1 ≤ j ∧ j < s + 1 + n
        · rw [if_pos hc, if_pos (by omega)]
        · rw [if_neg hc, if_neg (by omega)]

theorem setEdges_eq (f : Nat → Option α) (g : Nat → α) (left right : Nat) (d : List α)
    (h : left + right ≤ d.length) (hf : ∀ i < d.length, f i = some (g i)) :
    ∃ d', setEdges left right f d = some d' ∧ d'.length = d.length ∧
      ∀ j, d'[j]? = if j < left ∨ (d.length - right ≤ j ∧ j < d.length) then some (g j) else d[j]? := by
  unfold setEdges
  rw [edgePositions_eq _ _ _ h, List.foldlM_append]
  obtain ⟨d1, a1, a2, a3⟩ := setFold f g left 0 d (by omega) (fun i _ hi => hf i (by omega))
  obtain ⟨d2, b1, b2, b3⟩ := setFold f g right (d.length - right) d1 (by omega)
    (fun i _ hi => hf i (by omega))
  refine ⟨d2, ?_, by omega, fun j => ?_⟩
  · rw [a1]
    exact b1
  · rw [b3, a3]
    by_cases h1 : d.length - right ≤ j ∧ j < d.length
    · rw [if_pos (by omega), if_pos (by omega)]
    · rw [if_neg (by omega)]
      by_cases h2 : j < left
      · rw [if_pos (by omega), if_pos (by omega)]
      · rw [if_neg (by omega), if_neg (by omega)]

/-- C38 on points and registers, without any law: `enc` describes how points are stored in registers. What holds for the values
    computed with registers in the middle of the vector and for the values computed without registers at its ends holds for
    all values of the result. -/
theorem convolveSimd_form [Zero α] [Add α] [Mul α] [Zero T] [Add T] {w step : Nat} {enc : List α → List T}
    {mulR : List T → List T → List T} {sumR : List T → α} {sm : List α → α}
    (E : RegEnc w step enc mulR sumR sm) (addr : Nat) (st : MultiCoreSettings)
    (x h dest : List α) (hd : dest.length = x.length)
    (hlen : 2 * (h.length - h.length / 2 + w) < x.length) (hhx : h.length < x.length)
    (ha1 : (2 * (addr % w)) % w = 0) (ha2 : (addr % w) % step = 0) (P : Nat → α → Prop)
    (hends : ∀ i < x.length, i < h.length - h.length / 2 + w ∨ x.length - (h.length - h.length / 2 + w) ≤ i → P i (convAt x h i))
    (hmiddle : ∀ s, w = step * s → 0 < s → ∀ (i : Nat) (A B : List (List α)) (p q : Nat), A.length = B.length →
      (∀ r ∈ A, r.length = s) → (∀ r ∈ B, r.length = s) → B.length ≤ h.length / s + 2 →
      B.flatten = List.replicate p 0 ++ h.reverse ++ List.replicate q 0 → A.flatten.length = p + h.length + q →
      h.length ≤ i + (h.length - h.length / 2) → i + (h.length - h.length / 2) ≤ x.length →
      (A.flatten.drop p).take h.length = (x.drop (i + (h.length - h.length / 2) - h.length)).take h.length →
      RegWindow s (addr % w / step) x (i + (h.length - h.length / 2)) h.length p q A.flatten →
      h.length - h.length / 2 + w ≤ i → i < x.length - (h.length - h.length / 2 + w) →
      P i (sm ((A.zip B).foldl (fun sum p => List.zipWith (· + ·) sum (List.zipWith (· * ·) p.1 p.2)) (List.replicate s 0)))) :
    ∃ z : List α, Always (convolveSimd addr w step mulR sumR st (enc x) (enc h) x h dest) z ∧ z.length = x.length ∧
      ∀ i y, z[i]? = some y → P i y := by
  obtain ⟨s, hw, hs⟩ := E.dvd
  have hp := E.pos
  have hwp : 0 < w := by rw [hw]; exact Nat.mul_pos hp hs
  have hsw : s ≤ w := by rw [hw]; exact Nat.le_mul_of_pos_left _ hp
  have hxne : x ≠ [] := by intro e; subst e; simp at hlen
  -- the partition
  have hmod := Nat.mod_lt addr hwp
  have hlx := E.len x
  have hxs : x.length ≤ step * x.length := Nat.le_mul_of_pos_left _ hp
  obtain ⟨lp, hlp⟩ : ∃ lp, addr % w = step * lp := ⟨addr % w / step, by
    rw [Nat.mul_comm, Nat.div_mul_cancel (Nat.dvd_of_mod_eq_zero ha2)]⟩
  have hlps : lp < s := by
    rw [hlp, hw] at hmod; exact Nat.lt_of_mul_lt_mul_left hmod
  have hpart : calcDataAlignmentReqs addr w (enc x).length =
      ⟨addr % w, ((enc x).length - addr % w) % w, (enc x).length⟩ := by
    unfold calcDataAlignmentReqs
    simp only
    rw [if_neg (by omega)]
  generalize hNdef : x.length - lp - (x.length - lp) % s = N
  have hms := Nat.mod_lt (x.length - lp) hs
  have hml := Nat.mod_le (x.length - lp) s
  have hcenter : (calcDataAlignmentReqs addr w (enc x).length).center (enc x) =
      some (enc ((x.drop lp).take N)) := by
    rw [hpart]
    unfold SimdPartition.center
    simp only
    have hm := Nat.mod_lt ((enc x).length - addr % w) hwp
    rw [if_neg (by omega), slice_ok _ _ _ (by omega) (by omega)]
    have e1 : (enc x).length - addr % w = step * (x.length - lp) := by
      rw [hlx, hlp, Nat.mul_sub]
    have e2 : ((enc x).length - addr % w) % w = step * ((x.length - lp) % s) := by
      rw [e1, hw, Nat.mul_mod_mul_left]
    have e3 : (enc x).length - ((enc x).length - addr % w) % w - addr % w = step * N := by
      have : (enc x).length - ((enc x).length - addr % w) % w - addr % w =
        ((enc x).length - addr % w) - ((enc x).length - addr % w) % w := by omega
      rw [this, e2, e1, ← hNdef, ← Nat.mul_sub]
    rw [e3, hlp, E.drop, E.take]
  have hregs := (C19_registers_partial addr w hwp (enc x) _ hcenter).2 (.inl ha1)
  obtain ⟨simd, s1, s2, s3⟩ := hregs
  obtain ⟨shifts, t1, t2, t3⟩ := E.createShifted s hw hs h
  have hN : N ≤ x.length - lp := by omega
  have hleft : (calcDataAlignmentReqs addr w (enc x).length).left / step = lp := by
    rw [hpart]; simp only; rw [hlp, Nat.mul_div_cancel_left _ hp]
  -- the values in the middle
  generalize hcl : h.length - h.length / 2 = convLen at *
  generalize hsl : convLen + w = sl at *
  have hvals0 : ∀ r < x.length - sl - sl, ∃ y, simdConvAt w mulR sumR simd shifts convLen lp (sl + r) = some y ∧
      P (sl + r) y := by
    intro r hr
    have hX : ((x.drop lp).take N).length = N := by simp; omega
    obtain ⟨A, B, p, q, a1, a2, a3, a4, a5, a6, a7, aw, a8⟩ := E.conv_form s hw hs h _ simd s2 s3 shifts t1 convLen lp (sl + r)
      (by omega) (by omega) (by rw [hX]; omega)
    refine ⟨_, a8, hmiddle s hw hs (sl + r) A B p q a1 a2 a3 a4 a5 a6 (by omega) (by omega) ?_ ?_ (by omega) (by omega)⟩
    · rw [a7, List.drop_take, List.drop_drop, List.take_take]
      congr 1
      · omega
      · congr 1; omega
    · have hlpd : addr % w / step = lp := by rw [hlp, Nat.mul_div_cancel_left _ hp]
      obtain ⟨w1, w2, w3, w4, w5, w6, w7⟩ := aw
      rw [hX] at w6
      refine ⟨w1, w2, by omega, ?_, ?_, by omega, ?_⟩
      · rw [hlpd]
        have e : sl + r + convLen - h.length - p - lp = sl + r + convLen - lp - h.length - p - 0 := by omega
        rw [e]; exact w4
      · rw [hlpd]
        have e : sl + r + convLen + q - lp = sl + r + convLen - lp + q - 0 := by omega
        rw [e]; exact w5
      · rw [w7, List.drop_take, List.drop_drop, List.take_take]
        congr 1
        · omega
        · congr 1; omega
  generalize hval : (fun r => (simdConvAt w mulR sumR simd shifts convLen lp (sl + r)).getD 0) = value
  have hvals : ∀ r < x.length - sl - sl, simdConvAt w mulR sumR simd shifts convLen lp (sl + r) = some (value r) ∧
      P (sl + r) (value r) := by
    intro r hr
    obtain ⟨y, y1, y2⟩ := hvals0 r hr
    rw [← hval]
    simp only [y1, Option.getD_some, true_and]
    exact y2
  have hys := mapM_some_range (fun r => simdConvAt w mulR sumR simd shifts convLen lp (sl + r))
    value _ (fun r hr => (hvals r hr).1)
  -- the workers
  have hmid : ((dest.drop sl).take (x.length - sl - sl)) ≠ [] := by
    intro e
    have := congrArg List.length e
    simp at this; omega
  have hex := executeWithRange_mapIdx _ hmid (fun (_ : α) i =>
    ((List.range (x.length - sl - sl)).map value).getD i 0) .large st
  have hres : ∀ mid : List α, mid.length = x.length - sl - sl → (∀ r < x.length - sl - sl, mid[r]? = some (value r)) →
      ∃ d', setEdges sl sl (fun (i : Nat) => convolveIteration x h i (convLen : Int) h.length) (splice dest sl mid) = some d' ∧
        d'.length = x.length ∧ ∀ i y, d'[i]? = some y → P i y := by
    intro mid hmlen hmget
    have hsplen : (splice dest sl mid).length = x.length := by
      unfold splice; simp; omega
    obtain ⟨d', d1, d2, d3⟩ := setEdges_eq
      (fun (i : Nat) => convolveIteration x h i (convLen : Int) h.length) (convAt x h) sl sl
      (splice dest sl mid) (by omega) (fun i _ => by rw [← hcl]; exact convolveIteration_eq x h hxne i)
    refine ⟨d', d1, by omega, fun j y hy => ?_⟩
    have hj : j < x.length := by
      by_contra hj
      rw [List.getElem?_eq_none (by omega)] at hy; cases hy
    rw [d3 j, hsplen] at hy
    by_cases hc : j < sl ∨ (x.length - sl ≤ j ∧ j < x.length)
    · rw [if_pos hc] at hy
      rw [← Option.some.inj hy]; exact hends j hj (by omega)
    · rw [if_neg hc] at hy
      unfold splice at hy
      have e : j - (dest.take sl).length = j - sl := by simp; omega
      rw [List.append_assoc, List.getElem?_append_right (by simp; omega), e,
        List.getElem?_append_left (by omega), hmget _ (by omega)] at hy
      rw [← Option.some.inj hy]
      have := (hvals (j - sl) (by omega)).2
      rwa [show sl + (j - sl) = j by omega] at this
  obtain ⟨z, z1, z2, z3⟩ := hres (List.mapIdx (fun i _ => ((List.range (x.length - sl - sl)).map
      value).getD i 0) ((dest.drop sl).take (x.length - sl - sl))) (by simp; omega) (by
    intro r hr
    have hr2 : r < ((dest.drop sl).take (x.length - sl - sl)).length := by simp; omega
    rw [List.getElem?_mapIdx, List.getElem?_eq_getElem hr2]
    simp [hr])
  refine ⟨z, hex.map (fun sched hrun => ?_) (fun sched hfin => ?_), z2, z3⟩
  · unfold convolveSimd
    simp only [hcl, hsl]
    rw [if_neg (by omega), if_neg (by omega), t1, hcenter, Option.bind_some, s1]
    simp only [hleft, hys]
    rw [hrun]; rfl
  · unfold convolveSimd
    simp only [hcl, hsl]
    rw [if_neg (by omega), if_neg (by omega), t1, hcenter, Option.bind_some, s1]
    simp only [hleft, hys]
    rw [hfin]
    simp only [Outcome.andThen]
    rw [z1]; rfl

/-- C38 on points and registers: `enc` describes how points are stored in registers. -/
theorem convolveSimd_spec [CommRing α] [Zero T] [Add T] {w step : Nat} {enc : List α → List T}
    {mulR : List T → List T → List T} {sumR : List T → α}
    (E : RegEnc w step enc mulR sumR List.sum) (addr : Nat) (st : MultiCoreSettings)
    (x h dest : List α) (hd : dest.length = x.length)
    (hlen : 2 * (h.length - h.length / 2 + w) < x.length) (hhx : h.length < x.length)
    (ha1 : (2 * (addr % w)) % w = 0) (ha2 : (addr % w) % step = 0) :
    Always (convolveSimd addr w step mulR sumR st (enc x) (enc h) x h dest) (circularConv x h) := by
  obtain ⟨z, z1, z2, z3⟩ := convolveSimd_form E addr st x h dest hd hlen hhx ha1 ha2 (fun i y => y = convAt x h i)
    (fun _ _ _ => rfl) (fun s hw hs i A B p q a1 a2 a3 _ a5 a6 b1 b2 a7 _ _ _ => by
      rw [sum_accumulate s A B _ a1 a2 a3 (by simp), a5, sum_padded _ h.reverse p q (by simpa using a6), List.length_reverse, a7,
        convAt_interior x h i b1 b2]
      simp)
  have : z = circularConv x h := by
    apply List.ext_getElem (by simp [circularConv, z2])
    intro i g1 g2
    rw [z3 i _ (List.getElem?_eq_getElem g1)]
    simp [circularConv]
  rw [← this]; exact z1

end Dsp
