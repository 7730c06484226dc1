import Verif.Props.Conv
import Verif.Spec.ConvFreq
/-
C40: next_power_of_two. C37: the implementation of the convolution in frequency domain.
-/
namespace Dsp
variable {T : Type}

/-! ### C40 -/

theorem countBits_spec (fuel n count : Nat) (h : n ≤ fuel) :
    ∃ b, countBits fuel n count = count + b ∧ n < 2 ^ b ∧ (n ≠ 0 → 2 ^ b ≤ 2 * n) ∧ (n = 0 → b = 0) := by
  induction fuel generalizing n count with
  | zero =>
    have : n = 0 := by omega
    subst this
    exact ⟨0, rfl, by simp, by simp, by simp⟩
  | succ f ih =>
    unfold countBits
    by_cases hn : n = 0
    · subst hn; exact ⟨0, by simp, by simp, by simp, by simp⟩
    · rw [if_pos hn, Nat.shiftRight_one]
      obtain ⟨b, h1, h2, h3, h4⟩ := ih (n / 2) (count + 1) (by omega)
      refine ⟨b + 1, by rw [h1]; omega, by rw [Nat.pow_succ]; omega, fun _ => ?_, fun h => absurd h hn⟩
      rw [Nat.pow_succ]
      by_cases h0 : n / 2 = 0
      · rw [h4 h0]; omega
      · have := h3 h0; omega

/-- C40: for every positive number `next_power_of_two` returns a power of two which is not smaller
    than the number and less than twice the number. -/
theorem C40_next_power_of_two (v : Nat) (hv : 0 < v) :
    (∃ k, nextPowerOfTwo v = 2 ^ k) ∧ v ≤ nextPowerOfTwo v ∧ nextPowerOfTwo v < 2 * v := by
  unfold nextPowerOfTwo
  by_cases hp : v ≠ 0 ∧ v &&& (v - 1) = 0
  · rw [if_pos hp]
    obtain ⟨k, hk⟩ := Nat.ne_zero_and_sub_one_eq_zero_iff_isPowerOfTwo.mp hp
    exact ⟨⟨k, hk⟩, by omega, by omega⟩
  · rw [if_neg hp]
    obtain ⟨b, h1, h2, h3, h4⟩ := countBits_spec v v 0 (Nat.le_refl _)
    rw [h1, Nat.zero_add, Nat.one_shiftLeft]
    refine ⟨⟨b, rfl⟩, by omega, ?_⟩
    have := h3 (by omega)
    rcases Nat.lt_or_eq_of_le this with h | h
    · exact h
    · exfalso
      apply hp
      apply Nat.ne_zero_and_sub_one_eq_zero_iff_isPowerOfTwo.mpr
      cases b with
      | zero => simp at h; omega
      | succ b => exact ⟨b, by rw [Nat.pow_succ] at h; omega⟩

/-- C40: the smallest such power. -/
theorem C40_least (v k : Nat) (hv : 0 < v) (h : v ≤ 2 ^ k) : nextPowerOfTwo v ≤ 2 ^ k := by
  obtain ⟨⟨j, hj⟩, _, h2⟩ := C40_next_power_of_two v hv
  rw [hj] at h2 ⊢
  apply Nat.pow_le_pow_right (by omega)
  by_contra hc
  have : 2 ^ (k + 1) ≤ 2 ^ j := Nat.pow_le_pow_right (by omega) (by omega)
  rw [Nat.pow_succ] at this
  omega

/-- C40: zero gives one. -/
theorem C40_zero : nextPowerOfTwo 0 = 1 := by decide

example : nextPowerOfTwo 5 = 8 ∧ nextPowerOfTwo 8 = 8 ∧ nextPowerOfTwo 1 = 1 := by decide

/-! ### C37: overlap discard -/

section
variable [Zero T] [Add T] [Sub T] [Mul T] [Div T] [NatCast T]

theorem slice_spec {α : Type} (l : List α) (lo hi : Nat) (h1 : lo ≤ hi) (h2 : hi ≤ l.length) :
    ∃ r, slice l lo hi = some r ∧ r.length = hi - lo ∧ ∀ j, r[j]? = if j < hi - lo then l[lo + j]? else none :=
  ⟨_, slice_ok l lo hi h1 h2, by simp; omega, fun j => by
    rw [List.getElem?_take]; simp [List.getElem?_drop]⟩

theorem copy_spec {α : Type} (l src : List α) (lo hi : Nat) (h1 : lo ≤ hi) (h2 : hi ≤ l.length)
    (h3 : src.length = hi - lo) :
    ∃ r, copyFromSlice l lo hi src = some r ∧ r.length = l.length ∧
      ∀ j, r[j]? = if lo ≤ j ∧ j < hi then src[j - lo]? else l[j]? := by
  refine ⟨_, copyFromSlice_ok l lo hi src h1 h2 h3, by simp [splice]; omega, fun j => ?_⟩
  unfold splice
  by_cases ha : j < lo
  · rw [if_neg (by omega), List.append_assoc, List.getElem?_append_left (by simp; omega), List.getElem?_take,
      if_pos ha]
  · have e : (l.take lo).length = lo := by simp; omega
    by_cases hb : j < hi
    · rw [if_pos (by omega), List.append_assoc, List.getElem?_append_right (by omega),
        List.getElem?_append_left (by omega), e]
    · rw [if_neg (by omega), List.getElem?_append_right (by simp; omega), List.getElem?_drop]
      congr 1
      simp; omega

omit [Zero T] [Add T] [Sub T] [Mul T] [Div T] [NatCast T] in
theorem destroy_spec (junk : List (Cx T) → List (Cx T)) (hj : ∀ l, (junk l).length = l.length)
    (l : List (Cx T)) (lo hi : Nat) (h1 : lo ≤ hi) (h2 : hi ≤ l.length) :
    ∃ r, destroy junk l lo hi = some r ∧ r.length = l.length ∧
      ∀ j, ¬ (lo ≤ j ∧ j < hi) → r[j]? = l[j]? := by
  obtain ⟨b, b1, b2, _⟩ := slice_spec l lo hi h1 h2
  obtain ⟨r, r1, r2, r3⟩ := copy_spec l (junk b) lo hi h1 h2 (by rw [hj, b2])
  exact ⟨r, by unfold destroy; rw [b1]; exact r1, r2, fun j hc => by rw [r3, if_neg hc]⟩

/-- What a filtered block at position `p` has to contain: values which are acceptable (`Y`) for the
    positions where they will be stored. -/
def GoodBlock (Y : Nat → Cx T → Prop) (fftLen m p : Nat) (tmp : List (Cx T)) : Prop :=
  tmp.length = fftLen ∧ ∀ j, m - 1 ≤ j → j < fftLen →
    ∃ c, tmp[j]? = some c ∧ Y (p + j - (m - 1) + m / 2) c

/-- Invariant of the loop. -/
structure OverlapInv (x : List (Cx T)) (fftLen m : Nat) (Y : Nat → Cx T → Prop) (s : OverlapState T) :
    Prop where
  len : s.signal.length = x.length
  pos : fftLen - (m - 1) ≤ s.position
  fits : s.position + (m - 1) ≤ x.length
  block : GoodBlock Y fftLen m (s.position - (fftLen - (m - 1))) s.tmp
  ovLen : s.overlap.length = m - 1
  ov : ∀ j < m - 1, s.overlap[j]? = x[s.position + j]?
  done : ∀ j < s.position - (fftLen - (m - 1)) + m / 2, ∃ c, s.signal[j]? = some c ∧ Y j c
  rest : ∀ j, s.position + (m - 1) ≤ j → s.signal[j]? = x[j]?

omit [Zero T] [Add T] [Sub T] [Mul T] [Div T] [NatCast T] in
/-- Storing a block. -/
theorem storeBlock_spec {x : List (Cx T)} {F m : Nat} {Y : Nat → Cx T → Prop} {s : OverlapState T}
    (hm : 1 ≤ m) (hF : m ≤ F) (hI : OverlapInv x F m Y s) (sig : List (Cx T)) (hs : sig.length = x.length)
    (hsig : ∀ j < s.position - (F - (m - 1)) + m / 2, ∃ c, sig[j]? = some c ∧ Y j c) :
    ∃ r, storeBlock F m s sig = some r ∧ r.length = x.length ∧
      (∀ j < s.position + m / 2, ∃ c, r[j]? = some c ∧ Y j c) ∧
      ∀ j, s.position + m / 2 ≤ j → r[j]? = sig[j]? := by
  obtain ⟨i1, i2, i3, ⟨i4, i4'⟩, i5, i6, i7, i8⟩ := hI
  obtain ⟨res, a1, a2, a3⟩ := slice_spec s.tmp (m - 1) F (by omega) (by omega)
  obtain ⟨r, r1, r2, r3⟩ := copy_spec sig res (s.position - (F - (m - 1)) + m / 2) (s.position + m / 2)
    (by omega) (by omega) (by omega)
  refine ⟨r, by unfold storeBlock; simp only [a1]; exact r1, by omega, fun j hj => ?_, fun j hj => ?_⟩
  · rw [r3]
    by_cases hc : s.position - (F - (m - 1)) + m / 2 ≤ j
    · rw [if_pos ⟨hc, hj⟩, a3, if_pos (by omega)]
      obtain ⟨c, c1, c2⟩ := i4' (m - 1 + (j - (s.position - (F - (m - 1)) + m / 2))) (by omega) (by omega)
      refine ⟨c, c1, ?_⟩
      have : s.position - (F - (m - 1)) + (m - 1 + (j - (s.position - (F - (m - 1)) + m / 2))) - (m - 1) + m / 2 = j := by
        omega
      rwa [this] at c2
    · rw [if_neg (by omega)]; exact hsig j (by omega)
  · rw [r3, if_neg (by omega)]

section loop
variable (K : FftKernel T) (junk : List (Cx T) → List (Cx T)) (hj : ∀ l, (junk l).length = l.length)
  (F m : Nat) (hm : 1 ≤ m) (hF : 2 * m ≤ F + 2) (hF1 : m ≤ F) (H x : List (Cx T)) (Y : Nat → Cx T → Prop)
  (hB : ∀ p, p + F ≤ x.length → GoodBlock Y F m p (filterBlock K F H ((x.drop p).take F)))
include hj hm hF hF1 hB

theorem overlapStep_spec (s : OverlapState T) (hI : OverlapInv x F m Y s) (hp : s.position + F < x.length) :
    ∃ s', overlapStep K junk F m H s = some s' ∧ OverlapInv x F m Y s' ∧
      s'.position = s.position + (F - (m - 1)) := by
  have hI' := hI
  obtain ⟨i1, i2, i3, ⟨i4, i4'⟩, i5, i6, i7, i8⟩ := hI'
  obtain ⟨s1, a1, a2, a3⟩ := copy_spec s.signal s.overlap s.position (s.position + (m - 1)) (by omega)
    (by omega) (by omega)
  have hs1 : ∀ j, s.position ≤ j → s1[j]? = x[j]? := by
    intro j hj
    rw [a3]
    by_cases hc : j < s.position + (m - 1)
    · rw [if_pos ⟨hj, hc⟩, i6 _ (by omega)]; congr 1; omega
    · rw [if_neg (by omega), i8 j (by omega)]
  obtain ⟨ov, b1, b2, b3⟩ := slice_spec s1 (s.position + (F - (m - 1))) (s.position + F) (by omega) (by omega)
  obtain ⟨block, c1, c2, c3⟩ := slice_spec s1 s.position (s.position + F) (by omega) (by omega)
  have hblock : block = (x.drop s.position).take F := by
    apply List.ext_getElem?
    intro j
    rw [c3, List.getElem?_take, Nat.add_sub_cancel_left]
    by_cases hc : j < F
    · rw [if_pos hc, if_pos hc, hs1 _ (by omega), List.getElem?_drop]
    · rw [if_neg hc, if_neg hc]
  obtain ⟨s2, d1, d2, d3⟩ := destroy_spec junk hj s1 s.position (s.position + F) (by omega) (by omega)
  obtain ⟨s3, e1, e2, e3, e4⟩ := storeBlock_spec hm hF1 hI s2 (by omega) (fun j hjj => by
    rw [d3 j (by omega), a3, if_neg (by omega)]; exact i7 j hjj)
  refine ⟨⟨s3, filterBlock K F H block, ov, s.position + (F - (m - 1))⟩, ?_, ?_, rfl⟩
  · unfold overlapStep
    simp only [a1, b1, c1, d1, e1, Option.bind_eq_bind, Option.bind_some]
  · refine ⟨e2, by simp only; omega, by simp only; omega, ?_, by simp only; omega, ?_, ?_, ?_⟩
    · simp only [Nat.add_sub_cancel]
      rw [hblock]
      exact hB s.position (by omega)
    · intro j hjj
      simp only
      rw [b3, if_pos (by omega), hs1 _ (by omega)]
    · simp only [Nat.add_sub_cancel]; exact e3
    · intro j hjj
      simp only at hjj ⊢
      rw [e4 j (by omega), d3 j (by omega), hs1 j (by omega)]

theorem overlapLoop_spec (fuel : Nat) (s : OverlapState T) (hI : OverlapInv x F m Y s)
    (hfuel : x.length < fuel + s.position + F) (hk : ∃ k, 1 ≤ k ∧ s.position = k * (F - (m - 1))) :
    ∃ s', overlapLoop K junk F m x.length H fuel s = some s' ∧ OverlapInv x F m Y s' ∧
      x.length ≤ s'.position + F ∧ s.position ≤ s'.position ∧
      (∃ k, 1 ≤ k ∧ s'.position = k * (F - (m - 1))) ∧
      (s'.position = s.position ∨ s'.position - (F - (m - 1)) + F < x.length) := by
  induction fuel generalizing s with
  | zero => exact ⟨s, rfl, hI, by omega, Nat.le_refl _, hk, .inl rfl⟩
  | succ n ih =>
    unfold overlapLoop
    by_cases hc : s.position + F < x.length
    · rw [if_pos hc]
      obtain ⟨s1, h1, h2, h3⟩ := overlapStep_spec K junk hj F m hm hF hF1 H x Y hB s hI hc
      obtain ⟨k, hk1, hk2⟩ := hk
      obtain ⟨s2, g1, g2, g3, g4, g5, g6⟩ := ih s1 h2 (by omega) ⟨k + 1, by omega, by
        rw [h3, hk2, Nat.add_mul, Nat.one_mul]⟩
      refine ⟨s2, by rw [h1]; exact g1, g2, g3, by omega, g5, .inr ?_⟩
      rcases g6 with g6 | g6
      · omega
      · exact g6
    · rw [if_neg hc]
      exact ⟨s, rfl, hI, by omega, Nat.le_refl _, hk, .inl rfl⟩

theorem overlapFirst_spec (hx : F ≤ x.length) (tmp : List (Cx T)) (ht : m / 2 ≤ tmp.length)
    (hY : ∀ j < m / 2, ∃ c, tmp[j]? = some c ∧ Y j c) :
    ∃ s', overlapFirst K junk F m H x tmp = some s' ∧ OverlapInv x F m Y s' ∧
      s'.position = F - (m - 1) := by
  obtain ⟨ov, b1, b2, b3⟩ := slice_spec x (F - (m - 1)) F (by omega) (by omega)
  have c1 : slice x 0 F = some ((x.drop 0).take F) := by rw [slice_ok _ _ _ (by omega) hx, Nat.sub_zero]
  obtain ⟨s1, d1, d2, d3⟩ := destroy_spec junk hj x 0 F (by omega) hx
  obtain ⟨sb, e1, e2, e3⟩ := slice_spec tmp 0 (m / 2) (by omega) ht
  obtain ⟨s2, f1, f2, f3⟩ := copy_spec s1 sb 0 (m / 2) (by omega) (by omega) (by omega)
  refine ⟨⟨s2, filterBlock K F H ((x.drop 0).take F), ov, F - (m - 1)⟩, ?_, ?_, rfl⟩
  · unfold overlapFirst
    simp only [b1, c1, d1, e1, f1, Option.bind_eq_bind, Option.bind_some]
  · refine ⟨by simp only; omega, by simp only; omega, by simp only; omega, ?_, by simp only; omega, ?_, ?_, ?_⟩
    · simp only [Nat.sub_self]
      exact hB 0 (by omega)
    · intro j hjj
      simp only
      rw [b3, if_pos (by omega)]
    · intro j hjj
      simp only [Nat.sub_self, Nat.zero_add] at hjj ⊢
      rw [f3, if_pos (by omega), Nat.sub_zero, e3, if_pos (by omega), Nat.zero_add]
      exact hY j hjj
    · intro j hjj
      simp only at hjj ⊢
      rw [f3, if_neg (by omega), d3 j (by omega)]

end loop

omit [Zero T] [Add T] [Sub T] [Mul T] [Div T] [NatCast T] in
theorem zip_take_right : ∀ l hs : List (Cx T), l.zip (hs.take l.length) = l.zip hs
  | [], _ => by simp
  | _ :: _, [] => by simp
  | a :: l, b :: hs => by simp [zip_take_right l hs]

theorem convolveIteration_take (x hs : List (Cx T)) (i c : Int) (m : Nat) (hm : m ≤ hs.length) :
    convolveIteration x hs i c m = convolveIteration x (hs.take m) i c m := by
  unfold convolveIteration
  cases hr : revWrappingIter x (i + c) m with
  | none => rfl
  | some l =>
    have hl : l.length = m := by
      by_cases hx : x = []
      · subst hx; simp [revWrappingIter, wrapStart] at hr
      · obtain ⟨l', h1, h2, _⟩ := C39_reverse_wrapping x hx (i + c) m
        rw [hr] at h1; obtain rfl := Option.some.inj h1; exact h2
    simp only [Option.bind_eq_bind, Option.bind_some]
    rw [← hl, zip_take_right]

/-- The values of `overlap_discard`, whatever is known (`Y`) about the transform: everything before the
    end of the last block is acceptable, the tail is the convolution; between the end of the last
    block and the begin of the tail the *input* is left. -/
theorem overlapDiscard_spec (K : FftKernel T) (junk : List (Cx T) → List (Cx T))
    (hj : ∀ l, (junk l).length = l.length) (F m : Nat) (hm : 1 ≤ m) (hF : 2 * m ≤ F + 2) (hF1 : m ≤ F)
    (x hs tmp : List (Cx T)) (hhs : m ≤ hs.length) (hx : F ≤ x.length) (ht : tmp.length = F)
    (Y : Nat → Cx T → Prop) (hY : ∀ j, Y j (convAt x (hs.take m) j))
    (hB : ∀ p, p + F ≤ x.length → GoodBlock Y F m p
      (filterBlock K F (K.forward (hs.take m ++ List.replicate (F - m) 0)) ((x.drop p).take F))) :
    ∃ r P, overlapDiscard K junk F m x hs tmp = some r ∧ r.length = x.length ∧
      x.length ≤ P + F ∧ (∃ k, 1 ≤ k ∧ P = k * (F - (m - 1))) ∧
      (P = F - (m - 1) ∨ P - (F - (m - 1)) + F < x.length) ∧
      (∀ j, j < P + m / 2 → ∃ c, r[j]? = some c ∧ Y j c) ∧
      (∀ j, x.length - (x.length - x.length % F) / 2 ≤ j → j < x.length →
        r[j]? = some (convAt x (hs.take m) j)) ∧
      (∀ j, P + (m - 1) ≤ j → j < x.length - (x.length - x.length % F) / 2 → r[j]? = x[j]?) := by
  have hxne : x ≠ [] := by intro e; subst e; simp at hx; omega
  have hhl : (hs.take m).length = m := by simp; omega
  have hscalar : ∀ from' count, scalarPart x hs m from' count =
      some ((List.range count).map (fun i => convAt x (hs.take m) (from' + i))) := by
    intro a count
    unfold scalarPart
    apply mapM_some_range
    intro i _
    rw [convolveIteration_take _ _ _ _ _ hhs]
    have := convolveIteration_eq x (hs.take m) hxne (a + i)
    rw [hhl] at this
    have e : (m + 1) / 2 = m - m / 2 := by omega
    rw [e]; exact this
  obtain ⟨t1, a1, a2, a3⟩ := copy_spec tmp ((List.range (m / 2)).map (fun i => convAt x (hs.take m) (0 + i)))
    0 (m / 2) (by omega) (by omega) (by simp)
  obtain ⟨s0, b1, b2, b3⟩ := overlapFirst_spec K junk hj F m hm hF hF1
    (K.forward (hs.take m ++ List.replicate (F - m) 0)) x Y hB hx t1 (by omega) (by
      intro j hjj
      rw [a3, if_pos (by omega)]
      exact ⟨_, by simp [hjj], hY _⟩)
  obtain ⟨s, c1, c2, c3, c4, c5, c6⟩ := overlapLoop_spec K junk hj F m hm hF hF1
    (K.forward (hs.take m ++ List.replicate (F - m) 0)) x Y hB x.length s0 b2 (by omega)
    ⟨1, by omega, by omega⟩
  obtain ⟨sig, d1, d2, d3, d4⟩ := storeBlock_spec hm hF1 c2 s.signal c2.len c2.done
  generalize hrem : (x.length - x.length % F) / 2 = rem
  obtain ⟨r, r1, r2, r3⟩ := copy_spec sig
    ((List.range rem).map (fun i => convAt x (hs.take m) (x.length - rem + i)))
    (x.length - rem) x.length (by omega) (by omega) (by simp; omega)
  refine ⟨r, s.position, ?_, by omega, c3, c5, by omega, ?_, ?_, ?_⟩
  · have hsl : slice hs 0 m = some (hs.take m) := by
      rw [slice_ok _ _ _ (by omega) hhs]; simp
    unfold overlapDiscard
    simp only [hsl, hscalar, a1, b1, c1, d1, hrem, Option.bind_eq_bind, Option.bind_some]
    exact r1
  · intro j hjj
    rw [r3]
    by_cases hc : x.length - rem ≤ j ∧ j < x.length
    · rw [if_pos hc]
      exact ⟨_, by rw [List.getElem?_map, List.getElem?_range (by omega)]; rfl, by
        have : x.length - rem + (j - (x.length - rem)) = j := by omega
        simp only [this]; exact hY j⟩
    · rw [if_neg hc]; exact d3 j hjj
  · intro j h1 h2
    rw [r3, if_pos ⟨h1, h2⟩, List.getElem?_map, List.getElem?_range (by omega), Option.map_some]
    congr 2; omega
  · intro j h1 h2
    rw [r3, if_neg (by omega), d4 j (by omega), c2.rest j h1]

end
end Dsp
