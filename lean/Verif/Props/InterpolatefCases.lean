import Verif.Props.Interpolatef
import Verif.Lemmas.Shape
/-
C59: where `interpolatef` deviates, and vectors which meet the hypotheses.
-/
namespace Dsp
open DspVec
variable {T α : Type}

section
variable [Field T] [LinearOrder T] [FloorRing T] [IsStrictOrderedRing T]

/-- Whole factors and many numbers in the result select the registers. -/
theorem usesRegisters_nat (N : Numbers T) (F L : Nat) (h1 : min L (N.count / 2) ≤ 202)
    (h2 : 2000 ≤ (if N.isComplex then 2 else 1) * (N.count * F)) : UsesRegisters N (F : T) L := by
  refine ⟨h1, ?_, by rw [roundAway_wholeNumber, sub_self, abs_zero]; norm_num⟩
  rw [interpolatedPoints_nat]
  generalize N.isComplex = c at *
  cases c
  · simp only [Bool.false_eq_true, if_false] at h2 ⊢; omega
  · simpa using h2

/-- C59 is violated: if registers are used then `interpolatef` panics for every signal which has too few points for the number of points `L` (which the
    code has limited to half of the points itself). -/
theorem C59_short_violated (k : RegKind) (addr : Nat) (st : MultiCoreSettings) (fn : T → T) (F : Nat) (hF : 1 ≤ F) (delay : T) (L : Nat)
    (v : DspVec T) (s : Signal T) (hv : v.Shows s) (hp : UsesRegisters s.numbers (F : T) L)
    (hlen : s.numbers.count + 1 < 2 * (2 * min L (s.numbers.count / 2) + 1)) (b : Buffer T) (sched : List Nat) :
    v.interpolatef k addr st fn (F : T) delay L b sched = .panic := by
  have hnl := interpNewLen_points hv (F : T) (Nat.cast_nonneg F)
  have hlim := interp_limit hv L
  unfold UsesRegisters at hp
  have hpts := interpolatedPoints_nat (T := T) s.numbers.isComplex s.numbers.count F
  have hfac : toUsize (roundAway (F : T)) = some F := by rw [roundAway_wholeNumber, toUsize_wholeNumber]
  have hmul : (s.numbers.count + 2) * F ≤ (2 * (2 * min L (s.numbers.count / 2) + 1)) * F := Nat.mul_le_mul_right F (by omega)
  have hmul2 : (2 * (2 * min L (s.numbers.count / 2) + 1)) * F = 2 * ((2 * min L (s.numbers.count / 2) + 1) * F) := by ring
  rw [hmul2, Nat.add_mul] at hmul
  generalize min L (s.numbers.count / 2) = LL at *
  have hn : interpolatedPoints s.numbers.isComplex s.numbers.count (F : T) ≤ s.numbers.count * F + 1 := by
    rw [hpts]; split <;> omega
  generalize interpolatedPoints s.numbers.isComplex s.numbers.count (F : T) = n at *
  unfold interpolatef
  simp only [hlim, hnl, hfac]
  generalize v.delta.map (delay / ·) = dd
  cases dd with
  | none => rfl
  | some d =>
    simp only
    cases hbo : b.borrow ((if s.numbers.isComplex = true then 2 else 1) * n) with
    | none => rfl
    | some temp =>
      have hcont : v.content = some s.numbers.flat := hv.content
      have htl := borrow_length hbo
      rw [hcont]
      cases hs : s.numbers with
      | real xs =>
        have hc : v.isComplex = false := by rw [hv.isComplex, hs]; rfl
        rw [hs] at htl hp
        simp only [Numbers.isComplex, Bool.false_eq_true, if_false, Nat.one_mul] at htl
        simp only [hc, Bool.false_eq_true, if_false]
        have : ∀ a (x : List T), interpSimd addr k.len 1 (regZip (· * ·)) regSumReal id st fn F d LL a x temp sched = .panic := by
          intro a x
          unfold interpSimd
          simp only
          rw [if_neg (by omega), if_pos (by rw [htl]; omega)]
        rw [if_pos hp, this]; rfl
      | complex cs =>
        have hc : v.isComplex = true := by rw [hv.isComplex, hs]; rfl
        rw [hs] at htl hp
        simp only [Numbers.isComplex, if_true] at htl
        simp only [hc, if_true, Numbers.flat, toComplex?_fromComplex]
        obtain ⟨tc, rfl⟩ := exists_fromComplex (l := temp) (by omega)
        have htc : tc.length = n := by rw [length_fromComplex] at htl; omega
        simp only [toComplex?_fromComplex]
        have : ∀ a (x : List (Cx T)), interpSimd addr k.len 2 (regMulComplex k) regSumComplex (fun y => ⟨y, 0⟩) st fn F d LL a x tc sched =
            .panic := by
          intro a x
          unfold interpSimd
          simp only
          rw [if_neg (by omega), if_pos (by rw [htc]; omega)]
        rw [if_pos hp, this]; rfl

omit [FloorRing T] [IsStrictOrderedRing T] in
theorem unitImpulse_int (t : T) (q p : Int) (h : t = ((q - p : Int) : T)) [CharZero T] : unitImpulse t = if q = p then 1 else 0 := by
  unfold unitImpulse
  rw [h]
  by_cases e : q = p
  · subst e; simp
  · rw [if_neg e, if_neg]
    have : q - p ≠ 0 := by omega
    exact_mod_cast this

/-- The points which the specification demands for the unit impulse, the factor one and a delay of one sampling distance. -/
theorem delayed_spec (L : Nat) (hL : 2 ≤ L) (a : List T) (i : Nat) (h1 : 1 ≤ i) (hi : i < a.length) :
    (interpolateWith unitImpulse (1 : T) 1 L a.length a)[i]? = a[i - 1]? := by
  unfold interpolateWith
  rw [List.getElem?_map, List.getElem?_range hi, Option.map_some, div_one, Int.floor_natCast, windowSum_eq,
    pointSum_single a _ _ ((i - 1 : Nat) : Int) _ (by omega) (by omega) ?_ ?_, cyclic_nat a _ (by omega),
    List.getElem?_eq_getElem (by omega)]
  · rfl
  · rw [unitImpulse_int _ ((i : Int) - 1) ((i - 1 : Nat) : Int) (by push_cast; ring), if_pos (by omega)]
  · intro q hq
    rw [unitImpulse_int _ ((i : Int) - 1) q (by push_cast; ring), if_neg (by omega)]

/-- C59 is violated: a delay. For every real signal with an even number of at least 2000 points and the unit impulse, the factor one and a
    delay of one sampling distance: the points at the start of the result are the points before them, as specified; but
    the points in the middle are the points *after* them. -/
theorem C59_delay_violated (k : RegKind) (addr : Nat) (hal : ConvAligned k addr) (st : MultiCoreSettings) (L : Nat) (hL : k.len ≤ L)
    (hL2 : L ≤ 202) (v : DspVec T) (a : List T) (dom : DataDomain) (g : Bool) (x : T) (hx : x ≠ 0)
    (hv : v.Shows ⟨.real a, dom, g, some x⟩) (h1 : 2000 ≤ a.length) (h2 : a.length % 2 = 0) (b : Buffer T)
    (hb : BufferOk b v.data a.length) :
    ∃ w b' M, Always (v.interpolatef k addr st unitImpulse 1 x L b) (w, b') ∧ w.Shows ⟨.real M, dom, g, some x⟩ ∧
      (∀ i, 1 ≤ i → i < 2 * L + 1 → M[i]? = a[i - 1]?) ∧
      (∀ i, 2 * L + 1 ≤ i → i < a.length - (2 * L + 1) → M[i]? = a[i + 1]?) ∧
      ∀ i, 1 ≤ i → i < a.length → (interpolateWith unitImpulse (1 : T) (x / x) L a.length a)[i]? = a[i - 1]? := by
  have hk : 2 ≤ k.len := by cases k <;> decide
  have hpts : interpolatedPoints false a.length ((1 : Nat) : T) = a.length := by
    rw [interpolatedPoints_nat]; simp [h2]
  have hp : UsesRegisters (.real a) ((1 : Nat) : T) L := usesRegisters_nat (.real a) 1 L (by omega)
    (by simp [Numbers.isComplex, Numbers.count]; omega)
  obtain ⟨w, b', e1, -, e3⟩ := interpolatef_simd k addr st unitImpulse 1 le_rfl x L v _ x hv rfl hp
    (by simp only [Numbers.count]; omega) (by simpa [Numbers.isComplex] using hL) hal b
    (by simp only [Numbers.isComplex, Numbers.count, hpts]; simpa using hb)
  rw [Nat.cast_one] at e1
  refine ⟨w, b', _, e1, e3, ?_, ?_, ?_⟩
  · intro i hi1 hi2
    simp only [Numbers.isComplex, Numbers.count, hpts, div_self hx]
    rw [List.getElem?_map, List.getElem?_range (by omega), Option.map_some]
    unfold simdInterp
    rw [if_pos (by left; omega), Nat.div_one, pointSum_single a _ _ ((i - 1 : Nat) : Int) _ (by omega) (by omega) ?_ ?_,
      cyclic_nat a _ (by omega), List.getElem?_eq_getElem (by omega)]
    · rfl
    · rw [id, unitImpulse_int _ ((i - 1 : Nat) : Int) ((i : Int) - 1) (by push_cast; ring), if_pos (by omega)]
    · intro q hq
      rw [id, unitImpulse_int _ q ((i : Int) - 1) (by push_cast; ring), if_neg (by omega)]
  · intro i hi1 hi2
    simp only [Numbers.isComplex, Numbers.count, hpts, div_self hx]
    rw [List.getElem?_map, List.getElem?_range (by omega), Option.map_some]
    unfold simdInterp
    rw [if_neg (by omega), Nat.div_one, Nat.add_sub_cancel, pointSum_single a _ _ ((i + 1 : Nat) : Int) _ (by omega) (by omega) ?_ ?_,
      cyclic_nat a _ (by omega), List.getElem?_eq_getElem (by omega)]
    · rfl
    · rw [id, unitImpulse_int _ ((i : Int) + 1) ((i + 1 : Nat) : Int) (by push_cast; ring), if_pos (by omega)]
    · intro q hq
      rw [id, unitImpulse_int _ ((i : Int) + 1) q (by push_cast; ring), if_neg (by omega)]
  · intro i hi1 hi2
    rw [div_self hx]
    exact delayed_spec L (by omega) a i hi1 hi2

omit [FloorRing T] [IsStrictOrderedRing T] in
theorem unitImpulse_even (t : T) : unitImpulse (-t) = unitImpulse t := by unfold unitImpulse; simp

omit [IsStrictOrderedRing T] in
theorem not_usesRegisters (N : Numbers T) (factor : T) (L : Nat)
    (h : (if N.isComplex then 2 else 1) * interpolatedPoints N.isComplex N.count factor < 2000) : ¬ UsesRegisters N factor L :=
  fun hp => absurd hp.2.1 (by omega)

/-- C59 is violated: the number of points. A real signal with an odd number of points, the unit impulse and the factor one, which should
    change nothing: the result has one more point. -/
theorem C59_odd_points_violated (k : RegKind) (addr : Nat) (st : MultiCoreSettings) (L : Nat) (v : DspVec T) (a : List T)
    (dom : DataDomain) (g : Bool) (x : T) (hv : v.Shows ⟨.real a, dom, g, some x⟩) (h1 : a.length < 1999)
    (h2 : a.length % 2 = 1) (b : Buffer T) (hb : BufferOk b v.data (a.length + 1)) :
    ∃ w b' M, Always (v.interpolatef k addr st unitImpulse 1 0 L b) (w, b') ∧ w.Shows ⟨.real M, dom, g, some x⟩ ∧
      M.length = a.length + 1 := by
  have hpts : interpolatedPoints false a.length (1 : T) = a.length + 1 := by
    have := interpolatedPoints_nat (T := T) false a.length 1
    rw [Nat.cast_one] at this
    rw [this]; simp [h2]
  obtain ⟨w, b', e1, -, e3⟩ := C59_interpolatef_partial k addr st unitImpulse unitImpulse_even 1 0 L v _ x hv rfl zero_le_one
    (by simp only [Numbers.count]; omega) (by simp only [Numbers.isComplex, Numbers.count, hpts]; omega)
    (not_usesRegisters _ _ _ (by simp only [Numbers.isComplex, Numbers.count, hpts]; simp; omega)) b
    (by simp only [Numbers.isComplex, Numbers.count, hpts]; simpa using hb)
  exact ⟨w, b', _, e1, e3, by rw [interpolateWith_length]; exact hpts⟩

/-- The unit impulse one point late. -/
def lateImpulse (t : T) : T := unitImpulse (t - 1)

/-- C59 is violated: a function which is not even. The unit impulse one point late should give every point the value of the point
    before (as `convolve` does); but it gets the value of the point after it. -/
theorem C59_asymmetric_violated (k : RegKind) (addr : Nat) (st : MultiCoreSettings) (L : Nat) (hL : 1 ≤ L) (v : DspVec T) (a : List T)
    (dom : DataDomain) (g : Bool) (x : T) (hv : v.Shows ⟨.real a, dom, g, some x⟩) (h1 : a.length < 2000) (h0 : 2 ≤ a.length)
    (h2 : a.length % 2 = 0) (b : Buffer T) (hb : BufferOk b v.data a.length) :
    ∃ w b' M, Always (v.interpolatef k addr st lateImpulse 1 0 L b) (w, b') ∧ w.Shows ⟨.real M, dom, g, some x⟩ ∧
      (∀ i, i + 1 < a.length → M[i]? = a[i + 1]?) ∧
      ∀ i, 1 ≤ i → i < a.length →
        (interpolateWith lateImpulse (1 : T) 0 (min L (a.length / 2)) a.length a)[i]? = a[i - 1]? := by
  have hpts : interpolatedPoints false a.length (1 : T) = a.length := by
    have := interpolatedPoints_nat (T := T) false a.length 1
    rw [Nat.cast_one] at this
    rw [this]; simp [h2]
  obtain ⟨w, b', e1, -, e3⟩ := C59_scalar k addr st lateImpulse 1 0 L v _ x hv rfl zero_le_one
    (by simp only [Numbers.count]; omega) (by simp only [Numbers.isComplex, Numbers.count, hpts]; omega)
    (not_usesRegisters _ _ _ (by simp only [Numbers.isComplex, Numbers.count, hpts]; simpa using h1)) b
    (by simp only [Numbers.isComplex, Numbers.count, hpts]; simpa using hb)
  refine ⟨w, b', _, e1, e3, ?_, ?_⟩
  · intro i hi
    simp only [Numbers.isComplex, Numbers.count, hpts]
    unfold interpolateWith
    rw [List.getElem?_map, List.getElem?_range (by omega), Option.map_some, div_one, Int.floor_natCast, windowSum_eq,
      pointSum_single a _ _ ((i + 1 : Nat) : Int) _ (by omega) (by omega) ?_ ?_, cyclic_nat a _ (by omega),
      List.getElem?_eq_getElem (by omega)]
    · rfl
    · unfold lateImpulse
      rw [unitImpulse_int _ ((i + 1 : Nat) : Int) ((i : Int) + 1) (by push_cast; ring), if_pos (by omega)]
    · intro q hq
      unfold lateImpulse
      rw [unitImpulse_int _ q ((i : Int) + 1) (by push_cast; ring), if_neg (by omega)]
  · intro i hi1 hi2
    unfold interpolateWith
    rw [List.getElem?_map, List.getElem?_range (by omega), Option.map_some, div_one, Int.floor_natCast, windowSum_eq,
      pointSum_single a _ _ ((i - 1 : Nat) : Int) _ (by omega) (by omega) ?_ ?_, cyclic_nat a _ (by omega),
      List.getElem?_eq_getElem (by omega)]
    · rfl
    · unfold lateImpulse
      rw [unitImpulse_int _ ((i : Int) - 1) ((i - 1 : Nat) : Int) (by push_cast; ring), if_pos (by omega)]
    · intro q hq
      unfold lateImpulse
      rw [unitImpulse_int _ ((i : Int) - 1) q (by push_cast; ring), if_neg (by omega)]

end

/-! Vectors which meet the hypotheses -/

/-- Three real numbers, interpolated by the factor 3/2 (and one more number because five is odd) with the triangle function. -/
example : funVec.Shows ⟨.real [1, 2, 4], .time, false, some 1⟩ ∧
    interpolatedPoints false 3 (3 / 2 : ℚ) = 6 ∧ ¬ UsesRegisters (.real [1, 2, 4]) (3 / 2 : ℚ) 5 ∧
    BufferOk (.single []) funVec.data 6 ∧
    interpolateWith (fun t : ℚ => if |t| < 1 then 1 - |t| else 0) (3 / 2) 0 1 6 [1, 2, 4] = [1, 5 / 3, 8 / 3, 4, 2, 4 / 3] := by
  have h : interpolatedPoints false 3 (3 / 2 : ℚ) = 6 := by decide +kernel
  exact ⟨⟨rfl, rfl, rfl, rfl⟩, h, not_usesRegisters _ _ _ (by show (if false then 2 else 1) * interpolatedPoints false 3 (3 / 2 : ℚ) < 2000; rw [h]; decide),
    trivial, by decide +kernel⟩

/-- A complex vector with 1001 points, interpolated by the factor 3 with registers. -/
example (k : RegKind) : longComplex.Shows ⟨.complex (List.replicate 1001 ⟨1, 2⟩), .time, false, some 1⟩ ∧
    UsesRegisters (.complex (List.replicate 1001 ⟨1, 2⟩)) ((3 : Nat) : ℝ) 16 ∧
    RegistersFit k 0 (.complex (List.replicate 1001 (⟨1, 2⟩ : Cx ℝ))) 16 ∧ BufferOk (.single []) longComplex.data 6006 :=
  ⟨longComplex_shows, usesRegisters_nat _ _ _ (by simp [-List.reduceReplicate, Numbers.count])
    (by simp [-List.reduceReplicate, Numbers.count, Numbers.isComplex]),
    ⟨by simp [-List.reduceReplicate, Numbers.count], by cases k <;> decide, by cases k <;> decide⟩, trivial⟩

/-- The triangle function is even, vanishes from the distance one on, is one at zero and zero at all other whole numbers. -/
example : (∀ t : ℝ, (fun t : ℝ => max 0 (1 - |t|)) (-t) = (fun t : ℝ => max 0 (1 - |t|)) t) ∧
    (∀ t : ℝ, ((1 : Nat) : ℝ) ≤ |t| → (fun t : ℝ => max 0 (1 - |t|)) t = 0) ∧ (fun t : ℝ => max 0 (1 - |t|)) 0 = 1 ∧
    ∀ m : Int, m ≠ 0 → (fun t : ℝ => max 0 (1 - |t|)) (m : ℝ) = 0 := by
  refine ⟨fun t => by simp, fun t ht => by simp at ht ⊢; linarith, by simp, fun m hm => ?_⟩
  have : (1 : ℝ) ≤ |(m : ℝ)| := by exact_mod_cast Int.one_le_abs hm
  simp; linarith

/-- `C59_short_violated`: 500 real points, the factor 4 and 202 points on both sides. -/
example : UsesRegisters (.real (List.replicate 500 (1 : ℝ))) ((4 : Nat) : ℝ) 202 ∧
    (Numbers.real (List.replicate 500 (1 : ℝ))).count + 1 < 2 * (2 * min 202 ((Numbers.real (List.replicate 500 (1 : ℝ))).count / 2) + 1) :=
  ⟨usesRegisters_nat _ _ _ (by simp [-List.reduceReplicate, Numbers.count])
    (by simp [-List.reduceReplicate, Numbers.count, Numbers.isComplex]), by simp [-List.reduceReplicate, Numbers.count]⟩

/-- `C59_delay_violated`: 2000 different points. -/
example (k : RegKind) : ConvAligned k 0 ∧ k.len ≤ 16 ∧
    (⟨⟨.vec, (List.range 2000).map (fun (i : Nat) => (i : ℝ))⟩, some 1, .time, .real, 2000⟩ : DspVec ℝ).Shows
      ⟨.real ((List.range 2000).map (fun (i : Nat) => (i : ℝ))), .time, false, some 1⟩ :=
  ⟨by cases k <;> decide, by cases k <;> decide,
    ⟨content_of_cells (s := []) (by simp only [List.append_nil, Numbers.flat]) (by simp only [Numbers.flat, List.length_map, List.length_range]), rfl, rfl, rfl⟩⟩

/-- `C59_odd_points_violated` (three points) and `C59_asymmetric_violated` (two points). -/
example : funVec.Shows ⟨.real [1, 2, 4], .time, false, some 1⟩ ∧ BufferOk (.single []) funVec.data 4 ∧
    (⟨⟨.vec, [3, 7]⟩, some 1, .time, .real, 2⟩ : DspVec ℚ).Shows ⟨.real [3, 7], .time, false, some 1⟩ := ⟨⟨rfl, rfl, rfl, rfl⟩, trivial, ⟨rfl, rfl, rfl, rfl⟩⟩

end Dsp
