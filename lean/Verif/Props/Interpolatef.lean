import Verif.Lemmas.Interpolatef
/-
C59: interpolation with a function in the time domain.
-/
namespace Dsp
open DspVec
variable {T α : Type}

section
variable [Field T]

/-- A result which is computed in parallel and traded. -/
theorem shows_tradeOutcome {v : DspVec T} {s : Signal T} (h : v.Shows s) (b : Buffer T) (N : Numbers T)
    (hN : N.isComplex = s.numbers.isComplex) (len : Nat) (hl : N.flat.length = len) (hb : BufferOk b v.data len)
    (run : List Nat → Outcome (List T)) (hrun : Always run N.flat) :
    ∃ w b', Always (fun sc => ({ v with validLen := len } : DspVec T).tradeOutcome b (run sc)) (w, b') ∧
      w.Shows { s with numbers := N } ∧ BufferKept b v b' w := by
  subst hl
  obtain ⟨e1, e2⟩ := shows_traded h b N hN hb
  exact ⟨_, _, hrun.map (fun sc hs => by simp only [tradeOutcome, hs]; rfl) (fun sc hs => by simp only [tradeOutcome, hs]; rfl),
    e1, e2⟩

end

section
variable [Field T] [LinearOrder T] [FloorRing T] [IsStrictOrderedRing T]

theorem interpNewLen_eq (len : Nat) (factor : T) (hf : 0 ≤ factor) :
    interpNewLen len factor = some (⌊(len : T) * factor + 1 / 2⌋.toNat + ⌊(len : T) * factor + 1 / 2⌋.toNat % 2) := by
  have h0 : (0 : T) ≤ (len : T) * factor := mul_nonneg (Nat.cast_nonneg _) hf
  unfold interpNewLen roundAway toUsize
  rw [if_neg (not_lt.2 h0), if_neg]
  · simp
  · rw [not_le]
    have : (0 : Int) ≤ ⌊(len : T) * factor + 1 / 2⌋ := Int.floor_nonneg.2 (by positivity)
    have : (0 : T) ≤ ((⌊(len : T) * factor + 1 / 2⌋ : Int) : T) := by exact_mod_cast this
    linarith

/-- The number of numbers of the result. -/
theorem interpNewLen_points {v : DspVec T} {s : Signal T} (h : v.Shows s) (factor : T) (hf : 0 ≤ factor) :
    interpNewLen v.len factor = some ((if s.numbers.isComplex then 2 else 1) *
      interpolatedPoints s.numbers.isComplex s.numbers.count factor) := by
  rw [interpNewLen_eq _ _ hf, h.len]
  unfold interpolatedPoints
  cases hs : s.numbers with
  | real xs => simp [Numbers.isComplex, Numbers.flat, Numbers.count]
  | complex cs =>
    simp only [Numbers.isComplex, Numbers.flat, Numbers.count, if_true, length_fromComplex, Option.some.injEq]
    generalize ⌊((2 * cs.length : Nat) : T) * factor + 1 / 2⌋.toNat = r
    omega

omit [Field T] [LinearOrder T] [FloorRing T] [IsStrictOrderedRing T] in
/-- The limit for the number of points on both sides. -/
theorem interp_limit {v : DspVec T} {s : Signal T} (h : v.Shows s) (L : Nat) :
    (if L > v.points / 2 then v.points / 2 else L) = min L (s.numbers.count / 2) := by
  rw [h.points]; split <;> omega

omit [IsStrictOrderedRing T] in
theorem interpolateWith_length [CommRing α] (f : T → α) (factor d : T) (L n : Nat) (x : List α) :
    (interpolateWith f factor d L n x).length = n := by simp [interpolateWith]

omit [IsStrictOrderedRing T] in
theorem interpolateWith_mirrored [CommRing α] (fn : T → T) (inj : T → α) (factor d : T) (L n : Nat) (x : List α) :
    interpolateWith (fun t => inj (fn (-t))) factor d L n x = (List.range n).map fun (i : Nat) =>
      pointSum x (fun p => inj (fn ((p : T) - (i : T) / factor + d))) (⌊(i : T) / factor⌋ - L) (2 * L + 1) := by
  unfold interpolateWith
  apply List.map_congr_left
  intro i _
  rw [windowSum_eq]
  exact pointSum_congr rfl (fun p => by congr 2; ring)

/-- Which implementation is selected for a signal with `n` points, the factor `factor` and `L` points on both sides: does
    `interpolatef` use registers? -/
def UsesRegisters (N : Numbers T) (factor : T) (L : Nat) : Prop :=
  interpUsesSimd (min L (N.count / 2)) ((if N.isComplex then 2 else 1) * interpolatedPoints N.isComplex N.count factor) factor

/-- C59: what the implementation without registers computes, for every function: the function is mirrored. -/
theorem C59_scalar (k : RegKind) (addr : Nat) (st : MultiCoreSettings) (fn : T → T) (factor delay : T) (L : Nat) (v : DspVec T)
    (s : Signal T) (x : T) (hv : v.Shows s) (hx : s.delta = some x) (hf : 0 ≤ factor) (h1 : 1 ≤ s.numbers.count)
    (hn : 1 ≤ interpolatedPoints s.numbers.isComplex s.numbers.count factor) (hp : ¬ UsesRegisters s.numbers factor L) (b : Buffer T)
    (hb : BufferOk b v.data ((if s.numbers.isComplex then 2 else 1) *
      interpolatedPoints s.numbers.isComplex s.numbers.count factor)) :
    ∃ w b', Always (v.interpolatef k addr st fn factor delay L b) (w, b') ∧ BufferKept b v b' w ∧
      w.Shows { s with numbers := (s.numbers.interpolateWith (fun t => fn (-t)) factor (delay / x) (min L (s.numbers.count / 2))
        (interpolatedPoints s.numbers.isComplex s.numbers.count factor)) } := by
  have hnl := interpNewLen_points hv factor hf
  have hlim := interp_limit hv L
  unfold UsesRegisters at hp
  obtain ⟨N, dom, g, dl⟩ := s
  simp only at hx h1 hn hp hb hnl hlim ⊢
  generalize interpolatedPoints N.isComplex N.count factor = n at *
  generalize hLL : min L (N.count / 2) = LL at *
  have hdl : v.delta.map (delay / ·) = some (delay / x) := by rw [hv.delta]; simp only; rw [hx]; rfl
  obtain ⟨t, t1, t2⟩ := borrow_ok b v.data _ hb
  cases N with
  | real xs =>
    have hc : v.isComplex = false := hv.isComplex
    have hcont : v.content = some xs := hv.content
    simp only [Numbers.isComplex, Bool.false_eq_true, if_false, Nat.one_mul] at hnl hb hp t1 t2
    have hxs : xs ≠ [] := by intro e; subst e; simp [Numbers.count] at h1
    have hr := interpScalar_spec st fn id factor (delay / x) LL xs t hxs
      (by intro e; subst e; simp at t2; omega)
    rw [t2] at hr
    rw [← interpolateWith_mirrored fn id] at hr
    obtain ⟨w, b', e1, e2, e3⟩ := shows_tradeOutcome hv b (.real (interpolateWith (fun t => fn (-t)) factor (delay / x) LL n xs)) rfl n
      (by simp [Numbers.flat, interpolateWith_length]) hb _ hr
    refine ⟨w, b', e1.congr fun sched => ?_, e3, e2⟩
    unfold interpolatef
    simp only [hlim, hdl, hnl, t1, hcont, if_neg hp, hc, Bool.false_eq_true, if_false]
  | complex cs =>
    have hc : v.isComplex = true := hv.isComplex
    have hcont : v.content = some (fromComplex cs) := hv.content
    simp only [Numbers.isComplex, if_true] at hnl hb hp t1 t2
    have hxs : cs ≠ [] := by intro e; subst e; simp [Numbers.count] at h1
    obtain ⟨tc, rfl⟩ := exists_fromComplex (l := t) (by omega)
    have htl : tc.length = n := by rw [length_fromComplex] at t2; omega
    have hr := interpScalar_spec st fn (fun y => (⟨y, 0⟩ : Cx T)) factor (delay / x) LL cs tc hxs
      (by intro e; subst e; simp at htl; omega)
    rw [htl] at hr
    rw [← interpolateWith_mirrored fn (fun y => (⟨y, 0⟩ : Cx T))] at hr
    obtain ⟨w, b', e1, e2, e3⟩ := shows_tradeOutcome hv b
      (.complex (interpolateWith (fun t => (⟨fn (-t), 0⟩ : Cx T)) factor (delay / x) LL n cs)) rfl (2 * n)
      (by simp [Numbers.flat, interpolateWith_length]) hb
      (fun sc => (interpScalar st fn (fun y => ⟨y, 0⟩) factor (delay / x) LL cs tc sc).andThen fun r => .finished (fromComplex r))
      (hr.map (fun sc hs => by rw [hs]; rfl) (fun sc hs => by rw [hs]; rfl))
    refine ⟨w, b', e1.congr fun sched => ?_, e3, e2⟩
    unfold interpolatef
    simp only [hlim, hdl, hnl, t1, hcont, if_neg hp, hc, if_true, toComplex?_fromComplex]

/-- C59 (partial: the implementation with registers is not selected, the function is even): `interpolatef` computes the
    interpolated and delayed signal, for real and complex vectors, every factor, storage, buffer, settings and interleavings. -/
theorem C59_interpolatef_partial (k : RegKind) (addr : Nat) (st : MultiCoreSettings) (fn : T → T) (heven : ∀ t, fn (-t) = fn t)
    (factor delay : T) (L : Nat) (v : DspVec T)
    (s : Signal T) (x : T) (hv : v.Shows s) (hx : s.delta = some x) (hf : 0 ≤ factor) (h1 : 1 ≤ s.numbers.count)
    (hn : 1 ≤ interpolatedPoints s.numbers.isComplex s.numbers.count factor) (hp : ¬ UsesRegisters s.numbers factor L) (b : Buffer T)
    (hb : BufferOk b v.data ((if s.numbers.isComplex then 2 else 1) *
      interpolatedPoints s.numbers.isComplex s.numbers.count factor)) :
    ∃ w b', Always (v.interpolatef k addr st fn factor delay L b) (w, b') ∧ BufferKept b v b' w ∧
      w.Shows { s with numbers := (s.numbers.interpolateWith fn factor (delay / x) (min L (s.numbers.count / 2))
        (interpolatedPoints s.numbers.isComplex s.numbers.count factor)) } := by
  have := C59_scalar k addr st fn factor delay L v s x hv hx hf h1 hn hp b hb
  rwa [show (fun t => fn (-t)) = fn from funext heven] at this

/-- The points which the implementation with registers computes. -/
def Numbers.simdInterp (fn : T → T) (F : Nat) (d : T) (L n : Nat) : Numbers T → Numbers T
  | .real xs => .real ((List.range n).map (Dsp.simdInterp fn id F d L n xs))
  | .complex cs => .complex ((List.range n).map (Dsp.simdInterp fn (fun y => (⟨y, 0⟩ : Cx T)) F d L n cs))

theorem floor_half_natCast (m : Nat) : ⌊(m : T) + 1 / 2⌋ = m := by
  rw [Int.floor_eq_iff]; constructor <;> push_cast <;> linarith

theorem roundAway_wholeNumber (m : Nat) : roundAway (m : T) = m := by
  unfold roundAway
  rw [if_neg (not_lt.2 (Nat.cast_nonneg m)), floor_half_natCast]; simp

theorem toUsize_wholeNumber (m : Nat) : toUsize (m : T) = some m := by
  unfold toUsize
  rw [if_neg]
  · simp
  · rw [not_le]; have : (0 : T) ≤ m := Nat.cast_nonneg m; linarith

/-- The number of points for a whole factor. -/
theorem interpolatedPoints_nat (c : Bool) (n F : Nat) :
    interpolatedPoints c n (F : T) = if c then n * F else n * F + n * F % 2 := by
  unfold interpolatedPoints
  rw [← Nat.cast_mul, floor_half_natCast, Int.toNat_natCast]
  cases c
  · simp
  · simp only [if_true]
    rw [Nat.mul_assoc]; omega

/-- C59: what the implementation with registers computes, for every function and delay. -/
theorem interpolatef_simd (k : RegKind) (addr : Nat) (st : MultiCoreSettings) (fn : T → T) (F : Nat) (hF : 1 ≤ F) (delay : T) (L : Nat)
    (v : DspVec T) (s : Signal T) (x : T) (hv : v.Shows s) (hx : s.delta = some x) (hp : UsesRegisters s.numbers (F : T) L)
    (hlen : 2 * (2 * L + 1) < s.numbers.count) (hL : k.len ≤ (if s.numbers.isComplex then 2 else 1) * L) (hal : ConvAligned k addr)
    (b : Buffer T)
    (hb : BufferOk b v.data ((if s.numbers.isComplex then 2 else 1) *
      interpolatedPoints s.numbers.isComplex s.numbers.count (F : T))) :
    ∃ w b', Always (v.interpolatef k addr st fn (F : T) delay L b) (w, b') ∧ BufferKept b v b' w ∧
      w.Shows { s with numbers := (s.numbers.simdInterp fn F (delay / x) L
        (interpolatedPoints s.numbers.isComplex s.numbers.count (F : T))) } := by
  have hnl := interpNewLen_points hv (F : T) (Nat.cast_nonneg F)
  have hlim := interp_limit hv L
  unfold UsesRegisters at hp
  obtain ⟨N, dom, g, dl⟩ := s
  simp only at hx hp hlen hL hb hnl hlim ⊢
  have hLL : min L (N.count / 2) = L := by omega
  rw [hLL] at hlim hp
  have hpts := interpolatedPoints_nat (T := T) N.isComplex N.count F
  generalize interpolatedPoints N.isComplex N.count (F : T) = n at *
  have hdl : v.delta.map (delay / ·) = some (delay / x) := by rw [hv.delta]; simp only; rw [hx]; rfl
  have hfac : toUsize (roundAway (F : T)) = some F := by rw [roundAway_wholeNumber, toUsize_wholeNumber]
  have hF0 : (F : T) ≠ 0 := by exact_mod_cast (by omega : F ≠ 0)
  have hal2 : (addr % k.len) % 2 = 0 := by
    have := hal.2
    cases k <;> simp only [RegKind.len] <;> omega
  have hlt : 2 * ((2 * L + 1) * F) < N.count * F := by
    rw [← Nat.mul_assoc]; exact Nat.mul_lt_mul_of_pos_right hlen (by omega)
  obtain ⟨t, t1, t2⟩ := borrow_ok b v.data _ hb
  cases N with
  | real xs =>
    have hc : v.isComplex = false := hv.isComplex
    have hcont : v.content = some xs := hv.content
    simp only [Numbers.isComplex, Bool.false_eq_true, if_false, Nat.one_mul, Numbers.count] at hnl hb hp t1 t2 hpts hL hlt
    have hr := interpSimd_spec (regEnc_real (T := T) k) (inj := id) responseNumbers_real addr st fn F hF0 (delay / x) L xs t
      (by rw [t2]; omega) (by rw [t2]; omega) (by omega) hal.1 (by omega)
    rw [t2] at hr
    obtain ⟨w, b', e1, e2, e3⟩ := shows_tradeOutcome hv b
      (.real ((List.range n).map (Dsp.simdInterp fn id F (delay / x) L n xs))) rfl n
      (by simp [Numbers.flat]) hb _ hr
    refine ⟨w, b', e1.congr fun sched => ?_, e3, e2⟩
    unfold interpolatef
    simp only [hlim, hdl, hnl, t1, hcont, if_pos hp, hc, Bool.false_eq_true, if_false, hfac]
  | complex cs =>
    have hc : v.isComplex = true := hv.isComplex
    have hcont : v.content = some (fromComplex cs) := hv.content
    simp only [Numbers.isComplex, if_true, Numbers.count] at hnl hb hp t1 t2 hpts hL hlt
    obtain ⟨tc, rfl⟩ := exists_fromComplex (l := t) (by omega)
    have htl : tc.length = n := by rw [length_fromComplex] at t2; omega
    have hr := interpSimd_spec (regEnc_complex (T := T) k) (inj := fun y => (⟨y, 0⟩ : Cx T)) responseNumbers_complex addr st fn F hF0
      (delay / x) L cs tc (by rw [htl]; omega) (by rw [htl]; omega) hL hal.1 hal2
    rw [htl] at hr
    obtain ⟨w, b', e1, e2, e3⟩ := shows_tradeOutcome hv b
      (.complex ((List.range n).map (Dsp.simdInterp fn (fun y => (⟨y, 0⟩ : Cx T)) F (delay / x) L n cs))) rfl (2 * n)
      (by simp [Numbers.flat]) hb
      (fun sc => (interpSimd addr k.len 2 (regMulComplex k) regSumComplex (fun y => ⟨y, 0⟩) st fn F (delay / x) L (fromComplex cs) cs tc
                sc).andThen fun r => .finished (fromComplex r))
      (hr.map (fun sc hs => by rw [hs]; rfl) (fun sc hs => by rw [hs]; rfl))
    refine ⟨w, b', e1.congr fun sched => ?_, e3, e2⟩
    unfold interpolatef
    simp only [hlim, hdl, hnl, t1, hcont, if_pos hp, hc, if_true, toComplex?_fromComplex, hfac]

omit [LinearOrder T] [FloorRing T] [IsStrictOrderedRing T] [Field T] in
theorem pointSum_single [CommRing α] (x : List α) (g : Int → α) (lo p : Int) (n : Nat) (h1 : lo ≤ p) (h2 : p < lo + n) (hp : g p = 1)
    (h0 : ∀ q, q ≠ p → g q = 0) : pointSum x g lo n = (cyclic x p).getD 0 := by
  unfold pointSum
  obtain ⟨m, hm⟩ : ∃ m : Nat, p = lo + (m : Int) := ⟨(p - lo).toNat, by omega⟩
  rw [list_sum_range, Finset.sum_eq_single m]
  · rw [← hm, hp, mul_one]
  · intro q _ hne
    rw [h0 _ (by omega), mul_zero]
  · intro hn; exact absurd (Finset.mem_range.mpr (by omega)) hn

omit [LinearOrder T] [FloorRing T] [IsStrictOrderedRing T] [Field T] in
theorem pointSum_Ico [CommRing α] (x : List α) (g : Int → α) (lo : Int) (n : Nat) :
    pointSum x g lo n = ∑ p ∈ Finset.Ico lo (lo + n), (cyclic x p).getD 0 * g p := by
  unfold pointSum
  rw [list_sum_range]
  refine Finset.sum_bij (fun m _ => lo + (m : Int)) ?_ ?_ ?_ (fun _ _ => rfl)
  · intro m hm
    have := Finset.mem_range.mp hm
    rw [Finset.mem_Ico]; omega
  · intro a _ b _ h; omega
  · intro p hp
    rw [Finset.mem_Ico] at hp
    exact ⟨(p - lo).toNat, Finset.mem_range.mpr (by omega), by omega⟩

omit [LinearOrder T] [FloorRing T] [IsStrictOrderedRing T] [Field T] in
/-- The points where the function vanishes do not matter. -/
theorem pointSum_windows [CommRing α] (x : List α) (g : Int → α) (lo lo' : Int) (n n' : Nat)
    (h1 : ∀ p, (p < lo ∨ lo + n ≤ p) → lo' ≤ p → p < lo' + n' → g p = 0)
    (h2 : ∀ p, (p < lo' ∨ lo' + n' ≤ p) → lo ≤ p → p < lo + n → g p = 0) :
    pointSum x g lo n = pointSum x g lo' n' := by
  rw [pointSum_Ico, pointSum_Ico]
  have e1 : ∑ p ∈ Finset.Ico lo (lo + n) ∩ Finset.Ico lo' (lo' + n'), (cyclic x p).getD 0 * g p =
      ∑ p ∈ Finset.Ico lo (lo + n), (cyclic x p).getD 0 * g p := by
    apply Finset.sum_subset Finset.inter_subset_left
    intro p hp hn
    rw [Finset.mem_inter] at hn
    simp only [Finset.mem_Ico] at hp hn
    rw [h2 p (by omega) hp.1 hp.2, mul_zero]
  have e2 : ∑ p ∈ Finset.Ico lo (lo + n) ∩ Finset.Ico lo' (lo' + n'), (cyclic x p).getD 0 * g p =
      ∑ p ∈ Finset.Ico lo' (lo' + n'), (cyclic x p).getD 0 * g p := by
    apply Finset.sum_subset Finset.inter_subset_right
    intro p hp hn
    rw [Finset.mem_inter] at hn
    simp only [Finset.mem_Ico] at hp hn
    rw [h1 p (by omega) hp.1 hp.2, mul_zero]
  rw [← e1, e2]

/-- The window of the specification contains all near points. -/
theorem floor_window (c : T) (L : Nat) (p : Int) (h : |c - (p : T)| < (L : T)) : ⌊c⌋ - L ≤ p ∧ p ≤ ⌊c⌋ - L + 2 * (L : Int) := by
  rw [abs_lt] at h
  have h1 := Int.floor_le c
  have h2 := Int.lt_floor_add_one c
  constructor
  · have : (⌊c⌋ : T) < (p : T) + L := by linarith
    have : ⌊c⌋ < p + L := by exact_mod_cast this
    omega
  · have : (p : T) < (⌊c⌋ : T) + 1 + L := by linarith
    have : p < ⌊c⌋ + 1 + L := by exact_mod_cast this
    omega

theorem interpolateWith_interpolates [CommRing α] (f : T → α) (factor d : T) (L n : Nat) (x : List α) :
    Interpolates f factor d L n x (interpolateWith f factor d L n x) := by
  refine ⟨interpolateWith_length _ _ _ _ _ _, fun i hi => ⟨_, floor_window ((i : T) / factor) L, ?_⟩⟩
  unfold interpolateWith
  rw [List.getElem?_map, List.getElem?_range hi]; rfl

/-- C59 (about the specification): for a function which vanishes from the distance `L` on, all windows give the same result. -/
theorem C59_support [CommRing α] (f : T → α) (factor : T) (L n : Nat) (x ys : List α) (hf : ∀ t, (L : T) ≤ |t| → f t = 0)
    (h : Interpolates f factor 0 L n x ys) : ys = interpolateWith f factor 0 L n x := by
  obtain ⟨h1, h2⟩ := h
  apply List.ext_getElem?
  intro i
  by_cases hi : i < n
  · obtain ⟨lo, g1, g2⟩ := h2 i hi
    unfold interpolateWith
    rw [g2, List.getElem?_map, List.getElem?_range hi, Option.map_some]
    congr 1
    rw [windowSum_eq, windowSum_eq]
    refine pointSum_windows x _ _ _ _ _ (fun p hp _ _ => hf _ ?_) (fun p hp _ _ => hf _ ?_)
    · by_contra hc
      rw [sub_zero] at hc
      have := g1 p (not_le.1 hc)
      push_cast at hp; omega
    · by_contra hc
      rw [sub_zero] at hc
      have := floor_window _ L p (not_le.1 hc)
      push_cast at hp; omega
  · rw [List.getElem?_eq_none (by omega), List.getElem?_eq_none (by rw [interpolateWith_length]; omega)]

omit [LinearOrder T] [FloorRing T] [IsStrictOrderedRing T] [Field T] in
theorem cyclic_nat (x : List α) (j : Nat) (hj : j < x.length) : cyclic x (j : Int) = x[j]? := by
  unfold cyclic
  rw [Int.emod_eq_of_lt (by omega) (by omega), Int.toNat_natCast]

omit [FloorRing T] in
/-- C59 (about the specification): a function which is one at zero and zero at all other whole numbers keeps the points of the signal. -/
theorem C59_nodes [CommRing α] (f : T → α) (h1 : f 0 = 1) (h0 : ∀ m : Int, m ≠ 0 → f (m : T) = 0) (F L n : Nat) (hF : 1 ≤ F) (hL : 1 ≤ L)
    (x ys : List α) (hn : x.length * F ≤ n) (h : Interpolates f (F : T) 0 L n x ys) (j : Nat) (hj : j < x.length) :
    ys[F * j]? = x[j]? := by
  have hlt : F * j < n := by
    have := Nat.mul_lt_mul_of_pos_right hj (by omega : 0 < F)
    rw [Nat.mul_comm] at this; omega
  obtain ⟨lo, g1, g2⟩ := h.2 (F * j) hlt
  have hF0 : (F : T) ≠ 0 := by exact_mod_cast (by omega : F ≠ 0)
  have hc : ((F * j : Nat) : T) / (F : T) = ((j : Int) : T) := by
    rw [Nat.cast_mul, mul_div_cancel_left₀ _ hF0]; simp
  rw [hc] at g1 g2
  have := g1 j (by rw [sub_self, abs_zero]; exact_mod_cast hL)
  rw [g2, sub_zero, windowSum_eq, pointSum_single x _ lo (j : Int) (2 * L + 1) this.1 (by push_cast; omega) (by rw [sub_self, h1])
    (fun q hq => by
      have := h0 ((j : Int) - q) (by omega)
      rwa [Int.cast_sub] at this), cyclic_nat x j hj, List.getElem?_eq_getElem hj]
  rfl

omit [FloorRing T] in
/-- Without a delay both parts of the implementation with registers use an accepted window. -/
theorem simdInterp_interpolates [CommRing α] (fn : T → T) (heven : ∀ t, fn (-t) = fn t) (inj : T → α) (F : Nat) (hF : 1 ≤ F)
    (L n : Nat) (x : List α) :
    Interpolates (fun t => inj (fn t)) (F : T) 0 L n x ((List.range n).map (simdInterp fn inj F 0 L n x)) := by
  have hF0 : (F : T) ≠ 0 := by exact_mod_cast (by omega : F ≠ 0)
  have hFp : (0 : T) < (F : T) := by exact_mod_cast (by omega : 0 < F)
  refine ⟨by simp, fun i hi => ?_⟩
  rw [List.getElem?_map, List.getElem?_range hi, Option.map_some]
  unfold simdInterp
  split
  · refine ⟨((i / F : Nat) : Int) - L + 1, fun p hp => ?_, ?_⟩
    · have hs := div_split (T := T) i F hF0
      have hm : ((i % F : Nat) : T) / (F : T) < 1 := by
        rw [div_lt_one hFp]; exact_mod_cast Nat.mod_lt i (by omega)
      have hm0 : (0 : T) ≤ ((i % F : Nat) : T) / (F : T) := div_nonneg (Nat.cast_nonneg _) hFp.le
      generalize i / F = q at *
      rw [abs_lt] at hp
      have h1 : ((q : Int) : T) < (p : T) + L := by push_cast; linarith
      have h2 : (p : T) < ((q : Int) : T) + 1 + L := by push_cast; linarith
      have h1 : (q : Int) < p + L := by exact_mod_cast h1
      have h2 : p < (q : Int) + 1 + L := by exact_mod_cast h2
      omega
    · rw [windowSum_eq]
      congr 1
      refine pointSum_congr rfl fun p => ?_
      rw [← heven]; congr 2; ring
  · refine ⟨(((i + F - 1) / F : Nat) : Int) - L - 1, fun p hp => ?_, ?_⟩
    · have hs := ceil_split (T := T) i F hF0
      have hm : (((F - i % F) % F : Nat) : T) / (F : T) < 1 := by
        rw [div_lt_one hFp]; exact_mod_cast Nat.mod_lt (F - i % F) (by omega)
      have hm0 : (0 : T) ≤ (((F - i % F) % F : Nat) : T) / (F : T) := div_nonneg (Nat.cast_nonneg _) hFp.le
      generalize (i + F - 1) / F = q at *
      rw [abs_lt] at hp
      have h1 : ((q : Int) : T) < (p : T) + L + 1 := by push_cast; linarith
      have h2 : (p : T) < ((q : Int) : T) + L := by push_cast; linarith
      have h1 : (q : Int) < p + L + 1 := by exact_mod_cast h1
      have h2 : p < (q : Int) + L := by exact_mod_cast h2
      omega
    · rw [windowSum_eq]
      congr 1
      refine pointSum_congr rfl fun p => ?_
      congr 2; ring

/-- Specification: the data fits to the implementation with registers: there are enough points in the middle, `L` points fill a register,
    and the alignment of the storage is accepted. -/
def RegistersFit (k : RegKind) (addr : Nat) (N : Numbers T) (L : Nat) : Prop :=
  2 * (2 * L + 1) < N.count ∧ k.len ≤ (if N.isComplex then 2 else 1) * L ∧ ConvAligned k addr

/-- C59 (partial: `RegistersFit` if registers are used, an even function, no delay): `interpolatef` by a whole factor, for real and complex
    vectors, every storage, buffer, settings and interleavings: every point of the result is the sum over a window which
    contains all points of the signal with a distance below `L`. -/
theorem C59_whole_factor_partial (k : RegKind) (addr : Nat) (st : MultiCoreSettings) (fn : T → T) (heven : ∀ t, fn (-t) = fn t) (F : Nat)
    (hF : 1 ≤ F) (L : Nat) (v : DspVec T) (s : Signal T) (x : T) (hv : v.Shows s) (hx : s.delta = some x)
    (h1 : 1 ≤ s.numbers.count) (hfit : UsesRegisters s.numbers (F : T) L → RegistersFit k addr s.numbers L) (b : Buffer T)
    (hb : BufferOk b v.data ((if s.numbers.isComplex then 2 else 1) *
      interpolatedPoints s.numbers.isComplex s.numbers.count (F : T))) :
    ∃ w b' M, Always (v.interpolatef k addr st fn (F : T) 0 L b) (w, b') ∧ BufferKept b v b' w ∧ w.Shows { s with numbers := M } ∧
      s.numbers.Interpolates fn (F : T) 0 (min L (s.numbers.count / 2))
        (interpolatedPoints s.numbers.isComplex s.numbers.count (F : T)) M := by
  by_cases hp : UsesRegisters s.numbers (F : T) L
  · obtain ⟨f1, f2, f3⟩ := hfit hp
    obtain ⟨w, b', e1, e2, e3⟩ := interpolatef_simd k addr st fn F hF 0 L v s x hv hx hp f1 f2 f3 b hb
    refine ⟨w, b', _, e1, e2, e3, ?_⟩
    rw [zero_div, show min L (s.numbers.count / 2) = L by omega]
    cases s.numbers with
    | real xs => exact simdInterp_interpolates fn heven id F hF L _ xs
    | complex cs => exact simdInterp_interpolates fn heven (fun y => (⟨y, 0⟩ : Cx T)) F hF L _ cs
  · have hpts := interpolatedPoints_nat (T := T) s.numbers.isComplex s.numbers.count F
    have hm : 1 ≤ s.numbers.count * F := Nat.mul_le_mul h1 hF
    have hn : 1 ≤ interpolatedPoints s.numbers.isComplex s.numbers.count (F : T) := by
      rw [hpts]; split <;> omega
    obtain ⟨w, b', e1, e2, e3⟩ := C59_interpolatef_partial k addr st fn heven (F : T) 0 L v s x hv hx (Nat.cast_nonneg F) h1 hn hp b hb
    refine ⟨w, b', _, e1, e2, e3, ?_⟩
    rw [zero_div]
    cases s.numbers with
    | real xs => exact interpolateWith_interpolates _ _ _ _ _ _
    | complex cs => exact interpolateWith_interpolates _ _ _ _ _ _

/-- C59 (partial as `C59_whole_factor_partial`): for a function which vanishes from the distance `L` on, all implementations compute the
    same: the specified interpolation. -/
theorem C59_same_result_partial (k : RegKind) (addr : Nat) (st : MultiCoreSettings) (fn : T → T) (heven : ∀ t, fn (-t) = fn t) (F : Nat)
    (hF : 1 ≤ F) (L : Nat) (v : DspVec T) (s : Signal T) (x : T) (hv : v.Shows s) (hx : s.delta = some x) (h1 : 1 ≤ s.numbers.count)
    (hsup : ∀ t, ((min L (s.numbers.count / 2) : Nat) : T) ≤ |t| → fn t = 0)
    (hfit : UsesRegisters s.numbers (F : T) L → RegistersFit k addr s.numbers L) (b : Buffer T)
    (hb : BufferOk b v.data ((if s.numbers.isComplex then 2 else 1) *
      interpolatedPoints s.numbers.isComplex s.numbers.count (F : T))) :
    ∃ w b', Always (v.interpolatef k addr st fn (F : T) 0 L b) (w, b') ∧ BufferKept b v b' w ∧
      w.Shows { s with numbers := (s.numbers.interpolateWith fn (F : T) 0 (min L (s.numbers.count / 2))
        (interpolatedPoints s.numbers.isComplex s.numbers.count (F : T))) } := by
  obtain ⟨w, b', M, e1, e2, e3, e4⟩ := C59_whole_factor_partial k addr st fn heven F hF L v s x hv hx h1 hfit b hb
  refine ⟨w, b', e1, e2, ?_⟩
  generalize hn : interpolatedPoints s.numbers.isComplex s.numbers.count (F : T) = n at *
  have : M = s.numbers.interpolateWith fn (F : T) 0 (min L (s.numbers.count / 2)) n := by
    clear e3
    generalize min L (s.numbers.count / 2) = LL at *
    cases hN : s.numbers with
    | real xs =>
      rw [hN] at e4
      cases M with
      | real ys => exact congrArg Numbers.real (C59_support _ _ _ _ _ _ hsup e4)
      | complex ys => exact e4.elim
    | complex cs =>
      rw [hN] at e4
      cases M with
      | real ys => exact e4.elim
      | complex ys => exact congrArg Numbers.complex (C59_support _ _ _ _ _ _ (fun t ht => by simp only [hsup t ht]; rfl) e4)
  rw [← this]
  exact e3

/-- C59 (partial as `C59_whole_factor_partial`): with a function which is one at zero and zero at all other whole numbers (as the sinc function) the
    points of the signal are kept: they are the points `0, F, 2 F, ...` of the result. -/
theorem C59_keeps_points_partial (k : RegKind) (addr : Nat) (st : MultiCoreSettings) (fn : T → T) (heven : ∀ t, fn (-t) = fn t)
    (hone : fn 0 = 1) (hzero : ∀ m : Int, m ≠ 0 → fn (m : T) = 0) (F : Nat)
    (hF : 1 ≤ F) (L : Nat) (hL : 1 ≤ L) (v : DspVec T) (s : Signal T) (x : T) (hv : v.Shows s) (hx : s.delta = some x)
    (h1 : 2 ≤ s.numbers.count) (hfit : UsesRegisters s.numbers (F : T) L → RegistersFit k addr s.numbers L) (b : Buffer T)
    (hb : BufferOk b v.data ((if s.numbers.isComplex then 2 else 1) *
      interpolatedPoints s.numbers.isComplex s.numbers.count (F : T))) :
    ∃ w b' M, Always (v.interpolatef k addr st fn (F : T) 0 L b) (w, b') ∧ w.Shows { s with numbers := M } ∧
      M.isComplex = s.numbers.isComplex ∧ ∀ i < s.numbers.count, M.asCx[F * i]? = s.numbers.asCx[i]? := by
  obtain ⟨w, b', M, e1, -, e3, e4⟩ := C59_whole_factor_partial k addr st fn heven F hF L v s x hv hx (by omega) hfit b hb
  have hpts := interpolatedPoints_nat (T := T) s.numbers.isComplex s.numbers.count F
  have hn : s.numbers.count * F ≤ interpolatedPoints s.numbers.isComplex s.numbers.count (F : T) := by
    rw [hpts]; split <;> omega
  refine ⟨w, b', M, e1, e3, ?_⟩
  clear e3
  have hLL : 1 ≤ min L (s.numbers.count / 2) := by omega
  generalize min L (s.numbers.count / 2) = LL at *
  generalize interpolatedPoints s.numbers.isComplex s.numbers.count (F : T) = n at *
  cases hN : s.numbers with
  | real xs =>
    rw [hN] at e4 hn
    cases M with
    | real ys =>
      refine ⟨rfl, fun i hi => ?_⟩
      have := C59_nodes fn hone hzero F LL n hF hLL xs ys hn e4 i hi
      simp only [Numbers.asCx, List.getElem?_map, this]
    | complex ys => exact e4.elim
  | complex cs =>
    rw [hN] at e4 hn
    cases M with
    | real ys => exact e4.elim
    | complex ys =>
      exact ⟨rfl, fun i hi => C59_nodes _ (by rw [hone]; rfl) (fun m hm => by simp only [hzero m hm]; rfl) F LL n hF hLL cs ys hn e4 i hi⟩

end
end Dsp
