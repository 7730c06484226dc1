import Verif.Model.Registers
import Verif.Props.Simd
import Verif.Lemmas.Complex
import Mathlib.Algebra.Field.Basic
import Mathlib.Algebra.BigOperators.Group.List.Basic
import Mathlib.Tactic.Ring
import Mathlib.Algebra.Field.Rat
/-
C45: the register types compute the arithmetic of numbers and complex numbers.
-/
namespace Dsp
variable {T : Type}

theorem length_regSwapIq : ∀ r : List T, (regSwapIq r).length = r.length
  | [] => rfl
  | [_] => rfl
  | _ :: _ :: r => by simp [regSwapIq, length_regSwapIq r]

theorem length_addsub [Add T] [Sub T] : ∀ r s : List T, (addsub r s).length = r.length
  | [], _ => by simp [addsub]
  | [_], _ => by simp [addsub]
  | _ :: _ :: _, [] => by simp [addsub]
  | _ :: _ :: _, [_] => by simp [addsub]
  | _ :: _ :: r, _ :: _ :: s => by simp [addsub, length_addsub r s]

theorem length_lanesMap (f : Cx T → Cx T) : ∀ r : List T, (lanesMap f r).length = r.length
  | [] => rfl
  | [_] => rfl
  | _ :: _ :: r => by simp [lanesMap, length_lanesMap f r]

theorem zipWith_replicate {α β γ : Type} (f : α → β → γ) (x : β) : ∀ (r : List α) (n : Nat),
    r.length = n → List.zipWith f r (List.replicate n x) = r.map (fun y => f y x)
  | [], n, h => by subst h; rfl
  | y :: r, n, h => by
    subst h
    simp only [List.length_cons, List.replicate_succ, List.zipWith_cons_cons, List.map_cons]
    rw [zipWith_replicate f x r _ rfl]

theorem lanesMap_eq (f : Cx T → Cx T) (cs : List (Cx T)) :
    lanesMap f (fromComplex cs) = fromComplex (cs.map f) := by
  induction cs with
  | nil => rfl
  | cons c cs ih => simp [fromComplex, lanesMap, ih]

theorem lanesZip_eq (f : Cx T → Cx T → Cx T) : ∀ cs ds : List (Cx T), cs.length = ds.length →
    lanesZip f (fromComplex cs) (fromComplex ds) = fromComplex (List.zipWith f cs ds)
  | [], [], _ => rfl
  | c :: cs, d :: ds, h => by
    have := lanesZip_eq f cs ds (by simpa using h)
    simp [fromComplex, lanesZip, this]

/-- The shuffled multiplication of SSE and AVX. -/
theorem shuffled_scale [AddCommMagma T] [Sub T] [CommMagma T] (x : Cx T) : ∀ cs : List (Cx T),
    addsub (regZip (· * ·) (List.replicate (2 * cs.length) x.re) (fromComplex cs))
      (regZip (· * ·) (List.replicate (2 * cs.length) x.im) (regSwapIq (fromComplex cs))) =
    fromComplex (cs.map (fun a => a.mul x))
  | [] => rfl
  | c :: cs => by
    have ih := shuffled_scale x cs
    unfold regZip at *
    rw [List.length_cons, show 2 * (cs.length + 1) = 2 * cs.length + 1 + 1 by omega]
    simp only [List.replicate_succ, fromComplex, regSwapIq, List.zipWith_cons_cons, addsub,
      List.map_cons, ih, Cx.mul, List.cons.injEq, and_true]
    exact ⟨by rw [mul_comm x.re, mul_comm x.im], by rw [mul_comm x.re, mul_comm x.im, add_comm]⟩

theorem shuffled_mul [AddCommMagma T] [Sub T] [CommMagma T] : ∀ cs ds : List (Cx T), cs.length = ds.length →
    addsub (regZip (· * ·) (dupEven (fromComplex ds)) (fromComplex cs))
      (regZip (· * ·) (dupOdd (fromComplex ds)) (regSwapIq (fromComplex cs))) =
    fromComplex (List.zipWith Cx.mul cs ds)
  | [], [], _ => rfl
  | c :: cs, d :: ds, h => by
    have ih := shuffled_mul cs ds (by simpa using h)
    unfold regZip at *
    simp only [fromComplex, regSwapIq, dupEven, dupOdd, List.zipWith_cons_cons, addsub, ih, Cx.mul,
      List.cons.injEq, and_true]
    exact ⟨by rw [mul_comm d.re, mul_comm d.im], by rw [mul_comm d.re, mul_comm d.im, add_comm]⟩

theorem shuffled_div [AddCommMagma T] [Sub T] [CommMagma T] [Div T] : ∀ cs ds : List (Cx T), cs.length = ds.length →
    regSwapIq (regZip (· / ·)
      (addsub (regZip (· * ·) (dupOdd (fromComplex cs)) (fromComplex ds))
        (regZip (· * ·) (dupEven (fromComplex cs)) (regSwapIq (fromComplex ds))))
      (regZip (· + ·)
        (regZip (· * ·) (regSwapIq (fromComplex ds)) (regSwapIq (fromComplex ds)))
        (regSwapIq (regZip (· * ·) (regSwapIq (fromComplex ds)) (regSwapIq (fromComplex ds)))))) =
    fromComplex (List.zipWith Cx.div cs ds)
  | [], [], _ => rfl
  | c :: cs, d :: ds, h => by
    have ih := shuffled_div cs ds (by simpa using h)
    unfold regZip at *
    simp only [fromComplex, regSwapIq, dupEven, dupOdd, List.zipWith_cons_cons, addsub, ih, Cx.div,
      List.cons.injEq, and_true]
    exact ⟨by rw [add_comm (c.im * d.im)], by rw [add_comm (d.im * d.im)]⟩

theorem regFromComplex_eq (k : RegKind) (x : Cx T) :
    regFromComplex k x = fromComplex (List.replicate (k.len / 2) x) := by
  cases k <;> rfl

theorem add_points [Add T] (x : Cx T) : ∀ cs : List (Cx T),
    regZip (· + ·) (fromComplex cs) (fromComplex (List.replicate cs.length x)) =
      fromComplex (cs.map (fun a => a.add x))
  | [] => rfl
  | c :: cs => by
    have ih := add_points x cs
    unfold regZip at *
    simp only [List.length_cons, List.replicate_succ, fromComplex, List.zipWith_cons_cons, List.map_cons,
      ih, Cx.add]

/-- C45: adding and scaling with a real number works on every lane. -/
theorem C45_real_lanes [Add T] [Mul T] (k : RegKind) (x : T) :
    LaneWise k.len (regAddReal k x) (· + x) ∧ LaneWise k.len (regScaleReal k x) (· * x) := by
  refine ⟨⟨fun r h => ?_, fun r h => ?_⟩, ⟨fun r h => ?_, fun r h => ?_⟩⟩
  · simp [regAddReal, regZip, regSplat]; omega
  · exact zipWith_replicate _ _ _ _ h
  · simp [regScaleReal, regZip, regSplat]; omega
  · exact zipWith_replicate _ _ _ _ h

/-- C45: adding and multiplying with a complex number works on every complex point of the register,
    for every register type: the same additions and multiplications as for a single point, up to their commutativity. -/
theorem C45_complex_points [AddCommMagma T] [Sub T] [CommMagma T] (k : RegKind) (x : Cx T) :
    PointWise k.len (regAddComplex k x) (fun a => a.add x) ∧
    PointWise k.len (regScaleComplex k x) (fun a => a.mul x) := by
  refine ⟨⟨fun r h => ?_, fun cs h => ?_⟩, ⟨fun r h => ?_, fun cs h => ?_⟩⟩
  · have : (regFromComplex k x).length = k.len := by cases k <;> rfl
    simp [regAddComplex, regZip, this]; omega
  · unfold regAddComplex
    rw [regFromComplex_eq, ← h, Nat.mul_div_cancel_left _ (by decide)]
    exact add_points x cs
  · unfold regScaleComplex
    cases k <;> simp only [length_lanesMap, length_addsub] <;>
      (simp [regZip, regSplat]; omega)
  · unfold regScaleComplex regSplat
    cases k <;> simp only [lanesMap_eq] <;> (rw [← h]; exact shuffled_scale x cs)

/-- C45: multiplication and division of registers is complex multiplication and division point by
    point, for every register type: the same operations as for a single point, up to commutativity (no other law is needed, so
    rounding does not matter). -/
theorem C45_complex_pairs [AddCommMagma T] [Sub T] [CommMagma T] [Div T] (k : RegKind) :
    PointWise2 k.len (regMulComplex k) (Cx.mul (T := T)) ∧
    PointWise2 k.len (regDivComplex k) (Cx.div (T := T)) := by
  refine ⟨fun cs ds h1 h2 => ?_, fun cs ds h1 h2 => ?_⟩
  · unfold regMulComplex
    cases k <;> simp only [lanesZip_eq _ cs ds (by omega)] <;> exact shuffled_mul cs ds (by omega)
  · unfold regDivComplex
    cases k <;> simp only [lanesZip_eq _ cs ds (by omega)] <;> exact shuffled_div cs ds (by omega)

example : regDivComplex .avxF32x8 ([1, 2, 3, 4, 5, 6, 7, 8] : List ℚ) [1, 1, 0, 1, 2, 0, 0, 2] =
    [3/2, 1/2, 4, -3, 5/2, 3, 4, -7/2] := by
  norm_num [regDivComplex, regSwapIq, regZip, addsub, dupOdd, dupEven]

/-- C45: `complex_abs_squared` followed by `store_half` stores the squared norms of all points of the
    register, in order. Restricted to register types other than the AVX type `f64x4`, see
    `C45_avx_f64_norm_violated`. -/
theorem C45_norms_partial [Add T] [Sub T] [Mul T] [Div T] [Zero T] (k : RegKind) (hk : k ≠ .avxF64x4)
    (cs : List (Cx T)) (h : 2 * cs.length = k.len) :
    regStoreHalf k (regComplexAbsSquared k (fromComplex cs)) = cs.map Cx.normSq := by
  cases k <;> simp only [RegKind.len] at h
  case avxF64x4 => exact absurd rfl hk
  case fallbackF32x4 =>
    match cs, h with
    | [a, b], _ => rfl
  case sseF32x4 =>
    match cs, h with
    | [a, b], _ => rfl
  case fallbackF64x2 =>
    match cs, h with
    | [a], _ => rfl
  case sseF64x2 =>
    match cs, h with
    | [a], _ => rfl
  case avxF32x8 =>
    match cs, h with
    | [a, b, c, d], _ => rfl

/-- C45 is violated by the AVX register `f64x4`: `hadd_pd` puts the norms into the lanes 0 and 2,
    `store_half` stores the lanes 0 and 1: for `3+4j, 5+12j` it stores `25, 25` instead of
    `25, 169`. -/
theorem C45_avx_f64_norm_violated :
    regStoreHalf .avxF64x4 (regComplexAbsSquared .avxF64x4 ([3, 4, 5, 12] : List Int)) = [25, 25] ∧
    ([⟨3, 4⟩, ⟨5, 12⟩] : List (Cx Int)).map Cx.normSq = [25, 169] := by decide

/-- The same in general: whenever the two norms differ the result is wrong. -/
theorem C45_avx_f64_norm_wrong_violated [Add T] [Sub T] [Mul T] [Div T] [Zero T] (x y : Cx T)
    (h : x.normSq ≠ y.normSq) :
    regStoreHalf .avxF64x4 (regComplexAbsSquared .avxF64x4 (fromComplex [x, y])) ≠
      [x, y].map Cx.normSq := by
  intro e
  have : [x.normSq, x.normSq] = [x.normSq, y.normSq] := e
  simp at this
  exact h this

theorem foldl_add_eq_sum [AddCommMonoid T] (x : T) (l : List T) :
    l.foldl (· + ·) x = x + l.sum := by
  induction l generalizing x with
  | nil => simp
  | cons y l ih => simp [ih, add_assoc]

theorem regSumReal_eq [AddCommMonoid T] (r : List T) : regSumReal r = r.sum := by
  cases r with
  | nil => rfl
  | cons a r => simp [regSumReal, foldl_add_eq_sum]

theorem evens_eq (cs : List (Cx T)) : evens (fromComplex cs) = cs.map Cx.re := by
  induction cs with
  | nil => rfl
  | cons c cs ih => simp [fromComplex, evens, ih]

theorem odds_eq (cs : List (Cx T)) : odds (fromComplex cs) = cs.map Cx.im := by
  induction cs with
  | nil => rfl
  | cons c cs ih => simp [fromComplex, odds, ih]

/-- C45: the horizontal sums add every lane, resp. every complex point, exactly once. -/
theorem C45_sums [AddCommMonoid T] (r : List T) (cs : List (Cx T)) :
    regSumReal r = r.sum ∧
    regSumComplex (fromComplex cs) = ⟨(cs.map Cx.re).sum, (cs.map Cx.im).sum⟩ := by
  refine ⟨regSumReal_eq r, ?_⟩
  unfold regSumComplex
  rw [evens_eq, odds_eq, regSumReal_eq, regSumReal_eq]

example : regSumReal ([1, 2, 3, 4] : List Int) = 10 ∧
    regSumComplex ([1, 2, 3, 4] : List Int) = ⟨4, 6⟩ := by decide

/-! ### C20 for the operations of the library -/

/-- C20: `offset`/`scale` of a real vector, with every register type, alignment which the splitter
    accepts, number of workers and interleaving. -/
theorem C20_offset_scale [Add T] [Mul T] (k : RegKind) (addr : Nat) (x : T) (a : List T)
    (st : MultiCoreSettings) (hal : AlignmentAccepted addr k.len a.length) :
    Always (fun sched => simdRealOperation addr k.len (regAddReal k x) (· + x) .small st sched a)
      (a.map (· + x)) ∧
    Always (fun sched => simdRealOperation addr k.len (regScaleReal k x) (· * x) .small st sched a)
      (a.map (· * x)) := by
  have hw : 0 < k.len := by cases k <;> decide
  have he : addr % k.len + k.len ≤ a.length ∨ determineNumberOfChunks 0 .small st ≤ 1 := by
    right; simp only [determineNumberOfChunks]; split <;> simp_all
  exact ⟨C20_real addr k.len hw _ _ (C45_real_lanes k x).1 .small st a hal he,
    C20_real addr k.len hw _ _ (C45_real_lanes k x).2 .small st a hal he⟩

example : AlignmentAccepted 6 RegKind.sseF32x4.len 10 := .inl (by decide)

/-- C20: `offset`/`scale` of a complex vector with a complex number. -/
theorem C20_complex_offset_scale [AddCommMagma T] [Sub T] [CommMagma T] (k : RegKind) (addr : Nat) (x : Cx T)
    (cs : List (Cx T)) (st : MultiCoreSettings)
    (hal : ComplexAlignmentAccepted addr k.len (2 * cs.length)) :
    Always (fun sched => simdComplexOperation addr k.len (regAddComplex k x) (fun a => a.add x)
      .small st sched (fromComplex cs)) (fromComplex (cs.map (fun a => a.add x))) ∧
    Always (fun sched => simdComplexOperation addr k.len (regScaleComplex k x) (fun a => a.mul x)
      .small st sched (fromComplex cs)) (fromComplex (cs.map (fun a => a.mul x))) := by
  have hw : 0 < k.len := by cases k <;> decide
  have hw2 : k.len % 2 = 0 := by cases k <;> decide
  have he : addr % k.len + k.len ≤ 2 * cs.length ∨ determineNumberOfChunks 0 .small st ≤ 1 := by
    right; simp only [determineNumberOfChunks]; split <;> simp_all
  exact ⟨C20_complex addr k.len hw hw2 _ _ (C45_complex_points k x).1 .small st cs hal.1 hal.2 he,
    C20_complex addr k.len hw hw2 _ _ (C45_complex_points k x).2 .small st cs hal.1 hal.2 he⟩

example : ComplexAlignmentAccepted 6 RegKind.avxF64x4.len 10 := ⟨.inl (by decide), by decide⟩

/-- C20: `add`, `sub`, `mul`, `div` of real vectors (`f` is the operator of the number type). -/
theorem C20_elementwise (k : RegKind) (addr : Nat) (f : T → T → T) (a b : List T)
    (hab : b.length = a.length) (hal : AlignmentAccepted addr k.len a.length) :
    simdBinaryReal addr k.len (regZip f) f a b = some (List.zipWith f a b) :=
  C20_binary_real addr k.len (by cases k <;> decide) _ _ (fun _ _ _ _ => rfl) a b hab hal

/-- C20: `mul` and `div` of complex vectors. -/
theorem C20_complex_mul_div [AddCommMagma T] [Sub T] [CommMagma T] [Div T] (k : RegKind) (addr : Nat) (cs ds : List (Cx T))
    (hab : ds.length = cs.length) (hal : ComplexAlignmentAccepted addr k.len (2 * cs.length)) :
    simdBinaryComplex addr k.len (regMulComplex k) Cx.mul (fromComplex cs) (fromComplex ds) =
      some (fromComplex (List.zipWith Cx.mul cs ds)) ∧
    simdBinaryComplex addr k.len (regDivComplex k) Cx.div (fromComplex cs) (fromComplex ds) =
      some (fromComplex (List.zipWith Cx.div cs ds)) := by
  have hw : 0 < k.len := by cases k <;> decide
  have hw2 : k.len % 2 = 0 := by cases k <;> decide
  exact ⟨C20_binary_complex addr k.len hw hw2 _ _ (C45_complex_pairs k).1 cs ds hab hal.2 hal.1,
    C20_binary_complex addr k.len hw hw2 _ _ (C45_complex_pairs k).2 cs ds hab hal.2 hal.1⟩

end Dsp
