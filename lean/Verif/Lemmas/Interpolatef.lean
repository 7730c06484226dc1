import Verif.Model.Interpolatef
import Verif.Spec.Interpolatef
import Verif.Props.ConvFunction
/-
What the implementations of `interpolatef` compute, on lists of points.
-/
namespace Dsp
variable {T α : Type}

/-- The sum of `x[p] * g p` over `n` points of the periodic continuation from `lo`. -/
def pointSum [CommRing α] (x : List α) (g : Int → α) (lo : Int) (n : Nat) : α :=
  ((List.range n).map fun (m : Nat) => (cyclic x (lo + (m : Int))).getD 0 * g (lo + (m : Int))).sum

theorem pointSum_congr [CommRing α] {x : List α} {g g' : Int → α} {lo lo' : Int} {n : Nat} (hl : lo = lo')
    (h : ∀ p, g p = g' p) : pointSum x g lo n = pointSum x g' lo' n := by
  subst hl
  unfold pointSum
  simp only [h]

theorem windowSum_eq [CommRing α] [Ring T] (f : T → α) (t : T) (lo : Int) (n : Nat) (x : List α) :
    windowSum f t lo n x = pointSum x (fun p => f (t - (p : T))) lo n := rfl

section
variable [CommRing α] [Field T]

theorem interpLoop_eq (fn : T → T) (inj : T → α) (l : List α) (z : α) (j : T) :
    (interpLoop fn inj (z, j) l).1 = z + ((List.range l.length).map fun (k : Nat) => l.getD k 0 * inj (fn (j + k))).sum := by
  induction l generalizing z j with
  | nil => simp [interpLoop]
  | cons c l ih =>
    rw [interpLoop, ih, List.length_cons, List.range_succ_eq_map, List.map_cons, List.sum_cons, List.map_map, add_assoc]
    congr 1
    congr 1
    · simp
    · congr 1
      apply List.map_congr_left
      intro k _
      simp only [Function.comp, List.getD_cons_succ]
      congr 3
      push_cast; ring

theorem responseValues_eq (fn : T → T) (offset : T) (n : Nat) (j : T) :
    responseValues fn offset n j = (List.range n).map fun (t : Nat) => fn (j + t - offset) := by
  induction n generalizing j with
  | zero => rfl
  | succ n ih =>
    rw [responseValues, ih, List.range_succ_eq_map, List.map_cons, List.map_map]
    congr 1
    · simp
    · apply List.map_congr_left
      intro k _
      simp only [Function.comp]
      congr 1
      push_cast; ring

theorem functionToVector_length (fn : T → T) (L : Nat) (o d : T) : (functionToVector fn L o d).length = 2 * L + 1 := by
  unfold functionToVector; rw [responseValues_eq]; simp

theorem functionToVector_get (fn : T → T) (L : Nat) (o d : T) (t : Nat) (ht : t < 2 * L + 1) :
    (functionToVector fn L o d)[t]? = some (fn (-((L : T) - 1) + d + t - o)) := by
  unfold functionToVector
  rw [responseValues_eq, List.getElem?_map, List.getElem?_range ht]; rfl

theorem responseNumbers_real (l : List T) : responseNumbers 1 l = l.map id := by
  unfold responseNumbers
  induction l with
  | nil => rfl
  | cons a l ih => rw [List.flatMap_cons, ih]; rfl

theorem responseNumbers_complex (l : List T) : responseNumbers 2 l = fromComplex (l.map fun y => (⟨y, 0⟩ : Cx T)) := by
  unfold responseNumbers
  induction l with
  | nil => rfl
  | cons a l ih => rw [List.flatMap_cons, ih]; rfl

theorem interpScalarAt_eq [LinearOrder T] [FloorRing T] (fn : T → T) (inj : T → α) (factor d : T) (L : Nat) (x : List α) (hx : x ≠ [])
    (i : Nat) :
    interpScalarAt fn inj factor d L x i =
      some (pointSum x (fun p => inj (fn ((p : T) - (i : T) / factor + d))) (⌊(i : T) / factor⌋ - L) (2 * L + 1)) := by
  obtain ⟨l, h1, h2, h3⟩ := C39_wrapping x hx (⌊(i : T) / factor⌋ - (L : Int) - 1) (2 * L + 1)
  unfold interpScalarAt pointSum
  simp only [Option.bind_eq_bind, h1, Option.bind_some, Option.some.injEq]
  rw [interpLoop_eq, zero_add, h2]
  congr 1
  apply List.map_congr_left
  intro k hk
  have hk := List.mem_range.mp hk
  rw [List.getD_eq_getElem?_getD, h3 k hk]
  congr 2
  · congr 2; ring
  · congr 1; push_cast; ring

/-- `interpolate_priv_scalar`. -/
theorem interpScalar_spec [LinearOrder T] [FloorRing T] (st : MultiCoreSettings) (fn : T → T) (inj : T → α) (factor d : T) (L : Nat)
    (x dest : List α) (hx : x ≠ []) (hd : dest ≠ []) :
    Always (interpScalar st fn inj factor d L x dest) ((List.range dest.length).map fun (i : Nat) =>
      pointSum x (fun p => inj (fn ((p : T) - (i : T) / factor + d))) (⌊(i : T) / factor⌋ - L) (2 * L + 1)) := by
  generalize hg : (fun (i : Nat) =>
      pointSum x (fun p => inj (fn ((p : T) - (i : T) / factor + d))) (⌊(i : T) / factor⌋ - L) (2 * L + 1)) = g
  have := executeWithRange_mapIdx dest hd (fun (_ : α) i => ((List.range dest.length).map g).getD i 0) .large st
  have e : dest.mapIdx (fun i _ => ((List.range dest.length).map g).getD i 0) = (List.range dest.length).map g := by
    apply List.ext_getElem (by simp)
    intro i h1 h2
    simp at h1 h2
    simp [h1]
  rw [e] at this
  refine this.congr (fun s => ?_)
  unfold interpScalar
  rw [mapM_some_range (interpScalarAt fn inj factor d L x) g _ (fun i _ => by
    rw [interpScalarAt_eq fn inj factor d L x hx i, ← hg])]

omit [CommRing α] in
theorem interpSimdAt_eq (w s : Nat) (mulR : List T → List T → List T) (sumR : List T → α) (simd : List (List T))
    (S : List (List (List (List T)))) (hs : 0 < s) (hS : ∀ l ∈ S, l.length = s) (F L lp i : Nat) (hF : 0 < F)
    (sh : List (List (List T))) (hsh : S[(F - i % F) % F]? = some sh) :
    interpSimdAt w s mulR sumR simd S.flatten F L lp i = simdConvAt w mulR sumR simd sh L lp ((i + F - 1) / F) := by
  have hl : sh.length = s := hS sh (List.mem_of_getElem? hsh)
  unfold interpSimdAt simdConvAt
  rw [if_neg (by omega), hl]
  simp only
  have hm := Nat.mod_lt ((i + F - 1) / F + L - lp) hs
  generalize ((i + F - 1) / F + L - lp) % s = r at *
  have e1 : ((F - i % F) % F * s + r) / s = (F - i % F) % F := by
    rw [Nat.add_comm, Nat.add_mul_div_right _ _ hs, Nat.div_eq_of_lt hm, Nat.zero_add]
  have e2 : ((F - i % F) % F * s + r) % s = r := by
    rw [Nat.add_comm, Nat.add_mul_mod_self_right, Nat.mod_eq_of_lt hm]
  rw [getElem?_flatten_of hs hS, e1, e2, hsh, Option.bind_some]

theorem mapM_get {β γ : Type} (f : β → Option γ) (l : List β) (h : ∀ a ∈ l, ∃ y, f a = some y) :
    ∃ r, l.mapM f = some r ∧ r.length = l.length ∧ ∀ i : Nat, r[i]? = (l[i]?).bind f := by
  induction l with
  | nil => exact ⟨[], rfl, rfl, by simp⟩
  | cons a l ih =>
    obtain ⟨r, h1, h2, h3⟩ := ih (fun b hb => h b (by simp [hb]))
    obtain ⟨y, hy⟩ := h a (by simp)
    refine ⟨y :: r, by simp [hy, h1], by simp [h2], fun i => ?_⟩
    cases i with
    | zero => simp [hy]
    | succ i => simpa using h3 i

/-- A window of a list is a window of its periodic continuation. -/
theorem sum_window (x h : List α) (lo : Nat) (hlo : lo + h.length ≤ x.length) (g : Int → α)
    (hg : ∀ (m : Nat) y, h[m]? = some y → y = g ((lo + m : Nat) : Int)) :
    (List.zipWith (· * ·) ((x.drop lo).take h.length) h).sum = pointSum x g lo h.length := by
  unfold pointSum
  congr 1
  apply List.ext_getElem (by simp; omega)
  intro m g1 g2
  have hm : m < h.length := by simpa using g2
  simp only [List.getElem_zipWith, List.getElem_take, List.getElem_drop, List.getElem_map, List.getElem_range]
  have e : ((lo : Int) + (m : Int)) % (x.length : Int) = ((lo + m : Nat) : Int) := by
    rw [Int.emod_eq_of_lt (by omega) (by omega)]; push_cast; rfl
  unfold cyclic
  rw [e, Int.toNat_natCast, List.getElem?_eq_getElem (by omega), hg m h[m] (List.getElem?_eq_getElem hm)]
  push_cast
  rfl

theorem div_split (i F : Nat) (hF : (F : T) ≠ 0) :
    (i : T) / (F : T) = ((i / F : Nat) : T) + ((i % F : Nat) : T) / (F : T) := by
  have e2 := congrArg (Nat.cast (R := T)) (Nat.div_add_mod i F)
  rw [Nat.cast_add, Nat.cast_mul] at e2
  rw [div_eq_iff hF, add_mul, div_mul_cancel₀ _ hF, mul_comm]
  exact e2.symm

omit [Field T] in
theorem foldl_zip_sum (inj : T → α) (l : List α) (y : List T) (z : α) :
    (l.zip y).foldl (fun s p => s + p.1 * inj p.2) z = z + (List.zipWith (fun a b => a * inj b) l y).sum := by
  induction l generalizing y z with
  | nil => simp
  | cons a l ih =>
    cases y with
    | nil => simp
    | cons b y => simp [ih, add_assoc]

theorem interpEdgeAt_eq (fn : T → T) (inj : T → α) (F : Nat) (hF : (F : T) ≠ 0) (d : T) (L : Nat) (x : List α) (hx : x ≠ [])
    (i : Nat) :
    interpEdgeAt inj F L x (functionToVectors fn L F d) i =
      some (pointSum x (fun p => inj (fn ((p : T) - (i : T) / (F : T) + d))) (((i / F : Nat) : Int) - L + 1) (2 * L + 1)) := by
  have hF0 : 0 < F := by
    rcases Nat.eq_zero_or_pos F with h | h
    · subst h; simp at hF
    · exact h
  obtain ⟨l, h1, h2, h3⟩ := C39_wrapping x hx (((i / F : Nat) : Int) - (L : Int)) (2 * L + 1)
  have hmod := Nat.mod_lt i hF0
  unfold interpEdgeAt
  rw [if_neg (by omega)]
  have hv : (functionToVectors fn L F d)[i % F]? = some (functionToVector fn L (((i % F : Nat) : T) / (F : T)) d) := by
    unfold functionToVectors
    rw [List.getElem?_map, List.getElem?_range hmod]; rfl
  simp only [Option.bind_eq_bind, h1, Option.bind_some, hv, Option.some.injEq]
  rw [foldl_zip_sum, zero_add]
  unfold pointSum
  congr 1
  have hy := functionToVector_length fn L (((i % F : Nat) : T) / (F : T)) d
  apply List.ext_getElem?
  intro m
  by_cases hm : m < 2 * L + 1
  · rw [List.getElem?_zipWith, functionToVector_get _ _ _ _ _ hm, List.getElem?_map, List.getElem?_range hm]
    have hl := h3 m hm
    rw [List.getElem?_eq_getElem (by omega : m < l.length)] at hl ⊢
    simp only [Option.map_some, ← hl, Option.getD_some]
    congr 4
    have e3 : (i : T) / (F : T) = ((i / F : Nat) : T) + ((i % F : Nat) : T) / (F : T) := div_split i F hF
    rw [e3]; generalize i / F = q; push_cast; ring
  · rw [List.getElem?_eq_none (by simp; omega), List.getElem?_eq_none (by simp; omega)]

/-- The distance to the next whole number. -/
theorem ceil_split (i F : Nat) (hF : (F : T) ≠ 0) :
    (((i + F - 1) / F : Nat) : T) = (i : T) / (F : T) + (((F - i % F) % F : Nat) : T) / (F : T) := by
  have hF0 : 0 < F := by
    rcases Nat.eq_zero_or_pos F with h | h
    · subst h; simp at hF
    · exact h
  have h := round_up F i hF0
  have h := congrArg (Nat.cast (R := T)) h
  rw [Nat.cast_mul, Nat.cast_add] at h
  rw [← add_div, ← h, mul_div_cancel_right₀ _ hF]

/-- What the implementation with registers computes for point `i` of `n`: the middle is computed with the mirrored function. -/
def simdInterp (fn : T → T) (inj : T → α) (F : Nat) (d : T) (L n : Nat) (x : List α) (i : Nat) : α :=
  if i < (2 * L + 1) * F ∨ (n - (2 * L + 1) * F ≤ i ∧ i < n) then
    pointSum x (fun p => inj (fn ((p : T) - (i : T) / (F : T) + d))) (((i / F : Nat) : Int) - L + 1) (2 * L + 1)
  else pointSum x (fun p => inj (fn ((i : T) / (F : T) - (p : T) + d))) ((((i + F - 1) / F : Nat) : Int) - L - 1) (2 * L + 1)

/-- `interpolate_priv_simd`: `enc` describes how points are stored in registers. -/
theorem interpSimd_spec {w step : Nat} {enc : List α → List T} {mulR : List T → List T → List T} {sumR : List T → α} {inj : T → α}
    (E : RegEnc w step enc mulR sumR List.sum) (henc : ∀ l : List T, responseNumbers step l = enc (l.map inj))
    (addr : Nat) (st : MultiCoreSettings) (fn : T → T) (F : Nat) (hF : (F : T) ≠ 0) (d : T) (L : Nat) (x dest : List α)
    (hlen : 2 * ((2 * L + 1) * F) < dest.length) (hmax : dest.length ≤ x.length * F + 1)
    (hL : w ≤ step * L) (ha1 : (2 * (addr % w)) % w = 0) (ha2 : (addr % w) % step = 0) :
    Always (interpSimd addr w step mulR sumR inj st fn F d L (enc x) x dest)
      ((List.range dest.length).map (simdInterp fn inj F d L dest.length x)) := by
  have hF0 : 0 < F := by
    rcases Nat.eq_zero_or_pos F with h | h
    · subst h; simp at hF
    · exact h
  obtain ⟨s, hw, hs⟩ := E.dvd
  have hp := E.pos
  have hwp : 0 < w := by rw [hw]; exact Nat.mul_pos hp hs
  have hsL : s ≤ L := by rw [hw] at hL; exact Nat.le_of_mul_le_mul_left hL hp
  have hws : w / step = s := by rw [hw, Nat.mul_div_cancel_left _ hp]
  -- the number of points
  have hPF : (2 * (2 * L + 1)) * F ≤ x.length * F := by
    have : 2 * ((2 * L + 1) * F) = (2 * (2 * L + 1)) * F := by ring
    omega
  have hP : 2 * (2 * L + 1) ≤ x.length := Nat.le_of_mul_le_mul_right hPF hF0
  have hxne : x ≠ [] := by intro e; subst e; simp at hP
  -- the partition
  have hmod := Nat.mod_lt addr hwp
  have hlx := E.len x
  have hxs : x.length ≤ step * x.length := Nat.le_mul_of_pos_left _ hp
  obtain ⟨lp, hlp⟩ : ∃ lp, addr % w = step * lp := ⟨addr % w / step, by
    rw [Nat.mul_comm, Nat.div_mul_cancel (Nat.dvd_of_mod_eq_zero ha2)]⟩
  have hlps : lp < s := by
    rw [hlp, hw] at hmod; exact Nat.lt_of_mul_lt_mul_left hmod
  have hwx : 2 * w ≤ step * x.length := by
    rw [hw, Nat.mul_left_comm]; exact Nat.mul_le_mul_left _ (by omega)
  have hpart : calcDataAlignmentReqs addr w (enc x).length =
      ⟨addr % w, ((enc x).length - addr % w) % w, (enc x).length⟩ := by
    unfold calcDataAlignmentReqs
    simp only
    rw [if_neg (by omega)]
  generalize hNdef : x.length - lp - (x.length - lp) % s = N
  have hms := Nat.mod_lt (x.length - lp) hs
  have hml := Nat.mod_le (x.length - lp) s
  have hcenter : (calcDataAlignmentReqs addr w (enc x).length).center (enc x) =
      some (enc ((x.drop lp).take N)) := by
    rw [hpart]
    unfold SimdPartition.center
    simp only
    have hm := Nat.mod_lt ((enc x).length - addr % w) hwp
    rw [if_neg (by omega), slice_ok _ _ _ (by omega) (by omega)]
    have e1 : (enc x).length - addr % w = step * (x.length - lp) := by
      rw [hlx, hlp, Nat.mul_sub]
    have e2 : ((enc x).length - addr % w) % w = step * ((x.length - lp) % s) := by
      rw [e1, hw, Nat.mul_mod_mul_left]
    have e3 : (enc x).length - ((enc x).length - addr % w) % w - addr % w = step * N := by
      have : (enc x).length - ((enc x).length - addr % w) % w - addr % w =
        ((enc x).length - addr % w) - ((enc x).length - addr % w) % w := by omega
      rw [this, e2, e1, ← hNdef, ← Nat.mul_sub]
    rw [e3, hlp, E.drop, E.take]
  have hregs := (C19_registers_partial addr w hwp (enc x) _ hcenter).2 (.inl ha1)
  obtain ⟨simd, s1, s2, s3⟩ := hregs
  have hN : N ≤ x.length - lp := by omega
  have hleft : (calcDataAlignmentReqs addr w (enc x).length).left / step = lp := by
    rw [hpart]; simp only; rw [hlp, Nat.mul_div_cancel_left _ hp]
  -- the shifted copies
  obtain ⟨S, S1, S2, S3⟩ := mapM_get (fun y => createShiftedCopies w step (responseNumbers step y)) (functionToVectors fn L F d)
    (fun y _ => by
      obtain ⟨sh, q1, -⟩ := E.createShifted s hw hs (y.map inj)
      exact ⟨sh, by rw [henc]; exact q1⟩)
  have hSl : ∀ l ∈ S, l.length = s := by
    intro l hl
    obtain ⟨i, hi⟩ := List.mem_iff_getElem?.mp hl
    rw [S3 i, Option.bind_eq_some_iff] at hi
    obtain ⟨y, -, hy⟩ := hi
    obtain ⟨sh, q1, q2, -⟩ := E.createShifted s hw hs (y.map inj)
    rw [henc, q1] at hy
    rw [← Option.some.inj hy, q2]
  have hshifts : interpShifts w step (functionToVectors fn L F d) = some S.flatten := by
    unfold interpShifts; rw [S1]; rfl
  generalize hsl : (2 * L + 1) * F = sl at *
  have hvals : ∀ r < dest.length - sl - sl, interpSimdAt w (w / step) mulR sumR simd S.flatten F L lp (sl + r) =
      some (simdInterp fn inj F d L dest.length x (sl + r)) := by
    intro r hr
    generalize hi : sl + r = i
    have hfs := Nat.mod_lt (F - i % F) hF0
    have hvec : (functionToVectors fn L F d)[(F - i % F) % F]? =
        some (functionToVector fn L ((((F - i % F) % F : Nat) : T) / (F : T)) d) := by
      unfold functionToVectors
      rw [List.getElem?_map, List.getElem?_range hfs]; rfl
    obtain ⟨sh, q1, q2, -⟩ := E.createShifted s hw hs
      ((functionToVector fn L ((((F - i % F) % F : Nat) : T) / (F : T)) d).map inj)
    have hS : S[(F - i % F) % F]? = some sh := by
      rw [S3, hvec, Option.bind_some, henc, q1]
    rw [hws, interpSimdAt_eq w s mulR sumR simd S hs hSl F L lp i hF0 sh hS]
    have hX : ((x.drop lp).take N).length = N := by simp; omega
    have hceil := round_up F i hF0
    have hh : ((functionToVector fn L ((((F - i % F) % F : Nat) : T) / (F : T)) d).map inj).length = 2 * L + 1 := by
      rw [List.length_map, functionToVector_length]
    have hc1 : 2 * L + 1 ≤ (i + F - 1) / F := by
      rw [Nat.le_div_iff_mul_le hF0]; omega
    have hc2 : (i + F - 1) / F + (2 * L + 1) ≤ x.length := by
      have : (i + F - 1) / F * F < (x.length - (2 * L + 1) + 1) * F := by
        rw [Nat.add_mul, Nat.sub_mul]; omega
      have := Nat.lt_of_mul_lt_mul_right this
      omega
    have hcs := ceil_split i F hF
    unfold simdInterp
    rw [hsl, if_neg (by omega)]
    generalize (i + F - 1) / F = c at *
    rw [E.conv_spec s hw hs _ _ simd s2 s3 sh q1 L lp c (by omega) (by omega) (by rw [hX]; omega), hh]
    congr 1
    have hdrop : (((x.drop lp).take N).drop (c + L - lp - (2 * L + 1))).take (2 * L + 1) = (x.drop (c - L - 1)).take (2 * L + 1) := by
      rw [List.drop_take, List.drop_drop, List.take_take]
      congr 1
      · omega
      · congr 1; omega
    rw [hdrop]
    have := sum_window x ((functionToVector fn L ((((F - i % F) % F : Nat) : T) / (F : T)) d).map inj).reverse (c - L - 1)
      (by rw [List.length_reverse, hh]; omega) (fun p => inj (fn ((i : T) / (F : T) - (p : T) + d))) (by
        intro m y hy
        have hm : m < 2 * L + 1 := by
          have := (List.getElem?_eq_some_iff.mp hy).1
          rwa [List.length_reverse, hh] at this
        rw [List.getElem?_reverse (by rw [hh]; exact hm), hh, List.getElem?_map,
          functionToVector_get _ _ _ _ _ (by omega)] at hy
        rw [← Option.some.inj hy]
        congr 2
        have e1 : ((2 * L + 1 - 1 - m : Nat) : T) = 2 * (L : T) - m := by
          rw [show 2 * L + 1 - 1 - m = 2 * L - m by omega, Nat.cast_sub (by omega)]; push_cast; ring
        have e2 : ((((c - L - 1 + m : Nat) : Int)) : T) = (c : T) - L - 1 + m := by
          rw [Int.cast_natCast, Nat.cast_add, Nat.sub_sub, Nat.cast_sub (by omega)]; push_cast; ring
        rw [e1, e2, hcs]; ring)
    rw [List.length_reverse, hh] at this
    rw [this]
    exact pointSum_congr (by omega) (fun _ => rfl)
  have hys := mapM_some_range (fun r => interpSimdAt w (w / step) mulR sumR simd S.flatten F L lp (sl + r))
    (fun r => simdInterp fn inj F d L dest.length x (sl + r)) _ hvals
  -- the workers
  have hmid : ((dest.drop sl).take (dest.length - sl - sl)) ≠ [] := by
    intro e
    have := congrArg List.length e
    simp at this; omega
  have hex := executeWithRange_mapIdx _ hmid (fun (_ : α) i =>
    ((List.range (dest.length - sl - sl)).map (fun r => simdInterp fn inj F d L dest.length x (sl + r))).getD i 0) .large st
  refine hex.map (fun sched hrun => ?_) (fun sched hfin => ?_)
  · unfold interpSimd
    simp only [hsl]
    rw [if_neg (by omega), if_neg (by omega), hshifts, hcenter, Option.bind_some, s1]
    simp only [hleft, hys]
    rw [hrun]; rfl
  · unfold interpSimd
    simp only [hsl]
    rw [if_neg (by omega), if_neg (by omega), hshifts, hcenter, Option.bind_some, s1]
    simp only [hleft, hys]
    rw [hfin]
    simp only [Outcome.andThen]
    generalize hm : (List.mapIdx (fun i _ => ((List.range (dest.length - sl - sl)).map
      (fun r => simdInterp fn inj F d L dest.length x (sl + r))).getD i 0) ((dest.drop sl).take (dest.length - sl - sl))) = mid
    have hmlen : mid.length = dest.length - sl - sl := by rw [← hm]; simp
    have hmget : ∀ r < dest.length - sl - sl, mid[r]? = some (simdInterp fn inj F d L dest.length x (sl + r)) := by
      intro r hr
      have hr2 : r < ((dest.drop sl).take (dest.length - sl - sl)).length := by simp; omega
      rw [← hm, List.getElem?_mapIdx, List.getElem?_eq_getElem hr2]
      simp [hr]
    have hsplen : (splice dest sl mid).length = dest.length := by
      unfold splice; simp; omega
    obtain ⟨d', d1, d2, d3⟩ := setEdges_eq (fun i => interpEdgeAt inj F L x (functionToVectors fn L F d) i)
      (fun i => pointSum x (fun p => inj (fn ((p : T) - (i : T) / (F : T) + d))) (((i / F : Nat) : Int) - L + 1) (2 * L + 1)) sl sl
      (splice dest sl mid) (by omega) (fun i _ => interpEdgeAt_eq fn inj F hF d L x hxne i)
    rw [d1]
    show Outcome.finished d' = _
    congr 1
    apply List.ext_getElem?
    intro j
    rw [d3 j, hsplen]
    by_cases hj : j < dest.length
    · rw [List.getElem?_map, List.getElem?_range hj, Option.map_some]
      by_cases hc : j < sl ∨ (dest.length - sl ≤ j ∧ j < dest.length)
      · rw [if_pos hc]
        unfold simdInterp
        rw [hsl, if_pos hc]
      · rw [if_neg hc]
        unfold splice
        have e : j - (dest.take sl).length = j - sl := by simp; omega
        rw [List.append_assoc, List.getElem?_append_right (by simp; omega), e,
          List.getElem?_append_left (by omega), hmget _ (by omega)]
        congr 2; omega
    · rw [if_neg (by omega), List.getElem?_eq_none (by omega), List.getElem?_eq_none (by simp; omega)]

end
end Dsp
