import Verif.Props.RoundTrips
import Verif.Spec.InterpLaws
/-
C99: the laws of the interpolation of real signals, for programs, in all environments and for all schedules.
-/
namespace Dsp
open DspVec

/-! ### The linear interpolation -/

/-- All positions but the last one lie between two points. -/
theorem lin_index {n : Nat} (hn : 1 ≤ n) {f d : ℝ} (hf : 0 < f) (hd0 : 0 ≤ d) (hd : d * f < 1 / 2) {i : Nat}
    (hi : i < ⌊((n - 1 : Nat) : ℝ) * f + 1 / 2⌋.toNat) :
    ⌊(i : ℝ) / f + d⌋.toNat + 1 < n ∧ ((⌊(i : ℝ) / f + d⌋.toNat : Nat) : ℝ) ≤ (i : ℝ) / f + d ∧
      (i : ℝ) / f + d < ((⌊(i : ℝ) / f + d⌋.toNat : Nat) : ℝ) + 1 := by
  have hx0 : 0 ≤ (i : ℝ) / f + d := by positivity
  have h0 : 0 ≤ ⌊(i : ℝ) / f + d⌋ := Int.floor_nonneg.2 hx0
  have hc : ((⌊(i : ℝ) / f + d⌋.toNat : Nat) : ℝ) = ((⌊(i : ℝ) / f + d⌋ : Int) : ℝ) := by
    rw [← Int.cast_natCast, Int.toNat_of_nonneg h0]
  have hfl := Int.floor_le ((i : ℝ) / f + d)
  have hlt := Int.lt_floor_add_one ((i : ℝ) / f + d)
  refine ⟨?_, by rw [hc]; exact hfl, by rw [hc]; exact hlt⟩
  have h1 : ((i + 1 : Nat) : ℤ) ≤ ⌊((n - 1 : Nat) : ℝ) * f + 1 / 2⌋ := by omega
  have h2 : (((i + 1 : Nat) : ℤ) : ℝ) ≤ ((n - 1 : Nat) : ℝ) * f + 1 / 2 := Int.le_floor.1 h1
  push_cast at h2
  have h3 : (i : ℝ) / f + d < ((n - 1 : Nat) : ℝ) := by
    rw [div_add' _ _ _ hf.ne', div_lt_iff₀ hf]
    linarith
  have h4 : ((⌊(i : ℝ) / f + d⌋.toNat : Nat) : ℝ) < ((n - 1 : Nat) : ℝ) := by rw [hc]; linarith
  have := Nat.cast_lt.1 h4
  omega

theorem getD_map_real (g : ℝ → ℝ) {l : List ℝ} {k : Nat} (hk : k < l.length) : (l.map g).getD k 0 = g (l.getD k 0) := by
  rw [List.getD_eq_getElem?_getD, List.getD_eq_getElem?_getD, List.getElem?_map, List.getElem?_eq_getElem hk]; rfl

theorem lin_length (l : List ℝ) (f d : ℝ) :
    (linInterpolated l f d).length = ⌊((l.length - 1 : Nat) : ℝ) * f + 1 / 2⌋.toNat + 1 := by simp [linInterpolated]

theorem lin_affine (a b : ℝ) {l : List ℝ} (hl : l ≠ []) {f d : ℝ} (hf : 0 < f) (hd0 : 0 ≤ d) (hd : d * f < 1 / 2) :
    linInterpolated (l.map fun x => x * a + b) f d = (linInterpolated l f d).map fun x => x * a + b := by
  have hn : 1 ≤ l.length := List.length_pos_iff.2 hl
  unfold linInterpolated
  simp only [List.length_map, List.map_append, List.map_map, List.map_cons, List.map_nil]
  congr 1
  · refine List.map_congr_left fun i hi => ?_
    obtain ⟨h1, -, -⟩ := lin_index hn hf hd0 hd (List.mem_range.1 hi)
    simp only [Function.comp]
    rw [getD_map_real (fun x => x * a + b) (k := ⌊(i : ℝ) / f + d⌋.toNat) (by omega), getD_map_real (fun x => x * a + b) h1]
    ring
  · rw [getD_map_real (fun x => x * a + b) (k := l.length - 1) (by omega)]

theorem getD_zip (l1 l2 : List ℝ) (h : l1.length = l2.length) (g : ℝ → ℝ → ℝ) (hg : g 0 0 = 0) (k : Nat) :
    (List.zipWith g l1 l2).getD k 0 = g (l1.getD k 0) (l2.getD k 0) := by
  simp only [List.getD_eq_getElem?_getD]
  by_cases hk : k < l1.length
  · rw [List.getElem?_eq_getElem (by simp; omega), List.getElem?_eq_getElem hk, List.getElem?_eq_getElem (h ▸ hk), List.getElem_zipWith]
    rfl
  · rw [List.getElem?_eq_none (by simp; omega), List.getElem?_eq_none (by omega), List.getElem?_eq_none (by omega)]
    exact hg.symm

theorem lin_zip (op : ElemOp) (hop : op = .add ∨ op = .sub) (l1 l2 : List ℝ) (h : l1.length = l2.length) (f d : ℝ) :
    linInterpolated (List.zipWith op.real l1 l2) f d = List.zipWith op.real (linInterpolated l1 f d) (linInterpolated l2 f d) := by
  have hz : op.real (0 : ℝ) 0 = 0 := by rcases hop with rfl | rfl <;> simp [ElemOp.real]
  unfold linInterpolated
  rw [List.zipWith_append (by simp [h])]
  simp only [List.length_zipWith, h, Nat.min_self, getD_zip l1 l2 h op.real hz, List.zipWith_map, List.zipWith_self, List.zipWith_cons_cons]
  congr 1
  refine List.map_congr_left fun i _ => ?_
  rcases hop with rfl | rfl <;> simp only [ElemOp.real] <;> ring

/-- With a whole factor and without delay number `k m + r` is `r / m` of the way from point `k` to the next one. -/
theorem lin_whole {l : List ℝ} (hl : l ≠ []) {m : Nat} (hm : 1 ≤ m) (k r : Nat) (hr : r < m) (hi : k * m + r < (l.length - 1) * m + 1) :
    (linInterpolated l (m : ℝ) 0)[k * m + r]? = some (l.getD k 0 + (l.getD (k + 1) 0 - l.getD k 0) * ((r : ℝ) / m)) := by
  have hn : 1 ≤ l.length := List.length_pos_iff.2 hl
  have hm0 : (0 : ℝ) < m := by exact_mod_cast hm
  have hR : ⌊((l.length - 1 : Nat) : ℝ) * (m : ℝ) + 1 / 2⌋.toNat = (l.length - 1) * m := by
    rw [show ⌊((l.length - 1 : Nat) : ℝ) * (m : ℝ) + 1 / 2⌋ = (((l.length - 1) * m : Nat) : ℤ) from
      Int.floor_eq_iff.2 ⟨by push_cast; linarith, by push_cast; linarith⟩, Int.toNat_natCast]
  unfold linInterpolated
  simp only [hR]
  by_cases h : k * m + r < (l.length - 1) * m
  · rw [List.getElem?_append_left (by simpa using h), List.getElem?_map, List.getElem?_range h]
    have hx : ((k * m + r : Nat) : ℝ) / (m : ℝ) + 0 = (k : ℝ) + (r : ℝ) / m := by push_cast; field_simp; ring
    have hr1 : (r : ℝ) / m < 1 := (div_lt_one hm0).2 (by exact_mod_cast hr)
    have hr0 : 0 ≤ (r : ℝ) / m := by positivity
    have hk : ⌊(k : ℝ) + (r : ℝ) / m⌋.toNat = k := by
      rw [show ⌊(k : ℝ) + (r : ℝ) / m⌋ = (k : ℤ) from Int.floor_eq_iff.2 ⟨by push_cast; linarith, by push_cast; linarith⟩, Int.toNat_natCast]
    simp only [Option.map_some, hx, hk]
    congr 3; ring
  · have hr0 : k * m + r = (l.length - 1) * m := by omega
    have hk : k = l.length - 1 ∧ r = 0 := by
      have h1 : r = 0 := by
        have := congrArg (· % m) hr0
        simpa [Nat.mul_add_mod', Nat.mod_eq_of_lt hr] using this
      subst h1
      exact ⟨Nat.eq_of_mul_eq_mul_right (by omega) (by simpa using hr0), rfl⟩
    obtain ⟨rfl, rfl⟩ := hk
    rw [List.getElem?_append_right (by simp)]
    simp

/-- Every `m`-th of `(n - 1) m + 1` numbers. -/
theorem everyNth_points {l : List ℝ} (hl : l ≠ []) {m : Nat} (hm : 1 ≤ m) (L : List ℝ) (hL : L.length = (l.length - 1) * m + 1)
    (h : ∀ k < l.length, L[k * m]? = l[k]?) : everyNth m 0 L = l := by
  have hn : 1 ≤ l.length := List.length_pos_iff.2 hl
  have hle : l.length ≤ L.length := by
    rw [hL]
    have : l.length - 1 ≤ (l.length - 1) * m := Nat.le_mul_of_pos_right _ (by omega)
    omega
  unfold everyNth
  obtain ⟨r, hr⟩ : ∃ r, L.length = l.length + r := ⟨L.length - l.length, by omega⟩
  have hlt : ∀ t : Nat, l.length ≤ t → L.length ≤ t * m := by
    intro t ht
    have h1 : l.length * m ≤ t * m := Nat.mul_le_mul_right _ ht
    have h2 : (l.length - 1) * m + m = l.length * m := by
      rw [← Nat.succ_mul]; congr 1; omega
    omega
  rw [hr, List.range_add, List.filterMap_append]
  have e1 : (List.range l.length).filterMap (fun t => L[0 + t * m]?) = l := by
    have : (List.range l.length).filterMap (fun t => L[0 + t * m]?) = (List.range l.length).filterMap (fun t => some (l.getD t 0)) := by
      refine List.filterMap_congr fun t ht => ?_
      have ht := List.mem_range.mp ht
      rw [Nat.zero_add, h t ht, List.getD_eq_getElem?_getD, List.getElem?_eq_getElem ht]
      rfl
    rw [this]
    apply List.ext_getElem
    · simp
    · intro i h1 h2
      simp [List.getElem?_eq_getElem h2]
  have e2 : ((List.range r).map (l.length + ·)).filterMap (fun t => L[0 + t * m]?) = [] := by
    rw [List.filterMap_eq_nil_iff]
    intro t ht
    obtain ⟨j, -, rfl⟩ := List.mem_map.mp ht
    rw [Nat.zero_add, List.getElem?_eq_none_iff]
    exact hlt _ (by omega)
  rw [e1, e2, List.append_nil]

/-! ### The cubic interpolation -/

theorem hermite_length (l : List ℝ) (m : Nat) (d : ℝ) : (hermiteInterpolated l m d).length = (l.length - 1) * m + 1 := by
  simp [hermiteInterpolated]

theorem extend_affine (a b : ℝ) {l : List ℝ} (hl : 2 ≤ l.length) (k : Int) :
    extendLin (l.map fun x => x * a + b) k = extendLin l k * a + b := by
  unfold extendLin
  simp only [List.length_map]
  rw [getD_map_real (fun x => x * a + b) (k := 0) (by omega), getD_map_real (fun x => x * a + b) (k := 1) (by omega),
    getD_map_real (fun x => x * a + b) (k := l.length - 1) (by omega), getD_map_real (fun x => x * a + b) (k := l.length - 2) (by omega)]
  split
  · ring
  · split
    · rw [getD_map_real (fun x => x * a + b) (k := k.toNat) (by omega)]
    · ring

theorem hermite_affine (a b : ℝ) {l : List ℝ} (hl : 2 ≤ l.length) (m : Nat) (d : ℝ) :
    hermiteInterpolated (l.map fun x => x * a + b) m d = (hermiteInterpolated l m d).map fun x => x * a + b := by
  unfold hermiteInterpolated
  simp only [List.length_map, List.map_map]
  refine List.map_congr_left fun i _ => ?_
  simp only [Function.comp, hermiteAt, cubicHermite, extend_affine a b hl]
  ring

theorem extend_zip (op : ElemOp) (hop : op = .add ∨ op = .sub) (l1 l2 : List ℝ) (h : l1.length = l2.length) (k : Int) :
    extendLin (List.zipWith op.real l1 l2) k = op.real (extendLin l1 k) (extendLin l2 k) := by
  have hz : op.real (0 : ℝ) 0 = 0 := by rcases hop with rfl | rfl <;> simp [ElemOp.real]
  unfold extendLin
  simp only [List.length_zipWith, h, Nat.min_self, getD_zip l1 l2 h op.real hz]
  split
  · rcases hop with rfl | rfl <;> simp only [ElemOp.real] <;> ring
  · split
    · rfl
    · rcases hop with rfl | rfl <;> simp only [ElemOp.real] <;> ring

theorem hermite_zip (op : ElemOp) (hop : op = .add ∨ op = .sub) (l1 l2 : List ℝ) (h : l1.length = l2.length) (m : Nat) (d : ℝ) :
    hermiteInterpolated (List.zipWith op.real l1 l2) m d =
      List.zipWith op.real (hermiteInterpolated l1 m d) (hermiteInterpolated l2 m d) := by
  unfold hermiteInterpolated
  simp only [List.length_zipWith, h, Nat.min_self, List.zipWith_map, List.zipWith_self]
  refine List.map_congr_left fun i _ => ?_
  simp only [hermiteAt, cubicHermite, extend_zip op hop l1 l2 h]
  rcases hop with rfl | rfl <;> simp only [ElemOp.real] <;> ring

theorem linePoints_getD (a b : ℝ) {n k : Nat} (hk : k < n) : (linePoints a b n).getD k 0 = a + b * k := by
  unfold linePoints
  rw [List.getD_eq_getElem?_getD, List.getElem?_map, List.getElem?_range hk]; rfl

theorem extend_line (a b : ℝ) {n : Nat} (hn : 2 ≤ n) (k : Int) : extendLin (linePoints a b n) k = a + b * (k : ℝ) := by
  have hl : (linePoints a b n).length = n := by simp [linePoints]
  unfold extendLin
  simp only [hl]
  rw [linePoints_getD a b (k := 0) (by omega), linePoints_getD a b (k := 1) (by omega), linePoints_getD a b (k := n - 1) (by omega),
    linePoints_getD a b (k := n - 2) (by omega)]
  have c1 : ((n - 1 : Nat) : ℝ) = n - 1 := by rw [Nat.cast_sub (by omega)]; simp
  have c2 : ((n - 2 : Nat) : ℝ) = n - 2 := by rw [Nat.cast_sub (by omega)]; simp
  split
  · push_cast; ring
  · split
    · rename_i h1 h2
      rw [linePoints_getD a b (k := k.toNat) (by omega)]
      congr 2
      rw [← Int.cast_natCast, Int.toNat_of_nonneg (by omega)]
    · push_cast [c1, c2]
      ring

theorem hermite_line (a b : ℝ) {n : Nat} (hn : 2 ≤ n) {m : Nat} (hm : 1 ≤ m) (d : ℝ) :
    hermiteInterpolated (linePoints a b n) m d = linePoints (a + b * d) (b / m) ((n - 1) * m + 1) := by
  have hl : (linePoints a b n).length = n := by simp [linePoints]
  have hm0 : (m : ℝ) ≠ 0 := by exact_mod_cast (by omega : m ≠ 0)
  unfold hermiteInterpolated
  rw [hl]
  unfold linePoints
  refine List.map_congr_left fun i _ => ?_
  change hermiteAt (linePoints a b n) _ _ = _
  simp only [hermiteAt, cubicHermite, extend_line a b hn]
  have hi : (i : ℝ) = (i / m : Nat) * m + (i % m : Nat) := by
    have := Nat.div_add_mod i m
    have := congrArg (fun x : Nat => (x : ℝ)) this
    push_cast at this ⊢
    linarith
  rw [hi]
  generalize i / m = q
  generalize i % m = r
  push_cast
  field_simp
  ring

/-! ### The laws -/

theorem hermite_meaning (m : Nat) (d : ℝ) (s : Signal ℝ) {l : List ℝ} (h : s.numbers = .real l) :
    ((UnCall.interpolateHermite (m : ℝ) d).meaning s).1 = { s with numbers := .real (hermiteInterpolated l m d) } := by
  simp only [UnCall.meaning, h, Numbers.mapLists, Int.floor_natCast, Int.toNat_natCast]

theorem lin_meaning (f d : ℝ) (s : Signal ℝ) {l : List ℝ} (h : s.numbers = .real l) :
    ((UnCall.interpolateLin f d).meaning s).1 = { s with numbers := .real (linInterpolated l f d) } := by
  simp only [UnCall.meaning, h, Numbers.mapLists]

/-- C99: a whole factor without delay keeps the given points: with `decimatei` the signal is restored, for both interpolations. -/
theorem C99_decimate (w : World ℝ) (x : Nat) (l : List ℝ) (h : (w.sig x).numbers = .real l) (hl : l ≠ []) (m : Nat) (hm : 1 ≤ m) :
    Restores w [interpolateLinOf x m 0, .single x (.decimate m 0)] x ∧
      Restores w [interpolateHermiteOf x m 0, .single x (.decimate m 0)] x := by
  have hm0 : (0 : ℝ) < m := by exact_mod_cast hm
  constructor <;> apply restores_of <;> simp only [interpolateLinOf, interpolateHermiteOf] <;> conv_run
  · rw [lin_meaning _ _ _ h]
    simp only [Call.meaning, Numbers.rearrange]
    apply signal_numbers
    rw [h, everyNth_points hl hm _ (by
      rw [lin_length, show ⌊((l.length - 1 : Nat) : ℝ) * (m : ℝ) + 1 / 2⌋ = (((l.length - 1) * m : Nat) : ℤ) from
        Int.floor_eq_iff.2 ⟨by push_cast; linarith, by push_cast; linarith⟩, Int.toNat_natCast]) fun k hk => ?_]
    have := lin_whole hl hm k 0 (by omega) (by
      have := Nat.mul_le_mul_right m (show k ≤ l.length - 1 by omega); omega)
    rw [Nat.add_zero] at this
    rw [this, List.getD_eq_getElem?_getD, List.getElem?_eq_getElem hk]
    simp
  · rw [hermite_meaning _ _ _ h]
    simp only [Call.meaning, Numbers.rearrange]
    apply signal_numbers
    rw [h, everyNth_points hl hm _ (hermite_length l m 0) fun k hk => ?_]
    have hi : k * m < (l.length - 1) * m + 1 := by
      have := Nat.mul_le_mul_right m (show k ≤ l.length - 1 by omega); omega
    unfold hermiteInterpolated
    rw [List.getElem?_map, List.getElem?_range hi, List.getElem?_eq_getElem hk]
    simp only [Option.map_some, Nat.mul_mod_left, Nat.mul_div_cancel _ (show 0 < m by omega), Nat.cast_zero, zero_div, add_zero]
    rw [hermiteAt_zero l k hk, List.getD_eq_getElem?_getD, List.getElem?_eq_getElem hk]
    rfl

/-- C99: `scale` and `offset` may be called before or after the interpolation. -/
theorem C99_affine (w : World ℝ) (x : Nat) (l : List ℝ) (h : (w.sig x).numbers = .real l) (a b : ℝ) :
    (∀ f d : ℝ, l ≠ [] → 0 < f → 0 ≤ d → d * f < 1 / 2 →
      SameResult w [.single x (.scale a), .single x (.offset b), interpolateLinOf x f d]
        [interpolateLinOf x f d, .single x (.scale a), .single x (.offset b)] x) ∧
    (∀ (m : Nat) (d : ℝ), 2 ≤ l.length →
      SameResult w [.single x (.scale a), .single x (.offset b), interpolateHermiteOf x m d]
        [interpolateHermiteOf x m d, .single x (.scale a), .single x (.offset b)] x) := by
  constructor
  · intro f d hl hf hd0 hd
    apply same_of <;> unfold interpolateLinOf <;> conv_run <;> rw [lin_meaning _ _ _ h] <;>
      rw [lin_meaning (l := l.map fun x => x * a + b) _ _ _ (by simp [Call.meaning, h, Numbers.mapLists])] <;>
      simp only [Call.meaning, Numbers.mapLists]
    rw [lin_affine a b hl hf hd0 hd, List.map_map]
    rfl
  · intro m d hl
    apply same_of <;> unfold interpolateHermiteOf <;> conv_run <;> rw [hermite_meaning _ _ _ h] <;>
      rw [hermite_meaning (l := l.map fun x => x * a + b) _ _ _ (by simp [Call.meaning, h, Numbers.mapLists])] <;>
      simp only [Call.meaning, Numbers.mapLists]
    rw [hermite_affine a b hl, List.map_map]
    rfl

/-- C99: the interpolation of a sum (difference) is the sum (difference) of the interpolated signals. -/
theorem C99_add (op : ElemOp) (hop : op = .add ∨ op = .sub) (w : World ℝ) (x y : Nat) (hxy : x ≠ y) (l1 l2 : List ℝ)
    (h1 : (w.sig x).numbers = .real l1) (h2 : (w.sig y).numbers = .real l2) (hl : l1.length = l2.length)
    (hag : (w.sig x).Agrees (w.sig y)) :
    (∀ f d : ℝ, SameResult w [.binary x y (.elem op), interpolateLinOf x f d]
      [interpolateLinOf x f d, interpolateLinOf y f d, .binary x y (.elem op)] x) ∧
    (∀ (m : Nat) (d : ℝ), SameResult w [.binary x y (.elem op), interpolateHermiteOf x m d]
      [interpolateHermiteOf x m d, interpolateHermiteOf y m d, .binary x y (.elem op)] x) := by
  have ee := elem_meaning op hag (by rw [h1, h2]; exact hl)
  obtain ⟨-, a2, a3⟩ := hag
  constructor
  · intro f d
    have e2 := elem_meaning op (s := { w.sig x with numbers := .real (linInterpolated l1 f d) })
      (o := { w.sig y with numbers := .real (linInterpolated l2 f d) }) ⟨rfl, a2, a3⟩ (by simp [Numbers.count, lin_length, hl])
    apply same_of <;> unfold interpolateLinOf <;> conv_run <;>
      simp only [sig_put_other _ hxy, sig_put_other _ hxy.symm, sig_put_same] <;> rw [lin_meaning _ _ _ h1, lin_meaning _ _ _ h2, e2, ee] <;>
      rw [lin_meaning (l := List.zipWith op.real l1 l2) _ _ _ (by simp [h1, h2, Numbers.combine])]
    simp only [Numbers.combine]
    rw [lin_zip op hop l1 l2 hl]
  · intro m d
    have e2 := elem_meaning op (s := { w.sig x with numbers := .real (hermiteInterpolated l1 m d) })
      (o := { w.sig y with numbers := .real (hermiteInterpolated l2 m d) }) ⟨rfl, a2, a3⟩ (by simp [Numbers.count, hermite_length, hl])
    apply same_of <;> unfold interpolateHermiteOf <;> conv_run <;>
      simp only [sig_put_other _ hxy, sig_put_other _ hxy.symm, sig_put_same] <;> rw [hermite_meaning _ _ _ h1, hermite_meaning _ _ _ h2, e2, ee] <;>
      rw [hermite_meaning (l := List.zipWith op.real l1 l2) _ _ _ (by simp [h1, h2, Numbers.combine])]
    simp only [Numbers.combine]
    rw [hermite_zip op hop l1 l2 hl]

theorem lin_line (a b : ℝ) {n : Nat} (hn : 1 ≤ n) {m : Nat} (hm : 1 ≤ m) :
    linInterpolated (linePoints a b n) m 0 = linePoints a (b / m) ((n - 1) * m + 1) := by
  have hl : (linePoints a b n).length = n := by simp [linePoints]
  have hne : linePoints a b n ≠ [] := fun e => by rw [e] at hl; simp at hl; omega
  have hm0 : (0 : ℝ) < m := by exact_mod_cast hm
  have hlen : (linInterpolated (linePoints a b n) (m : ℝ) 0).length = (n - 1) * m + 1 := by
    rw [lin_length, hl, show ⌊((n - 1 : Nat) : ℝ) * (m : ℝ) + 1 / 2⌋ = (((n - 1) * m : Nat) : ℤ) from
        Int.floor_eq_iff.2 ⟨by push_cast; linarith, by push_cast; linarith⟩, Int.toNat_natCast]
  apply List.ext_getElem?
  intro i
  by_cases hi : i < (n - 1) * m + 1
  · have hdm : i / m * m + i % m = i := by rw [Nat.mul_comm]; exact Nat.div_add_mod i m
    have := lin_whole hne hm (i / m) (i % m) (Nat.mod_lt _ (by omega)) (by rw [hdm, hl]; exact hi)
    rw [hdm] at this
    rw [this]
    unfold linePoints
    rw [List.getElem?_map, List.getElem?_range hi, Option.map_some]
    congr 1
    change (linePoints a b n).getD _ 0 + ((linePoints a b n).getD _ 0 - (linePoints a b n).getD _ 0) * _ = _
    have hk : i / m < n := by
      have : i / m ≤ n - 1 := by
        rw [Nat.div_le_iff_le_mul_add_pred (by omega)]
        have := Nat.mul_comm m (n - 1)
        omega
      omega
    have hir : (i : ℝ) = (i / m : Nat) * m + (i % m : Nat) := by
      have := congrArg (fun x : Nat => (x : ℝ)) hdm
      push_cast at this ⊢
      linarith
    rw [linePoints_getD a b hk, hir]
    by_cases h2 : i / m + 1 < n
    · rw [linePoints_getD a b h2]
      push_cast
      field_simp
      ring
    · have hr : i % m = 0 := by
        have : (n - 1) * m ≤ i / m * m := Nat.mul_le_mul_right _ (by omega)
        omega
      rw [hr]
      push_cast
      field_simp
      ring
  · rw [List.getElem?_eq_none (by omega), List.getElem?_eq_none (by simp [linePoints]; omega)]

/-- C99: the points of a line stay on the line: with the factor `m` the slope is divided by `m`, a delay of `interpolate_hermite` moves along
the line (also in the first and the last interval). -/
theorem C99_line (w : World ℝ) (x : Nat) (a b : ℝ) (n : Nat) (h : (w.sig x).numbers = .real (linePoints a b n)) (m : Nat) (hm : 1 ≤ m) :
    (1 ≤ n → Leaves w [interpolateLinOf x m 0] x (.real (linePoints a (b / m) ((n - 1) * m + 1))) (w.sig x).dom) ∧
    (2 ≤ n → ∀ d : ℝ, Leaves w [interpolateHermiteOf x m d] x (.real (linePoints (a + b * d) (b / m) ((n - 1) * m + 1))) (w.sig x).dom) := by
  constructor
  · intro hn
    apply leaves_of <;> unfold interpolateLinOf <;> conv_run <;> rw [lin_meaning _ _ _ h]
    rw [lin_line a b hn hm]
  · intro hn d
    apply leaves_of <;> unfold interpolateHermiteOf <;> conv_run <;> rw [hermite_meaning _ _ _ h]
    rw [hermite_line a b hn hm]

/-- C99: the linear interpolation does not overshoot: bounds of the signal are bounds of the result. -/
theorem C99_bounds (w : World ℝ) (x : Nat) (l : List ℝ) (h : (w.sig x).numbers = .real l) (hl : l ≠ []) (lo hi : ℝ)
    (hb : ∀ y ∈ l, lo ≤ y ∧ y ≤ hi) (f d : ℝ) (hf : 0 < f) (hd0 : 0 ≤ d) (hd : d * f < 1 / 2) :
    ∃ l', Leaves w [interpolateLinOf x f d] x (.real l') (w.sig x).dom ∧ ∀ y ∈ l', lo ≤ y ∧ y ≤ hi := by
  have hn : 1 ≤ l.length := List.length_pos_iff.2 hl
  have hg : ∀ k, k < l.length → lo ≤ l.getD k 0 ∧ l.getD k 0 ≤ hi := by
    intro k hk
    rw [List.getD_eq_getElem?_getD, List.getElem?_eq_getElem hk]
    exact hb _ (List.getElem_mem hk)
  refine ⟨linInterpolated l f d, ?_, fun y hy => ?_⟩
  · apply leaves_of <;> unfold interpolateLinOf <;> conv_run <;> rw [lin_meaning _ _ _ h]
  · unfold linInterpolated at hy
    rcases List.mem_append.1 hy with hy | hy
    · obtain ⟨i, hi', rfl⟩ := List.mem_map.1 hy
      obtain ⟨h1, h2, h3⟩ := lin_index hn hf hd0 hd (List.mem_range.1 hi')
      simp only
      generalize hk : ⌊(i : ℝ) / f + d⌋.toNat = k at *
      obtain ⟨p1, p2⟩ := hg k (by omega)
      obtain ⟨q1, q2⟩ := hg (k + 1) h1
      generalize (i : ℝ) / f + d = t at *
      constructor <;> nlinarith
    · rw [List.mem_singleton.1 hy]
      exact hg _ (by omega)

/-- C99: two linear interpolations with whole factors are one with the product of the factors. -/
theorem C99_twice (w : World ℝ) (x : Nat) (l : List ℝ) (h : (w.sig x).numbers = .real l) (hl : l ≠ []) (m k : Nat) (hm : 1 ≤ m) (hk : 1 ≤ k) :
    SameResult w [interpolateLinOf x m 0, interpolateLinOf x k 0] [interpolateLinOf x (m * k : Nat) 0] x := by
  apply same_of <;> unfold interpolateLinOf <;> conv_run <;> rw [lin_meaning _ _ _ h, lin_meaning _ _ _ h] <;>
    rw [lin_meaning (l := linInterpolated l m 0) _ _ _ rfl]
  simp only
  congr 1
  have hn : 1 ≤ l.length := List.length_pos_iff.2 hl
  have hmk : 1 ≤ m * k := Nat.mul_pos hm hk
  have len : ∀ (l : List ℝ) (m : Nat), (linInterpolated l (m : ℝ) 0).length = (l.length - 1) * m + 1 := by
    intro l m
    rw [lin_length, show ⌊((l.length - 1 : Nat) : ℝ) * (m : ℝ) + 1 / 2⌋ = (((l.length - 1) * m : Nat) : ℤ) from
        Int.floor_eq_iff.2 ⟨by push_cast; linarith, by push_cast; linarith⟩, Int.toNat_natCast]
  have hL := len l m
  have hLne : linInterpolated l (m : ℝ) 0 ≠ [] := fun e => by rw [e] at hL; simp at hL
  have hlen2 : (linInterpolated (linInterpolated l (m : ℝ) 0) (k : ℝ) 0).length = (l.length - 1) * (m * k) + 1 := by
    rw [len, hL, Nat.add_sub_cancel, Nat.mul_assoc]
  -- the line through the interpolated points
  have line : ∀ p r, r ≤ m → p * m + r < (l.length - 1) * m + 1 →
      (linInterpolated l (m : ℝ) 0).getD (p * m + r) 0 = l.getD p 0 + (l.getD (p + 1) 0 - l.getD p 0) * ((r : ℝ) / m) := by
    intro p r hr hi
    have hm0 : (m : ℝ) ≠ 0 := by exact_mod_cast (by omega : m ≠ 0)
    rcases Nat.lt_or_ge r m with h1 | h1
    · rw [List.getD_eq_getElem?_getD, lin_whole hl hm p r h1 hi]; rfl
    · have : r = m := by omega
      subst this
      have e : p * r + r = (p + 1) * r + 0 := by rw [Nat.succ_mul, Nat.add_zero]
      rw [e] at hi ⊢
      rw [List.getD_eq_getElem?_getD, lin_whole hl hm (p + 1) 0 (by omega) hi, Option.getD_some, div_self hm0]
      simp
  apply List.ext_getElem?
  intro i
  by_cases hi : i < (l.length - 1) * (m * k) + 1
  · -- i = (p m + r) k + s
    have e1 : i / k * k + i % k = i := by rw [Nat.mul_comm]; exact Nat.div_add_mod i k
    have e2 : i / k / m * m + i / k % m = i / k := by rw [Nat.mul_comm]; exact Nat.div_add_mod _ m
    have hs := Nat.mod_lt i (show 0 < k by omega)
    have hr := Nat.mod_lt (i / k) (show 0 < m by omega)
    generalize i % k = s at *
    generalize hq : i / k = q at *
    generalize q % m = r at *
    generalize q / m = p at *
    subst e1 e2
    have hi' : p * (m * k) + (r * k + s) < (l.length - 1) * (m * k) + 1 := by
      have : (p * m + r) * k + s = p * (m * k) + (r * k + s) := by ring
      omega
    have hrk : r * k + s < m * k := by
      have : (r + 1) * k ≤ m * k := Nat.mul_le_mul_right _ hr
      rw [Nat.succ_mul] at this
      omega
    have a1 := lin_whole hLne hk (p * m + r) s hs (by rw [hL, Nat.add_sub_cancel, Nat.mul_assoc]; exact hi)
    have a2 := lin_whole hl hmk p (r * k + s) hrk hi'
    rw [a1, show (p * m + r) * k + s = p * (m * k) + (r * k + s) by ring, a2]
    have hq1 : p * m + r < (l.length - 1) * m + 1 := by
      by_contra hc
      have : ((l.length - 1) * m + 1) * k ≤ (p * m + r) * k := Nat.mul_le_mul_right _ (by omega)
      have e : ((l.length - 1) * m + 1) * k = (l.length - 1) * (m * k) + k := by ring
      omega
    have hm0 : (m : ℝ) ≠ 0 := by exact_mod_cast (by omega : m ≠ 0)
    have hk0 : (k : ℝ) ≠ 0 := by exact_mod_cast (by omega : k ≠ 0)
    rw [line p r (by omega) hq1]
    congr 1
    by_cases hq2 : p * m + (r + 1) < (l.length - 1) * m + 1
    · rw [show p * m + r + 1 = p * m + (r + 1) from rfl, line p (r + 1) hr hq2]
      push_cast
      field_simp
      ring
    · -- the last point
      have hs0 : s = 0 := by
        have e3 : p * m + r = (l.length - 1) * m := by omega
        rw [e3, Nat.mul_assoc] at hi
        omega
      subst hs0
      push_cast
      field_simp
      ring
  · rw [List.getElem?_eq_none (by omega), List.getElem?_eq_none (by rw [len]; omega)]

/-! ### How far the cubic interpolation exceeds the signal, and parabolas -/

/-- A mean with two nonnegative weights and two which are not positive and at most 1/8 together. -/
theorem weighted_bounds {lo hi y0 y1 y2 y3 v0 u1 u2 v3 : ℝ} (h0 : lo ≤ y0 ∧ y0 ≤ hi) (h1 : lo ≤ y1 ∧ y1 ≤ hi) (h2 : lo ≤ y2 ∧ y2 ≤ hi)
    (h3 : lo ≤ y3 ∧ y3 ≤ hi) (hv0 : 0 ≤ v0) (hu1 : 0 ≤ u1) (hu2 : 0 ≤ u2) (hv3 : 0 ≤ v3) (hs : u1 + u2 - v0 - v3 = 1) (hv : v0 + v3 ≤ 1 / 8) :
    lo - (hi - lo) / 8 ≤ u1 * y1 + u2 * y2 - v0 * y0 - v3 * y3 ∧ u1 * y1 + u2 * y2 - v0 * y0 - v3 * y3 ≤ hi + (hi - lo) / 8 := by
  have hlh : 0 ≤ hi - lo := by linarith [h0.1, h0.2]
  have a := mul_le_mul_of_nonneg_right hv hlh
  have e : u2 = 1 + v0 + v3 - u1 := by linarith
  subst e
  constructor
  · have b0 := mul_nonneg hv0 (sub_nonneg.2 h0.2)
    have b1 := mul_nonneg hu1 (sub_nonneg.2 h1.1)
    have b2 := mul_nonneg hu2 (sub_nonneg.2 h2.1)
    have b3 := mul_nonneg hv3 (sub_nonneg.2 h3.2)
    linarith
  · have b0 := mul_nonneg hv0 (sub_nonneg.2 h0.1)
    have b1 := mul_nonneg hu1 (sub_nonneg.2 h1.2)
    have b2 := mul_nonneg hu2 (sub_nonneg.2 h2.2)
    have b3 := mul_nonneg hv3 (sub_nonneg.2 h3.1)
    linarith

/-- One interval: the outer points are points of the signal or continue it by a line. -/
theorem cubic_bounds {lo hi y0 y1 y2 y3 x : ℝ} (h1 : lo ≤ y1 ∧ y1 ≤ hi) (h2 : lo ≤ y2 ∧ y2 ≤ hi)
    (h0 : (lo ≤ y0 ∧ y0 ≤ hi) ∨ y0 = 2 * y1 - y2) (h3 : (lo ≤ y3 ∧ y3 ≤ hi) ∨ y3 = 2 * y2 - y1) (hx0 : 0 ≤ x) (hx1 : x ≤ 1) :
    lo - (hi - lo) / 8 ≤ cubicHermite y1 ((y2 - y0) / 2) y2 ((y3 - y1) / 2) x ∧
      cubicHermite y1 ((y2 - y0) / 2) y2 ((y3 - y1) / 2) x ≤ hi + (hi - lo) / 8 := by
  have hx : 0 ≤ 1 - x := by linarith
  have c1 : 0 ≤ x * (1 - x) := mul_nonneg hx0 hx
  have v0 : 0 ≤ x * (1 - x) * (1 - x) / 2 := by have := mul_nonneg c1 hx; linarith
  have v3 : 0 ≤ x * (1 - x) * x / 2 := by have := mul_nonneg c1 hx0; linarith
  have hv : x * (1 - x) * (1 - x) / 2 + x * (1 - x) * x / 2 ≤ 1 / 8 := by
    have : x * (1 - x) * (1 - x) / 2 + x * (1 - x) * x / 2 = x * (1 - x) / 2 := by ring
    rw [this]
    nlinarith [sq_nonneg (x - 1 / 2)]
  have hxx : x * x ≤ 1 := by nlinarith
  have hxx' : x * x ≤ x := by nlinarith
  have a1 : 0 ≤ (1 - x) * (1 + x - 3 / 2 * (x * x)) := mul_nonneg hx (by linarith)
  have a2 : 0 ≤ x * (1 / 2 + 2 * x - 3 / 2 * (x * x)) := mul_nonneg hx0 (by linarith)
  have b1 : 0 ≤ (1 - x) * (1 - x * x / 2) := mul_nonneg hx (by linarith)
  have b2 : 0 ≤ x * (1 / 2 + x - x * x / 2) := mul_nonneg hx0 (by linarith)
  rcases h0 with h0 | rfl <;> rcases h3 with h3 | rfl
  · have := weighted_bounds h0 h1 h2 h3 v0 a1 a2 v3 (by ring) hv
    unfold cubicHermite
    constructor <;> linarith
  · have := weighted_bounds h0 h1 h2 h1 v0 (u1 := (1 - x) * (1 + x - 3 / 2 * (x * x)) + x * (1 - x) * x / 2) (by linarith) b2 (le_refl 0)
      (by ring) (by linarith)
    unfold cubicHermite
    constructor <;> linarith
  · have := weighted_bounds h1 h1 h2 h3 (le_refl 0) b1 (u2 := x * (1 / 2 + 2 * x - 3 / 2 * (x * x)) + x * (1 - x) * (1 - x) / 2) (by linarith) v3
      (by ring) (by linarith)
    unfold cubicHermite
    constructor <;> linarith
  · have := weighted_bounds h1 h1 h2 h2 (le_refl 0) hx hx0 (le_refl 0) (by ring) (by norm_num)
    unfold cubicHermite
    constructor <;> linarith

theorem hermiteAt_bounds {l : List ℝ} {lo hi : ℝ} (hb : ∀ y ∈ l, lo ≤ y ∧ y ≤ hi) {k : Nat} (hk : k + 1 < l.length) {x : ℝ} (hx0 : 0 ≤ x)
    (hx1 : x ≤ 1) : lo - (hi - lo) / 8 ≤ hermiteAt l k x ∧ hermiteAt l k x ≤ hi + (hi - lo) / 8 := by
  have hg : ∀ k : Nat, k < l.length → lo ≤ extendLin l k ∧ extendLin l k ≤ hi := by
    intro k hk
    rw [extendLin_mid l k hk, List.getD_eq_getElem?_getD, List.getElem?_eq_getElem hk]
    exact hb _ (List.getElem_mem hk)
  have q2 := hg (k + 1) hk
  rw [Nat.cast_succ] at q2
  refine cubic_bounds (hg k (by omega)) q2 ?_ ?_ hx0 hx1
  · rcases k with _ | k
    · right
      have z0 := extendLin_mid l 0 (by omega)
      have z1 := extendLin_mid l 1 hk
      rw [Nat.cast_zero] at z0 ⊢
      rw [Nat.cast_one] at z1
      rw [zero_sub, zero_add, z0, z1, extendLin_first]
      ring
    · left
      have := hg k (by omega)
      rwa [Nat.cast_succ, add_sub_cancel_right]
  · by_cases h : k + 2 < l.length
    · left
      have := hg (k + 2) h
      rwa [Nat.cast_add, Nat.cast_ofNat] at this
    · right
      have z := extendLin_end l (by omega) 0
      have z0 := extendLin_mid l k (by omega)
      have z1 := extendLin_mid l (k + 1) hk
      rw [show ((l.length + 0 : Nat) : Int) = (k : Int) + 2 by omega] at z
      rw [Nat.cast_succ] at z1
      rw [z, z0, z1, show l.length - 1 = k + 1 by omega, show l.length - 2 = k by omega]
      push_cast
      ring

/-- C99: the cubic interpolation exceeds bounds of the signal by at most an eighth of their distance; with a delay the last number, which
lies on the continuation of the signal, is excluded. -/
theorem C99_overshoot (w : World ℝ) (x : Nat) (l : List ℝ) (h : (w.sig x).numbers = .real l) (lo hi : ℝ)
    (hb : ∀ y ∈ l, lo ≤ y ∧ y ≤ hi) (hn : l ≠ []) (m : Nat) (hm : 1 ≤ m) (d : ℝ) (hd0 : 0 ≤ d) (hd : d * m < 1) :
    ∃ l', Leaves w [interpolateHermiteOf x m d] x (.real l') (w.sig x).dom ∧
      ∀ i y, l'[i]? = some y → (i < (l.length - 1) * m ∨ d = 0) → lo - (hi - lo) / 8 ≤ y ∧ y ≤ hi + (hi - lo) / 8 := by
  have hn1 : 1 ≤ l.length := List.length_pos_iff.2 hn
  have hm0 : (0 : ℝ) < m := by exact_mod_cast hm
  refine ⟨hermiteInterpolated l m d, ?_, fun i y hy hi' => ?_⟩
  · apply leaves_of <;> unfold interpolateHermiteOf <;> conv_run <;> rw [hermite_meaning _ _ _ h]
  · have hlt : i < (l.length - 1) * m + 1 := by
      rw [← hermite_length l m d]; exact (List.getElem?_eq_some_iff.1 hy).1
    unfold hermiteInterpolated at hy
    rw [List.getElem?_map, List.getElem?_range hlt, Option.map_some, Option.some.injEq] at hy
    subst hy
    by_cases hi2 : i < (l.length - 1) * m
    · have hk : i / m < l.length - 1 := Nat.div_lt_of_lt_mul (by rw [Nat.mul_comm]; exact hi2)
      have hr : ((i % m : Nat) : ℝ) + 1 ≤ m := by exact_mod_cast Nat.mod_lt i (show 0 < m by omega)
      refine hermiteAt_bounds hb (by omega) (by positivity) ?_
      rw [div_add' _ _ _ hm0.ne', div_le_one hm0]
      linarith
    · have hd : d = 0 := by
        rcases hi' with h | h
        · exact absurd h hi2
        · exact h
      have hi3 : i = (l.length - 1) * m := by omega
      subst hi3 hd
      rw [Nat.mul_mod_left, Nat.mul_div_cancel _ (show 0 < m by omega), Nat.cast_zero, zero_div, zero_add, hermiteAt_zero l _ (by omega),
        List.getD_eq_getElem?_getD, List.getElem?_eq_getElem (show l.length - 1 < l.length by omega)]
      have := hb _ (List.getElem_mem (show l.length - 1 < l.length by omega))
      simp only [Option.getD_some]
      constructor <;> linarith [this.1, this.2]

/-- C99: an eighth is the best bound. -/
theorem C99_overshoot_sharp (w : World ℝ) (x : Nat) (h : (w.sig x).numbers = .real [0, 1, 1, 0]) :
    ∃ l', Leaves w [interpolateHermiteOf x (2 : Nat) 0] x (.real l') (w.sig x).dom ∧ l'[3]? = some (1 + (1 - 0) / 8) := by
  refine ⟨hermiteInterpolated [0, 1, 1, 0] 2 0, ?_, ?_⟩
  · apply leaves_of <;> unfold interpolateHermiteOf <;> conv_run <;> rw [hermite_meaning _ _ _ h]
  · unfold hermiteInterpolated
    rw [List.getElem?_map, List.getElem?_range (by decide), Option.map_some]
    have e : ∀ k : Nat, k < 4 → extendLin ([0, 1, 1, 0] : List ℝ) (k : Int) = ([0, 1, 1, 0] : List ℝ).getD k 0 :=
      fun k hk => extendLin_mid _ k hk
    have e0 := e 0 (by decide)
    have e1 := e 1 (by decide)
    have e2 := e 2 (by decide)
    have e3 := e 3 (by decide)
    norm_num at e0 e1 e2 e3
    norm_num [hermiteAt, cubicHermite, e0, e1, e2, e3]

/-- C99: between the second point and the last but one the cubic interpolation is exact for parabolas, with every delay. -/
theorem C99_parabola (w : World ℝ) (x : Nat) (a b c : ℝ) (n : Nat)
    (h : (w.sig x).numbers = .real ((List.range n).map fun (i : Nat) => a + b * (i : ℝ) + c * (i : ℝ) ^ 2)) (m : Nat) (hm : 1 ≤ m) (d : ℝ) :
    ∃ l', Leaves w [interpolateHermiteOf x m d] x (.real l') (w.sig x).dom ∧
      ∀ i, m ≤ i → i < (n - 2) * m → l'[i]? = some (a + b * ((i : ℝ) / m + d) + c * ((i : ℝ) / m + d) ^ 2) := by
  have hm0 : (m : ℝ) ≠ 0 := by exact_mod_cast (by omega : m ≠ 0)
  generalize hl : ((List.range n).map fun (i : Nat) => a + b * (i : ℝ) + c * (i : ℝ) ^ 2) = l at h
  have hlen : l.length = n := by rw [← hl]; simp
  have hg : ∀ k : Nat, k < n → extendLin l k = a + b * (k : ℝ) + c * (k : ℝ) ^ 2 := by
    intro k hk
    rw [extendLin_mid l k (by omega), ← hl, List.getD_eq_getElem?_getD, List.getElem?_map, List.getElem?_range hk]
    rfl
  refine ⟨hermiteInterpolated l m d, ?_, fun i hi1 hi2 => ?_⟩
  · apply leaves_of <;> unfold interpolateHermiteOf <;> conv_run <;> rw [hermite_meaning _ _ _ h]
  · have hi3 : i < (l.length - 1) * m + 1 := by
      have : (n - 2) * m ≤ (n - 1) * m := Nat.mul_le_mul_right _ (by omega)
      rw [hlen]; omega
    unfold hermiteInterpolated
    rw [List.getElem?_map, List.getElem?_range hi3, Option.map_some]
    have hk2 : i / m < n - 2 := Nat.div_lt_of_lt_mul (by rw [Nat.mul_comm]; exact hi2)
    obtain ⟨k, hk⟩ : ∃ k, i / m = k + 1 := ⟨i / m - 1, by have := Nat.div_pos hi1 (show 0 < m by omega); omega⟩
    have hir : (i : ℝ) = (k + 1) * m + (i % m : Nat) := by
      have h1 : (k + 1) * m + i % m = i := by rw [← hk, Nat.mul_comm]; exact Nat.div_add_mod i m
      have := congrArg (fun x : Nat => (x : ℝ)) h1
      push_cast at this ⊢
      linarith
    rw [hk, hir]
    have f0 := hg k (by omega)
    have f1 := hg (k + 1) (by omega)
    have f2 := hg (k + 2) (by omega)
    have f3 := hg (k + 3) (by omega)
    unfold hermiteAt cubicHermite
    rw [show (((k + 1 : Nat) : Int) - 1) = (k : Int) by omega, show (((k + 1 : Nat) : Int) + 1) = ((k + 2 : Nat) : Int) by omega,
      show (((k + 1 : Nat) : Int) + 2) = ((k + 3 : Nat) : Int) by omega, f0, f1, f2, f3]
    generalize i % m = r
    push_cast
    congr 1
    field_simp
    ring

/-! ### Backwards -/

theorem extend_reverse {l : List ℝ} (hl : 2 ≤ l.length) (k : Int) : extendLin l.reverse k = extendLin l ((l.length : Int) - 1 - k) := by
  have hg : ∀ i : Nat, i < l.length → l.reverse.getD i 0 = l.getD (l.length - 1 - i) 0 := by
    intro i hi
    rw [List.getD_eq_getElem?_getD, List.getD_eq_getElem?_getD, List.getElem?_reverse hi]
  unfold extendLin
  simp only [List.length_reverse]
  rw [hg 0 (by omega), hg 1 (by omega), hg (l.length - 1) (by omega), hg (l.length - 2) (by omega),
    show l.length - 1 - (l.length - 1) = 0 by omega, show l.length - 1 - (l.length - 2) = 1 by omega, show l.length - 1 - 0 = l.length - 1 by omega,
    show l.length - 1 - 1 = l.length - 2 by omega]
  have c : ((l.length - 1 : Nat) : Int) = (l.length : Int) - 1 := by omega
  by_cases h1 : k < 0
  · rw [if_pos h1, if_neg (by omega), if_neg (by omega), c]
    congr 1
    push_cast
    ring
  · by_cases h2 : k < l.length
    · rw [if_neg h1, if_pos h2, if_neg (by omega), if_pos (by omega), hg _ (by omega)]
      congr 1
      omega
    · rw [if_neg h1, if_neg h2, if_pos (by omega), c]
      congr 1
      push_cast
      ring

theorem hermiteAt_reverse {l : List ℝ} {k : Nat} (hk : k + 1 < l.length) (x : ℝ) :
    hermiteAt l.reverse k x = hermiteAt l (l.length - 2 - k) (1 - x) := by
  have c : ((l.length - 2 - k : Nat) : Int) = (l.length : Int) - 2 - k := by omega
  unfold hermiteAt cubicHermite
  simp only [extend_reverse (show 2 ≤ l.length by omega), c]
  rw [show (l.length : Int) - 1 - (k : Int) = (l.length : Int) - 2 - k + 1 by ring, show (l.length : Int) - 1 - ((k : Int) + 1) = (l.length : Int) - 2 - k by ring,
    show (l.length : Int) - 1 - ((k : Int) - 1) = (l.length : Int) - 2 - k + 2 by ring,
    show (l.length : Int) - 1 - ((k : Int) + 2) = (l.length : Int) - 2 - k - 1 by ring]
  ring

/-- A list with `(n - 1) m + 1` numbers is reversed if its intervals are. -/
theorem reverse_of_intervals {L L' : List ℝ} {n m : Nat} (hn : 1 ≤ n) (hm : 1 ≤ m) (h1 : L.length = (n - 1) * m + 1)
    (h2 : L'.length = (n - 1) * m + 1) (hp : ∀ k < n, L'[k * m]? = L[(n - 1 - k) * m]?)
    (hi : ∀ k r, k + 1 < n → 0 < r → r < m → L'[k * m + r]? = L[(n - 2 - k) * m + (m - r)]?) : L' = L.reverse := by
  apply List.ext_getElem?
  intro i
  by_cases h : i < (n - 1) * m + 1
  · rw [List.getElem?_reverse (by omega), h1, Nat.add_sub_cancel]
    have hdm : i / m * m + i % m = i := by rw [Nat.mul_comm]; exact Nat.div_add_mod i m
    have hr := Nat.mod_lt i (show 0 < m by omega)
    generalize i / m = k at *
    generalize i % m = r at *
    subst hdm
    have hk : k < n := by
      by_contra hc
      have : n * m ≤ k * m := Nat.mul_le_mul_right _ (by omega)
      have e : (n - 1) * m + m = n * m := by rw [← Nat.succ_mul]; congr 1; omega
      omega
    rcases Nat.eq_zero_or_pos r with rfl | hr0
    · rw [Nat.add_zero, hp k hk, Nat.sub_mul (n - 1)]
    · have hk1 : k + 1 < n := by
        by_contra hc
        have : (n - 1) * m ≤ k * m := Nat.mul_le_mul_right _ (by omega)
        omega
      rw [hi k r hk1 hr0 hr]
      congr 1
      have e : (n - 1) * m = (n - 2 - k) * m + m + k * m := by
        rw [← Nat.succ_mul, ← Nat.add_mul]; congr 1; omega
      omega
  · rw [List.getElem?_eq_none (by omega), List.getElem?_eq_none (by rw [List.length_reverse]; omega)]

theorem lin_reverse {l : List ℝ} (hl : l ≠ []) {m : Nat} (hm : 1 ≤ m) :
    linInterpolated l.reverse (m : ℝ) 0 = (linInterpolated l (m : ℝ) 0).reverse := by
  have hn : 1 ≤ l.length := List.length_pos_iff.2 hl
  have hm0 : (m : ℝ) ≠ 0 := by exact_mod_cast (by omega : m ≠ 0)
  have len : ∀ (l : List ℝ), (linInterpolated l (m : ℝ) 0).length = (l.length - 1) * m + 1 := by
    intro l
    rw [lin_length, show ⌊((l.length - 1 : Nat) : ℝ) * (m : ℝ) + 1 / 2⌋ = (((l.length - 1) * m : Nat) : ℤ) from
        Int.floor_eq_iff.2 ⟨by push_cast; linarith, by push_cast; linarith⟩, Int.toNat_natCast]
  have hg : ∀ i : Nat, i < l.length → l.reverse.getD i 0 = l.getD (l.length - 1 - i) 0 := by
    intro i hi
    rw [List.getD_eq_getElem?_getD, List.getD_eq_getElem?_getD, List.getElem?_reverse hi]
  have hr : l.reverse ≠ [] := by simpa using hl
  have inside : ∀ k r, k + 1 < l.length → r < m → k * m + r < (l.length - 1) * m + 1 := by
    intro k r hk hr
    have : (k + 1) * m ≤ (l.length - 1) * m := Nat.mul_le_mul_right _ (by omega)
    rw [Nat.succ_mul] at this
    omega
  have point : ∀ k, k < l.length → k * m + 0 < (l.length - 1) * m + 1 := by
    intro k hk
    have : k * m ≤ (l.length - 1) * m := Nat.mul_le_mul_right _ (by omega)
    omega
  refine reverse_of_intervals hn hm (len l) (by rw [len, List.length_reverse]) (fun k hk => ?_) fun k r hk hr0 hrm => ?_
  · have a := lin_whole hr hm k 0 (by omega) (by rw [List.length_reverse]; exact point k hk)
    have b := lin_whole hl hm (l.length - 1 - k) 0 (by omega) (point _ (by omega))
    rw [Nat.add_zero] at a b
    rw [a, b, hg k hk]
    simp
  · rw [lin_whole hr hm k r hrm (by rw [List.length_reverse]; exact inside k r hk hrm),
      lin_whole hl hm (l.length - 2 - k) (m - r) (by omega) (inside _ _ (by omega) (by omega)), hg k (by omega), hg (k + 1) hk,
      show l.length - 1 - (k + 1) = l.length - 2 - k by omega, show l.length - 1 - k = l.length - 2 - k + 1 by omega, Nat.cast_sub hrm.le]
    congr 1
    field_simp
    ring

theorem hermite_reverse {l : List ℝ} (hl : 2 ≤ l.length) {m : Nat} (hm : 1 ≤ m) :
    hermiteInterpolated l.reverse m 0 = (hermiteInterpolated l m 0).reverse := by
  have hm0 : (m : ℝ) ≠ 0 := by exact_mod_cast (by omega : m ≠ 0)
  have val : ∀ (l : List ℝ) (k r : Nat), r < m → k * m + r < (l.length - 1) * m + 1 →
      (hermiteInterpolated l m 0)[k * m + r]? = some (hermiteAt l k ((r : ℝ) / m)) := by
    intro l k r hr hi
    unfold hermiteInterpolated
    rw [List.getElem?_map, List.getElem?_range hi, Option.map_some, Nat.mul_comm k m, Nat.mul_add_div (by omega), Nat.div_eq_of_lt hr,
      Nat.mul_add_mod, Nat.mod_eq_of_lt hr, Nat.add_zero, add_zero]
  have inside : ∀ k r, k + 1 < l.length → r < m → k * m + r < (l.length - 1) * m + 1 := by
    intro k r hk hr
    have : (k + 1) * m ≤ (l.length - 1) * m := Nat.mul_le_mul_right _ (by omega)
    rw [Nat.succ_mul] at this
    omega
  have point : ∀ k, k < l.length → k * m + 0 < (l.length - 1) * m + 1 := by
    intro k hk
    have : k * m ≤ (l.length - 1) * m := Nat.mul_le_mul_right _ (by omega)
    omega
  refine reverse_of_intervals (by omega) hm (hermite_length l m 0) (by rw [hermite_length, List.length_reverse]) (fun k hk => ?_)
    fun k r hk hr0 hrm => ?_
  · have a := val l.reverse k 0 (by omega) (by rw [List.length_reverse]; exact point k hk)
    have b := val l (l.length - 1 - k) 0 (by omega) (point _ (by omega))
    rw [Nat.add_zero] at a b
    rw [a, b, Nat.cast_zero, zero_div, hermiteAt_zero _ _ (by rw [List.length_reverse]; exact hk), hermiteAt_zero _ _ (by omega),
      List.getD_eq_getElem?_getD, List.getD_eq_getElem?_getD, List.getElem?_reverse hk]
  · rw [val l.reverse k r hrm (by rw [List.length_reverse]; exact inside k r hk hrm),
      val l (l.length - 2 - k) (m - r) (by omega) (inside _ _ (by omega) (by omega)), hermiteAt_reverse hk, Nat.cast_sub hrm.le]
    congr 2
    field_simp

/-- C99: a signal may be reversed before or after the interpolation by a whole factor without delay. -/
theorem C99_reverse (w : World ℝ) (x : Nat) (l : List ℝ) (h : (w.sig x).numbers = .real l) (m : Nat) (hm : 1 ≤ m) :
    (l ≠ [] → SameResult w [.single x .reverse, interpolateLinOf x m 0] [interpolateLinOf x m 0, .single x .reverse] x) ∧
    (2 ≤ l.length → SameResult w [.single x .reverse, interpolateHermiteOf x m 0] [interpolateHermiteOf x m 0, .single x .reverse] x) := by
  constructor
  · intro hl
    apply same_of <;> unfold interpolateLinOf <;> conv_run <;> rw [lin_meaning _ _ _ h] <;>
      rw [lin_meaning (l := l.reverse) _ _ _ (by simp [Call.meaning, h, Numbers.rearrange])] <;>
      simp only [Call.meaning, Numbers.rearrange]
    rw [lin_reverse hl hm]
  · intro hl
    apply same_of <;> unfold interpolateHermiteOf <;> conv_run <;> rw [hermite_meaning _ _ _ h] <;>
      rw [hermite_meaning (l := l.reverse) _ _ _ (by simp [Call.meaning, h, Numbers.rearrange])] <;>
      simp only [Call.meaning, Numbers.rearrange]
    rw [hermite_reverse hl hm]

/-! ### The hypotheses are met, and the programs are accepted -/

example : Restores lawWorld [interpolateLinOf 7 (3 : Nat) 0, .single 7 (.decimate 3 0)] 7 ∧
    Restores lawWorld [interpolateHermiteOf 7 (3 : Nat) 0, .single 7 (.decimate 3 0)] 7 :=
  C99_decimate lawWorld 7 [1, 2, 7] rfl (by simp) 3 (by decide)

/-- An environment which accepts the program: three numbers, linear interpolation by 2 and back. -/
example : ∃ f : Machine ℝ, (∃ o, runProgram o 0 lawMachine
      [.unary 7 (.interpolateLin (.single []) (2 : Nat) 0), .single 7 (.decimatei 2 0)] = .finished f) ∧
    (f.vec 7).content = some [1, 2, 7] := by
  have s : lawMachine.SafeAll [.unary 7 (.interpolateLin (.single []) (2 : Nat) 0), .single 7 (.decimatei 2 0)] := by
    refine law_next lawMachine_shows ?_ fun m' h => law_next h ?_ fun _ _ => trivial
    · refine ⟨rfl, by show (3 : Nat) ≠ 0; decide, by norm_num, le_refl _, by norm_num, fun R _ => ?_⟩
      simp [BufferOk]
    · show 1 ≤ 2; decide
  obtain ⟨f, -, r, -⟩ := C72_program _ _ _ lawMachine_shows s
  obtain ⟨o, hf⟩ := r
  refine ⟨f, ⟨o, hf⟩, ?_⟩
  have := ((C99_decimate lawWorld 7 [1, 2, (7 : Nat)] rfl (by simp) 2 (by decide)).1 lawMachine _ lawMachine_shows rfl s o f hf).1
  rw [this]; rfl

example : ∃ l', Leaves lawWorld [interpolateLinOf 7 (5 / 2) (1 / 10)] 7 (.real l') .time ∧ ∀ y ∈ l', (1 : ℝ) ≤ y ∧ y ≤ 7 :=
  C99_bounds lawWorld 7 [1, 2, (7 : Nat)] rfl (by simp) 1 7 (by norm_num) (5 / 2) (1 / 10) (by norm_num) (by norm_num) (by norm_num)

example : SameResult lawWorld [.binary 0 1 (.elem .add), interpolateLinOf 0 (5 / 2) 0]
    [interpolateLinOf 0 (5 / 2) 0, interpolateLinOf 1 (5 / 2) 0, .binary 0 1 (.elem .add)] 0 :=
  (C99_add .add (.inl rfl) lawWorld 0 1 (by decide) _ _ rfl rfl rfl lawWorld_agrees).1 _ _

example : Leaves lawWorld [interpolateHermiteOf 3 (2 : Nat) (1 / 4)] 3 (.real (linePoints (1 + 1 * (1 / 4)) (1 / (2 : Nat)) 5)) .time :=
  (C99_line lawWorld 3 1 1 3 (by
    simp only [lawWorld, linePoints, List.range, List.range.loop, List.map_cons, List.map_nil]
    norm_num) 2 (by decide)).2 (by decide) (1 / 4)

example : SameResult lawWorld [interpolateLinOf 7 (2 : Nat) 0, interpolateLinOf 7 (3 : Nat) 0] [interpolateLinOf 7 (2 * 3 : Nat) 0] 7 :=
  C99_twice lawWorld 7 [1, 2, (7 : Nat)] rfl (by simp) 2 3 (by decide) (by decide)

example : SameResult lawWorld [.single 7 (.scale 2), .single 7 (.offset (-3)), interpolateHermiteOf 7 (4 : Nat) (1 / 5)]
    [interpolateHermiteOf 7 (4 : Nat) (1 / 5), .single 7 (.scale 2), .single 7 (.offset (-3))] 7 :=
  (C99_affine lawWorld 7 [1, 2, (7 : Nat)] rfl 2 (-3)).2 4 (1 / 5) (by simp)

example : ∃ l', Leaves lawWorld [interpolateHermiteOf 7 (4 : Nat) (1 / 5)] 7 (.real l') .time ∧
    ∀ i y, l'[i]? = some y → (i < 8 ∨ (1 / 5 : ℝ) = 0) → (1 : ℝ) - (7 - 1) / 8 ≤ y ∧ y ≤ 7 + (7 - 1) / 8 :=
  C99_overshoot lawWorld 7 [1, 2, (7 : Nat)] rfl 1 7 (by norm_num) (by simp) 4 (by decide) (1 / 5) (by norm_num) (by norm_num)

/-- Five points of a parabola. -/
example : ∃ l', Leaves ⟨fun _ => ⟨.real ((List.range 5).map fun (i : Nat) => 1 + 2 * (i : ℝ) + 3 * (i : ℝ) ^ 2), .time, false, some 1⟩, []⟩
      [interpolateHermiteOf 0 (2 : Nat) (1 / 4)] 0 (.real l') .time ∧
    ∀ i : Nat, 2 ≤ i → i < (5 - 2) * 2 → l'[i]? = some (1 + 2 * ((i : ℝ) / (2 : Nat) + 1 / 4) + 3 * ((i : ℝ) / (2 : Nat) + 1 / 4) ^ 2) :=
  C99_parabola ⟨fun _ => ⟨.real ((List.range 5).map fun (i : Nat) => 1 + 2 * (i : ℝ) + 3 * (i : ℝ) ^ 2), .time, false, some 1⟩, []⟩ 0 1 2 3 5 rfl 2
    (by decide) (1 / 4)

example : SameResult lawWorld [.single 7 .reverse, interpolateHermiteOf 7 (3 : Nat) 0] [interpolateHermiteOf 7 (3 : Nat) 0, .single 7 .reverse] 7 :=
  (C99_reverse lawWorld 7 [1, 2, (7 : Nat)] rfl 3 (by decide)).2 (by simp)

end Dsp
