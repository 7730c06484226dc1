import Verif.Lemmas.StatsLaws
import Verif.Props.CorrLaws
/-
C89: laws of the statistics, as programs.
-/
namespace Dsp
open DspVec

/-- The statistics of the numbers which the calls leave in `x`. -/
theorem returns_report {w : World ℝ} {c : List (StmtCall ℝ)} {x : Nat} {ys : List ℝ} (hN : ((w.after c).sig x).numbers = .real ys)
    (ho : (w.after c).out = w.out) (hne : ys ≠ []) {lo hi : ℝ} {i j : Nat} (h1 : IsFirstMin (fun x => x) ys i lo)
    (h2 : IsFirstMax (fun x => x) ys j hi) : Returns w (c ++ [statisticsOf x])
      [report ys.sum ys.length (ys.sum / ys.length) (Real.sqrt ((ys.map fun x => x * x).sum / ys.length)) lo i hi j] := by
  refine returns_of ?_
  rw [after_append]
  generalize w.after c = w1 at *
  simp only [World.after, List.foldl_cons, List.foldl_nil, statisticsOf, StmtCall.meaning, StatCall.meaning, hN, Numbers.flat, ho,
    summary_report hne h1 h2]

/-- C89: the statistics of a real signal which is not empty. The average is the sum divided by the number of points, the square of the root
    mean square is the mean of the squares; minimum and maximum are the first smallest and the first largest point with their
    positions. The average lies between minimum and maximum, its absolute value is at most the root mean square, and this is at most the
    largest absolute value. -/
theorem C89_statistics (w : World ℝ) (x : Nat) (xs : List ℝ) (h : w.Holds x xs) :
    ∃ a r lo i hi j, Returns w [statisticsOf x] [report xs.sum xs.length a r lo i hi j] ∧
      a * xs.length = xs.sum ∧ 0 ≤ r ∧ r ^ 2 * xs.length = (xs.map fun x => x * x).sum ∧
      xs[i]? = some lo ∧ (∀ x ∈ xs, lo ≤ x) ∧ (∀ (k : Nat) x, k < i → xs[k]? = some x → lo < x) ∧
      xs[j]? = some hi ∧ (∀ x ∈ xs, x ≤ hi) ∧ (∀ (k : Nat) x, k < j → xs[k]? = some x → x < hi) ∧
      lo ≤ a ∧ a ≤ hi ∧ |a| ≤ r ∧ r ≤ max |lo| |hi| := by
  obtain ⟨h1, hne⟩ := h
  obtain ⟨lo, i, hi, j, hlo, hhi⟩ := exists_extremes hne
  have hn := length_pos_real hne
  refine ⟨_, _, lo, i, hi, j, returns_report (c := []) h1 rfl hne hlo hhi, div_mul_cancel₀ _ hn.ne', Real.sqrt_nonneg _, ?_,
    hlo.1, hlo.2.1, hlo.2.2, hhi.1, hhi.2.1, hhi.2.2, ?_, ?_, ?_, ?_⟩
  · rw [Real.sq_sqrt (div_nonneg (sumSq_nonneg _) hn.le), div_mul_cancel₀ _ hn.ne']
  · rw [le_div_iff₀ hn, mul_comm]; exact sum_lower xs lo hlo.2.1
  · rw [div_le_iff₀ hn, mul_comm]; exact sum_upper xs hi hhi.2.1
  · exact Real.abs_le_sqrt (mean_sq_le hne)
  · refine Real.sqrt_le_iff.2 ⟨le_max_of_le_left (abs_nonneg _), ?_⟩
    rw [div_le_iff₀ hn, mul_comm]
    have := sum_upper (xs.map fun x => x * x) ((max |lo| |hi|) ^ 2) (by
      intro y hy
      obtain ⟨z, hz, rfl⟩ := List.mem_map.1 hy
      have a1 := hlo.2.1 z hz
      have a2 := hhi.2.1 z hz
      simp only at a1 a2
      rw [← pow_two]
      refine sq_le_sq' ?_ ?_
      · have := neg_abs_le lo; have := le_max_left |lo| |hi|; linarith
      · have := le_abs_self hi; have := le_max_right |lo| |hi|; linarith)
    rwa [List.length_map] at this

/-- C89: `statistics` agrees with `sum` and `sum_sq`. -/
theorem C89_sums (w : World ℝ) (x : Nat) (xs : List ℝ) (h : w.Holds x xs) :
    ∃ a r lo i hi j, Returns w [.sum false false x, .sum true false x, statisticsOf x]
      [.real (.ok (a * xs.length)), .real (.ok (r ^ 2 * xs.length)), report (a * xs.length) xs.length a r lo i hi j] := by
  obtain ⟨h1, hne⟩ := h
  obtain ⟨lo, i, hi, j, hlo, hhi⟩ := exists_extremes hne
  have hn := length_pos_real hne
  refine ⟨xs.sum / xs.length, Real.sqrt ((xs.map fun x => x * x).sum / xs.length), lo, i, hi, j, returns_of ?_⟩
  rw [Real.sq_sqrt (div_nonneg (sumSq_nonneg _) hn.le), div_mul_cancel₀ _ hn.ne', div_mul_cancel₀ _ hn.ne']
  simp only [World.after, List.foldl_cons, List.foldl_nil, statisticsOf, StmtCall.meaning, StatCall.meaning, sumMeaning, h1, Numbers.flat,
    summary_report hne hlo hhi, Bool.false_eq_true, if_false, if_true, List.map_id', List.append_assoc, List.cons_append, List.nil_append]

/-- C89: `offset(c)` moves the average, the minimum and the maximum by `c`, the positions stay, and the mean square grows by `2 c a + c²`. -/
theorem C89_offset (w : World ℝ) (x : Nat) (xs : List ℝ) (h : w.Holds x xs) (c : ℝ) :
    ∃ n total a r lo i hi j r', Returns w [statisticsOf x] [report total n a r lo i hi j] ∧
      Returns w [.single x (.offset c), statisticsOf x] [report (total + n * c) n (a + c) r' (lo + c) i (hi + c) j] ∧
      0 ≤ r' ∧ r' ^ 2 = r ^ 2 + 2 * c * a + c ^ 2 := by
  obtain ⟨h1, hne⟩ := h
  obtain ⟨lo, i, hi, j, hlo, hhi⟩ := exists_extremes hne
  have hn := length_pos_real hne
  have hm : StrictMono fun x : ℝ => x + c := fun a b hab => by simpa using hab
  have e := returns_report (w := w) (c := [.single x (.offset c)]) (x := x) (ys := xs.map (· + c)) (by
    simp only [World.after, List.foldl_cons, List.foldl_nil, StmtCall.meaning, sig_put_same, Call.meaning, h1, Numbers.mapLists])
    (by simp [World.after, StmtCall.meaning, World.put]) (by simpa using hne) (hlo.map_mono hm) (hhi.map_mono hm)
  rw [sum_map_add_const, List.length_map, sumSq_add_const] at e
  have ha : (xs.sum + xs.length * c) / xs.length = xs.sum / xs.length + c := by field_simp
  rw [ha] at e
  refine ⟨_, _, _, _, lo, i, hi, j, _, returns_report (c := []) h1 rfl hne hlo hhi, e, Real.sqrt_nonneg _, ?_⟩
  rw [Real.sq_sqrt (div_nonneg (sumSq_nonneg _) hn.le), Real.sq_sqrt]
  · field_simp
  · rw [← sumSq_add_const]; exact div_nonneg (sumSq_nonneg _) hn.le

/-- C89: `scale(c)` with a positive number multiplies sum, average, root mean square, minimum and maximum; the positions stay. -/
theorem C89_scale (w : World ℝ) (x : Nat) (xs : List ℝ) (h : w.Holds x xs) (c : ℝ) (hc : 0 < c) :
    ∃ n total a r lo i hi j, Returns w [statisticsOf x] [report total n a r lo i hi j] ∧
      Returns w [.single x (.scale c), statisticsOf x] [report (total * c) n (a * c) (r * c) (lo * c) i (hi * c) j] := by
  obtain ⟨h1, hne⟩ := h
  obtain ⟨lo, i, hi, j, hlo, hhi⟩ := exists_extremes hne
  have hn := length_pos_real hne
  have hm : StrictMono fun x : ℝ => x * c := fun a b hab => mul_lt_mul_of_pos_right hab hc
  have e := returns_report (w := w) (c := [.single x (.scale c)]) (x := x) (ys := xs.map (· * c)) (by
    simp only [World.after, List.foldl_cons, List.foldl_nil, StmtCall.meaning, sig_put_same, Call.meaning, h1, Numbers.mapLists])
    (by simp [World.after, StmtCall.meaning, World.put]) (by simpa using hne) (hlo.map_mono hm) (hhi.map_mono hm)
  rw [sum_map_mul_const, List.length_map, sumSq_mul_const, mul_div_right_comm, mul_div_right_comm,
    Real.sqrt_mul (div_nonneg (sumSq_nonneg _) hn.le), Real.sqrt_sq hc.le] at e
  exact ⟨_, _, _, _, lo, i, hi, j, returns_report (c := []) h1 rfl hne hlo hhi, e⟩

/-- C89: `scale(-c)` with a positive `c` exchanges minimum and maximum. -/
theorem C89_scale_negative (w : World ℝ) (x : Nat) (xs : List ℝ) (h : w.Holds x xs) (c : ℝ) (hc : 0 < c) :
    ∃ n total a r lo i hi j, Returns w [statisticsOf x] [report total n a r lo i hi j] ∧
      Returns w [.single x (.scale (-c)), statisticsOf x]
        [report (total * -c) n (a * -c) (r * c) (hi * -c) j (lo * -c) i] := by
  obtain ⟨h1, hne⟩ := h
  obtain ⟨lo, i, hi, j, hlo, hhi⟩ := exists_extremes hne
  have hn := length_pos_real hne
  have hm : StrictAnti fun x : ℝ => x * -c := fun a b hab => mul_lt_mul_of_neg_right hab (by linarith)
  have e := returns_report (w := w) (c := [.single x (.scale (-c))]) (x := x) (ys := xs.map (· * -c)) (by
    simp only [World.after, List.foldl_cons, List.foldl_nil, StmtCall.meaning, sig_put_same, Call.meaning, h1, Numbers.mapLists])
    (by simp [World.after, StmtCall.meaning, World.put]) (by simpa using hne) (hhi.map_anti hm) (hlo.map_anti hm)
  rw [sum_map_mul_const, List.length_map, sumSq_mul_const, mul_div_right_comm, mul_div_right_comm,
    Real.sqrt_mul (div_nonneg (sumSq_nonneg _) hn.le), neg_sq, Real.sqrt_sq hc.le] at e
  exact ⟨_, _, _, _, lo, i, hi, j, returns_report (c := []) h1 rfl hne hlo hhi, e⟩

/-- C89: the average removed. After `offset(-a)` the average is zero and the mean square is the variance `r² - a²`, which is zero if and only
    if all points are the same. -/
theorem C89_variance (w : World ℝ) (x : Nat) (xs : List ℝ) (h : w.Holds x xs) :
    ∃ n total a r lo i hi j lo' hi' r', Returns w [statisticsOf x] [report total n a r lo i hi j] ∧
      Returns w [.single x (.offset (-a)), statisticsOf x] [report 0 n 0 r' lo' i hi' j] ∧
      0 ≤ r' ∧ r' ^ 2 = r ^ 2 - a ^ 2 ∧ (r' = 0 ↔ ∀ y ∈ xs, y = a) := by
  obtain ⟨h1, hne⟩ := h
  obtain ⟨lo, i, hi, j, hlo, hhi⟩ := exists_extremes hne
  have hn := length_pos_real hne
  set a := xs.sum / xs.length with hadef
  have hm : StrictMono fun x : ℝ => x + -a := fun p q hab => by simpa using hab
  have e := returns_report (w := w) (c := [.single x (.offset (-a))]) (x := x) (ys := xs.map (· + -a)) (by
    simp only [World.after, List.foldl_cons, List.foldl_nil, StmtCall.meaning, sig_put_same, Call.meaning, h1, Numbers.mapLists])
    (by simp [World.after, StmtCall.meaning, World.put]) (by simpa using hne) (hlo.map_mono hm) (hhi.map_mono hm)
  have hs : (xs.map (· + -a)).sum = 0 := by
    rw [sum_map_add_const, hadef]; field_simp; ring
  rw [hs, zero_div, List.length_map] at e
  refine ⟨_, _, a, _, lo, i, hi, j, _, _, _, returns_report (c := []) h1 rfl hne hlo hhi, e, Real.sqrt_nonneg _, ?_, ?_⟩
  · rw [Real.sq_sqrt (div_nonneg (sumSq_nonneg _) hn.le), Real.sq_sqrt (div_nonneg (sumSq_nonneg _) hn.le)]
    exact variance_identity hne
  · rw [Real.sqrt_eq_zero (div_nonneg (sumSq_nonneg _) hn.le), div_eq_zero_iff]
    constructor
    · rintro (hz | hz)
      · intro y hy
        have := sumSq_eq_zero _ hz (y + -a) (List.mem_map_of_mem hy)
        linarith
      · exact absurd hz hn.ne'
    · intro hy
      left
      have : xs.map (· + -a) = List.replicate xs.length 0 := by
        rw [List.eq_replicate_iff]
        refine ⟨by simp, fun b hb => ?_⟩
        obtain ⟨y, hy', rfl⟩ := List.mem_map.1 hb
        rw [hy y hy']; ring
      rw [this]; simp

/-- C89: a signal which is not zero everywhere can be normalised: after `scale(1 / r)` the root mean square is one. -/
theorem C89_normalise (w : World ℝ) (x : Nat) (xs : List ℝ) (h : w.Holds x xs) (hz : ∃ y ∈ xs, y ≠ 0) :
    ∃ n total a r lo i hi j, Returns w [statisticsOf x] [report total n a r lo i hi j] ∧ 0 < r ∧
      Returns w [.single x (.scale (1 / r)), statisticsOf x] [report (total / r) n (a / r) 1 (lo / r) i (hi / r) j] := by
  obtain ⟨h1, hne⟩ := h
  have hn := length_pos_real hne
  set r := Real.sqrt ((xs.map fun x => x * x).sum / xs.length) with hr
  have hpos : 0 < r := by
    refine lt_of_le_of_ne (Real.sqrt_nonneg _) fun h0 => ?_
    obtain ⟨y, hy, hy0⟩ := hz
    have h0 := h0.symm
    rw [hr, Real.sqrt_eq_zero (div_nonneg (sumSq_nonneg _) hn.le), div_eq_zero_iff] at h0
    rcases h0 with h0 | h0
    · exact hy0 (sumSq_eq_zero _ h0 y hy)
    · exact hn.ne' h0
  obtain ⟨lo, i, hi, j, hlo, hhi⟩ := exists_extremes hne
  have hc : 0 < 1 / r := by positivity
  have hm : StrictMono fun x : ℝ => x * (1 / r) := fun a b hab => mul_lt_mul_of_pos_right hab hc
  have e := returns_report (w := w) (c := [.single x (.scale (1 / r))]) (x := x) (ys := xs.map (· * (1 / r))) (by
    simp only [World.after, List.foldl_cons, List.foldl_nil, StmtCall.meaning, sig_put_same, Call.meaning, h1, Numbers.mapLists])
    (by simp [World.after, StmtCall.meaning, World.put]) (by simpa using hne) (hlo.map_mono hm) (hhi.map_mono hm)
  rw [sum_map_mul_const, List.length_map, sumSq_mul_const, mul_div_right_comm, mul_div_right_comm,
    Real.sqrt_mul (div_nonneg (sumSq_nonneg _) hn.le), Real.sqrt_sq hc.le, ← hr] at e
  simp only [mul_one_div, div_self hpos.ne'] at e
  exact ⟨_, _, _, r, lo, i, hi, j, returns_report (c := []) h1 rfl hne hlo hhi, hpos, e⟩

/-- The order of the points changes only the positions. -/
theorem report_perm (w : World ℝ) (x : Nat) (xs ys : List ℝ) (h : w.Holds x xs) (hp : ys.Perm xs) (c : List (StmtCall ℝ))
    (hN : ((w.after c).sig x).numbers = .real ys) (ho : (w.after c).out = w.out) :
    ∃ n total a r lo i hi j i' j', Returns w [statisticsOf x] [report total n a r lo i hi j] ∧
      Returns w (c ++ [statisticsOf x]) [report total n a r lo i' hi j'] := by
  obtain ⟨h1, hne⟩ := h
  obtain ⟨lo, i, hi, j, hlo, hhi⟩ := exists_extremes hne
  have hne' : ys ≠ [] := by rintro rfl; exact hne hp.nil_eq.symm
  obtain ⟨lo', i', hi', j', hlo', hhi'⟩ := exists_extremes hne'
  obtain ⟨rfl, rfl⟩ := extremes_perm hp hlo' hhi' hlo hhi
  have e := returns_report hN ho hne' hlo' hhi'
  rw [hp.sum_eq, hp.length_eq, (hp.map _).sum_eq] at e
  exact ⟨_, _, _, _, _, i, _, j, i', j', returns_report (c := []) h1 rfl hne hlo hhi, e⟩

/-- C89: `reverse`, `swap_halves`, `fft_shift` and `ifft_shift` change nothing but the positions. -/
theorem C89_order (w : World ℝ) (x : Nat) (xs : List ℝ) (h : w.Holds x xs) (c : Call ℝ) (hc : c = .reverse ∨ c = .swapHalves ∨ c = .swapHalvesBack) :
    ∃ n total a r lo i hi j i' j', Returns w [statisticsOf x] [report total n a r lo i hi j] ∧
      Returns w [.single x c, statisticsOf x] [report total n a r lo i' hi j'] := by
  have ho : (w.after [.single x c]).out = w.out := by simp [World.after, StmtCall.meaning, World.put]
  rcases hc with rfl | rfl | rfl
  · refine report_perm w x xs xs.reverse h (List.reverse_perm _) [.single x .reverse] ?_ ho
    simp only [World.after, List.foldl_cons, List.foldl_nil, StmtCall.meaning, sig_put_same, Call.meaning, h.1, Numbers.rearrange]
  · refine report_perm w x xs _ h (rotateRight_perm xs (xs.length / 2)) [.single x .swapHalves] ?_ ho
    simp only [World.after, List.foldl_cons, List.foldl_nil, StmtCall.meaning, sig_put_same, Call.meaning, h.1, Numbers.rearrange]
  · refine report_perm w x xs (rotateLeft xs (xs.length / 2)) h ?_ [.single x .swapHalvesBack] ?_ ho
    · unfold rotateLeft
      exact List.perm_append_comm.trans (by rw [List.take_append_drop])
    · simp only [World.after, List.foldl_cons, List.foldl_nil, StmtCall.meaning, sig_put_same, Call.meaning, h.1, Numbers.rearrange]

/-- C89: after `square` the average is the old mean square, and all points are at least zero. -/
theorem C89_square (w : World ℝ) (x : Nat) (xs : List ℝ) (h : w.Holds x xs) :
    ∃ n total a r lo i hi j total' r' lo' i' hi' j', Returns w [statisticsOf x] [report total n a r lo i hi j] ∧
      Returns w [.single x .square, statisticsOf x] [report total' n (r ^ 2) r' lo' i' hi' j'] ∧ 0 ≤ lo' ∧
      total' = r ^ 2 * n := by
  obtain ⟨h1, hne⟩ := h
  obtain ⟨lo, i, hi, j, hlo, hhi⟩ := exists_extremes hne
  have hn := length_pos_real hne
  have hne' : xs.map (fun x => x * x) ≠ [] := by simpa using hne
  obtain ⟨lo', i', hi', j', hlo', hhi'⟩ := exists_extremes hne'
  have e := returns_report (w := w) (c := [.single x .square]) (x := x) (ys := xs.map fun x => x * x) (by
    simp only [World.after, List.foldl_cons, List.foldl_nil, StmtCall.meaning, sig_put_same, Call.meaning, h1, Numbers.mapLists])
    (by simp [World.after, StmtCall.meaning, World.put]) hne' hlo' hhi'
  rw [List.length_map] at e
  have hsq := Real.sq_sqrt (div_nonneg (sumSq_nonneg xs) hn.le)
  refine ⟨xs.length, _, _, Real.sqrt ((xs.map fun x => x * x).sum / xs.length), lo, i, hi, j, _, _, lo', i', hi', j',
    returns_report (c := []) h1 rfl hne hlo hhi, by rw [hsq]; exact e, ?_, by rw [hsq, div_mul_cancel₀ _ hn.ne']⟩
  obtain ⟨y, -, rfl⟩ := List.mem_map.1 (List.mem_of_getElem? hlo'.1)
  exact mul_self_nonneg y

/-- C89: the sum of two signals: sums and averages add, the root mean square is at most the sum of the two, and minimum and maximum lie
    between the sums of the two minima and the two maxima. -/
theorem C89_add (w : World ℝ) (x y : Nat) (xs ys : List ℝ) (h : w.Holds x xs) (hy : w.Holds y ys) (hag : (w.sig x).Agrees (w.sig y))
    (hl : xs.length = ys.length) :
    ∃ n t1 a1 r1 lo1 i1 hi1 j1 t2 a2 r2 lo2 i2 hi2 j2 r lo i hi j,
      Returns w [statisticsOf x] [report t1 n a1 r1 lo1 i1 hi1 j1] ∧ Returns w [statisticsOf y] [report t2 n a2 r2 lo2 i2 hi2 j2] ∧
      Returns w [.binary x y (.elem .add), statisticsOf x] [.result (.ok ()), report (t1 + t2) n (a1 + a2) r lo i hi j] ∧
      r ≤ r1 + r2 ∧ lo1 + lo2 ≤ lo ∧ hi ≤ hi1 + hi2 := by
  obtain ⟨h1, hne⟩ := h
  obtain ⟨h2, hne2⟩ := hy
  obtain ⟨lo1, i1, hi1, j1, hlo1, hhi1⟩ := exists_extremes hne
  obtain ⟨lo2, i2, hi2, j2, hlo2, hhi2⟩ := exists_extremes hne2
  have hzl : (List.zipWith (· + ·) xs ys).length = xs.length := by simp [hl]
  have hz : List.zipWith (· + ·) xs ys ≠ [] := by
    intro hz; rw [hz] at hzl; exact hne (List.length_eq_zero_iff.1 hzl.symm)
  obtain ⟨lo, i, hi, j, hlo, hhi⟩ := exists_extremes hz
  have hn := length_pos_real hne
  have hsum : (List.zipWith (· + ·) xs ys).sum = xs.sum + ys.sum := by
    rw [List.sum_add_sum_eq_sum_zipWith_of_length_eq _ _ hl]
  have hmem : ∀ z ∈ List.zipWith (· + ·) xs ys, ∃ a ∈ xs, ∃ b ∈ ys, z = a + b := by
    intro z hz
    rw [← List.map_uncurry_zip_eq_zipWith] at hz
    obtain ⟨⟨a, b⟩, hab, rfl⟩ := List.mem_map.1 hz
    exact ⟨a, (List.of_mem_zip hab).1, b, (List.of_mem_zip hab).2, rfl⟩
  have e2 := returns_report (w := w) (c := []) h2 rfl hne2 hlo2 hhi2
  refine ⟨xs.length, _, _, _, lo1, i1, hi1, j1, _, _, _, lo2, i2, hi2, j2,
    Real.sqrt (((List.zipWith (· + ·) xs ys).map fun x => x * x).sum / xs.length), lo, i, hi, j, returns_report (c := []) h1 rfl hne hlo1 hhi1,
    by rw [hl]; exact e2, returns_of ?_, ?_, ?_, ?_⟩
  rotate_left
  · exact minkowski xs ys hl
  · obtain ⟨a, ha, b, hb, rfl⟩ := hmem lo (List.mem_of_getElem? hlo.1)
    have := hlo1.2.1 a ha; have := hlo2.2.1 b hb
    simp only at *; linarith
  · obtain ⟨a, ha, b, hb, rfl⟩ := hmem hi (List.mem_of_getElem? hhi.1)
    have := hhi1.2.1 a ha; have := hhi2.2.1 b hb
    simp only at *; linarith
  · have hc : (w.sig x).numbers.count = (w.sig y).numbers.count := by rw [h1, h2]; exact hl
    simp only [World.after, List.foldl_cons, List.foldl_nil, statisticsOf, StmtCall.meaning, elem_meaning .add hag hc, StatCall.meaning,
      sig_put_same, h1, h2, Numbers.combine, Numbers.flat]
    have := summary_report hz hlo hhi
    rw [hzl, hsum, add_div] at this
    have e : List.zipWith ElemOp.add.real xs ys = List.zipWith (· + ·) xs ys := rfl
    rw [e, this]
    simp only [World.put, List.append_assoc, List.cons_append, List.nil_append, ← hl]

/-- C89: `statistics_split(k)` and `split_into` with `k` targets agree: part `i` of the one describes target `i` of the other. -/
theorem C89_split (w : World ℝ) (x : Nat) (xs : List ℝ) (h : w.Holds x xs) (ys : List Nat) (hy : ys ≠ []) (hn : ys.Nodup)
    (hd : ys.length ∣ xs.length) (h16 : ys.length ≤ 16) :
    ∃ parts : List (Statistics ℝ), Returns w [.stats x (.splitReal Real.sqrt ys.length)] [.statsSplit (.ok parts)] ∧
      parts.length = ys.length ∧ ∀ (i : Nat) y s, ys[i]? = some y → parts[i]? = some s →
        Returns w [.split x ys, statisticsOf y] [.result (.ok ()), .stats s] := by
  obtain ⟨h1, hne⟩ := h
  refine ⟨(List.range ys.length).map fun i => realSummary Real.sqrt (everyNth ys.length i xs), returns_of ?_, by simp, ?_⟩
  · simp only [World.after, List.foldl_cons, List.foldl_nil, StmtCall.meaning, StatCall.meaning, h1, Numbers.flat, splitInParts, if_pos h16]
  · intro i y s hi hs
    obtain ⟨hlt, rfl⟩ := List.getElem?_eq_some_iff.1 hi
    rw [List.getElem?_map, List.getElem?_range hlt, Option.map_some, Option.some.injEq] at hs
    subst hs
    refine returns_of ?_
    have hc : ys ≠ [] ∧ ys.length ∣ (w.sig x).numbers.flat.length := ⟨hy, by rw [h1]; exact hd⟩
    have hs : (StmtCall.split x ys).meaning w = ⟨fun y => if y ∈ ys then
        { w.sig y with numbers := (w.sig x).numbers.rearrange fun _ l => everyNth ys.length (ys.idxOf y) l } else w.sig y,
        w.out ++ [.result (.ok ())]⟩ := if_pos hc
    simp only [World.after, List.foldl_cons, List.foldl_nil, hs, statisticsOf]
    simp only [StmtCall.meaning, StatCall.meaning, List.getElem_mem, if_true, h1, Numbers.rearrange, Numbers.flat,
      hn.idxOf_getElem i hlt, List.append_assoc, List.cons_append, List.nil_append]

/-- C89: the parts of `statistics_split(k)` add up to `statistics`, and the first minimum (maximum), at position `i`, is the first one of
    part `i mod k`, where it stands at position `i / k`. -/
theorem C89_split_total (w : World ℝ) (x : Nat) (xs : List ℝ) (h : w.Holds x xs) (k : Nat) (hk : 1 ≤ k) (h16 : k ≤ 16) :
    ∃ (parts : List (Statistics ℝ)) (n : Nat) (total a r lo : ℝ) (i : Nat) (hi : ℝ) (j : Nat),
      Returns w [.stats x (.splitReal Real.sqrt k)] [.statsSplit (.ok parts)] ∧ Returns w [statisticsOf x] [report total n a r lo i hi j] ∧
      (parts.map (·.count)).sum = n ∧ (parts.map (·.sum)).sum = total ∧
      (∃ s, parts[i % k]? = some s ∧ s.min = .fin lo ∧ s.minIndex = i / k) ∧
      ∃ s, parts[j % k]? = some s ∧ s.max = .fin hi ∧ s.maxIndex = j / k := by
  obtain ⟨h1, hne⟩ := h
  obtain ⟨lo, i, hi, j, hlo, hhi⟩ := exists_extremes hne
  refine ⟨(List.range k).map fun i => realSummary Real.sqrt (everyNth k i xs), _, _, _, _, lo, i, hi, j, returns_of ?_,
    returns_report (c := []) h1 rfl hne hlo hhi, ?_, ?_, ?_, ?_⟩
  · simp only [World.after, List.foldl_cons, List.foldl_nil, StmtCall.meaning, StatCall.meaning, h1, Numbers.flat, splitInParts, if_pos h16]
  · rw [List.map_map]; exact length_parts hk xs
  · rw [List.map_map]; exact sum_parts hk xs
  · refine ⟨realSummary Real.sqrt (everyNth k (i % k) xs), by rw [List.getElem?_map, List.getElem?_range (Nat.mod_lt _ hk)]; rfl, ?_⟩
    simp only [realSummary, summary, (hlo.part hk).firstWith, and_self]
  · refine ⟨realSummary Real.sqrt (everyNth k (j % k) xs), by rw [List.getElem?_map, List.getElem?_range (Nat.mod_lt _ hk)]; rfl, ?_⟩
    simp only [realSummary, summary, (hhi.part hk).firstWith, and_self]

theorem leftFold_add {xs : List ℝ} (h : xs ≠ []) : leftFold (· + ·) xs = .ok xs.sum := by
  cases xs with
  | nil => exact absurd rfl h
  | cons y ys =>
    have : ∀ (l : List ℝ) (a : ℝ), l.foldl (· + ·) a = a + l.sum := by
      intro l
      induction l with
      | nil => simp
      | cons b l ih => intro a; rw [List.foldl_cons, ih, List.sum_cons]; ring
    rw [leftFold, this, List.sum_cons]

theorem leftFold_min {xs : List ℝ} {i : Nat} {lo : ℝ} (h : IsFirstMin (fun x => x) xs i lo) : leftFold min xs = .ok lo := by
  cases xs with
  | nil => exact absurd h.1 (by simp)
  | cons y ys =>
    have key : ∀ (l : List ℝ) (a : ℝ), l.foldl min a ∈ a :: l ∧ ∀ z ∈ a :: l, l.foldl min a ≤ z := by
      intro l
      induction l with
      | nil => simp
      | cons b l ih =>
        intro a
        obtain ⟨k1, k2⟩ := ih (min a b)
        rw [List.foldl_cons]
        constructor
        · rcases List.mem_cons.1 k1 with k1 | k1
          · rcases min_choice a b with hm | hm <;> rw [hm] at k1 ⊢ <;> rw [k1] <;> simp
          · simp [k1]
        · intro z hz
          have k3 := k2 (min a b) (by simp)
          rcases List.mem_cons.1 hz with rfl | hz
          · exact k3.trans (min_le_left _ _)
          · rcases List.mem_cons.1 hz with rfl | hz
            · exact k3.trans (min_le_right _ _)
            · exact k2 z (by simp [hz])
    obtain ⟨k1, k2⟩ := key ys y
    rw [leftFold, le_antisymm (k2 lo (List.mem_of_getElem? h.1)) (h.2.1 _ k1)]

theorem leftFold_max {xs : List ℝ} {j : Nat} {hi : ℝ} (h : IsFirstMax (fun x => x) xs j hi) : leftFold max xs = .ok hi := by
  cases xs with
  | nil => exact absurd h.1 (by simp)
  | cons y ys =>
    have key : ∀ (l : List ℝ) (a : ℝ), l.foldl max a ∈ a :: l ∧ ∀ z ∈ a :: l, z ≤ l.foldl max a := by
      intro l
      induction l with
      | nil => simp
      | cons b l ih =>
        intro a
        obtain ⟨k1, k2⟩ := ih (max a b)
        rw [List.foldl_cons]
        constructor
        · rcases List.mem_cons.1 k1 with k1 | k1
          · rcases max_choice a b with hm | hm <;> rw [hm] at k1 ⊢ <;> rw [k1] <;> simp
          · simp [k1]
        · intro z hz
          have k3 := k2 (max a b) (by simp)
          rcases List.mem_cons.1 hz with rfl | hz
          · exact (le_max_left _ _).trans k3
          · rcases List.mem_cons.1 hz with rfl | hz
            · exact (le_max_right _ _).trans k3
            · exact k2 z (by simp [hz])
    obtain ⟨k1, k2⟩ := key ys y
    have : ys.foldl max y = hi := le_antisymm (h.2.1 _ k1) (k2 hi (List.mem_of_getElem? h.1))
    rw [leftFold, this]

/-- C89: `map_aggregate` agrees with the statistics: the sum, the minimum and the maximum. -/
theorem C89_aggregate (w : World ℝ) (x : Nat) (xs : List ℝ) (h : w.Holds x xs) :
    ∃ n total a r lo i hi j, Returns w [statisticsOf x] [report total n a r lo i hi j] ∧
      Returns w [.stats x (.aggregate (fun y _ => y) (· + ·))] [.real (.ok total)] ∧
      Returns w [.stats x (.aggregate (fun y _ => y) min)] [.real (.ok lo)] ∧
      Returns w [.stats x (.aggregate (fun y _ => y) max)] [.real (.ok hi)] := by
  obtain ⟨h1, hne⟩ := h
  obtain ⟨lo, i, hi, j, hlo, hhi⟩ := exists_extremes hne
  have hrun : ∀ (agg : ℝ → ℝ → ℝ) (z : ℝ), leftFold agg xs = .ok z →
      Returns w [.stats x (.aggregate (fun y _ => y) agg)] [.real (.ok z)] := by
    intro agg z hz
    refine returns_of ?_
    have : xs.mapIdx (fun (_ : Nat) y => y) = xs := by
      apply List.ext_getElem? ; intro q; simp
    simp only [World.after, List.foldl_cons, List.foldl_nil, StmtCall.meaning, StatCall.meaning, h1, Numbers.aggregateReal, this, hz]
  refine ⟨_, _, _, _, lo, i, hi, j, returns_report (c := []) h1 rfl hne hlo hhi, hrun _ _ ?_, hrun _ _ ?_, hrun _ _ ?_⟩
  · exact leftFold_add hne
  · exact leftFold_min hlo
  · exact leftFold_max hhi

/-- C89: the statistics of complex numbers and of their parts. Sum and average have the sums and averages of the real and of the imaginary
    parts as parts; the first number with the smallest (largest) magnitude is the minimum (maximum), as it is for the vector of
    the magnitudes. `norm` is the function which computes magnitudes. -/
theorem C89_complex (w : World ℝ) (x y : Nat) (cs : List (Cx ℝ)) (h : (w.sig x).numbers = .complex cs) (hne : cs ≠ [])
    (norm : Cx ℝ → ℝ) (sqrt : Cx ℝ → Cx ℝ) :
    ∃ (total a : Cx ℝ) (rms lo : Cx ℝ) (i : Nat) (hi : Cx ℝ) (j n : Nat) (r1 lo1 : ℝ) (i1 : Nat) (hi1 : ℝ) (j1 : Nat) (r2 lo2 : ℝ) (i2 : Nat)
      (hi2 : ℝ) (j2 : Nat) (t3 a3 r3 : ℝ),
      Returns w [.stats x (.complex norm sqrt)] [.statsComplex ⟨total, n, some a, some rms, .fin lo, i, .fin hi, j⟩] ∧
      Returns w [.get x y Cx.re, statisticsOf y] [report total.re n a.re r1 lo1 i1 hi1 j1] ∧
      Returns w [.get x y Cx.im, statisticsOf y] [report total.im n a.im r2 lo2 i2 hi2 j2] ∧
      Returns w [.get x y norm, statisticsOf y] [report t3 n a3 r3 (norm lo) i (norm hi) j] ∧ cs[i]? = some lo ∧ cs[j]? = some hi := by
  obtain ⟨lo, i, hi, j, hlo, hhi⟩ := exists_extremes (xs := cs.map norm) (by simpa using hne)
  obtain ⟨lo', hlo', rfl⟩ : ∃ c, cs[i]? = some c ∧ norm c = lo := by
    have := hlo.1; rw [List.getElem?_map] at this; exact Option.map_eq_some_iff.1 this
  obtain ⟨hi', hhi', rfl⟩ : ∃ c, cs[j]? = some c ∧ norm c = hi := by
    have := hhi.1; rw [List.getElem?_map] at this; exact Option.map_eq_some_iff.1 this
  have m1 : IsFirstMin norm cs i lo' := ⟨hlo', fun c hc => hlo.2.1 _ (List.mem_map_of_mem hc), fun k c hk hc =>
    hlo.2.2 k (norm c) hk (by rw [List.getElem?_map, hc]; rfl)⟩
  have m2 : IsFirstMax norm cs j hi' := ⟨hhi', fun c hc => hhi.2.1 _ (List.mem_map_of_mem hc), fun k c hk hc =>
    hhi.2.2 k (norm c) hk (by rw [List.getElem?_map, hc]; rfl)⟩
  obtain ⟨lo1, i1, hi1, j1, hlo1, hhi1⟩ := exists_extremes (xs := cs.map Cx.re) (by simpa using hne)
  obtain ⟨lo2, i2, hi2, j2, hlo2, hhi2⟩ := exists_extremes (xs := cs.map Cx.im) (by simpa using hne)
  have hget : ∀ f : Cx ℝ → ℝ, ((w.after [.get x y f]).sig y).numbers = .real (cs.map f) ∧ (w.after [.get x y f]).out = w.out := by
    intro f
    simp only [World.after, List.foldl_cons, List.foldl_nil, StmtCall.meaning, h, Numbers.asCx, World.put, Function.update_self,
      List.append_nil, and_self]
  have hre : ∀ l : List (Cx ℝ), (l.map Cx.re).sum = l.sum.re ∧ (l.map Cx.im).sum = l.sum.im := by
    intro l
    induction l with
    | nil => exact ⟨rfl, rfl⟩
    | cons c l ih => exact ⟨by rw [List.map_cons, List.sum_cons, List.sum_cons, ih.1]; rfl, by rw [List.map_cons, List.sum_cons, List.sum_cons, ih.2]; rfl⟩
  have e1 := returns_report (hget Cx.re).1 (hget Cx.re).2 (by simpa using hne) hlo1 hhi1
  have e2 := returns_report (hget Cx.im).1 (hget Cx.im).2 (by simpa using hne) hlo2 hhi2
  have e3 := returns_report (hget norm).1 (hget norm).2 (by simpa using hne) hlo hhi
  rw [(hre cs).1, List.length_map] at e1
  rw [(hre cs).2, List.length_map] at e2
  rw [List.length_map] at e3
  refine ⟨cs.sum, ⟨cs.sum.re / cs.length, cs.sum.im / cs.length⟩,
    sqrt ⟨(cs.map fun x => x * x).sum.re / cs.length, (cs.map fun x => x * x).sum.im / cs.length⟩, lo', i, hi', j, cs.length, _, lo1, i1, hi1, j1, _, lo2, i2, hi2, j2,
    _, _, _, returns_of ?_, e1, e2, e3, hlo', hhi'⟩
  simp only [World.after, List.foldl_cons, List.foldl_nil, StmtCall.meaning, StatCall.meaning, h, Numbers.asCx, complexSummary, summary,
    m1.firstWith, m2.firstWith, if_neg hne]


/-! ### A case in which the hypotheses hold -/

/-- `offset`, then `statistics`, on a real vector `1, 2, 7`: the program finishes, on every schedule with the same value. -/
example (st : MultiCoreSettings) : ∃ (f : Machine ℝ) (r : ℝ),
    (∃ o, runProgram o 0 lawMachine [.single 7 (.offset .sseF64x2 0 st (-1) []), .stats 7 (.real true Real.sqrt st)] = .finished f) ∧
    f.out = [report 7 3 (7 / 3) r 0 0 6 2] := by
  have s : lawMachine.SafeAll [.single 7 (.offset .sseF64x2 0 st (-1) []), .stats 7 (.real true Real.sqrt st)] := by
    refine law_next lawMachine_shows ?_ fun m' h => law_next h trivial fun _ _ => trivial
    show AddrSafe (lawMachine.vec 7) _ _
    exact (.inl (by decide) : AlignmentAccepted 0 2 3)
  obtain ⟨f, -, ⟨o, hf⟩, -⟩ := C72_program lawMachine lawWorld _ lawMachine_shows s
  have hE := returns_report (w := lawWorld) (c := [.single 7 (.offset (-1))]) (x := 7) (ys := [0, 1, 6]) (by
    simp only [World.after, List.foldl_cons, List.foldl_nil, StmtCall.meaning, sig_put_same, Call.meaning, lawWorld, Numbers.mapLists]
    norm_num) rfl (by simp) (lo := 0) (i := 0) (hi := 6) (j := 2) ⟨rfl, by simp, by simp⟩
    ⟨rfl, by simp, fun k x hk hx => by
      rcases k with _ | _ | k
      · cases hx; norm_num
      · cases hx; norm_num
      · omega⟩
  refine ⟨f, Real.sqrt (37 / 3), ⟨o, hf⟩, ?_⟩
  have := hE lawMachine _ lawMachine_shows rfl s o f hf
  rw [this]
  simp only [lawWorld, List.nil_append]
  norm_num

theorem lawWorld_holds (x : Nat) : lawWorld.Holds x [1, 2, x] := ⟨rfl, by simp⟩

/-- The hypotheses of the other laws hold for these signals. -/
example : ∃ n total a r lo i hi j, Returns lawWorld [statisticsOf 7] [report total n a r lo i hi j] ∧ 0 < r ∧
    Returns lawWorld [.single 7 (.scale (1 / r)), statisticsOf 7] [report (total / r) n (a / r) 1 (lo / r) i (hi / r) j] :=
  C89_normalise lawWorld 7 _ (lawWorld_holds 7) ⟨1, by simp, one_ne_zero⟩

example : ∃ n t1 a1 r1 lo1 i1 hi1 j1 t2 a2 r2 lo2 i2 hi2 j2 r lo i hi j,
    Returns lawWorld [statisticsOf 0] [report t1 n a1 r1 lo1 i1 hi1 j1] ∧ Returns lawWorld [statisticsOf 1] [report t2 n a2 r2 lo2 i2 hi2 j2] ∧
    Returns lawWorld [.binary 0 1 (.elem .add), statisticsOf 0] [.result (.ok ()), report (t1 + t2) n (a1 + a2) r lo i hi j] ∧
    r ≤ r1 + r2 ∧ lo1 + lo2 ≤ lo ∧ hi ≤ hi1 + hi2 :=
  C89_add lawWorld 0 1 _ _ (lawWorld_holds 0) (lawWorld_holds 1) lawWorld_agrees rfl

example : ∃ parts : List (Statistics ℝ), Returns lawWorld [.stats 7 (.splitReal Real.sqrt 3)] [.statsSplit (.ok parts)] ∧
    parts.length = 3 ∧ ∀ (i : Nat) y s, [4, 5, 6][i]? = some y → parts[i]? = some s →
      Returns lawWorld [.split 7 [4, 5, 6], statisticsOf y] [.result (.ok ()), .stats s] :=
  C89_split lawWorld 7 _ (lawWorld_holds 7) [4, 5, 6] (by simp) (by decide) (by decide : 3 ∣ 3) (by decide)

/-- The magnitude is a norm in the sense of the environments: zero alone has the smallest one. -/
theorem magnitude_isNorm : IsNorm fun z : Cx ℝ => Real.sqrt z.normSq := by
  intro z
  have h0 : Real.sqrt (Cx.normSq (0 : Cx ℝ)) = 0 := by
    rw [show Cx.normSq (0 : Cx ℝ) = 0 from by simp [Cx.normSq], Real.sqrt_zero]
  simp only [h0]
  refine ⟨Real.sqrt_nonneg _, fun h => ?_⟩
  have hn : 0 ≤ z.normSq := by unfold Cx.normSq; nlinarith [mul_self_nonneg z.re, mul_self_nonneg z.im]
  have h1 := (Real.sqrt_eq_zero hn).1 h
  unfold Cx.normSq at h1
  have h2 : z.re = 0 := by nlinarith [mul_self_nonneg z.re, mul_self_nonneg z.im]
  have h3 : z.im = 0 := by nlinarith [mul_self_nonneg z.re, mul_self_nonneg z.im]
  ext
  · exact h2
  · exact h3

example (st : MultiCoreSettings) : lawComplexMachine.SafeAll [.stats 0 (.complex false (fun z => Real.sqrt z.normSq) id st)] :=
  law_next lawComplexMachine_shows ⟨rfl, magnitude_isNorm⟩ fun _ _ => trivial

example : ∃ (total a : Cx ℝ) (rms lo : Cx ℝ) (i : Nat) (hi : Cx ℝ) (j n : Nat),
    Returns lawComplexWorld [.stats 3 (.complex (fun z => Real.sqrt z.normSq) id)]
      [.statsComplex ⟨total, n, some a, some rms, .fin lo, i, .fin hi, j⟩] ∧ [⟨1, 2⟩, ⟨(3 : Nat), 0⟩, ⟨5, 6⟩][i]? = some lo := by
  obtain ⟨total, a, rms, lo, i, hi, j, n, _, _, _, _, _, _, _, _, _, _, _, _, _, h1, -, -, -, h2, -⟩ :=
    C89_complex lawComplexWorld 3 1 [⟨1, 2⟩, ⟨(3 : Nat), 0⟩, ⟨5, 6⟩] rfl (by simp) (fun z => Real.sqrt z.normSq) id
  exact ⟨total, a, rms, lo, i, hi, j, n, h1, h2⟩

end Dsp
