import Verif.Spec.RoundTrips
import Verif.Props.CorrLaws
import Verif.Props.BandLimited
import Verif.Lemmas.StatsLaws
/-
C92: programs which restore a vector.
-/
namespace Dsp
open DspVec

theorem restores_of {w : World ℝ} {c : List (StmtCall ℝ)} {x : Nat} (h : (w.after c).sig x = w.sig x) : Restores w c x := by
  intro m p hm hp hs o f hf
  have h1 := (run_shows hm hp hs hf).1 x
  rw [h] at h1
  have h2 := hm.1 x
  exact ⟨h1.content.trans h2.content.symm, h1.isComplex.trans h2.isComplex.symm, h1.dom.trans h2.dom.symm, h1.delta.trans h2.delta.symm⟩

theorem single_two {w : World ℝ} {x : Nat} {a b : Call ℝ} (h : b.meaning (a.meaning (w.sig x)) = w.sig x) :
    Restores w [.single x a, .single x b] x := by
  apply restores_of
  conv_run
  exact h

theorem signal_numbers {s : Signal ℝ} {N : Numbers ℝ} (h : N = s.numbers) : { s with numbers := N } = s := by rw [h]

/-! ### One vector -/

/-- C92: `reverse` is its own inverse. -/
theorem C92_reverse (w : World ℝ) (x : Nat) : Restores w [.single x .reverse, .single x .reverse] x := by
  apply single_two
  simp only [Call.meaning]
  apply signal_numbers
  cases (w.sig x).numbers <;> simp [Numbers.rearrange]

theorem rotateLeft_right {α : Type} (l : List α) : rotateLeft (rotateRight l (l.length / 2)) ((rotateRight l (l.length / 2)).length / 2) = l := by
  rw [rotateRight_length]
  unfold rotateLeft rotateRight
  have h : (l.drop (l.length - l.length / 2)).length = l.length / 2 := by simp; omega
  rw [List.drop_left' h, List.take_left' h, List.take_append_drop]

theorem rotateRight_left {α : Type} (l : List α) : rotateRight (rotateLeft l (l.length / 2)) ((rotateLeft l (l.length / 2)).length / 2) = l := by
  rw [rotateLeft_length]
  unfold rotateLeft rotateRight
  have h : (l.drop (l.length / 2)).length = l.length - l.length / 2 := by simp
  rw [List.length_append, h, List.length_take, Nat.min_eq_left (by omega), show l.length - l.length / 2 + l.length / 2 - l.length / 2 = l.length - l.length / 2 by omega,
    List.drop_left' h, List.take_left' h, List.take_append_drop]

/-- C92: `fft_shift` (`swap_halves`) and `ifft_shift` are inverse. -/
theorem C92_shift (w : World ℝ) (x : Nat) :
    Restores w [.single x .swapHalves, .single x .swapHalvesBack] x ∧ Restores w [.single x .swapHalvesBack, .single x .swapHalves] x := by
  constructor <;> apply single_two <;> simp only [Call.meaning] <;> apply signal_numbers <;>
    cases (w.sig x).numbers <;> simp only [Numbers.rearrange, rotateLeft_right, rotateRight_left]

/-- C92: `swap_halves` is its own inverse if the number of points is even. -/
theorem C92_swap_halves (w : World ℝ) (x : Nat) (he : (w.sig x).numbers.count % 2 = 0) :
    Restores w [.single x .swapHalves, .single x .swapHalves] x := by
  have key : ∀ {α : Type} (l : List α), l.length % 2 = 0 → rotateRight l (l.length / 2) = rotateLeft l (l.length / 2) := by
    intro α l h; unfold rotateRight rotateLeft; rw [show l.length - l.length / 2 = l.length / 2 by omega]
  apply single_two
  simp only [Call.meaning]
  apply signal_numbers
  cases hn : (w.sig x).numbers <;> rw [hn] at he <;> simp only [Numbers.rearrange, Numbers.count] at he ⊢ <;>
    rw [key _ he, rotateRight_left]

theorem prefixSums_cons (x : ℝ) (l : List ℝ) : prefixSums (x :: l) = x :: (prefixSums l).map (x + ·) := by
  unfold prefixSums
  rw [List.length_cons, List.range_succ_eq_map, List.map_cons, List.map_map, List.map_map]
  congr 1
  · simp

theorem prefixSums_diff (x : ℝ) (l : List ℝ) : prefixSums (x :: differences (· - ·) (x :: l)) = x :: l := by
  induction l generalizing x with
  | nil => simp [prefixSums, differences]
  | cons y l ih =>
    have e : differences (· - ·) (x :: y :: l) = (y - x) :: differences (· - ·) (y :: l) := rfl
    have := ih y
    rw [prefixSums_cons] at this ⊢
    have h2 := (List.cons.inj this).2
    rw [e, prefixSums_cons]
    congr 1
    rw [List.map_cons, List.map_map]
    congr 1
    · ring
    · conv_rhs => rw [← h2]
      refine List.map_congr_left fun z _ => ?_
      simp only [Function.comp]; ring

theorem prefixSums_diffs (l : List ℝ) : prefixSums (differencesWithStart (· - ·) l) = l := by
  cases l with
  | nil => rfl
  | cons x l => exact prefixSums_diff x l

theorem diffs_map_re (l : List (Cx ℝ)) : (differencesWithStart Cx.sub l).map Cx.re = differencesWithStart (· - ·) (l.map Cx.re) := by
  cases l with
  | nil => rfl
  | cons x l =>
    simp only [differencesWithStart, differences, List.map_cons, List.tail_cons, List.map_zipWith]
    rw [← List.map_cons (f := Cx.re), List.zipWith_map]; rfl

theorem diffs_map_im (l : List (Cx ℝ)) : (differencesWithStart Cx.sub l).map Cx.im = differencesWithStart (· - ·) (l.map Cx.im) := by
  cases l with
  | nil => rfl
  | cons x l =>
    simp only [differencesWithStart, differences, List.map_cons, List.tail_cons, List.map_zipWith]
    rw [← List.map_cons (f := Cx.im), List.zipWith_map]; rfl

theorem zip_parts (l : List (Cx ℝ)) : List.zipWith Cx.mk (l.map Cx.re) (l.map Cx.im) = l := by
  induction l with
  | nil => rfl
  | cons x l ih => simp [ih]

theorem diff_map_add (c x : ℝ) (l : List ℝ) : differences (· - ·) ((x :: l).map (c + ·)) = differences (· - ·) (x :: l) := by
  unfold differences
  rw [← List.map_tail, List.zipWith_map]
  congr 1
  funext a b; ring

theorem diffs_prefixSums (l : List ℝ) : differencesWithStart (· - ·) (prefixSums l) = l := by
  induction l with
  | nil => rfl
  | cons x l ih =>
    rw [prefixSums_cons]
    show x :: differences (· - ·) (x :: (prefixSums l).map (x + ·)) = x :: l
    congr 1
    cases l with
    | nil => rfl
    | cons y l =>
      rw [prefixSums_cons] at ih ⊢
      have ih := (List.cons.inj (ih : y :: _ = y :: l)).2
      rw [List.map_cons]
      show (x + y - x) :: differences (· - ·) ((y :: (prefixSums l).map (y + ·)).map (x + ·)) = y :: l
      rw [diff_map_add, ih]; congr 1; ring

theorem zipWith_fst (a b : List ℝ) (h : a.length = b.length) : List.zipWith (fun x _ => x) a b = a := by
  apply List.ext_getElem
  · simp [h]
  · intro i _ _; simp

theorem zipWith_snd (a b : List ℝ) (h : a.length = b.length) : List.zipWith (fun _ y => y) a b = b := by
  apply List.ext_getElem
  · simp [h]
  · intro i _ _; simp

/-- C92: `diff_with_start` and `cum_sum` are inverse. -/
theorem C92_diff_sum (w : World ℝ) (x : Nat) :
    Restores w [.single x .diffWithStart, .single x .cumSum] x ∧ Restores w [.single x .cumSum, .single x .diffWithStart] x := by
  constructor <;> apply single_two <;> simp only [Call.meaning] <;> apply signal_numbers <;>
    cases (w.sig x).numbers with
    | real l => simp only [Numbers.mapLists, prefixSums_diffs, diffs_prefixSums]
    | complex l => ?_
  · simp only [Numbers.mapLists, prefixSumsCx, diffs_map_re, diffs_map_im, prefixSums_diffs, zip_parts]
  · simp only [Numbers.mapLists]
    congr 1
    have h : ∀ a b : List (Cx ℝ), a.map Cx.re = b.map Cx.re → a.map Cx.im = b.map Cx.im → a = b := by
      intro a b h1 h2; rw [← zip_parts a, ← zip_parts b, h1, h2]
    have hl : (prefixSums (l.map Cx.re)).length = (prefixSums (l.map Cx.im)).length := by simp [prefixSums]
    have hr : (prefixSumsCx l).map Cx.re = prefixSums (l.map Cx.re) := by
      unfold prefixSumsCx
      rw [List.map_zipWith]
      exact zipWith_fst _ _ hl
    have hi : (prefixSumsCx l).map Cx.im = prefixSums (l.map Cx.im) := by
      unfold prefixSumsCx
      rw [List.map_zipWith]
      exact zipWith_snd _ _ hl
    apply h
    · rw [diffs_map_re, hr, diffs_prefixSums]
    · rw [diffs_map_im, hi, diffs_prefixSums]

/-- C92: `zero_interleave` followed by `decimatei` with the same factor. -/
theorem C92_interleave_decimate (w : World ℝ) (x f : Nat) (hf : 1 ≤ f) :
    Restores w [.single x (.zeroInterleave f), .single x (.decimate f 0)] x := by
  have key : ∀ {α : Type} (z : α) (l : List α), everyNth f 0 (interleaveSpec z f l) = l := by
    intro α z l
    rw [everyNth_eq z f l.length hf _ (interleaveSpec_length z f hf l)]
    apply List.ext_getElem
    · simp
    · intro i h1 h2
      have hi : i < l.length := h2
      rw [List.getElem_map, List.getElem_range, List.getD_eq_getElem?_getD,
        interleaveSpec_getElem? z f hf l _ (by nlinarith), if_pos (Nat.mul_mod_right f i), Nat.mul_div_cancel_left _ (by omega),
        List.getElem?_eq_getElem hi]
      rfl
  apply single_two
  simp only [Call.meaning]
  apply signal_numbers
  cases (w.sig x).numbers <;> simp only [Numbers.rearrange, key]

/-- C92: zeros at the end and back to the old length. -/
theorem C92_pad_resize (w : World ℝ) (x p : Nat) :
    Restores w [.single x (.zeroPad p .end), .single x (.resize (w.sig x).numbers.flat.length)] x := by
  have key : ∀ {α : Type} (z : α) (l : List α) (k : Nat), takeFill z l.length (l ++ List.replicate k z) = l := by
    intro α z l k
    rw [takeFill_le _ (by simp)]; simp
  have same : ∀ {α : Type} (z : α) (l : List α), takeFill z l.length l = l := by
    intro α z l
    rw [takeFill_le _ (by simp)]; simp
  apply single_two
  obtain ⟨N, d, g, e⟩ := w.sig x
  by_cases hp : p ≤ N.count
  · have h1 : (Call.zeroPad p .end).meaning (⟨N, d, g, e⟩ : Signal ℝ) = ⟨N, d, g, e⟩ := if_pos hp
    rw [h1]
    cases N with
    | real l => simp only [Call.meaning, Numbers.flat, same]
    | complex l =>
      have h2 : (fromComplex l).length = 2 * l.length := by simp [Nat.mul_comm]
      simp only [Call.meaning, Numbers.flat, h2, Nat.mul_mod_right, Nat.mul_div_cancel_left _ (show 0 < 2 by decide), same]
      simp
  · have h1 : (Call.zeroPad p .end).meaning (⟨N, d, g, e⟩ : Signal ℝ) =
      ⟨N.rearrange fun z l => padSpec z l p (surroundRight l.length p) .end, d, g, e⟩ := if_neg hp
    rw [h1]
    cases N with
    | real l => simp only [Call.meaning, Numbers.flat, Numbers.rearrange, padSpec, key]
    | complex l =>
      have h2 : (fromComplex l).length = 2 * l.length := by simp [Nat.mul_comm]
      simp only [Call.meaning, Numbers.flat, Numbers.rearrange, padSpec, h2, Nat.mul_mod_right, Nat.mul_div_cancel_left _ (show 0 < 2 by decide), key]
      simp

theorem mapLists_back {f f' : List ℝ → List ℝ} {g g' : List (Cx ℝ) → List (Cx ℝ)} (h1 : ∀ l, f' (f l) = l) (h2 : ∀ l, g' (g l) = l)
    (N : Numbers ℝ) : (N.mapLists f g).mapLists f' g' = N := by
  cases N <;> simp only [Numbers.mapLists, h1, h2]

theorem map_back {α : Type} {f g : α → α} (h : ∀ a, g (f a) = a) (l : List α) : (l.map f).map g = l := by
  rw [List.map_map, List.map_congr_left (g := id) (f := g ∘ f) (fun a _ => h a)]; simp

/-- C92: an offset is removed by the negative offset. -/
theorem C92_offset (w : World ℝ) (x : Nat) (c : ℝ) (z : Cx ℝ) :
    Restores w [.single x (.offset c), .single x (.offset (-c))] x ∧
      Restores w [.single x (.offsetComplex z), .single x (.offsetComplex (-z))] x := by
  constructor <;> apply single_two <;> simp only [Call.meaning] <;> apply signal_numbers <;> apply mapLists_back
  · exact map_back fun a => by ring
  · exact map_back fun a => by cases a; simp
  · exact fun _ => rfl
  · exact map_back fun a => by
      obtain ⟨a, b⟩ := a
      show (⟨a + z.re + -z.re, b + z.im + -z.im⟩ : Cx ℝ) = _
      congr 1 <;> ring

theorem cx_div_mul {a z : Cx ℝ} (h : z ≠ 0) : (a * z) / z = a ∧ (a / z) * z = a := by
  have hn : z.re * z.re + z.im * z.im ≠ 0 := by
    intro hz
    apply h
    have h1 : z.re = 0 := by nlinarith [mul_self_nonneg z.re, mul_self_nonneg z.im]
    have h2 : z.im = 0 := by nlinarith [mul_self_nonneg z.re, mul_self_nonneg z.im]
    cases z; cases h1; cases h2; rfl
  obtain ⟨a, b⟩ := a
  obtain ⟨c, d⟩ := z
  have hn : c ^ 2 + d ^ 2 ≠ 0 := by simpa only [pow_two] using hn
  constructor
  · show (⟨((a * c - b * d) * c + (a * d + b * c) * d) / (c * c + d * d), ((a * d + b * c) * c - (a * c - b * d) * d) / (c * c + d * d)⟩ : Cx ℝ) = _
    congr 1 <;> field_simp <;> ring
  · show (⟨(a * c + b * d) / (c * c + d * d) * c - (b * c - a * d) / (c * c + d * d) * d,
      (a * c + b * d) / (c * c + d * d) * d + (b * c - a * d) / (c * c + d * d) * c⟩ : Cx ℝ) = _
    congr 1 <;> field_simp <;> ring

/-- C92: a scale is removed by its inverse. -/
theorem C92_scale (w : World ℝ) (x : Nat) (c : ℝ) (hc : c ≠ 0) (z : Cx ℝ) (hz : z ≠ 0) :
    Restores w [.single x (.scale c), .single x (.scale (1 / c))] x ∧
      Restores w [.single x (.scaleComplex z), .single x (.scaleComplex (1 / z))] x := by
  constructor <;> apply single_two <;> simp only [Call.meaning] <;> apply signal_numbers <;> apply mapLists_back
  · exact map_back fun a => by field_simp
  · exact map_back fun a => by
      obtain ⟨a, b⟩ := a
      congr 1 <;> field_simp
  · exact fun _ => rfl
  · refine map_back fun a => ?_
    have hn : z.re * z.re + z.im * z.im ≠ 0 := by
      intro h0
      apply hz
      have h1 : z.re = 0 := by nlinarith [mul_self_nonneg z.re, mul_self_nonneg z.im]
      have h2 : z.im = 0 := by nlinarith [mul_self_nonneg z.re, mul_self_nonneg z.im]
      cases z; cases h1; cases h2; rfl
    obtain ⟨a, b⟩ := a
    obtain ⟨c, d⟩ := z
    have hn : c ^ 2 + d ^ 2 ≠ 0 := by simpa only [pow_two] using hn
    show (⟨(a * c - b * d) * ((1 * c + 0 * d) / (c * c + d * d)) - (a * d + b * c) * ((0 * c - 1 * d) / (c * c + d * d)),
      (a * c - b * d) * ((0 * c - 1 * d) / (c * c + d * d)) + (a * d + b * c) * ((1 * c + 0 * d) / (c * c + d * d))⟩ : Cx ℝ) = _
    congr 1 <;> field_simp <;> ring

/-- C92: `conj` is its own inverse. -/
theorem C92_conj (w : World ℝ) (x : Nat) : Restores w [.single x .conj, .single x .conj] x := by
  apply single_two
  simp only [Call.meaning]
  apply signal_numbers
  apply mapLists_back
  · exact fun _ => rfl
  · exact map_back fun a => by cases a; simp

theorem weight_count (f : Nat → ℝ) (N : Numbers ℝ) : (N.weight f).count = N.count := by
  cases N <;> simp [Numbers.weight, Numbers.count]

/-- C92: a window without zeros is removed by `unapply_window`. -/
theorem C92_window (w : World ℝ) (x : Nat) (win : WindowFunction ℝ)
    (h : ∀ i < (w.sig x).numbers.count, win.window i (w.sig x).numbers.count ≠ 0) :
    Restores w [.single x (.applyWindow win), .single x (.unapplyWindow win)] x ∧
      Restores w [.single x (.unapplyWindow win), .single x (.applyWindow win)] x := by
  constructor <;> apply single_two <;> simp only [Call.meaning] <;> apply signal_numbers <;> simp only [weight_count] <;>
    cases hN : (w.sig x).numbers with
    | real l => ?_
    | complex l => ?_
  all_goals
    rw [hN] at h
    simp only [Numbers.weight, Numbers.count] at h ⊢
    congr 1
    apply List.ext_getElem (by simp)
    intro i h1 h2
    have := h i h2
    simp only [List.getElem_mapIdx]
    try (apply (congrArg₂ Cx.mk ?_ ?_ : Cx.mk _ _ = Cx.mk _ _))
    all_goals (field_simp; try rfl)

/-- C92: a real vector is the real part of its complex form. -/
theorem C92_complex_real (w : World ℝ) (x : Nat) (h : (w.sig x).numbers.isComplex = false) :
    Restores w [.single x .toComplex, .single x (.complexToReal Cx.re)] x := by
  apply single_two
  simp only [Call.meaning]
  apply signal_numbers
  cases hN : (w.sig x).numbers with
  | complex l => rw [hN] at h; cases h
  | real l => simp only [Numbers.asCx, List.map_map]; congr 1; exact List.map_id l

/-- C92: a function is undone by its inverse, for real vectors in its range. `undo` and `op` are any pair of the table `MathOp.Undoes`; the
    library of functions is exact. -/
theorem C92_functions (w : World ℝ) (x : Nat) (lib : MathLib ℝ) (hlib : ∀ op a, lib.real op a = MathOp.exact op a)
    (undo op : MathOp ℝ) (P : ℝ → Prop) (hu : MathOp.Undoes undo op P) (l : List ℝ) (hl : (w.sig x).numbers = .real l) (hP : ∀ a ∈ l, P a) :
    Restores w [.single x (.mathOp lib op), .single x (.mathOp lib undo)] x := by
  apply single_two
  simp only [Call.meaning]
  apply signal_numbers
  rw [hl]
  simp only [Numbers.mapLists, List.map_map]
  congr 1
  have h : ∀ a, P a → MathOp.exact undo (MathOp.exact op a) = a := by
    intro a ha
    cases hu with
    | sin => exact Real.arcsin_sin ha.1 ha.2
    | asin => exact Real.sin_arcsin ha.1 ha.2
    | cos => exact Real.arccos_cos ha.1 ha.2
    | acos => exact Real.cos_arccos ha.1 ha.2
    | tan => exact Real.arctan_tan ha.1 ha.2
    | atan => exact Real.tan_arctan a
    | sinh => exact Real.arsinh_sinh a
    | asinh => exact Real.sinh_arsinh a
    | cosh => exact Real.arcosh_cosh ha
    | acosh => exact Real.cosh_arcosh ha
    | tanh => exact Real.artanh_tanh a
    | atanh => exact Real.tanh_artanh ha
    | exp => exact Real.log_exp a
    | ln => exact Real.exp_log ha
    | expf b h h1 => exact Real.logb_rpow h h1
    | log b h h1 => exact Real.rpow_logb h h1 ha
    | powf e h =>
      show (a ^ e) ^ (1 / e) = a
      rw [← Real.rpow_mul ha, mul_one_div_cancel h, Real.rpow_one]
  rw [List.map_congr_left (g := id) (fun a ha => ?_)]
  · simp
  · simp only [Function.comp, hlib, id]
    exact h a (hP a ha)

/-- C92: `square` and `sqrt` for numbers which are not negative. `sqrt` and `square` also for complex vectors, if the library computes a
    root. -/
theorem C92_square_sqrt (w : World ℝ) (x : Nat) (lib : MathLib ℝ) (hlib : ∀ a, lib.sqrt a = Real.sqrt a) :
    (∀ l, (w.sig x).numbers = .real l → (∀ a ∈ l, 0 ≤ a) → Restores w [.single x .square, .single x (.sqrt lib)] x) ∧
      (∀ l, (w.sig x).numbers = .real l → (∀ a ∈ l, 0 ≤ a) → Restores w [.single x (.sqrt lib), .single x .square] x) ∧
      ((∀ z, lib.sqrtCx z * lib.sqrtCx z = z) → (w.sig x).numbers.isComplex = true → Restores w [.single x (.sqrt lib), .single x .square] x) := by
  refine ⟨fun l hl h0 => ?_, fun l hl h0 => ?_, fun hc hx => ?_⟩ <;> apply single_two <;> simp only [Call.meaning] <;> apply signal_numbers
  · rw [hl]
    simp only [Numbers.mapLists, List.map_map]
    congr 1
    rw [List.map_congr_left (g := id) (fun a ha => ?_)]
    · simp
    · simp only [Function.comp, hlib, id]
      exact Real.sqrt_mul_self (h0 a ha)
  · rw [hl]
    simp only [Numbers.mapLists, List.map_map]
    congr 1
    rw [List.map_congr_left (g := id) (fun a ha => ?_)]
    · simp
    · simp only [Function.comp, hlib, id]
      exact Real.mul_self_sqrt (h0 a ha)
  · cases hN : (w.sig x).numbers with
    | real l => rw [hN] at hx; cases hx
    | complex l => simp only [Numbers.mapLists]; rw [map_back hc]

/-- C92: a modulation is undone by the opposite one. -/
theorem C92_exponential (w : World ℝ) (x : Nat) (a b : ℝ) :
    Restores w [.unary x (.exponential cisReal a b), .unary x (.exponential cisReal (-a) (-b))] x := by
  apply restores_of
  conv_run
  obtain ⟨N, d, g, e⟩ := w.sig x
  cases N with
  | real l => rfl
  | complex l =>
    cases e with
    | none => rfl
    | some e =>
      simp only [UnCall.meaning]
      congr 2
      apply List.ext_getElem (by simp)
      intro i h1 h2
      simp only [List.getElem_mapIdx]
      have h : ∀ z : Cx ℝ, z * cisReal (a * i * e + b * e) * cisReal (-a * i * e + -b * e) = z := by
        intro z
        rw [mul_assoc, ← cisReal_add, show a * i * e + b * e + (-a * i * e + -b * e) = 0 by ring, cisReal_zero, mul_one]
      exact h _

/-! ### Two vectors -/

theorem zipWith_back {α : Type} {f g : α → α → α} {l m : List α} (hl : l.length = m.length) (h : ∀ a, ∀ b ∈ m, g (f a b) b = a) :
    List.zipWith g (List.zipWith f l m) m = l := by
  apply List.ext_getElem (by simp [hl])
  intro i h1 h2
  simp only [List.getElem_zipWith]
  exact h _ _ (List.getElem_mem _)

theorem cycledWith_back {α : Type} {f g : α → α → α} {l m : List α} (h : ∀ a, ∀ b ∈ m, g (f a b) b = a) :
    cycledWith g (cycledWith f l m) m = l := by
  apply List.ext_getElem (by simp [cycledWith])
  intro i h1 h2
  simp only [cycledWith, List.getElem_mapIdx]
  cases hm : m[i % m.length]? with
  | none => rfl
  | some b => exact h _ _ (List.mem_of_getElem? hm)

theorem binary_two {w : World ℝ} {x y : Nat} (hxy : x ≠ y) {c d : BinCall ℝ}
    (h : (d.meaning (c.meaning (w.sig x) (w.sig y)).1 (w.sig y)).1 = w.sig x) : Restores w [.binary x y c, .binary x y d] x := by
  apply restores_of
  simp only [World.after, List.foldl_cons, List.foldl_nil, StmtCall.meaning, sig_put_same, sig_put_other _ (Ne.symm hxy)]
  exact h

theorem combine_back {f f' : List ℝ → List ℝ → List ℝ} {g g' : List (Cx ℝ) → List (Cx ℝ) → List (Cx ℝ)} {N M : Numbers ℝ}
    (h1 : ∀ l m, N = .real l → M = .real m → f' (f l m) m = l) (h2 : ∀ l m, N = .complex l → M = .complex m → g' (g l m) m = l) :
    (N.combine f g M).combine f' g' M = N := by
  cases N <;> cases M <;> simp only [Numbers.combine]
  · rw [h1 _ _ rfl rfl]
  · rw [h2 _ _ rfl rfl]

theorem combine_isComplex (f : List ℝ → List ℝ → List ℝ) (g : List (Cx ℝ) → List (Cx ℝ) → List (Cx ℝ)) (N M : Numbers ℝ) :
    (N.combine f g M).isComplex = N.isComplex := by
  cases N <;> cases M <;> rfl

theorem elem_back {op undo : ElemOp} {s o : Signal ℝ} (hag : s.Agrees o) (hn : s.numbers.count = o.numbers.count)
    (h1 : ∀ m, o.numbers = .real m → ∀ a, ∀ b ∈ m, undo.real (op.real a b) b = a)
    (h2 : ∀ m, o.numbers = .complex m → ∀ a, ∀ b ∈ m, undo.cx (op.cx a b) b = a) :
    ((BinCall.elem undo).meaning ((BinCall.elem op).meaning s o).1 o).1 = s := by
  rw [elem_meaning op hag hn]
  have hc : (s.numbers.combine (List.zipWith op.real) (List.zipWith op.cx) o.numbers).count = s.numbers.count := by
    have := hag.1
    cases hs : s.numbers <;> cases ho : o.numbers <;> rw [hs, ho] at hn <;> rw [hs, ho] at this <;>
      simp [Numbers.combine, Numbers.count] at hn this ⊢ <;> omega
  rw [elem_meaning (s := { s with numbers := s.numbers.combine (List.zipWith op.real) (List.zipWith op.cx) o.numbers }) undo ⟨(combine_isComplex _ _ _ _).trans hag.1, hag.2.1, hag.2.2⟩ (hc.trans hn)]
  dsimp only
  apply signal_numbers
  refine combine_back (fun l m hl hm => ?_) (fun l m hl hm => ?_) <;> rw [hl, hm] at hn <;> apply zipWith_back hn
  · exact h1 m hm
  · exact h2 m hm

theorem smaller_back {op undo : ElemOp} {s o : Signal ℝ} (hag : s.Agrees o) (hn : o.numbers.flat.length ∣ s.numbers.flat.length)
    (h1 : ∀ m, o.numbers = .real m → ∀ a, ∀ b ∈ m, undo.real (op.real a b) b = a)
    (h2 : ∀ m, o.numbers = .complex m → ∀ a, ∀ b ∈ m, undo.cx (op.cx a b) b = a) :
    ((BinCall.elemSmaller undo).meaning ((BinCall.elemSmaller op).meaning s o).1 o).1 = s := by
  have key : ∀ (op : ElemOp) (t : Signal ℝ), t.Agrees o → o.numbers.flat.length ∣ t.numbers.flat.length →
      ((BinCall.elemSmaller op).meaning t o).1 = { t with numbers := t.numbers.combine (cycledWith op.real) (cycledWith op.cx) o.numbers } := by
    intro op t h3 h4
    simp only [BinCall.meaning]
    rw [if_neg (by rw [not_not]; exact h4), if_neg (by rw [not_not]; exact h3)]
  rw [key op s hag hn, key undo { s with numbers := s.numbers.combine (cycledWith op.real) (cycledWith op.cx) o.numbers } ⟨(combine_isComplex _ _ _ _).trans hag.1, hag.2.1, hag.2.2⟩ ?_]
  · dsimp only
    apply signal_numbers
    refine combine_back (fun l m hl hm => ?_) (fun l m hl hm => ?_) <;> apply cycledWith_back
    · exact h1 m hm
    · exact h2 m hm
  · have : (s.numbers.combine (cycledWith op.real) (cycledWith op.cx) o.numbers).flat.length = s.numbers.flat.length := by
      cases s.numbers <;> cases o.numbers <;> simp [Numbers.combine, Numbers.flat, cycledWith]
    rw [this]
    exact hn

/-- C92: adding a vector is undone by subtracting it, and the other way around; also for a smaller operand. -/
theorem C92_add_sub (w : World ℝ) (x y : Nat) (hxy : x ≠ y) (hag : (w.sig x).Agrees (w.sig y)) :
    ((w.sig x).numbers.count = (w.sig y).numbers.count →
      Restores w [.binary x y (.elem .add), .binary x y (.elem .sub)] x ∧ Restores w [.binary x y (.elem .sub), .binary x y (.elem .add)] x) ∧
    ((w.sig y).numbers.flat.length ∣ (w.sig x).numbers.flat.length →
      Restores w [.binary x y (.elemSmaller .add), .binary x y (.elemSmaller .sub)] x ∧
        Restores w [.binary x y (.elemSmaller .sub), .binary x y (.elemSmaller .add)] x) := by
  have r1 : ∀ a b : ℝ, (a + b) - b = a := fun a b => by ring
  have r2 : ∀ a b : ℝ, (a - b) + b = a := fun a b => by ring
  have c1 : ∀ a b : Cx ℝ, Cx.sub (Cx.add a b) b = a := fun a b => by cases a; cases b; simp [Cx.add, Cx.sub]
  have c2 : ∀ a b : Cx ℝ, Cx.add (Cx.sub a b) b = a := fun a b => by cases a; cases b; simp [Cx.add, Cx.sub]
  refine ⟨fun hn => ⟨binary_two hxy ?_, binary_two hxy ?_⟩, fun hn => ⟨binary_two hxy ?_, binary_two hxy ?_⟩⟩
  · exact elem_back hag hn (fun _ _ a b _ => r1 a b) (fun _ _ a b _ => c1 a b)
  · exact elem_back hag hn (fun _ _ a b _ => r2 a b) (fun _ _ a b _ => c2 a b)
  · exact smaller_back hag hn (fun _ _ a b _ => r1 a b) (fun _ _ a b _ => c1 a b)
  · exact smaller_back hag hn (fun _ _ a b _ => r2 a b) (fun _ _ a b _ => c2 a b)

/-- C92: multiplying by a vector without zeros is undone by dividing by it, and the other way around; also for a smaller operand. -/
theorem C92_mul_div (w : World ℝ) (x y : Nat) (hxy : x ≠ y) (hag : (w.sig x).Agrees (w.sig y)) (hz : (w.sig y).numbers.NonZero) :
    ((w.sig x).numbers.count = (w.sig y).numbers.count →
      Restores w [.binary x y (.elem .mul), .binary x y (.elem .div)] x ∧ Restores w [.binary x y (.elem .div), .binary x y (.elem .mul)] x) ∧
    ((w.sig y).numbers.flat.length ∣ (w.sig x).numbers.flat.length →
      Restores w [.binary x y (.elemSmaller .mul), .binary x y (.elemSmaller .div)] x ∧
        Restores w [.binary x y (.elemSmaller .div), .binary x y (.elemSmaller .mul)] x) := by
  have r1 : ∀ m, (w.sig y).numbers = .real m → ∀ a : ℝ, ∀ b ∈ m, (a * b) / b = a := fun m hm a b hb => by
    rw [hm] at hz; exact mul_div_cancel_right₀ a (hz b hb)
  have r2 : ∀ m, (w.sig y).numbers = .real m → ∀ a : ℝ, ∀ b ∈ m, (a / b) * b = a := fun m hm a b hb => by
    rw [hm] at hz; exact div_mul_cancel₀ a (hz b hb)
  have c1 : ∀ m, (w.sig y).numbers = .complex m → ∀ a : Cx ℝ, ∀ b ∈ m, Cx.div (Cx.mul a b) b = a := fun m hm a b hb => by
    rw [hm] at hz; exact (cx_div_mul (hz b hb)).1
  have c2 : ∀ m, (w.sig y).numbers = .complex m → ∀ a : Cx ℝ, ∀ b ∈ m, Cx.mul (Cx.div a b) b = a := fun m hm a b hb => by
    rw [hm] at hz; exact (cx_div_mul (hz b hb)).2
  refine ⟨fun hn => ⟨binary_two hxy ?_, binary_two hxy ?_⟩, fun hn => ⟨binary_two hxy ?_, binary_two hxy ?_⟩⟩
  · exact elem_back hag hn r1 c1
  · exact elem_back hag hn r2 c2
  · exact smaller_back hag hn r1 c1
  · exact smaller_back hag hn r2 c2

/-! ### Several vectors -/

/-- C92: the real and imaginary parts of a vector, and the vector from its parts. -/
theorem C92_real_imag (w : World ℝ) (x a b : Nat) (hxa : x ≠ a) (hxb : x ≠ b) (hab : a ≠ b) (hx : (w.sig x).numbers.isComplex = true) :
    Restores w [.getTwo x a b Cx.re Cx.im, .setComplex Cx.mk x a b] x := by
  apply restores_of
  simp only [World.after, List.foldl_cons, List.foldl_nil, StmtCall.meaning, sig_put_same, sig_put_other _ hab, sig_put_other _ hxa,
    sig_put_other _ hxb]
  cases hN : (w.sig x).numbers with
  | real l => rw [hN] at hx; cases hx
  | complex l =>
    rw [if_neg (by simp [Numbers.flat])]
    rw [sig_put_same]
    apply signal_numbers
    rw [hN]
    simp only [Numbers.flat, Numbers.asCx, zip_parts]

/-- C92: magnitude and phase of a vector, and the vector from them, for every pair of functions `polar` and `cart` which convert a number
    into its polar form and back. -/
theorem C92_mag_phase (w : World ℝ) (x a b : Nat) (hxa : x ≠ a) (hxb : x ≠ b) (hab : a ≠ b) (hx : (w.sig x).numbers.isComplex = true)
    (polar : Cx ℝ → ℝ × ℝ) (cart : ℝ → ℝ → Cx ℝ) (hp : ∀ z, cart (polar z).1 (polar z).2 = z) :
    Restores w [.getTwo x a b (fun z => (polar z).1) (fun z => (polar z).2), .setComplex cart x a b] x := by
  apply restores_of
  simp only [World.after, List.foldl_cons, List.foldl_nil, StmtCall.meaning, sig_put_same, sig_put_other _ hab, sig_put_other _ hxa,
    sig_put_other _ hxb]
  cases hN : (w.sig x).numbers with
  | real l => rw [hN] at hx; cases hx
  | complex l =>
    rw [if_neg (by simp [Numbers.flat])]
    rw [sig_put_same]
    apply signal_numbers
    rw [hN]
    simp only [Numbers.flat, Numbers.asCx]
    congr 1
    clear hN
    induction l with
    | nil => rfl
    | cons z l ih => simp [ih, hp]

theorem everyNth_length {α : Type} (k i r : Nat) (l : List α) (hi : i < k) (hl : l.length = k * r) : (everyNth k i l).length = r := by
  have h : ∀ q, (everyNth k i l).length ≤ q ↔ r ≤ q := by
    intro q
    rw [← List.getElem?_eq_none_iff, getElem?_everyNth (by omega), List.getElem?_eq_none_iff, hl]
    constructor
    · intro h
      by_contra hq
      have : (q + 1) * k ≤ r * k := Nat.mul_le_mul_right _ (by omega)
      nlinarith
    · intro h
      have : r * k ≤ q * k := Nat.mul_le_mul_right _ h
      nlinarith
  exact Nat.le_antisymm ((h r).2 (le_refl r)) ((h _).1 (le_refl _))

theorem mergeLists_everyNth {α : Type} (ys : List Nat) (hne : ys ≠ []) (hd : ys.Nodup) (l : List α) (hl : ys.length ∣ l.length) :
    mergeLists (ys.map fun y => everyNth ys.length (ys.idxOf y) l) = l := by
  have hk : 0 < ys.length := List.length_pos_iff.2 hne
  obtain ⟨r, hr⟩ := hl
  refine eq_mergeLists _ r (by simpa using hne) ?_ l (by rw [List.length_map, hr, Nat.mul_comm]) ?_
  · intro e he
    obtain ⟨y, hy, rfl⟩ := List.mem_map.1 he
    exact everyNth_length _ _ _ _ (List.idxOf_lt_length_iff.2 hy) hr
  · intro j e he q hq
    rw [List.getElem?_map] at he
    obtain ⟨y, hy, rfl⟩ := Option.map_eq_some_iff.1 he
    obtain ⟨hj, rfl⟩ := List.getElem?_eq_some_iff.1 hy
    rw [List.length_map, hd.idxOf_getElem, getElem?_everyNth hk, Nat.add_comm]

theorem flat_length (N : Numbers ℝ) : N.flat.length = (if N.isComplex then 2 else 1) * N.count := by
  cases N <;> simp [Numbers.flat, Numbers.isComplex, Numbers.count, Nat.mul_comm]

/-- C92: a vector which is split into parts is restored by merging them. -/
theorem C92_split_merge (w : World ℝ) (x : Nat) (ys : List Nat) (hne : ys ≠ []) (hd : ys.Nodup) (hx : x ∉ ys)
    (hl : ys.length ∣ (w.sig x).numbers.count) : Restores w [.split x ys, .merge x ys] x := by
  apply restores_of
  have hl2 : ys.length ∣ (w.sig x).numbers.flat.length := by rw [flat_length]; exact hl.mul_left _
  obtain ⟨r, hr⟩ := hl
  have h1 : (StmtCall.split x ys).meaning w = ⟨fun y => if y ∈ ys then
      { w.sig y with numbers := (w.sig x).numbers.rearrange fun _ l => everyNth ys.length (ys.idxOf y) l } else w.sig y,
      w.out ++ [.result (.ok ())]⟩ := if_pos ⟨hne, hl2⟩
  simp only [World.after, List.foldl_cons, List.foldl_nil]
  rw [h1]
  have hc : ∀ y ∈ ys, ((w.sig x).numbers.rearrange fun _ l => everyNth ys.length (ys.idxOf y) l).count = r := by
    intro y hy
    cases hN : (w.sig x).numbers <;> rw [hN] at hr <;> exact everyNth_length _ _ _ _ (List.idxOf_lt_length_iff.2 hy) hr
  simp only [StmtCall.meaning]
  rw [if_pos]
  · rw [sig_put_same, if_neg hx]
    apply signal_numbers
    cases hN : (w.sig x).numbers with
    | real l =>
      rw [hN] at hr
      dsimp only
      congr 1
      rw [List.map_congr_left (g := fun y => everyNth ys.length (ys.idxOf y) l)]
      · exact mergeLists_everyNth ys hne hd l ⟨r, hr⟩
      · intro y hy
        rw [if_pos hy]
        rfl
    | complex l =>
      rw [hN] at hr
      dsimp only
      congr 1
      rw [List.map_congr_left (g := fun y => everyNth ys.length (ys.idxOf y) l)]
      · exact mergeLists_everyNth ys hne hd l ⟨r, hr⟩
      · intro y hy
        rw [if_pos hy]
        rfl
  · refine ⟨hne, (if (w.sig x).numbers.isComplex then 2 else 1) * r, fun y hy => ?_⟩
    rw [if_pos hy, flat_length]
    dsimp only
    rw [hc y hy]
    congr 1
    cases (w.sig x).numbers <;> rfl

theorem mergeLists_length {α : Type} (lists : List (List α)) (r : Nat) (hne : lists ≠ []) (hlen : ∀ l ∈ lists, l.length = r) :
    (mergeLists lists).length = r * lists.length := by
  have hk : 0 < lists.length := List.length_pos_iff.2 hne
  have hsum : (lists.map List.length).sum = r * lists.length := by
    rw [List.map_congr_left (g := fun _ => r) hlen]
    simp [Nat.mul_comm]
  have hnone : ∀ t, ((lists[t % lists.length]?).bind fun l => l[t / lists.length]?) = none ↔ r ≤ t / lists.length := by
    intro t
    have ht : t % lists.length < lists.length := Nat.mod_lt _ hk
    rw [List.getElem?_eq_getElem ht, Option.bind_some, List.getElem?_eq_none_iff, hlen _ (List.getElem_mem ht)]
  have h : ∀ q, (mergeLists lists).length ≤ q ↔ r * lists.length ≤ q := by
    intro q
    rw [← List.getElem?_eq_none_iff]
    unfold mergeLists
    rw [getElem?_filterMap_range _ (fun s t hst h => (hnone t).2 (((hnone s).1 h).trans (Nat.div_le_div_right hst))), hsum]
    split
    · rw [hnone, Nat.le_div_iff_mul_le hk]
    · simp; omega
  exact Nat.le_antisymm ((h _).2 (le_refl _)) ((h _).1 (le_refl _))

theorem everyNth_mergeLists {α : Type} (lists : List (List α)) (r : Nat) (hlen : ∀ l ∈ lists, l.length = r) (j : Nat) (hj : j < lists.length) :
    everyNth lists.length j (mergeLists lists) = lists[j] := by
  have hk : 0 < lists.length := by omega
  have hsum : (lists.map List.length).sum = r * lists.length := by
    rw [List.map_congr_left (g := fun _ => r) hlen]
    simp [Nat.mul_comm]
  apply List.ext_getElem?
  intro q
  rw [getElem?_everyNth hk]
  have hnone : ∀ t, ((lists[t % lists.length]?).bind fun l => l[t / lists.length]?) = none ↔ r ≤ t / lists.length := by
    intro t
    have ht : t % lists.length < lists.length := Nat.mod_lt _ hk
    rw [List.getElem?_eq_getElem ht, Option.bind_some, List.getElem?_eq_none_iff, hlen _ (List.getElem_mem ht)]
  have e1 : (j + q * lists.length) % lists.length = j := by rw [Nat.add_mul_mod_self_right, Nat.mod_eq_of_lt hj]
  have e2 : (j + q * lists.length) / lists.length = q := by rw [Nat.add_mul_div_right _ _ hk, Nat.div_eq_of_lt hj, Nat.zero_add]
  unfold mergeLists
  rw [getElem?_filterMap_range _ (fun s t hst h => (hnone t).2 (((hnone s).1 h).trans (Nat.div_le_div_right hst))), e1, e2,
    List.getElem?_eq_getElem hj, Option.bind_some, hsum]
  split
  · rfl
  · rename_i h
    symm
    rw [List.getElem?_eq_none_iff, hlen _ (List.getElem_mem hj)]
    by_contra hq
    have : (q + 1) * lists.length ≤ r * lists.length := Nat.mul_le_mul_right _ (by omega)
    nlinarith

/-- C92: vectors of the same number space and length are restored by splitting the vector which is merged from them. -/
theorem C92_merge_split (w : World ℝ) (x : Nat) (ys : List Nat) (hne : ys ≠ []) (hx : x ∉ ys)
    (hs : ∀ y ∈ ys, (w.sig y).numbers.isComplex = (w.sig x).numbers.isComplex) (n : Nat) (hn : ∀ y ∈ ys, (w.sig y).numbers.count = n) :
    ∀ y ∈ ys, Restores w [.merge x ys, .split x ys] y := by
  intro y hy
  apply restores_of
  have h1 : ∃ N : Numbers ℝ, (StmtCall.merge x ys).meaning w = w.put x { w.sig x with numbers := N } [.result (.ok ())] ∧
      ys.length ∣ N.flat.length ∧ (N.rearrange fun _ l => everyNth ys.length (ys.idxOf y) l) = (w.sig y).numbers := by
    have hf : ∀ z ∈ ys, (w.sig z).numbers.flat.length = (if (w.sig x).numbers.isComplex then 2 else 1) * n := by
      intro z hz
      rw [flat_length, hs z hz, hn z hz]
    refine ⟨_, if_pos ⟨hne, _, hf⟩, ?_, ?_⟩
    · rw [flat_length]
      apply Dvd.dvd.mul_left
      cases hN : (w.sig x).numbers with
      | real l =>
        rw [hN] at hf
        have := mergeLists_length (ys.map fun y => (w.sig y).numbers.flat) _ (by simpa using hne) (by
          intro l hl; obtain ⟨z, hz, rfl⟩ := List.mem_map.1 hl; exact hf z hz)
        simp only [Numbers.count]
        rw [this, List.length_map]
        exact Dvd.intro_left _ rfl
      | complex l =>
        have := mergeLists_length (ys.map fun y => (w.sig y).numbers.asCx) n (by simpa using hne) (by
          intro l hl; obtain ⟨z, hz, rfl⟩ := List.mem_map.1 hl; rw [count_asCx]; exact hn z hz)
        simp only [Numbers.count]
        rw [this, List.length_map]
        exact Dvd.intro_left _ rfl
    · have hj := List.idxOf_lt_length_iff.2 hy
      cases hN : (w.sig x).numbers with
      | real l =>
        rw [hN] at hs hf
        simp only [Numbers.rearrange]
        have := everyNth_mergeLists (ys.map fun y => (w.sig y).numbers.flat) _ (by
          intro l hl; obtain ⟨z, hz, rfl⟩ := List.mem_map.1 hl; exact hf z hz) (ys.idxOf y) (by simpa using hj)
        simp only [List.length_map, List.getElem_map, List.getElem_idxOf] at this
        rw [this]
        have := hs y hy
        cases hM : (w.sig y).numbers with
        | real m => rfl
        | complex m => rw [hM] at this; cases this
      | complex l =>
        rw [hN] at hs hf
        simp only [Numbers.rearrange]
        have := everyNth_mergeLists (ys.map fun y => (w.sig y).numbers.asCx) n (by
          intro l hl; obtain ⟨z, hz, rfl⟩ := List.mem_map.1 hl; rw [count_asCx]; exact hn z hz) (ys.idxOf y) (by simpa using hj)
        simp only [List.length_map, List.getElem_map, List.getElem_idxOf] at this
        rw [this]
        have := hs y hy
        cases hM : (w.sig y).numbers with
        | complex m => rfl
        | real m => rw [hM] at this; cases this
  obtain ⟨N, e, hd, hN⟩ := h1
  simp only [World.after, List.foldl_cons, List.foldl_nil]
  rw [e]
  have hyx : y ≠ x := fun h => hx (h ▸ hy)
  simp only [StmtCall.meaning, sig_put_same]
  rw [if_pos ⟨hne, hd⟩]
  dsimp only
  rw [if_pos hy, sig_put_other _ hyx]
  exact signal_numbers hN

theorem after_unwritten (p : List (StmtCall ℝ)) (y : Nat) (w : World ℝ) (h : ∀ c ∈ p, y ∉ c.writes) : (w.after p).sig y = w.sig y := by
  induction p generalizing w with
  | nil => rfl
  | cons c p ih =>
    rw [after_cons, ih _ fun d hd => h d (List.mem_cons_of_mem _ hd)]
    have hc := h c List.mem_cons_self
    cases c <;> simp only [StmtCall.writes, List.mem_cons, List.not_mem_nil, or_false, not_or] at hc <;> simp only [StmtCall.meaning]
    case single => rw [sig_put_other _ hc]
    case unary => rw [sig_put_other _ hc]
    case binary => rw [sig_put_other _ hc]
    case setComplex => split <;> rw [sig_put_other _ hc]
    case merge => split <;> rw [sig_put_other _ hc]
    case split =>
      split
      · exact if_neg hc
      · rfl
    case get => rw [sig_put_other _ hc]
    case getTwo => rw [sig_put_other _ hc.2, sig_put_other _ hc.1]
    case clone => rw [sig_put_other _ hc]

/-- C92: calls change no other vectors than those which they write: `writes` says which. -/
theorem C92_untouched (w : World ℝ) (p : List (StmtCall ℝ)) (y : Nat) (h : ∀ c ∈ p, y ∉ c.writes) : Restores w p y :=
  restores_of (after_unwritten p y w h)

/-- C92: a copy, any program which does not write the copy, and the copy back. -/
theorem C92_clone (w : World ℝ) (x y : Nat) (p : List (StmtCall ℝ)) (h : ∀ c ∈ p, y ∉ c.writes) :
    Restores w (.clone x y :: p ++ [.clone y x]) x := by
  apply restores_of
  have e := after_unwritten p y ((StmtCall.clone x y).meaning w) h
  rw [← after_cons] at e
  rw [List.cons_append, after_cons, after_append, ← after_cons]
  generalize w.after (StmtCall.clone x y :: p) = w1 at e ⊢
  simp only [StmtCall.meaning, sig_put_same] at e
  conv_run
  exact e

end Dsp
