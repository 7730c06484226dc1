import Verif.Spec.Windows
import Verif.Lemmas.SymScale
import Verif.Props.ComplexReal
import Verif.Lemmas.BlockMap
/-
C16: the symmetric path of windows. C17: unapply_window undoes apply_window.
-/
namespace Dsp
open DspVec
variable {T : Type}

/-! ### From slices to vectors -/

theorem fromComplex_mapIdx_scale [CommRing T] (g : Nat → T) : ∀ (cs : List (Cx T)) (o : Nat),
    fromComplex (cs.mapIdx (fun i x => x * (⟨g (i + o), 0⟩ : Cx T))) =
      (fromComplex cs).mapIdx (fun p x => x * g (p / 2 + o))
  | [], _ => rfl
  | c :: cs, o => by
    rw [List.mapIdx_cons, fromComplex, fromComplex, List.mapIdx_cons, List.mapIdx_cons]
    have ih := fromComplex_mapIdx_scale g cs (o + 1)
    have e1 : c * (⟨g (0 + o), 0⟩ : Cx T) = ⟨c.re * g (0 + o), c.im * g (0 + o)⟩ := by
      show Cx.mul _ _ = _
      simp [Cx.mul]
    rw [e1]
    have e2 : (fun (i : Nat) (x : Cx T) => x * (⟨g (i + 1 + o), 0⟩ : Cx T)) =
        fun i x => x * ⟨g (i + (o + 1)), 0⟩ := by
      funext i x; rw [Nat.add_assoc, Nat.add_comm 1 o]
    have e3 : (fun (p : Nat) (x : T) => x * g ((p + 1 + 1) / 2 + o)) = fun p x => x * g (p / 2 + (o + 1)) := by
      funext p x; congr 2; omega
    simp only [e2, ih]
    congr 2
    exact congrArg (fun f => List.mapIdx f (fromComplex cs)) e3.symm

/-- A vector operation which multiplies the points of the slice. -/
theorem windowed_of_slices [CommRing T] (st : MultiCoreSettings) (sym : Bool) (f : Nat → Nat → T)
    (g : Nat → T) (v : DspVec T) (hv : v.WF)
    (hreal : ∀ a : List T, a.length = v.points →
      Always (multiplyWindow st sym (fun i => f i v.points) a) (a.mapIdx (fun i x => x * g i)))
    (hcx : ∀ a : List (Cx T), a.length = v.points →
      Always (multiplyWindow st sym (fun i => (⟨f i v.points, 0⟩ : Cx T)) a)
        (a.mapIdx (fun i x => x * ⟨g i, 0⟩))) :
    ∃ w, Always (v.multiplyWindowBy st sym f) w ∧ Windowed v w g := by
  by_cases hc : v.isComplex = true
  · obtain ⟨cs, h, hl⟩ := hv.content_even hc
    have hp : v.points = cs.length := by unfold points; rw [hc]; simp; omega
    have hA := hcx cs hp.symm
    refine ⟨v.withCells (splice v.data.cells 0 (fromComplex (cs.mapIdx (fun i x => x * ⟨g i, 0⟩)))), ?_, _, h, ?_⟩
    · refine hA.map (fun s e => ?_) (fun s e => ?_) <;>
      · unfold multiplyWindowBy
        simp only [h, hc, if_true, toComplex?_fromComplex, e]
    · have hs : v.stride = 2 := by unfold stride; rw [hc]; rfl
      have := fromComplex_mapIdx_scale g cs 0
      simp only [Nat.add_zero] at this
      rw [hs, this]
      exact replaced_splice hv _ (by simp; omega)
  · have hc' : v.isComplex = false := by simpa using hc
    have hl := hv.content_length hv.content_eq
    have hp : v.points = v.validLen := by unfold points; rw [hc']; simp
    have hA := hreal _ (hl.trans hp.symm)
    refine ⟨v.withCells (splice v.data.cells 0 ((v.data.cells.take v.validLen).mapIdx (fun i x => x * g i))), ?_,
      _, hv.content_eq, ?_⟩
    · refine hA.map (fun s e => ?_) (fun s e => ?_) <;>
      · unfold multiplyWindowBy
        simp only [hv.content_eq, hc', e]
        rfl
    · have hs : v.stride = 1 := by unfold stride; rw [hc']; rfl
      rw [hs]
      simp only [Nat.div_one]
      exact replaced_splice hv _ (by rw [List.length_mapIdx]; exact hl)

/-! ### C16 -/

/-- C16 (partial: at least two points, and one worker or a number of points which is a multiple of
    twice the number of workers): with a symmetric window `apply_window` multiplies every point `i` by
    `window(i, n)`, whatever the interleaving of the workers. -/
theorem C16_symmetric_partial [CommRing T] (st : MultiCoreSettings) (w : WindowFunction T) (v : DspVec T)
    (hv : v.WF) (hs : w.isSymmetric = true) (hw : SymmetricAt w v.points) (h2 : 2 ≤ v.points)
    (hn : determineNumberOfChunks v.points .medium st = 1 ∨
      (1 < determineNumberOfChunks v.points .medium st ∧
        v.points % (2 * determineNumberOfChunks v.points .medium st) = 0)) :
    ∃ v', Always (v.applyWindow st w) v' ∧ Windowed v v' (w.window · v.points) := by
  unfold applyWindow
  rw [hs]
  refine windowed_of_slices st true w.window _ v hv (fun a ha => ?_) (fun a ha => ?_)
  · rw [← ha] at hw hn h2 ⊢
    exact multiplyWindow_symmetric st _ a h2 hw hn
  · rw [← ha] at hw hn h2 ⊢
    exact multiplyWindow_symmetric st _ a h2 (fun i hi => by rw [hw i hi]) hn

/-- C16, the default settings (one core): no restriction but the two points. -/
theorem C16_single_core_partial [CommRing T] (st : MultiCoreSettings) (h1 : st.coreLimit = 1)
    (w : WindowFunction T) (v : DspVec T)
    (hv : v.WF) (hs : w.isSymmetric = true) (hw : SymmetricAt w v.points) (h2 : 2 ≤ v.points) :
    ∃ v', Always (v.applyWindow st w) v' ∧ Windowed v v' (w.window · v.points) :=
  C16_symmetric_partial st w v hv hs hw h2 (.inl (by unfold determineNumberOfChunks; rw [if_pos h1]; exact h1))

/-- The general path: a window which is not declared symmetric multiplies every point of a non empty
    vector, for all settings. -/
theorem C16_general_path [CommRing T] (st : MultiCoreSettings) (w : WindowFunction T) (v : DspVec T)
    (hv : v.WF) (hs : w.isSymmetric = false) (h1 : 1 ≤ v.points) :
    ∃ v', Always (v.applyWindow st w) v' ∧ Windowed v v' (w.window · v.points) := by
  unfold applyWindow
  rw [hs]
  refine windowed_of_slices st false w.window _ v hv (fun a ha => ?_) (fun a ha => ?_)
  · exact executeWithRange_mapIdx a (by rintro rfl; simp at ha; omega)
      (fun x i => x * w.window i v.points) .medium st
  · exact executeWithRange_mapIdx a (by rintro rfl; simp at ha; omega)
      (fun x i => x * ⟨w.window i v.points, 0⟩) .medium st

/-- The full C16 fails: a vector with one point makes a symmetric window panic (default settings). -/
theorem C16_one_point_violated [CommRing T] (st : MultiCoreSettings) (h1 : st.coreLimit = 1)
    (w : WindowFunction T) (x : T) (hs : w.isSymmetric = true) (d : Option T) (sched : List Nat) :
    (DspVec.applyWindow st w ⟨⟨.vec, [x]⟩, d, .time, .real, 1⟩ sched) = .panic := by
  have : determineNumberOfChunks 1 .medium st = 1 := by
    unfold determineNumberOfChunks; rw [if_pos h1]; exact h1
  simp only [applyWindow, multiplyWindowBy, content, slice, hs, multiplyWindow, executeSymPairs]
  simp [this, isComplex, NumberSpace.isComplex, partition, chunks, calcChunkSize, ceilDiv, List.range_succ]

/-- The full C16 fails: an empty vector makes a symmetric window panic (all settings). -/
theorem C16_empty_violated [CommRing T] (st : MultiCoreSettings)
    (w : WindowFunction T) (hs : w.isSymmetric = true) (d : Option T) (sched : List Nat) :
    (DspVec.applyWindow st w ⟨⟨.vec, []⟩, d, .time, .real, 0⟩ sched) = .panic := by
  have : ∀ n, ceilDiv 0 n = 0 := by
    intro n; unfold ceilDiv
    rcases Nat.eq_zero_or_pos n with rfl | h
    · simp
    · exact Nat.div_eq_of_lt (by omega)
  simp only [applyWindow, multiplyWindowBy, content, slice, hs, multiplyWindow, executeSymPairs]
  simp [isComplex, NumberSpace.isComplex, partition, chunks, calcChunkSize, this]

/-- A symmetric window with small integer values. -/
def tentWindow : WindowFunction Int := ⟨true, fun i n => 2 + min i (n - 1 - i)⟩

theorem tentWindow_symmetric (n : Nat) : SymmetricAt tentWindow n := by
  intro i hi
  simp only [tentWindow]
  have : n - 1 - (n - 1 - i) = i := by omega
  rw [this, min_comm]

/-- Two workers from two points on. -/
def twoWorkers : MultiCoreSettings := ⟨2, 2, 100, 2, 100⟩
/-- Four workers from three points on. -/
def fourWorkers : MultiCoreSettings := ⟨4, 2, 3, 2, 3⟩

/-- The full C16 fails: with two workers and eleven points the last chunk is shorter, the second pair
    of chunks is not symmetric and points are multiplied with the wrong value. -/
theorem C16_two_workers_violated :
    ∃ (v : DspVec Int) (sched : List Nat) (v' : DspVec Int), v.WF ∧
      v.applyWindow twoWorkers tentWindow sched = .finished v' ∧
      ¬ Windowed v v' (tentWindow.window · v.points) := by
  refine ⟨⟨⟨.vec, List.replicate 11 1⟩, none, .time, .real, 11⟩,
    [0, 0, 0, 0, 0, 1, 1, 1, 1, 1, 1], ⟨⟨.vec, [2, 3, 4, 5, 6, 7, 7, 6, 5, 3, 2]⟩, none, .time, .real, 11⟩,
    by decide, rfl, ?_⟩
  rintro ⟨a, h1, h2, _⟩
  have e : a = List.replicate 11 1 := by
    have : (⟨⟨.vec, List.replicate 11 1⟩, none, .time, .real, 11⟩ : DspVec Int).content =
      some (List.replicate 11 1) := by decide
    rw [this] at h1; exact (Option.some.inj h1).symm
  subst e
  revert h2
  decide

/-- The full C16 fails: with four workers and nine points only five chunks exist, three of them have
    no partner and are not multiplied at all. -/
theorem C16_four_workers_violated :
    ∃ (v : DspVec Int) (sched : List Nat) (v' : DspVec Int), v.WF ∧
      v.applyWindow fourWorkers tentWindow sched = .finished v' ∧
      ¬ Windowed v v' (tentWindow.window · v.points) := by
  refine ⟨⟨⟨.vec, List.replicate 9 1⟩, none, .time, .real, 9⟩,
    [0, 0, 0, 0], ⟨⟨.vec, [2, 3, 1, 1, 1, 1, 1, 1, 2]⟩, none, .time, .real, 9⟩,
    by decide, rfl, ?_⟩
  rintro ⟨a, h1, h2, _⟩
  have e : a = List.replicate 9 1 := by
    have : (⟨⟨.vec, List.replicate 9 1⟩, none, .time, .real, 9⟩ : DspVec Int).content =
      some (List.replicate 9 1) := by decide
    rw [this] at h1; exact (Option.some.inj h1).symm
  subst e
  revert h2
  decide

/-- The hypotheses of `C16_symmetric_partial` are met with two workers and eight points. -/
example : exampleVec.WF ∧ SymmetricAt tentWindow 8 ∧
    1 < determineNumberOfChunks 8 .medium twoWorkers ∧
    8 % (2 * determineNumberOfChunks 8 .medium twoWorkers) = 0 :=
  ⟨by decide, tentWindow_symmetric 8, by decide, by decide⟩

example : (⟨⟨.vec, List.replicate 8 1⟩, none, .time, .real, 8⟩ : DspVec Int).applyWindow twoWorkers tentWindow
    [0, 1, 1, 0, 0, 1, 1, 0] = .finished ⟨⟨.vec, [2, 3, 4, 5, 5, 4, 3, 2]⟩, none, .time, .real, 8⟩ := rfl

/-! ### C17 -/

theorem prodAt_inverse {α : Type} [CommMonoid α] (w w' : Nat → α) (q : Nat) : ∀ us : List (Nat × Nat),
    (∀ u ∈ us, w u.2 * w' u.2 = 1) → prodAt q (withWeights w us) * prodAt q (withWeights w' us) = 1
  | [], _ => by simp [prodAt, withWeights]
  | u :: us, h => by
    have ih := prodAt_inverse w w' q us (fun v hv => h v (by simp [hv]))
    have hu := h u (by simp)
    simp only [withWeights, List.map_cons] at ih ⊢
    rw [prodAt_cons, prodAt_cons]
    by_cases e : u.1 = q
    · simp only [e, if_true]
      rw [mul_mul_mul_comm, hu, one_mul]; exact ih
    · simp only [e, if_false, one_mul]; exact ih

theorem prodAt_cx [CommRing T] (f : Nat → T) (q : Nat) : ∀ us : List (Nat × Nat),
    prodAt q (withWeights (fun i => (⟨f i, 0⟩ : Cx T)) us) = ⟨prodAt q (withWeights f us), 0⟩
  | [] => rfl
  | u :: us => by
    have ih := prodAt_cx f q us
    simp only [withWeights, List.map_cons] at ih ⊢
    rw [prodAt_cons, prodAt_cons, ih]
    by_cases e : u.1 = q
    · simp only [e, if_true]
      ext <;> simp
    · simp [e]

/-- Both calls multiply the points with factors which are inverse to each other and depend on the number of points
    and the settings only. -/
theorem window_factors [Field T] (st : MultiCoreSettings) (w : WindowFunction T) (n : Nat)
    (hw : ∀ i < n, w.window i n ≠ 0)
    (hp : (w.isSymmetric = true ∧ 2 ≤ n ∧ st.coreLimit ≠ 0) ∨ (w.isSymmetric = false ∧ 1 ≤ n)) :
    ∃ g g' : Nat → T, (∀ i < n, g i * g' i = 1) ∧
      (∀ u : DspVec T, u.WF → u.points = n → ∃ v', Always (u.applyWindow st w) v' ∧ Windowed u v' g) ∧
      (∀ u : DspVec T, u.WF → u.points = n → ∃ v', Always (u.unapplyWindow st w) v' ∧ Windowed u v' g') := by
  rcases hp with ⟨hs, h2, hcl⟩ | ⟨hs, h1⟩
  · obtain ⟨us, hus, hrun⟩ := multiplyWindow_product st n h2 hcl
    refine ⟨fun q => prodAt q (withWeights (fun i => w.window i n) us),
      fun q => prodAt q (withWeights (fun i => 1 / w.window i n) us), fun i _ => ?_, ?_, ?_⟩
    · apply prodAt_inverse
      intro u hu
      have := hw u.2 (hus u hu)
      field_simp
    · intro u hu hpt
      unfold applyWindow
      rw [hs]
      refine windowed_of_slices st true _ _ u hu (fun a ha => ?_) (fun a ha => ?_)
      · rw [hpt] at ha ⊢
        exact hrun _ a ha
      · rw [hpt] at ha ⊢
        have := hrun (fun i => (⟨w.window i n, 0⟩ : Cx T)) a ha
        simp only [prodAt_cx] at this
        exact this
    · intro u hu hpt
      unfold unapplyWindow
      rw [hs]
      refine windowed_of_slices st true _ _ u hu (fun a ha => ?_) (fun a ha => ?_)
      · rw [hpt] at ha ⊢
        exact hrun _ a ha
      · rw [hpt] at ha ⊢
        have := hrun (fun i => (⟨1 / w.window i n, 0⟩ : Cx T)) a ha
        simp only [prodAt_cx] at this
        exact this
  · refine ⟨fun i => w.window i n, fun i => 1 / w.window i n, fun i hi => ?_, ?_, ?_⟩
    · have := hw i hi
      field_simp
    · intro u hu hpt
      have := C16_general_path st w u hu hs (by omega)
      rw [hpt] at this
      exact this
    · intro u hu hpt
      have := C16_general_path st ⟨false, fun i n => 1 / w.window i n⟩ u hu rfl (by omega)
      rw [hpt] at this
      unfold applyWindow at this
      unfold unapplyWindow
      rw [hs]
      exact this

/-- C17: `apply_window` and then `unapply_window` with the same settings restores the vector, for
    every window without zeros, for every interleaving of the workers of both calls. For a window
    which is declared symmetric two points are required (see `C16_one_point_violated`) and a core
    limit other than zero. -/
theorem C17_restores [Field T] (st : MultiCoreSettings) (w : WindowFunction T) (v : DspVec T)
    (hv : v.WF) (hw : ∀ i < v.points, w.window i v.points ≠ 0)
    (hp : (w.isSymmetric = true ∧ 2 ≤ v.points ∧ st.coreLimit ≠ 0) ∨
      (w.isSymmetric = false ∧ 1 ≤ v.points)) :
    ∃ v' v'', Always (v.applyWindow st w) v' ∧ Always (v'.unapplyWindow st w) v'' ∧
      v''.content = v.content ∧ v''.validLen = v.validLen ∧ v''.SameMeta v := by
  obtain ⟨g, g', hg, H0, H'⟩ := window_factors st w v.points hw hp
  obtain ⟨v', h1, a, h2, h3, h4, h5, h6, h7⟩ := H0 v hv rfl
  have hcx : v'.isComplex = v.isComplex := by unfold isComplex; rw [h5.2.2.1]
  have hwf : v'.WF := ⟨by rw [h4, h6]; exact hv.1, fun hc => by rw [h4]; exact hv.2 (by rw [← hcx]; exact hc)⟩
  have hpt : v'.points = v.points := by unfold points; rw [h4, hcx]
  have hst : v'.stride = v.stride := by unfold stride; rw [hcx]
  obtain ⟨v'', k1, b, k2, k3, k4, k5, _, _⟩ := H' v' hwf hpt
  refine ⟨v', v'', h1, k1, ?_, k4.trans h4, ?_⟩
  · rw [h3, Option.some.injEq] at k2
    subst k2
    rw [k3, h2]
    congr 1
    apply List.ext_getElem?
    intro q
    rw [List.getElem?_mapIdx, List.getElem?_mapIdx]
    cases hq : a[q]? with
    | none => rfl
    | some x =>
      have hlt : q < a.length := by
        by_contra hcon
        rw [List.getElem?_eq_none (by omega)] at hq; cases hq
      have hal := hv.content_length h2
      have hlt2 : q / v.stride < v.points := by
        unfold stride points
        by_cases hc : v.isComplex = true
        · have := hv.2 hc
          simp only [hc, if_true]; omega
        · simp only [hc]; simp; omega
      simp only [Option.map_some, hst, mul_assoc, hg _ hlt2, mul_one]
  · exact ⟨k5.1.trans h5.1, k5.2.1.trans h5.2.1, k5.2.2.1.trans h5.2.2.1, k5.2.2.2.trans h5.2.2.2⟩

/-! ### The shipped windows -/

theorem cast_mirror {n i : Nat} (hi : i < n) : ((n - 1 - i : Nat) : ℝ) = (n : ℝ) - 1 - i := by
  have : (n - 1 - i) + i + 1 = n := by omega
  have h : ((n - 1 - i : Nat) : ℝ) + i + 1 = n := by exact_mod_cast this
  linarith

theorem cos_mirror {n i : Nat} (hi : i < n) (h2 : 2 ≤ n) (k : Nat) :
    Real.cos ((2 * k : Nat) * Real.pi * ((n - 1 - i : Nat) : ℝ) / ((n : ℝ) - 1)) =
      Real.cos ((2 * k : Nat) * Real.pi * i / ((n : ℝ) - 1)) := by
  have h : (n : ℝ) - 1 ≠ 0 := by
    have : (2 : ℝ) ≤ n := by exact_mod_cast h2
    linarith
  rw [cast_mirror hi]
  have : ((2 * k : Nat) : ℝ) * Real.pi * ((n : ℝ) - 1 - i) / ((n : ℝ) - 1) =
      k * (2 * Real.pi) - (2 * k : Nat) * Real.pi * i / ((n : ℝ) - 1) := by
    field_simp; push_cast; ring
  rw [this, Real.cos_nat_mul_two_pi_sub]

/-- C16: the windows of the crate are symmetric for every number of points ≥ 2, as
    `is_symmetric` claims. -/
theorem C16_shipped_windows_symmetric (n : Nat) (h2 : 2 ≤ n) (alpha : ℝ) :
    SymmetricAt triangular n ∧ SymmetricAt (hamming alpha) n ∧ SymmetricAt blackmanHarris n ∧
      SymmetricAt (rectangular : WindowFunction ℝ) n := by
  refine ⟨fun i hi => ?_, fun i hi => ?_, fun i hi => ?_, fun i hi => rfl⟩
  · simp only [triangular]
    rw [cast_mirror hi]
    rw [← abs_neg]
    congr 2
    ring
  · simp only [hamming]
    have := cos_mirror hi h2 1
    norm_num at this
    rw [this]
  · simp only [blackmanHarris]
    have h1 := cos_mirror hi h2 1
    have h2' := cos_mirror hi h2 2
    have h3 := cos_mirror hi h2 3
    norm_num at h1 h2' h3
    rw [h1, h2', h3]

/-- C17: the windows of the crate have no zeros (the Hamming window for `1/2 < alpha ≤ 1`, the
    default is `0.54`), so that they can be removed again. -/
theorem C17_shipped_windows_nonzero (n : Nat) (i : Nat) (hi : i < n) (alpha : ℝ)
    (ha : 1 / 2 < alpha) (ha' : alpha ≤ 1) :
    triangular.window i n ≠ 0 ∧ (hamming alpha).window i n ≠ 0 ∧ blackmanHarris.window i n ≠ 0 ∧
      (rectangular : WindowFunction ℝ).window i n ≠ 0 := by
  have hnR : (0 : ℝ) < n := by exact_mod_cast (by omega : 0 < n)
  have hiR : (i : ℝ) + 1 ≤ n := by exact_mod_cast hi
  have hi0 : (0 : ℝ) ≤ i := by positivity
  refine ⟨?_, ?_, ?_, one_ne_zero⟩
  · simp only [triangular]
    have : |((i : ℝ) - ((n : ℝ) - 1) / 2) / ((n : ℝ) / 2)| < 1 := by
      rw [abs_lt]
      constructor
      · rw [lt_div_iff₀ (by positivity)]; linarith
      · rw [div_lt_iff₀ (by positivity)]; linarith
    linarith
  · simp only [hamming]
    have := Real.cos_le_one (2 * Real.pi * i / ((n : ℝ) - 1))
    have : (1 - alpha) * Real.cos (2 * Real.pi * i / ((n : ℝ) - 1)) ≤ (1 - alpha) * 1 :=
      mul_le_mul_of_nonneg_left this (by linarith)
    linarith
  · simp only [blackmanHarris]
    set x := 2 * Real.pi * i / ((n : ℝ) - 1) with hx
    have e2 : 4 * Real.pi * i / ((n : ℝ) - 1) = 2 * x := by rw [hx]; ring
    have e3 : 6 * Real.pi * i / ((n : ℝ) - 1) = 3 * x := by rw [hx]; ring
    rw [e2, e3, Real.cos_two_mul, Real.cos_three_mul]
    have h1 := Real.cos_le_one x
    have h2 := Real.neg_one_le_cos x
    set c := Real.cos x
    have : 0.35875 - 0.48829 * c + 0.14128 * (2 * c ^ 2 - 1) - 0.01168 * (4 * c ^ 3 - 3 * c) > 0 := by
      nlinarith [mul_nonneg (sub_nonneg.2 h1) (sq_nonneg (c - 2)), sq_nonneg (c - 1), mul_nonneg (sub_nonneg.2 h1) (sq_nonneg (c - 1)), mul_nonneg (sub_nonneg.2 h1) (sub_nonneg.2 h1)]
    exact this.ne'

example : ∃ w : WindowFunction ℝ, w.isSymmetric = true ∧ SymmetricAt w 5 ∧ ∀ i < 5, w.window i 5 ≠ 0 :=
  ⟨hamming 0.54, rfl, (C16_shipped_windows_symmetric 5 (by norm_num) _).2.1,
    fun i hi => (C17_shipped_windows_nonzero 5 i hi 0.54 (by norm_num) (by norm_num)).2.1⟩

/-- C32 fails for windows: the documentation of `TimeDomainOperations` promises that `self.len()` is
    set to `0` if the vector isn't in time domain, but a generic vector in frequency domain is
    multiplied with the window like any other. -/
theorem C32_window_violated :
    ∃ (v v' : DspVec Int), v.WF ∧ v.dom = .frequency ∧
      (∀ cal sched, v.applyWindow (MultiCoreSettings.singleThreaded cal) tentWindow sched = .finished v') ∧
      v'.len = 4 :=
  ⟨⟨⟨.vec, [1, 2, 3, 4]⟩, none, .timeOrFreq .frequency, .realOrComplex false, 4⟩,
    ⟨⟨.vec, [2, 6, 9, 8]⟩, none, .timeOrFreq .frequency, .realOrComplex false, 4⟩,
    by decide, rfl, fun cal sched => by
      have : MultiCoreSettings.singleThreaded cal = ⟨1, 50000, 100000, 20000, 30000⟩ := rfl
      rw [this]; rfl, rfl⟩

end Dsp
