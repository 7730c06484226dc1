import Verif.Spec.Calibration
import Verif.Spec.Interp
import Mathlib.Data.Rat.Floor
import Mathlib.Algebra.Order.Field.Basic
import Mathlib.Tactic.Ring
import Mathlib.Tactic.Linarith
import Mathlib.Tactic.NormNum
import Mathlib.Tactic.FieldSimp
/-
C78: the calibration of the multi core thresholds.
-/
namespace Dsp
variable {T : Type} [Field T] [LinearOrder T] [FloorRing T]

theorem calibrate_limits (m : Option (Nat × Nat)) :
    5000 ≤ (calibrate m).largeDual ∧ (calibrate m).largeDual ≤ (calibrate m).medDual ∧ (calibrate m).medDual ≤ 100000 ∧
    (calibrate m).largeDual < (calibrate m).largeMulti ∧ (calibrate m).medDual < (calibrate m).medMulti ∧
    (calibrate m).largeMulti ≤ (calibrate m).medMulti ∧ (calibrate m).medMulti ≤ 200000 := by
  unfold calibrate
  cases m with
  | none => simp
  | some p =>
    obtain ⟨d, m⟩ := p
    simp only [limit]
    refine ⟨?_, ?_, ?_, ?_, ?_, ?_, ?_⟩ <;> (repeat' split) <;> omega

/-- The calibration ends with thresholds of `calibrate`; a code different from zero means the default thresholds. -/
theorem runCalibration_cases (mc : Machinery T) (cores : Nat) :
    (∃ p, runCalibration mc cores = (calibrate (some p), 0)) ∨
    (∃ code, runCalibration mc cores = (calibrate none, code) ∧ attemptCalibrate mc cores = .error code) := by
  unfold runCalibration
  cases e : attemptCalibrate mc cores with
  | error code => exact .inr ⟨code, rfl, rfl⟩
  | ok c =>
    left
    unfold attemptCalibrate at e
    split at e
    · cases e
    · cases e1 : measureAll mc cores calibrationSizes with
      | error x => rw [e1] at e; cases e
      | ok q =>
        rw [e1] at e
        obtain ⟨one, two, many⟩ := q
        simp only [bind, Except.bind] at e
        split at e
        · split at e
          · cases e; exact ⟨_, rfl⟩
          · cases e
        · cases e

/-- C78: whatever was measured, the thresholds lie within fixed limits: no thread is used below 5000 numbers, two threads are used at the latest
    from 100000 numbers on and all cores from 200000 numbers on, more than two threads are never used before two are, and operations of large
    complexity use threads at least as early as those of medium complexity. -/
theorem C78_limits (mc : Machinery T) (cores : Nat) :
    5000 ≤ (runCalibration mc cores).1.largeDual ∧ (runCalibration mc cores).1.largeDual ≤ (runCalibration mc cores).1.medDual ∧
    (runCalibration mc cores).1.medDual ≤ 100000 ∧ (runCalibration mc cores).1.largeDual < (runCalibration mc cores).1.largeMulti ∧
    (runCalibration mc cores).1.medDual < (runCalibration mc cores).1.medMulti ∧
    (runCalibration mc cores).1.largeMulti ≤ (runCalibration mc cores).1.medMulti ∧ (runCalibration mc cores).1.medMulti ≤ 200000 := by
  rcases runCalibration_cases mc cores with ⟨p, e⟩ | ⟨c, e, _⟩
  · rw [e]; exact calibrate_limits _
  · rw [e]; exact calibrate_limits _

omit [FloorRing T] in
theorem measureAll_error (mc : Machinery T) (cores : Nat) (sizes : List Nat) :
    (measureAll mc cores sizes = .error 1 ∧ ∃ n ∈ sizes, mc.clock n 1 < 1000 ∨ mc.clock n 2 < 1000 ∨ (2 < cores ∧ mc.clock n cores < 1000)) ∨
    (measureAll mc cores sizes = .ok (sizes.map fun n => mc.clock n 1, sizes.map fun n => mc.clock n 2,
        sizes.map fun n => if 2 < cores then mc.clock n cores else mc.clock n 2) ∧
      ∀ n ∈ sizes, 1000 ≤ mc.clock n 1 ∧ 1000 ≤ mc.clock n 2 ∧ (2 < cores → 1000 ≤ mc.clock n cores)) := by
  induction sizes with
  | nil => exact .inr ⟨rfl, by simp⟩
  | cons n rest ih =>
    simp only [measureAll, measure, bind, Except.bind]
    by_cases h1 : mc.clock n 1 < 1000
    · rw [if_pos h1]; exact .inl ⟨rfl, n, by simp, .inl h1⟩
    rw [if_neg h1]
    dsimp only
    by_cases h2 : mc.clock n 2 < 1000
    · rw [if_pos h2]; exact .inl ⟨rfl, n, by simp, .inr (.inl h2)⟩
    rw [if_neg h2]
    dsimp only
    by_cases hc : 2 < cores
    · simp only [if_pos hc, gt_iff_lt] at ih ⊢
      by_cases h3 : mc.clock n cores < 1000
      · rw [if_pos h3]; exact .inl ⟨rfl, n, by simp, .inr (.inr ⟨hc, h3⟩)⟩
      rw [if_neg h3]
      dsimp only
      rcases ih with ⟨e, k, hk, hb⟩ | ⟨e, hb⟩
      · rw [e]; exact .inl ⟨rfl, k, List.mem_cons_of_mem _ hk, hb⟩
      · rw [e]; exact .inr ⟨rfl, fun k hk => by
          rcases List.mem_cons.1 hk with rfl | hk
          · exact ⟨not_lt.1 h1, not_lt.1 h2, fun _ => not_lt.1 h3⟩
          · exact hb k hk⟩
    · simp only [if_neg hc, gt_iff_lt] at ih ⊢
      rcases ih with ⟨e, k, hk, hb⟩ | ⟨e, hb⟩
      · rw [e]; exact .inl ⟨rfl, k, List.mem_cons_of_mem _ hk, hb⟩
      · rw [e]; exact .inr ⟨rfl, fun k hk => by
          rcases List.mem_cons.1 hk with rfl | hk
          · exact ⟨not_lt.1 h1, not_lt.1 h2, fun h => absurd h hc⟩
          · exact hb k hk⟩

/-- C78: the code which is reported. Zero is success; every other code means that the default thresholds are used: 2 with one core, 1 if a
    measurement took less than a microsecond, 3 or 4 if no line or no crossing was found. -/
theorem C78_codes (mc : Machinery T) (cores : Nat) :
    ((runCalibration mc cores).2 ≠ 0 → (runCalibration mc cores).1 = ⟨50000, 100000, 20000, 30000⟩) ∧
    ((runCalibration mc cores).2 = 2 ↔ cores = 1) ∧
    ((runCalibration mc cores).2 = 1 ↔ cores ≠ 1 ∧ ∃ n ∈ calibrationSizes,
      mc.clock n 1 < 1000 ∨ mc.clock n 2 < 1000 ∨ (2 < cores ∧ mc.clock n cores < 1000)) ∧
    (runCalibration mc cores).2 ≤ 4 := by
  refine ⟨fun h => ?_, ?_⟩
  · rcases runCalibration_cases mc cores with ⟨p, e⟩ | ⟨c, e, _⟩
    · rw [e] at h; exact absurd rfl h
    · rw [e]; rfl
  by_cases hc : cores = 1
  · have : runCalibration mc cores = (calibrate none, 2) := by
      unfold runCalibration attemptCalibrate; rw [if_pos hc]
    rw [this]
    refine ⟨⟨fun _ => hc, fun _ => rfl⟩, ⟨fun h => (by cases h), fun h => absurd hc h.1⟩, by decide⟩
  · rcases measureAll_error mc cores calibrationSizes with ⟨e, hb⟩ | ⟨e, hb⟩
    · have : runCalibration mc cores = (calibrate none, 1) := by
        unfold runCalibration attemptCalibrate; rw [if_neg hc, e]; rfl
      rw [this]
      exact ⟨⟨fun h => (by cases h), fun h => absurd h hc⟩, ⟨fun _ => ⟨hc, hb⟩, fun _ => rfl⟩, by decide⟩
    · have h034 : (runCalibration mc cores).2 = 0 ∨ (runCalibration mc cores).2 = 3 ∨ (runCalibration mc cores).2 = 4 := by
        unfold runCalibration attemptCalibrate
        rw [if_neg hc, e]
        simp only [bind, Except.bind]
        split
        · left; rfl
        · rename_i code h
          split at h
          · split at h
            · cases h
            · cases h; right; right; rfl
          · cases h; right; left; rfl
      refine ⟨⟨fun h => by omega, fun h => absurd h hc⟩, ⟨fun h => by omega, fun h => ?_⟩, by omega⟩
      obtain ⟨-, n, hn, h⟩ := h
      obtain ⟨g1, g2, g3⟩ := hb n hn
      rcases h with h | h | ⟨h, h'⟩
      · exact absurd h (not_lt.2 g1)
      · exact absurd h (not_lt.2 g2)
      · exact absurd h' (not_lt.2 (g3 h))

section
variable [IsStrictOrderedRing T]

theorem abs_round (y : T) : ∃ R : Nat, |roundAway y| = (R : T) ∧ ⌊|roundAway y|⌋.toNat = R ∧ Rounded |y| R := by
  have key : ∀ z : T, 0 ≤ z → ∃ R : Nat, ((⌊z + 1 / 2⌋ : Int) : T) = (R : T) ∧ Rounded z R := by
    intro z hz
    have h0 : 0 ≤ ⌊z + 1 / 2⌋ := Int.floor_nonneg.2 (by linarith)
    refine ⟨⌊z + 1 / 2⌋.toNat, ?_, ?_⟩
    · have e : ((⌊z + 1 / 2⌋.toNat : Nat) : T) = ((⌊z + 1 / 2⌋ : Int) : T) := by
        rw [← Int.cast_natCast, Int.toNat_of_nonneg h0]
      exact e.symm
    · have e : ((⌊z + 1 / 2⌋.toNat : Nat) : T) = ((⌊z + 1 / 2⌋ : Int) : T) := by
        rw [← Int.cast_natCast, Int.toNat_of_nonneg h0]
      refine ⟨?_, ?_⟩
      · rw [e]; linarith [Int.lt_floor_add_one (z + 1 / 2)]
      · rw [e]; exact Int.floor_le _
  unfold roundAway
  by_cases hy : y < 0
  · rw [if_pos hy]
    obtain ⟨R, h1, h2⟩ := key (-y) (by linarith)
    have e : |((-⌊-y + 1 / 2⌋ : Int) : T)| = (R : T) := by
      rw [Int.cast_neg, abs_neg, h1, abs_of_nonneg (Nat.cast_nonneg R)]
    refine ⟨R, e, ?_, ?_⟩
    · rw [e]; simp
    · rw [abs_of_neg hy]; exact h2
  · rw [if_neg hy]
    obtain ⟨R, h1, h2⟩ := key y (not_lt.1 hy)
    have e : |((⌊y + 1 / 2⌋ : Int) : T)| = (R : T) := by rw [h1, abs_of_nonneg (Nat.cast_nonneg R)]
    refine ⟨R, e, ?_, ?_⟩
    · rw [e]; simp
    · rw [abs_of_nonneg (not_lt.1 hy)]; exact h2

theorem intersection_spec (mc : Machinery T) (m1 m2 b2 : T) (hne : m1 ≠ m2) (hb : |b2 / (m1 - m2)| + 1 ≤ (mc.usizeBound : T)) :
    ∃ R, intersection mc m1 0 m2 b2 = some R ∧ Rounded |b2 / (m1 - m2)| R := by
  unfold intersection
  rw [if_neg (sub_ne_zero.2 hne), sub_zero]
  obtain ⟨R, e1, e2, hR⟩ := abs_round (b2 / (m1 - m2))
  refine ⟨R, ?_, hR⟩
  have hlt : |roundAway (b2 / (m1 - m2))| < (mc.usizeBound : T) := by
    rw [e1]
    have := hR.2
    linarith
  simp only [if_pos hlt, e2]

omit [LinearOrder T] [FloorRing T] [IsStrictOrderedRing T] in
theorem proportional_line [CharZero T] (a : T) :
    proportionalRegression (calibrationSizes.map fun n : Nat => (n : T)) (calibrationSizes.map fun n : Nat => a * (n : T)) = a := by
  have hn : ∀ n ∈ calibrationSizes, ((n : Nat) : T) ≠ 0 := by
    intro n hn
    rw [Nat.cast_ne_zero]
    simp [calibrationSizes] at hn
    omega
  have hl : calibrationSizes.length = 10 := by decide
  have e : List.zipWith (fun x y => y / x) (calibrationSizes.map fun n : Nat => (n : T)) (calibrationSizes.map fun n : Nat => a * (n : T)) =
      List.replicate 10 a := by
    rw [← hl, List.zipWith_map, List.zipWith_self]
    rw [← List.map_const']
    refine List.map_congr_left fun n h => ?_
    rw [mul_div_assoc, div_self (hn n h), mul_one]
  unfold proportionalRegression
  rw [e, List.length_map, hl]
  have : (10 : T) ≠ 0 := by norm_num
  simp only [List.replicate, List.sum_cons, List.sum_nil]
  rw [Nat.cast_ofNat, div_eq_iff this]
  ring

/-- What the calibration finds on a linear machine. -/
theorem runCalibration_linear (mc : Machinery T) (cores : Nat) (hc : 2 ≤ cores) (one two many : Line T)
    (h : LinearMachine mc cores one two many) (h2 : one.slope ≠ two.slope) (hm : one.slope ≠ many.slope)
    (hb2 : |two.start / (one.slope - two.slope)| + 1 ≤ (mc.usizeBound : T)) (hbm : |many.start / (one.slope - many.slope)| + 1 ≤ (mc.usizeBound : T)) :
    ∃ R S, Rounded |two.start / (one.slope - two.slope)| R ∧ Rounded |many.start / (one.slope - many.slope)| S ∧
      runCalibration mc cores = (calibrate (some (R, S)), 0) := by
  obtain ⟨R, eR, hR⟩ := intersection_spec mc one.slope two.slope two.start h2 hb2
  obtain ⟨S, eS, hS⟩ := intersection_spec mc one.slope many.slope many.start hm hbm
  refine ⟨R, S, hR, hS, ?_⟩
  have h1 : (calibrationSizes.map fun n : Nat => mc.clock n 1) = calibrationSizes.map fun n : Nat => one.slope * (n : T) :=
    List.map_congr_left fun n hn => by rw [h.time1 n hn, Line.at, h.origin, add_zero]
  have e2 : (calibrationSizes.map fun n : Nat => mc.clock n 2) = calibrationSizes.map fun n : Nat => two.at (n : T) :=
    List.map_congr_left fun n hn => h.time2 n hn
  have e3 : (calibrationSizes.map fun n : Nat => if 2 < cores then mc.clock n cores else mc.clock n 2) = calibrationSizes.map fun n : Nat => many.at (n : T) :=
    List.map_congr_left fun n hn => by
      split
      · exact h.timeMany n hn
      · have : cores = 2 := by omega
        subst this
        exact h.timeMany n hn
  have hall : measureAll mc cores calibrationSizes = .ok (calibrationSizes.map fun n : Nat => one.slope * (n : T),
      calibrationSizes.map fun n : Nat => two.at (n : T), calibrationSizes.map fun n : Nat => many.at (n : T)) := by
    rcases measureAll_error mc cores calibrationSizes with ⟨_, n, hn, hb⟩ | ⟨e, -⟩
    · exfalso
      have g := h.measurable n hn
      rcases hb with hb | hb | ⟨_, hb⟩
      · rw [h.time1 n hn] at hb; exact absurd hb (not_lt.2 (g one (by simp)))
      · rw [h.time2 n hn] at hb; exact absurd hb (not_lt.2 (g two (by simp)))
      · rw [h.timeMany n hn] at hb; exact absurd hb (not_lt.2 (g many (by simp)))
    · rw [e, h1, e2, e3]
  unfold runCalibration attemptCalibrate
  rw [if_neg (by omega), hall]
  simp only [bind, Except.bind, h.regression, proportional_line, eR, eS]

theorem limit_le (v lo hi : Nat) (hv : v ≤ hi) (n : Nat) (h : limit v lo hi ≤ n) : v ≤ n := by
  unfold limit at h
  split at h
  · omega
  · split at h <;> omega

theorem limit_upper (v lo hi : Nat) : limit v lo hi ≤ max lo v := by
  unfold limit
  split
  · omega
  · split <;> omega

omit [FloorRing T] in
theorem pays_of_crossing (one l : Line T) (ho : one.start = 0) (hs : l.slope < one.slope) (n : T)
    (h : l.start / (one.slope - l.slope) ≤ n) : l.at n ≤ one.at n := by
  have hd : 0 < one.slope - l.slope := sub_pos.2 hs
  rw [div_le_iff₀ hd] at h
  unfold Line.at
  rw [ho]
  nlinarith

omit [FloorRing T] in
theorem pays_nearly (one l : Line T) (ho : one.start = 0) (hs : l.slope < one.slope) (n : T)
    (h : l.start / (one.slope - l.slope) ≤ n + 1 / 2) : l.at n ≤ one.at n + (one.slope - l.slope) / 2 := by
  have hd : 0 < one.slope - l.slope := sub_pos.2 hs
  rw [div_le_iff₀ hd] at h
  unfold Line.at
  rw [ho]
  nlinarith

omit [FloorRing T] in
theorem rounded_bounds {x : T} {R : Nat} (h : Rounded x R) (B : Nat) (hx : x ≤ B) : R ≤ B := by
  by_contra hc
  have : ((B + 1 : Nat) : T) ≤ (R : T) := by exact_mod_cast (by omega : B + 1 ≤ R)
  push_cast at this
  linarith [h.2]

omit [FloorRing T] in
theorem rounded_medium {x : T} {R n : Nat} (h : Rounded x R) (hn : 2 * R ≤ n) (hn' : 1 ≤ n) : x ≤ (n : T) := by
  rcases Nat.eq_zero_or_pos R with rfl | hp
  · have : ((1 : Nat) : T) ≤ (n : T) := by exact_mod_cast hn'
    push_cast at this
    have := h.1
    push_cast at this
    linarith
  · have h1 : ((2 * R : Nat) : T) ≤ (n : T) := by exact_mod_cast hn
    have h2 : ((1 : Nat) : T) ≤ (R : T) := by exact_mod_cast hp
    push_cast at h1 h2
    linarith [h.1]

omit [FloorRing T] in
theorem rounded_large {x : T} {R n : Nat} (h : Rounded x R) (hn : R ≤ n) : x ≤ (n : T) + 1 / 2 := by
  have h1 : (R : T) ≤ (n : T) := by exact_mod_cast hn
  linarith [h.1]

/-- C78: on a machine on which the times are linear, threads make the work faster for large vectors (smaller slope) and cost something to
    start, and the lines cross not later than at 50000 (two threads) and 100000 elements (all cores): whenever an operation of medium
    complexity uses threads this takes no longer than using one thread; for operations of large complexity at most the time for half an
    element is lost. -/
theorem C78_pays (mc : Machinery T) (cores : Nat) (hc : 2 ≤ cores) (one two many : Line T)
    (h : LinearMachine mc cores one two many) (h2 : two.slope < one.slope) (hm : many.slope < one.slope)
    (hs2 : 0 ≤ two.start) (hsm : 0 ≤ many.start)
    (hb2 : two.start / (one.slope - two.slope) ≤ 50000) (hbm : many.start / (one.slope - many.slope) ≤ 100000)
    (hu : 100001 ≤ mc.usizeBound) (n : Nat) :
    (runCalibration mc cores).2 = 0 ∧
    (∀ w, determineNumberOfChunks n .medium (MultiCoreSettings.new (runCalibration mc cores).1 cores) = w →
      w = 1 ∨ (w = 2 ∧ two.at (n : T) ≤ one.at n) ∨ (w = cores ∧ many.at (n : T) ≤ one.at n)) ∧
    (∀ w, determineNumberOfChunks n .large (MultiCoreSettings.new (runCalibration mc cores).1 cores) = w →
      w = 1 ∨ (w = 2 ∧ two.at (n : T) ≤ one.at n + (one.slope - two.slope) / 2) ∨
      (w = cores ∧ many.at (n : T) ≤ one.at n + (one.slope - many.slope) / 2)) := by
  have hd2 : 0 < one.slope - two.slope := sub_pos.2 h2
  have hdm : 0 < one.slope - many.slope := sub_pos.2 hm
  have hp2 := div_nonneg hs2 hd2.le
  have hpm := div_nonneg hsm hdm.le
  have hu' : ((100001 : Nat) : T) ≤ (mc.usizeBound : T) := by exact_mod_cast hu
  push_cast at hu'
  obtain ⟨R, S, hR, hS, e⟩ := runCalibration_linear mc cores hc one two many h h2.ne' hm.ne'
    (by rw [abs_of_nonneg hp2]; linarith) (by rw [abs_of_nonneg hpm]; linarith)
  rw [abs_of_nonneg hp2] at hR
  rw [abs_of_nonneg hpm] at hS
  have bR : R ≤ 50000 := rounded_bounds hR 50000 (by push_cast; exact hb2)
  have bS : S ≤ 100000 := rounded_bounds hS 100000 (by push_cast; exact hbm)
  rw [e]
  have hne : ¬ cores = 1 := by omega
  have hle : ¬ cores ≤ 1 := by omega
  refine ⟨rfl, fun w hw => ?_, fun w hw => ?_⟩
  · simp only [MultiCoreSettings.new, if_neg hle, determineNumberOfChunks, if_neg hne, calibrate] at hw
    split at hw
    · exact .inl hw.symm
    · rename_i g1
      have g1 := not_lt.1 g1
      have k1 := limit_le _ _ _ (by omega) n g1
      have k0 : 1 ≤ n := by
        have : 5000 ≤ limit (2 * R) 5000 100000 := by unfold limit; (repeat' split) <;> omega
        omega
      split at hw
      · exact .inr (.inl ⟨hw.symm, pays_of_crossing one two h.origin h2 _ (rounded_medium hR k1 k0)⟩)
      · rename_i g2
        have k2 := limit_le _ _ _ (by omega) n (not_lt.1 g2)
        exact .inr (.inr ⟨hw.symm, pays_of_crossing one many h.origin hm _ (rounded_medium hS k2 k0)⟩)
  · simp only [MultiCoreSettings.new, if_neg hle, determineNumberOfChunks, if_neg hne, calibrate] at hw
    split at hw
    · exact .inl hw.symm
    · rename_i g1
      have k1 := limit_le _ _ _ (by omega) n (not_lt.1 g1)
      split at hw
      · exact .inr (.inl ⟨hw.symm, pays_nearly one two h.origin h2 _ (rounded_large hR k1)⟩)
      · rename_i g2
        have k2 := limit_le _ _ _ (by omega) n (not_lt.1 g2)
        exact .inr (.inr ⟨hw.symm, pays_nearly one many h.origin hm _ (rounded_large hS k2)⟩)

/-- C78: on such a machine threads are not avoided for longer than documented: from twice the crossing on (but not below 5000 elements) an
    operation of medium complexity uses threads, from the crossing on one of large complexity. -/
theorem C78_uses_threads (mc : Machinery T) (cores : Nat) (hc : 2 ≤ cores) (one two many : Line T)
    (h : LinearMachine mc cores one two many) (h2 : two.slope < one.slope) (hm : many.slope < one.slope)
    (hs2 : 0 ≤ two.start) (hsm : 0 ≤ many.start)
    (hb2 : two.start / (one.slope - two.slope) ≤ 50000) (hbm : many.start / (one.slope - many.slope) ≤ 100000)
    (hu : 100001 ≤ mc.usizeBound) (n : Nat) (hn : 5000 ≤ n) :
    (2 * (two.start / (one.slope - two.slope)) + 1 ≤ n →
      2 ≤ determineNumberOfChunks n .medium (MultiCoreSettings.new (runCalibration mc cores).1 cores)) ∧
    (two.start / (one.slope - two.slope) + 1 / 2 ≤ n →
      2 ≤ determineNumberOfChunks n .large (MultiCoreSettings.new (runCalibration mc cores).1 cores)) := by
  have hd2 : 0 < one.slope - two.slope := sub_pos.2 h2
  have hdm : 0 < one.slope - many.slope := sub_pos.2 hm
  have hp2 := div_nonneg hs2 hd2.le
  have hpm := div_nonneg hsm hdm.le
  have hu' : ((100001 : Nat) : T) ≤ (mc.usizeBound : T) := by exact_mod_cast hu
  push_cast at hu'
  obtain ⟨R, S, hR, hS, e⟩ := runCalibration_linear mc cores hc one two many h h2.ne' hm.ne'
    (by rw [abs_of_nonneg hp2]; linarith) (by rw [abs_of_nonneg hpm]; linarith)
  rw [abs_of_nonneg hp2] at hR
  rw [e]
  have hne : ¬ cores = 1 := by omega
  have hle : ¬ cores ≤ 1 := by omega
  refine ⟨fun g => ?_, fun g => ?_⟩
  · have k : 2 * R ≤ n := by
      have : ((2 * R : Nat) : T) ≤ (n : T) := by push_cast; linarith [hR.2]
      exact_mod_cast this
    have l := limit_upper (2 * R) 5000 100000
    simp only [MultiCoreSettings.new, if_neg hle, determineNumberOfChunks, if_neg hne, calibrate]
    rw [if_neg (by omega)]
    split <;> omega
  · have k : R ≤ n := by
      have : (R : T) ≤ (n : T) := by linarith [hR.2]
      exact_mod_cast this
    have l := limit_upper R 5000 100000
    simp only [MultiCoreSettings.new, if_neg hle, determineNumberOfChunks, if_neg hne, calibrate]
    rw [if_neg (by omega)]
    split <;> omega

/-- C78: the sign of the crossing is dropped (threading.rs:72). If two threads (and all cores) are slower than one thread for every size the
    calibration succeeds nevertheless, and threads are used for vectors of 10000 elements although the documentation of the calibration
    says that none are spawned if in doubt. -/
theorem C78_never_pays_violated (mc : Machinery T) (cores : Nat) (hc : 2 ≤ cores) (one two many : Line T)
    (h : LinearMachine mc cores one two many) (h2 : one.slope < two.slope) (hm : one.slope < many.slope)
    (hs2 : 0 < two.start) (hsm : 0 < many.start)
    (hb2 : two.start / (two.slope - one.slope) ≤ 5000) (hbm : many.start / (many.slope - one.slope) ≤ 100000)
    (hu : 100001 ≤ mc.usizeBound) :
    (∀ n : Nat, one.at (n : T) < two.at n ∧ one.at (n : T) < many.at n) ∧
    (∀ n : Nat, 10000 ≤ n → 2 ≤ determineNumberOfChunks n .medium (MultiCoreSettings.new (runCalibration mc cores).1 cores)) := by
  have hd2 : 0 < two.slope - one.slope := sub_pos.2 h2
  have hdm : 0 < many.slope - one.slope := sub_pos.2 hm
  have hp2 := div_nonneg hs2.le hd2.le
  have hpm := div_nonneg hsm.le hdm.le
  have hu' : ((100001 : Nat) : T) ≤ (mc.usizeBound : T) := by exact_mod_cast hu
  push_cast at hu'
  have f2 : |two.start / (one.slope - two.slope)| = two.start / (two.slope - one.slope) := by
    rw [← neg_sub two.slope, div_neg, abs_neg, abs_of_nonneg hp2]
  have fm : |many.start / (one.slope - many.slope)| = many.start / (many.slope - one.slope) := by
    rw [← neg_sub many.slope, div_neg, abs_neg, abs_of_nonneg hpm]
  obtain ⟨R, S, hR, hS, e⟩ := runCalibration_linear mc cores hc one two many h h2.ne hm.ne
    (by rw [f2]; linarith) (by rw [fm]; linarith)
  rw [f2] at hR
  have bR : R ≤ 5000 := rounded_bounds hR 5000 (by push_cast; exact hb2)
  refine ⟨fun n => ?_, fun n hn => ?_⟩
  · have : (0 : T) ≤ (n : T) := Nat.cast_nonneg n
    unfold Line.at
    rw [h.origin]
    constructor <;> nlinarith
  · rw [e]
    have hne : ¬ cores = 1 := by omega
    have hle : ¬ cores ≤ 1 := by omega
    have l := limit_upper (2 * R) 5000 100000
    simp only [MultiCoreSettings.new, if_neg hle, determineNumberOfChunks, if_neg hne, calibrate]
    rw [if_neg (by omega)]
    split <;> omega

end

/-! ### The hypotheses can be met -/

/-- The line through the first two points. -/
def exampleFit (x y : List ℚ) : Option (ℚ × ℚ) :=
  match x, y with
  | x0 :: x1 :: _, y0 :: y1 :: _ => some ((y1 - y0) / (x1 - x0), y0 - (y1 - y0) / (x1 - x0) * x0)
  | _, _ => none

def exampleMachinery (two many : Line ℚ) : Machinery ℚ where
  clock n c := if c = 1 then 10 * n else if c = 2 then two.at n else many.at n
  fit := exampleFit
  usizeBound := 2 ^ 64

theorem exampleMachinery_linear (two many : Line ℚ) (h2 : 0 ≤ two.start) (h2' : 1 ≤ two.slope) (hm : 0 ≤ many.start) (hm' : 1 ≤ many.slope) :
    LinearMachine (exampleMachinery two many) 4 ⟨10, 0⟩ two many where
  origin := rfl
  time1 n _ := by simp [exampleMachinery, Line.at]
  time2 n _ := by simp [exampleMachinery]
  timeMany n _ := by simp [exampleMachinery]
  measurable n hn l hl := by
    have hn' : 10000 ≤ n := by simp [calibrationSizes] at hn; omega
    have : ((10000 : Nat) : ℚ) ≤ (n : ℚ) := by exact_mod_cast hn'
    push_cast at this
    simp only [List.mem_cons, List.not_mem_nil, or_false] at hl
    unfold Line.at
    rcases hl with rfl | rfl | rfl
    · dsimp only; linarith
    · nlinarith
    · nlinarith
  regression l := by
    have hf : (exampleMachinery two many).fit = exampleFit := rfl
    rw [hf]
    have : calibrationSizes = 10000 :: 15000 :: (List.range 8).map fun i => 20000 + 5000 * i := by decide
    rw [this]
    simp only [List.map_cons, exampleFit, Line.at]
    congr 1
    push_cast
    ext
    · dsimp only; ring
    · dsimp only; ring

/-- The hypotheses of `C78_pays` and `C78_uses_threads` can be met. -/
example : ∃ (mc : Machinery ℚ) (one two many : Line ℚ), LinearMachine mc 4 one two many ∧ two.slope < one.slope ∧ many.slope < one.slope ∧
    0 ≤ two.start ∧ 0 ≤ many.start ∧ two.start / (one.slope - two.slope) ≤ 50000 ∧ many.start / (one.slope - many.slope) ≤ 100000 ∧
    100001 ≤ mc.usizeBound :=
  ⟨exampleMachinery ⟨5, 20000⟩ ⟨3, 50000⟩, ⟨10, 0⟩, ⟨5, 20000⟩, ⟨3, 50000⟩,
    exampleMachinery_linear _ _ (by norm_num) (by norm_num) (by norm_num) (by norm_num),
    by norm_num, by norm_num, by norm_num, by norm_num, by norm_num, by norm_num, by norm_num [exampleMachinery]⟩

/-- The hypotheses of `C78_never_pays_violated` can be met. -/
example : ∃ (mc : Machinery ℚ) (one two many : Line ℚ), LinearMachine mc 4 one two many ∧ one.slope < two.slope ∧ one.slope < many.slope ∧
    0 < two.start ∧ 0 < many.start ∧ two.start / (two.slope - one.slope) ≤ 5000 ∧ many.start / (many.slope - one.slope) ≤ 100000 ∧
    100001 ≤ mc.usizeBound :=
  ⟨exampleMachinery ⟨20, 20000⟩ ⟨30, 50000⟩, ⟨10, 0⟩, ⟨20, 20000⟩, ⟨30, 50000⟩,
    exampleMachinery_linear _ _ (by norm_num) (by norm_num) (by norm_num) (by norm_num),
    by norm_num, by norm_num, by norm_num, by norm_num, by norm_num, by norm_num, by norm_num [exampleMachinery]⟩

/-- Codes which occur: a machine with one core, and one whose clock is too fast. -/
example : (runCalibration (exampleMachinery ⟨5, 20000⟩ ⟨3, 50000⟩) 1).2 = 2 := ((C78_codes _ 1).2.1).2 rfl
example : (runCalibration (⟨fun _ _ => 0, exampleFit, 2 ^ 64⟩ : Machinery ℚ) 4).2 = 1 :=
  ((C78_codes _ 4).2.2.1).2 ⟨by decide, 10000, by decide, .inl (by norm_num)⟩

end Dsp
