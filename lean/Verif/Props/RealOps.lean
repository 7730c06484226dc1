import Verif.Model.RealOps
import Verif.Props.ComplexOps
import Verif.Lemmas.BlockMap
import Mathlib.Algebra.Order.Floor.Ring
import Mathlib.Data.Rat.Floor
import Mathlib.Tactic.NormNum
/-
C33: wrap and unwrap. C47: point wise functions.
-/
namespace Dsp
open DspVec
variable {T : Type}

/-! ### C47 -/

theorem executeWithRange_empty {c : Complexity} {st : MultiCoreSettings} (h : determineNumberOfChunks 0 c st ≤ 1)
    (step s p : Nat) (g : Nat → List T → List T) (hs : 0 < s) (sched : List Nat) :
    executeWithRange c st [] step (blockLoop s p g) sched = .finished [] := by
  have h0 : ceilDiv 0 s = 0 := by unfold ceilDiv; exact Nat.div_eq_of_lt (by omega)
  unfold executeWithRange
  simp only [List.length_nil]
  rw [if_neg (by omega)]
  simp [blockLoop, h0]

theorem small_empty (st : MultiCoreSettings) : determineNumberOfChunks 0 .small st ≤ 1 := by
  unfold determineNumberOfChunks; split <;> simp_all

theorem pureReal_always (c : Complexity) (f : T → T) (st : MultiCoreSettings) (v : DspVec T) (hv : v.WF)
    (hc : v.len ≠ 0 ∨ determineNumberOfChunks 0 c st ≤ 1) :
    ∃ a w, v.content = some a ∧ Always (v.pureReal c f st) w ∧ Replaced v w (a.map f) := by
  have hl := hv.content_length hv.content_eq
  refine ⟨v.data.cells.take v.validLen,
    v.withCells (splice v.data.cells 0 ((v.data.cells.take v.validLen).map f)),
    hv.content_eq, ?_, replaced_splice hv _ (by rw [List.length_map]; exact hl)⟩
  have e : Always (executeWithRange c st (v.data.cells.take v.validLen) 1 (blockLoop 1 1 (fun _ b => b.map f)))
      ((v.data.cells.take v.validLen).map f) := by
    by_cases h0 : v.data.cells.take v.validLen = []
    · rcases hc with hc | hc
      · rw [h0] at hl; exact absurd hl.symm hc
      · rw [h0]
        exact (Always.const _).congr fun s => executeWithRange_empty hc 1 1 1 _ (by omega) s
    · have := executeWithRange_mapIdx _ h0 (fun x _ => f x) c st
      rwa [List.mapIdx_eq_zipIdx_map, show (fun x : T × Nat => f x.1) = f ∘ Prod.fst from rfl,
        ← List.map_map, List.zipIdx_map_fst] at this
  refine e.mapOutcome.congr fun s => ?_
  unfold pureReal
  rw [hv.content_eq]

theorem pureComplex_always (c : Complexity) (f : Cx T → Cx T) (st : MultiCoreSettings) (v : DspVec T)
    (hv : v.WF) (hcx : v.isComplex = true) (hc : v.len ≠ 0 ∨ determineNumberOfChunks 0 c st ≤ 1) :
    ∃ cs w, v.content = some (fromComplex cs) ∧ Always (v.pureComplex c f st) w ∧
      Replaced v w (fromComplex (cs.map f)) := by
  obtain ⟨cs, h, hl⟩ := hv.content_even hcx
  refine ⟨cs, v.withCells (splice v.data.cells 0 (fromComplex (cs.map f))),
    h, ?_, replaced_splice hv _ (by simp; omega)⟩
  have e : Always (executeWithRange c st (fromComplex cs) 2 (blockLoop 2 2 (fun _ b => mapPair f b)))
      (fromComplex (cs.map f)) := by
    by_cases h0 : cs = []
    · subst h0
      rcases hc with hc | hc
      · exact absurd (show v.validLen = 0 by rw [← hl]; rfl) hc
      · exact (Always.const _).congr fun s => executeWithRange_empty hc 2 2 2 _ (by omega) s
    · have := executeWithRange_mapIdx_complex _ h0 (fun x _ => f x) c st
      rwa [List.mapIdx_eq_zipIdx_map, show (fun x : Cx T × Nat => f x.1) = f ∘ Prod.fst from rfl,
        ← List.map_map, List.zipIdx_map_fst] at this
  refine e.mapOutcome.congr fun s => ?_
  unfold pureComplex
  rw [h]
  exact if_neg (by simp)

/-- C47: every trigonometric function, `exp`, `ln`, `powf`, `log` and `expf` replaces every number of a
    real vector and every point of a complex vector by the value of the function, for all
    settings and all interleavings of the workers; length, meta data and unused storage stay the
    same. (An empty vector needs thresholds which are not zero, see C14.) -/
theorem C47_math_ops (lib : MathLib T) (op : MathOp T) (st : MultiCoreSettings) (v : DspVec T) (hv : v.WF)
    (hne : v.len ≠ 0 ∨ determineNumberOfChunks 0 .medium st ≤ 1) :
    (v.isComplex = false →
      ∃ a w, v.content = some a ∧ Always (v.mathOp lib op st) w ∧ Replaced v w (a.map (lib.real op))) ∧
    (v.isComplex = true →
      ∃ cs w, v.content = some (fromComplex cs) ∧ Always (v.mathOp lib op st) w ∧
        Replaced v w (fromComplex (cs.map (lib.cx op)))) := by
  constructor <;> intro hc
  · obtain ⟨a, w, h1, h2, h3⟩ := pureReal_always .medium (lib.real op) st v hv hne
    exact ⟨a, w, h1, h2.congr fun s => by unfold mathOp; rw [hc]; rfl, h3⟩
  · obtain ⟨a, w, h1, h2, h3⟩ := pureComplex_always .medium (lib.cx op) st v hv hc hne
    exact ⟨a, w, h1, h2.congr fun s => by unfold mathOp; rw [hc]; rfl, h3⟩

/-- C47: `root(n)` is `powf(1 / n)`. -/
theorem C47_root [One T] [Div T] (lib : MathLib T) (n : T) (st : MultiCoreSettings) (v : DspVec T) (hv : v.WF)
    (hne : v.len ≠ 0 ∨ determineNumberOfChunks 0 .medium st ≤ 1) (hr : v.isComplex = false) :
    ∃ a w, v.content = some a ∧ Always (v.root lib n st) w ∧
      Replaced v w (a.map (lib.real (.powf (1 / n)))) :=
  (C47_math_ops lib (.powf (1 / n)) st v hv hne).1 hr

theorem laneWise_map (w : Nat) (f : T → T) : LaneWise w (fun r => r.map f) f :=
  ⟨fun r _ => by simp, fun r _ => rfl⟩

/-- C47: `sqrt`, `square` and `abs` on real vectors (alignments accepted by the SIMD
    splitting). -/
theorem C47_sqrt_square_abs [Add T] [Sub T] [Mul T] (lib : MathLib T)
    (k : RegKind) (addr : Nat) (st : MultiCoreSettings) (v : DspVec T) (hv : v.WF) (hr : v.isComplex = false)
    (hal : AlignmentAccepted addr k.len v.len) :
    ∃ a, v.content = some a ∧
      (∃ w, Always (v.sqrt lib k addr st) w ∧ Replaced v w (a.map lib.sqrt)) ∧
      (∃ w, Always (v.square k addr st) w ∧ Replaced v w (a.map (fun x => x * x))) ∧
      ((∀ x, lib.sqrt (x * x) = lib.abs x) →
        ∃ w, Always (v.abs lib k addr st) w ∧ Replaced v w (a.map lib.abs)) := by
  have hl := hv.content_length hv.content_eq
  have hk : 0 < k.len := by cases k <;> decide
  have gen : ∀ (op : List T → List T) (f : T → T), LaneWise k.len op f →
      Always (fun sched => simdRealOperation addr k.len op f .small st sched (v.data.cells.take v.validLen))
        ((v.data.cells.take v.validLen).map f) := fun op f hop =>
    C20_real addr k.len hk op f hop .small st _ (by rw [hl]; exact hal) (.inr (small_empty st))
  refine ⟨_, hv.content_eq, ⟨_, (gen _ _ (laneWise_map _ lib.sqrt)).mapOutcome.congr fun s => ?_,
      replaced_splice hv _ (by rw [List.length_map]; exact hl)⟩,
    ⟨_, (gen _ _ (laneWise_map _ fun x => x * x)).mapOutcome.congr fun s => ?_,
      replaced_splice hv _ (by rw [List.length_map]; exact hl)⟩,
    fun habs => ⟨_, (gen _ lib.abs (?_ : LaneWise _ (fun r => r.map fun x => lib.sqrt (x * x)) lib.abs)).mapOutcome.congr fun s => ?_,
      replaced_splice hv _ (by rw [List.length_map]; exact hl)⟩⟩
  · unfold DspVec.sqrt; rw [hr, hv.content_eq]; rfl
  · unfold DspVec.square; rw [hr, hv.content_eq]; rfl
  · simp only [habs]; exact laneWise_map _ _
  · unfold DspVec.abs; rw [hr, hv.content_eq]; rfl

/-- C47: `sqrt` and `square` on complex vectors: every point, no restriction. -/
theorem C47_sqrt_square_complex [Add T] [Sub T] [Mul T] (lib : MathLib T)
    (k : RegKind) (addr : Nat) (st : MultiCoreSettings) (v : DspVec T) (hv : v.WF) (hc : v.isComplex = true) :
    (∃ cs w, v.content = some (fromComplex cs) ∧ Always (v.sqrt lib k addr st) w ∧
      Replaced v w (fromComplex (cs.map lib.sqrtCx))) ∧
    (∃ cs w, v.content = some (fromComplex cs) ∧ Always (v.square k addr st) w ∧
      Replaced v w (fromComplex (cs.map (fun x => x * x)))) := by
  constructor
  · obtain ⟨a, w, h1, h2, h3⟩ := pureComplex_always .small lib.sqrtCx st v hv hc (.inr (small_empty st))
    exact ⟨a, w, h1, h2.congr fun s => by unfold DspVec.sqrt; rw [hc]; rfl, h3⟩
  · obtain ⟨a, w, h1, h2, h3⟩ := pureComplex_always .small (fun x => x * x) st v hv hc (.inr (small_empty st))
    exact ⟨a, w, h1, h2.congr fun s => by unfold DspVec.square; rw [hc]; rfl, h3⟩

example : exampleVec.WF ∧ exampleVec.len ≠ 0 ∧ exampleVec.isComplex = true := by decide
example : ∃ lib : MathLib Int, ∀ x, lib.sqrt (x * x) = lib.abs x :=
  ⟨⟨fun _ x => x, fun _ x => x, fun x => (Int.natAbs x).sqrt, id, fun x => (Int.natAbs x : Int)⟩, fun x => by
    simp only [Int.natAbs_mul, Nat.sqrt_eq]⟩

/-! ### C33 -/

/-- Specification: the whole number of times `d` fits into `x`, rounded towards zero. -/
def wraps [Field T] [LinearOrder T] [FloorRing T] (x d : T) : Int :=
  if 0 ≤ x / d then ⌊x / d⌋ else ⌈x / d⌉

section
variable [Field T] [LinearOrder T] [IsStrictOrderedRing T] [FloorRing T]

omit [IsStrictOrderedRing T] in
theorem remTrunc_eq (x d : T) : remTrunc x d = x - d * (wraps x d : T) := by
  unfold remTrunc wraps; split <;> simp

/-- The remainder of a number between `0` and `d`, shifted by a multiple of `d`. -/
theorem remTrunc_pos {x d e : T} (hd : 0 < d) (m : Int) (hm : 0 ≤ m) (he : 0 ≤ e) (hed : e < d)
    (hx : x = e + d * m) : remTrunc x d = e := by
  rw [remTrunc_eq]
  have hxd : x / d = e / d + m := by rw [hx]; field_simp
  have h0 : 0 ≤ e / d := div_nonneg he hd.le
  have h1 : e / d < 1 := (div_lt_one hd).2 hed
  have hmT : (0 : T) ≤ m := by exact_mod_cast hm
  have : wraps x d = m := by
    unfold wraps
    rw [if_pos (by rw [hxd]; linarith), hxd, Int.floor_add_intCast, Int.floor_eq_zero_iff.2 ⟨h0, h1⟩]
    simp
  rw [this, hx]; ring

theorem remTrunc_neg {x d e : T} (hd : 0 < d) (m : Int) (hm : m ≤ 0) (he : e ≤ 0) (hed : -d < e)
    (hx : x = e + d * m) : remTrunc x d = e := by
  by_cases h0 : x = 0
  · -- then both are zero
    have hmT : (m : T) ≤ 0 := by exact_mod_cast hm
    have h1 : d * (m : T) ≤ 0 := mul_nonpos_of_nonneg_of_nonpos hd.le hmT
    have : e = 0 := by linarith
    rw [remTrunc_eq, h0, this]
    unfold wraps; simp
  rw [remTrunc_eq]
  have hxd : x / d = e / d + m := by rw [hx]; field_simp
  have h1 : e / d ≤ 0 := div_nonpos_of_nonpos_of_nonneg he hd.le
  have h2 : -1 < e / d := by rw [lt_div_iff₀ hd]; linarith
  have hmT : (m : T) ≤ 0 := by exact_mod_cast hm
  have hneg : x / d < 0 := by
    rcases lt_or_eq_of_le (show x / d ≤ 0 by rw [hxd]; linarith) with h | h
    · exact h
    · rw [div_eq_zero_iff] at h
      rcases h with h | h
      · exact absurd h h0
      · linarith
  have : wraps x d = m := by
    unfold wraps
    rw [if_neg (not_le.2 hneg), hxd, Int.ceil_add_intCast, Int.ceil_eq_zero_iff.2 ⟨h2, h1⟩]
    simp
  rw [this, hx]; ring

/-- One step of `unwrap`: `prev` is unwrapped, `cur` differs from the right value by `m` times `d`. -/
theorem unwrapStep_right {d prev delta : T} (hd : 0 < d) (m : Int) (h1 : -(d / 2) < delta) (h2 : delta < d / 2)
    (hm : m = 0 ∨ (0 < m ∧ 0 < delta) ∨ (m < 0 ∧ delta < 0)) :
    unwrapStep d prev (prev + delta - d * m) = prev + delta := by
  unfold unwrapStep
  have e : prev + delta - d * (m : T) - prev = delta - d * m := by ring
  simp only [e]
  rcases hm with rfl | ⟨hm, hpos⟩ | ⟨hm, hneg⟩
  · simp only [Int.cast_zero, mul_zero, sub_zero]
    rw [if_neg (by linarith), if_neg (by linarith)]
  · have hmT : (1 : T) ≤ m := by exact_mod_cast hm
    have hdm : d ≤ d * m := le_mul_of_one_le_right hd.le hmT
    rw [if_neg (by linarith), if_pos (by linarith)]
    rw [remTrunc_neg hd (1 - m) (by omega) (e := delta - d) (by linarith) (by linarith) (by push_cast; ring)]
    ring
  · have hmT : (m : T) ≤ -1 := by
      have : m ≤ -1 := by omega
      exact_mod_cast this
    have hdm : d * m ≤ -d := by
      have := mul_le_mul_of_nonneg_left hmT hd.le
      linarith
    rw [if_pos (by linarith)]
    rw [remTrunc_pos hd (-1 - m) (by omega) (e := delta + d) (by linarith) (by linarith) (by push_cast; ring)]
    ring

/-- A step in the wrong direction: the result is off by a whole `d`. -/
theorem unwrapStep_wrong {d prev delta : T} (hd : 0 < d) (m : Int) (h1 : -(d / 2) < delta) (hm : 0 < m)
    (hneg : delta ≤ 0) :
    unwrapStep d prev (prev + delta - d * m) = prev + delta + d := by
  unfold unwrapStep
  have e : prev + delta - d * (m : T) - prev = delta - d * m := by ring
  simp only [e]
  have hmT : (1 : T) ≤ m := by exact_mod_cast hm
  have hdm : d ≤ d * m := le_mul_of_one_le_right hd.le hmT
  rw [if_neg (by linarith), if_pos (by linarith)]
  rw [remTrunc_neg hd (-m) (by omega) (e := delta) (by linarith) (by linarith) (by push_cast; ring)]
  ring

/-- Specification: the sequence has steps below `d / 2`, and whenever an element lies in another
    period of `d` than the first one, the step to it leads away from the first period. -/
def UnwrapsWell (d : T) (x : List T) : Prop :=
  ∀ (j : Nat) (x0 a b : T), x[0]? = some x0 → x[j]? = some a → x[j + 1]? = some b →
    -(d / 2) < b - a ∧ b - a < d / 2 ∧
      (wraps b d = wraps x0 d ∨ (wraps x0 d < wraps b d ∧ a < b) ∨ (wraps b d < wraps x0 d ∧ b < a))

/-- C33 (partial: sequences with `UnwrapsWell`): `unwrap(d)` after `wrap(d)` restores the sequence up
    to a constant, a multiple of `d`, which is zero if the first element is below `d` in
    magnitude. -/
theorem C33_restores_partial (d : T) (hd : 0 < d) (st : MultiCoreSettings) (v : DspVec T) (hv : v.WF)
    (hr : v.isComplex = false) (x : List T) (h : v.content = some x) (hx : UnwrapsWell d x) :
    ∃ w u, Always (v.wrap d st) w ∧ w.unwrap d = some u ∧
      Replaced v u (x.map (· - d * (wraps (x.headD 0) d : T))) := by
  obtain ⟨a, w, h1, h2, h3⟩ := pureReal_always .small (fun y => remTrunc y d) st v hv (.inr (small_empty st))
  rw [h, Option.some.injEq] at h1
  subst h1
  obtain ⟨r1, r2, r3, r4, r5⟩ := h3
  have hcw : w.isComplex = false := by unfold isComplex; rw [r3.2.2.1]; exact hr
  obtain ⟨⟨rest, hcells⟩, hlen⟩ := cells_of_content r1
  have hxl := hv.content_length h
  set c := d * (wraps (x.headD 0) d : T) with hc
  have hwl : w.validLen = x.length := by rw [r2, hxl]
  have hrest : rest = w.data.cells.drop w.validLen := by rw [hcells, hwl]; simp
  have hinv := forRange_inv (P := fun j data =>
      data = ((x.map (· - c)).take j ++ (x.map fun y => remTrunc y d).drop j) ++ rest)
    (fun j data => do
      let cur ← get data j
      let prev ← get data (j - 1)
      put data j (unwrapStep d prev cur)) 1 (w.len - 1) w.data.cells ?_ ?_
  · obtain ⟨data, e1, e2⟩ := hinv
    refine ⟨w, w.withCells data, h2.congr fun s => by unfold wrap; rw [hr]; rfl, ?_, ?_⟩
    · unfold DspVec.unwrap
      rw [hcw]
      simp only [Bool.false_eq_true, if_false]
      rw [e1]; rfl
    · have e3 : data = x.map (· - c) ++ rest := by
        rw [e2]
        by_cases h0 : x.length = 0
        · rw [List.length_eq_zero_iff] at h0
          subst h0; simp
        · have : 1 + (w.len - 1) = x.length := by rw [len, hwl]; omega
          rw [this]
          rw [List.take_of_length_le (by simp), List.drop_of_length_le (by simp)]
          simp
      have hdl : data.length = w.data.cells.length := by
        rw [e3, hcells]; simp
      refine ⟨?_, r2, r3, ?_, ?_⟩
      · unfold content withCells slice
        simp only
        rw [if_pos ⟨by omega, by rw [e3, hwl]; simp⟩]
        rw [e3, hwl]; simp
      · show data.length = _
        rw [hdl]; exact r4
      · show data.drop v.validLen = _
        rw [e3, ← hxl, List.drop_append]
        simp only [List.length_map, Nat.sub_self, List.drop_zero]
        rw [List.drop_of_length_le (by simp), List.nil_append, hrest, hwl, hxl]
        exact r5
  · show w.data.cells = _
    rw [hcells]
    congr 1
    cases x with
    | nil => rfl
    | cons x0 xs =>
      have : remTrunc x0 d = x0 - c := by rw [remTrunc_eq, hc]; rfl
      simp [this]
  · rintro j data hj1 hj2 rfl
    have hj : j < x.length := by rw [len, hwl] at hj2; omega
    obtain ⟨b, hb⟩ : ∃ b, x[j]? = some b := ⟨x[j], List.getElem?_eq_getElem hj⟩
    obtain ⟨a, ha⟩ : ∃ a, x[j - 1]? = some a := ⟨x[j - 1], List.getElem?_eq_getElem (by omega)⟩
    obtain ⟨x0, h0⟩ : ∃ x0, x[0]? = some x0 := ⟨x[0], List.getElem?_eq_getElem (by omega)⟩
    have hhead : x.headD 0 = x0 := by
      cases x with
      | nil => simp at hj
      | cons y ys => simpa using h0
    obtain ⟨s1, s2, s3⟩ := hx (j - 1) x0 a b h0 ha (by rw [Nat.sub_add_cancel hj1]; exact hb)
    have hlt : ((x.map (· - c)).take j).length = j := by simp; omega
    have g1 : get (((x.map (· - c)).take j ++ (x.map fun y => remTrunc y d).drop j) ++ rest) j =
        some (remTrunc b d) := by
      unfold get
      rw [List.append_assoc, List.getElem?_append_right (by omega), hlt, Nat.sub_self,
        List.getElem?_append_left (by simp; omega)]
      simp [hb]
    have g2 : get (((x.map (· - c)).take j ++ (x.map fun y => remTrunc y d).drop j) ++ rest) (j - 1) =
        some (a - c) := by
      unfold get
      rw [List.append_assoc, List.getElem?_append_left (by omega), List.getElem?_take_of_lt (by omega)]
      simp [ha]
    have hstep : unwrapStep d (a - c) (remTrunc b d) = b - c := by
      have := unwrapStep_right (d := d) (prev := a - c) (delta := b - a) hd
        (wraps b d - wraps x0 d) s1 s2 (by
          rcases s3 with e | ⟨e, e'⟩ | ⟨e, e'⟩
          · left; omega
          · right; left; exact ⟨by omega, by linarith⟩
          · right; right; exact ⟨by omega, by linarith⟩)
      have e : a - c + (b - a) - d * ((wraps b d - wraps x0 d : Int) : T) = remTrunc b d := by
        rw [remTrunc_eq, hc, hhead]; push_cast; ring
      rw [e] at this
      rw [this]; ring
    refine ⟨_, ?_, rfl⟩
    simp only [g1, g2, Option.bind_eq_bind, Option.bind_some, hstep]
    unfold put
    rw [if_pos (by simp; omega)]
    congr 1
    rw [List.append_assoc, List.set_append_right _ _ (by omega), hlt, Nat.sub_self,
      List.take_add_one]
    have : (x.map fun y => remTrunc y d).drop j = remTrunc b d :: (x.map fun y => remTrunc y d).drop (j + 1) := by
      rw [List.drop_eq_getElem_cons (by simpa using hj)]
      congr 1
      rw [List.getElem_map]
      rw [List.getElem?_eq_getElem hj, Option.some.injEq] at hb
      rw [hb]
    rw [this]
    simp only [List.getElem?_map, hb, Option.map_some, Option.toList_some, List.append_assoc,
      List.cons_append, List.nil_append, List.set_cons_zero]

/-- C33: a non negative, strictly increasing sequence with steps below `d / 2` is restored up to the
    multiple of `d` in its first element. -/
theorem C33_increasing_partial (d : T) (hd : 0 < d) (st : MultiCoreSettings) (v : DspVec T) (hv : v.WF)
    (hr : v.isComplex = false) (x : List T) (h : v.content = some x) (h0 : ∀ y ∈ x, 0 ≤ y)
    (hx : ∀ (j : Nat) (a b : T), x[j]? = some a → x[j + 1]? = some b → a < b ∧ b - a < d / 2) :
    ∃ w u, Always (v.wrap d st) w ∧ w.unwrap d = some u ∧
      Replaced v u (x.map (· - d * (wraps (x.headD 0) d : T))) := by
  refine C33_restores_partial d hd st v hv hr x h ?_
  have hmono : ∀ (n : Nat) (x0 b : T), x[0]? = some x0 → x[n]? = some b → x0 ≤ b := by
    intro n
    induction n with
    | zero => intro x0 b e1 e2; rw [e1] at e2; exact (Option.some.inj e2).le
    | succ n ih =>
      intro x0 b e1 e2
      have hlt : n + 1 < x.length := by
        by_contra hc
        rw [List.getElem?_eq_none (by omega)] at e2; cases e2
      have e3 : x[n]? = some x[n] := List.getElem?_eq_getElem (by omega)
      exact (ih x0 _ e1 e3).trans (hx n _ _ e3 e2).1.le
  intro j x0 a b e0 ea eb
  obtain ⟨s1, s2⟩ := hx j a b ea eb
  refine ⟨by linarith, s2, ?_⟩
  have hb0 := h0 b (List.mem_of_getElem? eb)
  have hx0 := h0 x0 (List.mem_of_getElem? e0)
  have hle := hmono (j + 1) x0 b e0 eb
  have : wraps x0 d ≤ wraps b d := by
    unfold wraps
    rw [if_pos (div_nonneg hx0 hd.le), if_pos (div_nonneg hb0 hd.le)]
    exact Int.floor_le_floor (div_le_div_of_nonneg_right hle hd.le)
  rcases lt_or_eq_of_le this with h | h
  · exact .inr (.inl ⟨h, s1⟩)
  · exact .inl h.symm

/-- The full C33 fails: as soon as the sequence has left the period of its first element, a step which
    is zero or leads back is unwrapped in the wrong direction and the result is off by `d`, and so
    are all later elements. Here for every `d > 0` the sequence
    `0.4 d, 0.8 d, 1.2 d, 1.2 d`. -/
theorem C33_constant_violated (d : T) (hd : 0 < d) (st : MultiCoreSettings) :
    ∃ v w u : DspVec T, v.WF ∧ v.isComplex = false ∧
      v.content = some [2 / 5 * d, 4 / 5 * d, 6 / 5 * d, 6 / 5 * d] ∧
      Always (v.wrap d st) w ∧ w.unwrap d = some u ∧
      u.content = some [2 / 5 * d, 4 / 5 * d, 6 / 5 * d, 11 / 5 * d] := by
  have hv : (⟨⟨.vec, [2 / 5 * d, 4 / 5 * d, 6 / 5 * d, 6 / 5 * d]⟩, none, .time, .real, 4⟩ : DspVec T).WF :=
    ⟨by simp, by simp [isComplex, NumberSpace.isComplex]⟩
  have hcont : (⟨⟨.vec, [2 / 5 * d, 4 / 5 * d, 6 / 5 * d, 6 / 5 * d]⟩, none, .time, .real, 4⟩ : DspVec T).content
      = some [2 / 5 * d, 4 / 5 * d, 6 / 5 * d, 6 / 5 * d] := by simp [content, slice]
  obtain ⟨a, w, h1, h2, h3, h4, h5, h6, h7⟩ := pureReal_always .small (fun y => remTrunc y d) st _ hv
    (.inr (small_empty st))
  rw [hcont, Option.some.injEq] at h1
  subst h1
  obtain ⟨⟨rest, hw⟩, -⟩ := cells_of_content h3
  have e1 : remTrunc (2 / 5 * d) d = 2 / 5 * d :=
    remTrunc_pos hd 0 (by omega) (by positivity) (by linarith) (by simp)
  have e2 : remTrunc (4 / 5 * d) d = 4 / 5 * d :=
    remTrunc_pos hd 0 (by omega) (by positivity) (by linarith) (by simp)
  have e3 : remTrunc (6 / 5 * d) d = 1 / 5 * d :=
    remTrunc_pos hd 1 (by omega) (by positivity) (by linarith) (by push_cast; ring)
  simp only [List.map_cons, List.map_nil, e1, e2, e3] at h3 hw
  have hcw : w.isComplex = false := by unfold isComplex; rw [h5.2.2.1]; rfl
  have s1 : unwrapStep d (2 / 5 * d) (4 / 5 * d) = 4 / 5 * d := by
    have := unwrapStep_right (d := d) (prev := 2 / 5 * d) (delta := 2 / 5 * d) hd 0 (by linarith) (by linarith) (.inl rfl)
    simp only [Int.cast_zero, mul_zero, sub_zero] at this
    rw [show 4 / 5 * d = 2 / 5 * d + 2 / 5 * d by ring]; exact this
  have s2 : unwrapStep d (4 / 5 * d) (1 / 5 * d) = 6 / 5 * d := by
    have := unwrapStep_right (d := d) (prev := 4 / 5 * d) (delta := 2 / 5 * d) hd 1 (by linarith) (by linarith)
      (.inr (.inl ⟨by omega, by positivity⟩))
    rw [show (4 / 5 * d + 2 / 5 * d - d * ((1 : Int) : T)) = 1 / 5 * d by push_cast; ring] at this
    rw [this]; ring
  have s3 : unwrapStep d (6 / 5 * d) (1 / 5 * d) = 11 / 5 * d := by
    have := unwrapStep_wrong (d := d) (prev := 6 / 5 * d) (delta := 0) hd 1 (by linarith) (by omega) le_rfl
    rw [show (6 / 5 * d + 0 - d * ((1 : Int) : T)) = 1 / 5 * d by push_cast; ring] at this
    rw [this]; ring
  have hvl : w.validLen = 4 := h4
  refine ⟨_, w, w.withCells ([2 / 5 * d, 4 / 5 * d, 6 / 5 * d, 11 / 5 * d] ++ rest), hv, rfl, hcont,
    h2.congr fun s => rfl, ?_, ?_⟩
  · unfold DspVec.unwrap
    rw [hcw]
    simp only [Bool.false_eq_true, if_false, len, hvl]
    rw [hw]
    rw [one_div] at s2 s3
    simp [forRange, get, put, s1, s2, s3]
  · simp [content, slice, withCells, hvl]

example : UnwrapsWell (5 : ℚ) [2, 4, 6, 8, 10] := by
  intro j x0 a b e0 ea eb
  have h0 : wraps (2 : ℚ) 5 = 0 := by unfold wraps; norm_num
  match j with
  | 0 | 1 | 2 | 3 =>
    simp at e0 ea eb
    subst e0 ea eb
    refine ⟨by norm_num, by norm_num, ?_⟩
    rw [h0]
    unfold wraps; norm_num
  | n + 4 => simp at eb
end

end Dsp
