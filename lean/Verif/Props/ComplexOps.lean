import Verif.Props.ComplexReal
import Verif.Spec.Elementary
import Mathlib.Analysis.Complex.Trigonometric
/-
C31: conj and multiply_complex_exponential. C46: magnitude and phase. C32: wrong number space.
-/
namespace Dsp
open DspVec
variable {T : Type}

/-! ### C31 -/

theorem conj_points [CommRing T] : ∀ cs : List (Cx T),
    regZip (· * ·) (fromComplex cs) (fromComplex (List.replicate cs.length ⟨1, -1⟩)) =
      fromComplex (cs.map Cx.conj)
  | [] => rfl
  | c :: cs => by
    have ih := conj_points cs
    unfold regZip at *
    simp only [List.length_cons, List.replicate_succ, fromComplex, List.zipWith_cons_cons, List.map_cons,
      ih, Cx.conj, mul_one, mul_neg]

theorem pointWise_conj [CommRing T] (k : RegKind) :
    PointWise k.len (fun r => regZip (· * ·) r (regFromComplex k (⟨1, -1⟩ : Cx T))) Cx.conj := by
  refine ⟨fun r h => ?_, fun cs h => ?_⟩
  · have : (regFromComplex k (⟨1, -1⟩ : Cx T)).length = k.len := by cases k <;> rfl
    simp [regZip, this]; omega
  · rw [regFromComplex_eq, ← h, Nat.mul_div_cancel_left _ (by decide)]
    exact conj_points cs

/-- C31 (partial: alignments accepted by the SIMD splitting): `conj` conjugates every point. -/
theorem C31_conj_partial [CommRing T] (k : RegKind) (addr : Nat) (st : MultiCoreSettings) (v : DspVec T)
    (hv : v.WF) (hc : v.isComplex = true) (cs : List (Cx T)) (h : v.content = some (fromComplex cs))
    (hal : ComplexAlignmentAccepted addr k.len v.len) :
    ∃ w, Always (v.conj k addr st) w ∧ Replaced v w (fromComplex (cs.map fun c => ⟨c.re, -c.im⟩)) := by
  have hl := (cells_of_content h).2
  rw [length_fromComplex] at hl
  have he : addr % k.len + k.len ≤ 2 * cs.length ∨ determineNumberOfChunks 0 .small st ≤ 1 := by
    right; simp only [determineNumberOfChunks]; split <;> simp_all
  have h1 := C20_complex addr k.len (by cases k <;> decide) (by cases k <;> decide) _ _
    (pointWise_conj k) .small st cs (by rw [← hl]; exact hal.1) hal.2 he
  have ha : v.assertComplex = v := by simp [assertComplex, hc]
  refine ⟨_, h1.mapOutcome.congr fun s => ?_, replaced_splice hv _ (by simp [hl])⟩
  unfold DspVec.conj
  rw [ha, h]

/-- C31: `conj` is an involution: applied twice the vector has its original contents. -/
theorem C31_conj_involution_partial [CommRing T] (k : RegKind) (addr : Nat) (st st' : MultiCoreSettings)
    (v : DspVec T) (hv : v.WF) (hc : v.isComplex = true) (hal : ComplexAlignmentAccepted addr k.len v.len) :
    ∃ w u, Always (v.conj k addr st) w ∧ Always (w.conj k addr st') u ∧ u.content = v.content ∧
      u.validLen = v.validLen ∧ u.SameMeta v := by
  obtain ⟨cs, h, hl⟩ := hv.content_even hc
  obtain ⟨w, h1, h2, h3, h4, h5, h6⟩ := C31_conj_partial k addr st v hv hc cs h hal
  have hcw : w.isComplex = true := by unfold isComplex; rw [h4.2.2.1]; exact hc
  have hw : w.WF := ⟨by rw [h3, h5]; exact hv.1, fun _ => by rw [h3]; exact hv.2 hc⟩
  obtain ⟨u, g1, g2, g3, g4, g5, g6⟩ := C31_conj_partial k addr st' w hw hcw _ h2
    (by rw [len, h3]; exact hal)
  refine ⟨w, u, h1, g1, ?_, g3.trans h3, ?_⟩
  · rw [g2, h]
    congr 2
    rw [List.map_map]
    have : ((fun c : Cx T => (⟨c.re, -c.im⟩ : Cx T)) ∘ fun c => ⟨c.re, -c.im⟩) = id := by
      funext c; simp
    rw [this, List.map_id]
  · obtain ⟨a1, a2, a3, a4⟩ := h4
    obtain ⟨b1, b2, b3, b4⟩ := g4
    exact ⟨b1.trans a1, b2.trans a2, b3.trans a3, b4.trans a4⟩

example : exampleVec.WF ∧ exampleVec.isComplex = true ∧
    ComplexAlignmentAccepted 2 RegKind.sseF32x4.len exampleVec.len ∧
    exampleVec.content = some (fromComplex [⟨1, 2⟩, ⟨3, 4⟩, ⟨5, 6⟩]) :=
  ⟨by decide, by decide, ⟨.inl (by decide), by decide⟩, by decide⟩

/-- The running product is a power. -/
theorem expLoop_eq [CommRing T] (inc : Cx T) : ∀ (cs : List (Cx T)) (e : Cx T),
    expLoop inc e cs = cs.mapIdx (fun i c => c * (e * inc ^ i))
  | [], _ => rfl
  | c :: cs, e => by
    rw [expLoop, expLoop_eq inc cs, List.mapIdx_cons]
    congr 1
    · show c * e = _; ring
    · congr 1
      funext i c
      show c * (e * inc * inc ^ i) = _
      ring

theorem cis_pow [CommRing T] (cis : T → Cx T) (h0 : cis 0 = 1) (hadd : ∀ x y, cis (x + y) = cis x * cis y)
    (a : T) (i : Nat) : cis a ^ i = cis (a * i) := by
  induction i with
  | zero => simp [h0]
  | succ n ih => rw [pow_succ, ih, ← hadd]; congr 1; push_cast; ring

/-- C31 (partial), `multiply_complex_exponential(a, b)` with a sampling distance `d`: point `i` is multiplied
    by `exp(j (a * d * i + b * d))`, where `cis x` stands for `exp(j x)`. The documentation promises
    `exp(j (a * d * i + b))`, see `C31_offset_violated`; the two agree for `b = 0` or `d = 1`. -/
theorem C31_exponential_partial [CommRing T] (cis : T → Cx T) (h0 : cis 0 = 1)
    (hadd : ∀ x y, cis (x + y) = cis x * cis y) (a b d : T) (v : DspVec T) (hv : v.WF)
    (hc : v.isComplex = true) (cs : List (Cx T)) (h : v.content = some (fromComplex cs))
    (hd : v.delta = some d) :
    ∃ w, v.multiplyComplexExponential cis a b = some w ∧
      Replaced v w (fromComplex (cs.mapIdx fun i c => c * cis (a * i * d + b * d))) := by
  have hl := (cells_of_content h).2
  rw [length_fromComplex] at hl
  have ha : v.assertComplex = v := by simp [assertComplex, hc]
  refine ⟨_, ?_, replaced_splice hv _ (by simp [hl])⟩
  unfold multiplyComplexExponential
  simp only [ha, h, toComplex?_fromComplex, hd, Option.bind_eq_bind, Option.bind_some]
  congr 4
  have he : (cis (b * d)).mul (cis (a * d * 0)) = cis (b * d) := by
    show cis (b * d) * cis (a * d * 0) = _
    rw [mul_zero, h0, mul_one]
  rw [he, expLoop_eq]
  congr 1
  funext i c
  rw [cis_pow cis h0 hadd, ← hadd]
  congr 2; ring

/-- C31 as documented for `b = 0` or a sampling distance of one. -/
theorem C31_exponential_documented_partial [CommRing T] (cis : T → Cx T) (h0 : cis 0 = 1)
    (hadd : ∀ x y, cis (x + y) = cis x * cis y) (a b d : T) (v : DspVec T) (hv : v.WF)
    (hc : v.isComplex = true) (cs : List (Cx T)) (h : v.content = some (fromComplex cs))
    (hd : v.delta = some d) (hbd : b = 0 ∨ d = 1) :
    ∃ w, v.multiplyComplexExponential cis a b = some w ∧
      Replaced v w (fromComplex (cs.mapIdx fun i c => c * cis (a * i * d + b))) := by
  have hb : b * d = b := by rcases hbd with rfl | rfl <;> simp
  have := C31_exponential_partial cis h0 hadd a b d v hv hc cs h hd
  rwa [hb] at this

/-- The hypotheses hold for the exponential function on the real numbers. -/
noncomputable def cisReal (x : ℝ) : Cx ℝ := ⟨Real.cos x, Real.sin x⟩

example : cisReal 0 = 1 ∧ ∀ x y, cisReal (x + y) = cisReal x * cisReal y := by
  refine ⟨?_, fun x y => ?_⟩
  · ext <;> simp [cisReal]
  · ext <;> simp [cisReal, Real.cos_add, Real.sin_add]; ring

/-- A rotation by quarter turns, `j ^ x`. -/
def quarter (x : Int) : Cx Int :=
  if x % 4 = 0 then ⟨1, 0⟩ else if x % 4 = 1 then ⟨0, 1⟩ else if x % 4 = 2 then ⟨-1, 0⟩ else ⟨0, -1⟩

/-- C31 is violated: the offset `b` is scaled with the sampling distance. With `a = 0`, `b = 1`
    (a quarter turn) and the sampling distance 2 the point 1 becomes -1 instead of j. -/
theorem C31_offset_violated :
    let v : DspVec Int := ⟨⟨.vec, [1, 0]⟩, some 2, .time, .complex, 2⟩
    v.WF ∧ v.content = some (fromComplex [⟨1, 0⟩]) ∧
    (v.multiplyComplexExponential quarter 0 1).map (·.content) = some (some (fromComplex [⟨-1, 0⟩])) ∧
    ((⟨1, 0⟩ : Cx Int) * quarter (0 * 0 * 2 + 1)) = ⟨0, 1⟩ := by decide

/-! ### C46: magnitude and phase -/

theorem polarLoop_eq (polar : Cx T → T × T) (cs : List (Cx T)) (s m p : List T)
    (hm : m.length = cs.length) (hp : p.length = cs.length) :
    polarLoop polar cs.length (fromComplex cs ++ s) m p =
      some (cs.map fun c => (polar c).1, cs.map fun c => (polar c).2) := by
  unfold polarLoop
  obtain ⟨r, h1, h2, -⟩ := forRange_inv
    (P := fun i (x : List T × List T) =>
      x = ((cs.map fun c => (polar c).1).take i ++ m.drop i,
           (cs.map fun c => (polar c).2).take i ++ p.drop i) ∧ i ≤ cs.length)
    (fun i (st : List T × List T) => do
      let re ← get (fromComplex cs ++ s) (2 * i)
      let im ← get (fromComplex cs ++ s) (2 * i + 1)
      let m ← put st.1 i (polar ⟨re, im⟩).1
      let p ← put st.2 i (polar ⟨re, im⟩).2
      some (m, p)) 0 cs.length (m, p) (by simp) (by
      rintro i x - hi ⟨rfl, -⟩
      have hi : i < cs.length := by omega
      have g1 : get (fromComplex cs ++ s) (2 * i) = some cs[i].re := by
        unfold get
        rw [List.getElem?_append_left (by simp; omega), getElem?_fromComplex_even]; simp [hi]
      have g2 : get (fromComplex cs ++ s) (2 * i + 1) = some cs[i].im := by
        unfold get
        rw [List.getElem?_append_left (by simp; omega), getElem?_fromComplex_odd]; simp [hi]
      have hset : ∀ (l q : List T), l.length = cs.length → q.length = cs.length → ∀ hl : i < l.length,
          put (l.take i ++ q.drop i) i l[i] = some (l.take (i + 1) ++ q.drop (i + 1)) := by
        intro l q h1 h2 hl
        rw [put_eq (by simp; omega)]
        congr 1
        rw [List.set_append_right _ _ (by simp)]
        have e : i - (l.take i).length = 0 := by simp; omega
        rw [e, List.drop_eq_getElem_cons (by omega), List.set_cons_zero,
          List.take_add_one, List.getElem?_eq_getElem hl]
        simp only [Option.toList_some, List.append_assoc, List.cons_append, List.nil_append]
      refine ⟨_, ?_, rfl, by omega⟩
      have p1 := hset (cs.map fun c => (polar c).1) m (by simp) hm (by simpa using hi)
      have p2 := hset (cs.map fun c => (polar c).2) p (by simp) hp (by simpa using hi)
      simp only [List.getElem_map] at p1 p2
      simp only [g1, g2, Option.bind_eq_bind, Option.bind_some]
      have : (⟨cs[i].re, cs[i].im⟩ : Cx T) = cs[i] := rfl
      rw [this, p1, p2]
      rfl)
  refine h1.trans ?_
  rw [h2, Nat.zero_add, List.take_of_length_le (by simp), List.drop_of_length_le (by omega),
    List.take_of_length_le (by simp), List.drop_of_length_le (by omega)]
  simp

/-- C46: `get_mag_phase` writes magnitude and phase of every point into the destinations. -/
theorem C46_get_mag_phase [Zero T] (polar : Cx T → T × T) (v re im : DspVec T)
    (hc : v.isComplex = true) (cs : List (Cx T))
    (h : v.content = some (fromComplex cs)) (hw1 : re.WF) (hk1 : NotInline re.data.kind)
    (hr1 : re.isComplex = false) (hn1 : CanHold re.data cs.length)
    (hw2 : im.WF) (hk2 : NotInline im.data.kind)
    (hr2 : im.isComplex = false) (hn2 : CanHold im.data cs.length) :
    ∃ r i, v.getMagPhase polar re im = some (r, i) ∧ RealVersion re r (cs.map fun c => (polar c).1) ∧
      RealVersion im i (cs.map fun c => (polar c).2) := by
  obtain ⟨⟨s, hs⟩, hl⟩ := cells_of_content h
  rw [length_fromComplex] at hl
  have hlen : v.len / 2 = cs.length := by unfold len; omega
  have hlen2 : (v.len + 1) / 2 = cs.length := by unfold len; omega
  obtain ⟨d1, a1, a2, a3, a4, -⟩ := resize_real re hw1 hk1 hr1 _ hn1
  obtain ⟨d2, b1, b2, b3, b4, -⟩ := resize_real im hw2 hk2 hr2 _ hn2
  have l1 : cs.length ≤ d1.data.cells.length := by rw [← a2]; exact a3.1
  have l2 : cs.length ≤ d2.data.cells.length := by rw [← b2]; exact b3.1
  have s1 : slice d1.data.cells 0 cs.length = some (d1.data.cells.take cs.length) := by
    rw [slice_ok _ _ _ (by omega) l1]; simp
  have s2 : slice d2.data.cells 0 cs.length = some (d2.data.cells.take cs.length) := by
    rw [slice_ok _ _ _ (by omega) l2]; simp
  have hd := polarLoop_eq polar cs s (d1.data.cells.take cs.length) (d2.data.cells.take cs.length)
    (by simp; omega) (by simp; omega)
  refine ⟨d1.withCells (splice d1.data.cells 0 (cs.map fun c => (polar c).1)),
    d2.withCells (splice d2.data.cells 0 (cs.map fun c => (polar c).2)), ?_, ?_, ?_⟩
  · unfold getMagPhase
    rw [if_neg (by simp [hc, hr1, hr2]), hlen, hlen2, a1, b1]
    simp only [s1, s2, hs, hd, Option.bind_eq_bind, Option.bind_some]
  · obtain ⟨x1, x2, x3, x4, x5⟩ := realVersion_target (d := d1) (c := cs.map fun c => (polar c).1) rfl
      (by simp [a2]) (by simpa using l1) (by unfold isComplex; rw [a4.2.2.1]; exact hr1)
    exact ⟨x1, x2, x3, x4.trans (by unfold dom; rw [a4.2.1]), x5.trans a4.1⟩
  · obtain ⟨x1, x2, x3, x4, x5⟩ := realVersion_target (d := d2) (c := cs.map fun c => (polar c).2) rfl
      (by simp [b2]) (by simpa using l2) (by unfold isComplex; rw [b4.2.2.1]; exact hr2)
    exact ⟨x1, x2, x3, x4.trans (by unfold dom; rw [b4.2.1]), x5.trans b4.1⟩

theorem cartLoop_eq (cart : T → T → Cx T) (m p data : List T) (hmp : p.length = m.length)
    (hd : data.length = 2 * m.length) :
    cartLoop cart m.length m p data = some (fromComplex (List.zipWith cart m p)) := by
  unfold cartLoop
  have hzl : (List.zipWith cart m p).length = m.length := by simp [hmp]
  obtain ⟨r, h1, h2, -⟩ := forRange_inv
    (P := fun i d => d = (fromComplex (List.zipWith cart m p)).take (2 * i) ++ data.drop (2 * i) ∧
      i ≤ m.length)
    (fun i d => do
      let x ← get m i
      let y ← get p i
      let d ← put d (2 * i) (cart x y).re
      put d (2 * i + 1) (cart x y).im) 0 m.length data (by simp) (by
      rintro i d - hi ⟨rfl, -⟩
      have hi : i < m.length := by omega
      have hi' : i < p.length := by omega
      have g1 : get m i = some m[i] := get_eq hi
      have g2 : get p i = some p[i] := get_eq hi'
      have hlt : ((fromComplex (List.zipWith cart m p)).take (2 * i)).length = 2 * i := by
        simp [hmp]; omega
      have hdd : data.drop (2 * i) = data[2 * i] :: data[2 * i + 1] :: data.drop (2 * (i + 1)) := by
        rw [List.drop_eq_getElem_cons (by omega), List.drop_eq_getElem_cons (by omega)]
        rfl
      refine ⟨_, ?_, rfl, by omega⟩
      simp only [g1, g2, Option.bind_eq_bind, Option.bind_some]
      rw [hdd]
      generalize hpre : (fromComplex (List.zipWith cart m p)).take (2 * i) = pre at hlt
      rw [put_eq (by simp only [List.length_append, List.length_cons]; omega),
        List.set_append_right _ _ (by omega)]
      have e0 : 2 * i - pre.length = 0 := by omega
      have e1 : 2 * i + 1 - pre.length = 1 := by omega
      simp only [Option.bind_some]
      rw [put_eq (by simp only [List.length_append, List.length_set, List.length_cons]; omega),
        List.set_append_right _ _ (by omega), e0, e1]
      congr 1
      have ht : (fromComplex (List.zipWith cart m p)).take (2 * (i + 1)) =
          pre ++ [(cart m[i] p[i]).re, (cart m[i] p[i]).im] := by
        rw [← hpre, show 2 * (i + 1) = 2 * i + 1 + 1 by omega, List.take_add_one, List.take_add_one,
          getElem?_fromComplex_even, getElem?_fromComplex_odd]
        have : (List.zipWith cart m p)[i]? = some (cart m[i] p[i]) := by
          rw [List.getElem?_zipWith]; simp [hi, hi']
        rw [this]; simp
      rw [ht]; simp)
  refine h1.trans ?_
  rw [h2, Nat.zero_add, List.take_of_length_le (by simp [hmp]), List.drop_of_length_le (by omega),
    List.append_nil]

/-- C46: `set_mag_phase` overwrites a complex vector with the points given by magnitude and phase;
    `get_mag_phase` returns what was set, for those pairs which `polar` restores (`polar` is
    `Complex::to_polar`, `cart` is `Complex::from_polar`); different lengths are rejected. -/
theorem C46_set_get [Zero T] (cart : T → T → Cx T) (polar : Cx T → T × T)
    (v pm pp : DspVec T) (hc : v.isComplex = true) (m p : List T)
    (hpm : pm.content = some m) (hpp : pp.content = some p) :
    (m.length ≠ p.length → v.setMagPhase cart pm pp = some (v, .error .invalidArgumentLength)) ∧
    (m.length = p.length → ∃ w, v.setMagPhase cart pm pp = some (w, .ok ()) ∧
      ComplexVersion v w (List.zipWith cart m p) ∧ w.SameMeta v ∧
      ∀ (re im : DspVec T), re.WF → NotInline re.data.kind → re.isComplex = false →
        CanHold re.data m.length → im.WF → NotInline im.data.kind → im.isComplex = false →
        CanHold im.data m.length → (∀ x ∈ List.zip m p, polar (cart x.1 x.2) = x) →
        ∃ re' im', w.getMagPhase polar re im = some (re', im') ∧ RealVersion re re' m ∧
          RealVersion im im' p) := by
  obtain ⟨-, l1⟩ := cells_of_content hpm
  obtain ⟨-, l2⟩ := cells_of_content hpp
  refine ⟨fun h => ?_, fun h => ?_⟩
  · unfold setMagPhase len
    rw [l1, l2, if_pos h]
  · have hz : (List.zipWith cart m p).length = m.length := by simp [h]
    have hcont : ∀ w : DspVec T, w.data.cells = fromComplex (List.zipWith cart m p) →
        w.validLen = m.length + p.length → w.content = some (fromComplex (List.zipWith cart m p)) := by
      intro w h1 h2
      exact content_of_cells (s := []) (by rw [h1]; simp) (by rw [h2, length_fromComplex, hz]; omega)
    refine ⟨{ v.withCells (fromComplex (List.zipWith cart m p)) with validLen := m.length + p.length },
      ?_, ⟨hcont _ rfl rfl, ?_, hc, rfl, rfl⟩, ⟨rfl, rfl, rfl, rfl⟩, ?_⟩
    · unfold setMagPhase len
      rw [l1, l2, if_neg (by simpa using h)]
      have hi := cartLoop_eq cart m p
        (resizeCells v.data.cells (m.length + p.length)) h.symm (by rw [length_resizeCells]; omega)
      have e : (m.length + p.length + 1) / 2 = m.length := by omega
      simp only [hpm, hpp, e, hi, Option.bind_eq_bind, Option.bind_some]
    · show m.length + p.length = _
      rw [hz]; omega
    · intro re im a1 a2 a3 a4 b1 b2 b3 b4 hinv
      have := C46_get_mag_phase polar (v := { v.withCells (fromComplex (List.zipWith cart m p)) with
          validLen := m.length + p.length }) re im hc (List.zipWith cart m p) (hcont _ rfl rfl)
        a1 a2 a3 (by rw [hz]; exact a4) b1 b2 b3 (by rw [hz]; exact b4)
      have hmm : ∀ (m p : List T), m.length = p.length →
          (∀ x ∈ List.zip m p, polar (cart x.1 x.2) = x) →
          (List.zipWith cart m p).map (fun c => (polar c).1) = m ∧
          (List.zipWith cart m p).map (fun c => (polar c).2) = p := by
        intro m
        induction m with
        | nil => intro p h _; rw [List.length_eq_zero_iff.mp h.symm]; exact ⟨rfl, rfl⟩
        | cons x m ih =>
          intro p h hx
          match p with
          | y :: p =>
            obtain ⟨q1, q2⟩ := ih p (by simpa using h) (fun z hz => hx z (by simp [hz]))
            have := hx (x, y) (by simp)
            simp only at this
            simp [q1, q2, this]
      obtain ⟨e1, e2⟩ := hmm m p h hinv
      rw [e1, e2] at this
      exact this

/-- Lengths and quarter turns as polar coordinates. -/
example : let cart : Int → Int → Cx Int := fun m p => Cx.mul ⟨m, 0⟩ (quarter p)
    let polar : Cx Int → Int × Int := fun c =>
      if c.im = 0 then (if c.re > 0 then (c.re, 0) else (-c.re, 2)) else
        (if c.im > 0 then (c.im, 1) else (-c.im, 3))
    (∀ x ∈ List.zip [5, 2, 7] [2, 0, 3], polar (cart x.1 x.2) = x) ∧
    cart 7 3 = ⟨0, -7⟩ ∧ cart 5 2 = ⟨-5, 0⟩ := by decide

/-! ### C32: operations which require complex numbers -/

/-- C32: conversions to real numbers of a vector which is already real leave an empty, erroneous
    vector, in place and with a buffer, whatever the buffer is. -/
theorem C32_complex_to_real [Zero T] (op : Cx T → T) (v : DspVec T) (hr : v.isComplex = false)
    (st : MultiCoreSettings) (b : Buffer T) (k : RegKind) (addr : Nat) (simdOp : List T → List T) :
    (∃ w, v.toRealWith op = some w ∧ w.isErroneous = true ∧ w.len = 0 ∧ w.isComplex = false) ∧
    (∃ w, (∀ sched, v.toRealBWith op st b sched = .finished (w, b)) ∧ w.isErroneous = true ∧ w.len = 0) ∧
    (∃ w, v.magnitudeBWith k addr simdOp op b = some (w, b) ∧ w.isErroneous = true ∧ w.len = 0) := by
  obtain ⟨m1, m2, m3, m4⟩ := asReal_meta v.markInvalid
  have he : v.markInvalid.asReal.isErroneous = true := by
    unfold isErroneous; rw [m2, m3]; rfl
  refine ⟨⟨v.markInvalid.asReal, by simp [toRealWith, hr], he, m2, asReal_isComplex _⟩,
    ⟨v.markInvalid.asReal, fun s => by simp [toRealBWith, hr], he, m2⟩,
    ⟨v.markInvalid.asReal, by simp [magnitudeBWith, hr], he, m2⟩⟩

/-- C32: the getters leave an empty destination if the vector is not complex or the destination is not
    real. -/
theorem C32_getters [Zero T] (op : Cx T → T) (v dest : DspVec T)
    (h : v.isComplex = false ∨ dest.isComplex = true)
    (st : MultiCoreSettings) (k : RegKind) (addr : Nat) (simdOp : List T → List T) :
    ∃ d, d.len = 0 ∧ d.content = some [] ∧ (∀ sched, v.getRealWith op st dest sched = .finished d) ∧
      v.getMagnitudeWith k addr simdOp op dest = some d := by
  have hp : prepareTarget v dest = some (.inl { dest with validLen := 0 }) := by
    unfold prepareTarget
    rw [if_pos (by rcases h with h | h <;> simp [h])]
    have : dest.resize 0 = ({ dest with validLen := 0 }, .ok ()) := by simp [resize]
    rw [this]
  refine ⟨{ dest with validLen := 0 }, rfl, by simp [content, slice], fun s => ?_, ?_⟩
  · simp [getRealWith, hp]
  · simp [getMagnitudeWith, hp]

/-- C32: `get_real_imag` and `get_mag_phase` leave both destinations empty if the vector is not complex or one of the destinations is
    not real. -/
theorem C32_getters_pair [Zero T] (polar : Cx T → T × T) (v d1 d2 : DspVec T)
    (h : v.isComplex = false ∨ d1.isComplex = true ∨ d2.isComplex = true) :
    ∃ e1 e2, e1.len = 0 ∧ e1.content = some [] ∧ e2.len = 0 ∧ e2.content = some [] ∧ e1.SameMeta d1 ∧ e2.SameMeta d2 ∧
      v.getRealImag d1 d2 = some (e1, e2) ∧ v.getMagPhase polar d1 d2 = some (e1, e2) := by
  have h1 : d1.resize 0 = ({ d1 with validLen := 0 }, .ok ()) := by simp [resize]
  have h2 : d2.resize 0 = ({ d2 with validLen := 0 }, .ok ()) := by simp [resize]
  have hif : (v.isComplex = false || d1.isComplex || d2.isComplex) = true := by rcases h with h | h | h <;> simp [h]
  refine ⟨{ d1 with validLen := 0 }, { d2 with validLen := 0 }, rfl, by simp [content, slice], rfl, by simp [content, slice],
    ⟨rfl, rfl, rfl, rfl⟩, ⟨rfl, rfl, rfl, rfl⟩, ?_, ?_⟩
  · unfold getRealImag
    rw [if_pos hif, h1, h2]
  · unfold getMagPhase
    rw [if_pos hif, h1, h2]

/-- C32: `to_complex` of a complex vector is an error, `to_complex_b` leaves an erroneous vector. -/
theorem C32_real_to_complex [Zero T] (v : DspVec T) (hc : v.isComplex = true) (b : Buffer T) :
    (∃ w, v.toComplexVec = some (w, .error .inputMustBeReal)) ∧
    (∃ w, v.toComplexVecB b = some (w, b) ∧ w.isErroneous = true ∧ w.len = 0) := by
  obtain ⟨m1, m2, m3, m4⟩ := asComplex_meta v.markInvalid
  refine ⟨⟨v.asComplex, by simp [toComplexVec, hc]⟩, v.markInvalid.asComplex, by simp [toComplexVecB, hc], ?_, m2⟩
  unfold isErroneous; rw [m2, m3]; rfl

/-- C32: `conj`, `multiply_complex_exponential`, and `offset`/`scale` with a complex number on a vector of
    the real number space leave an empty, erroneous vector, whatever the alignment. -/
theorem C32_complex_ops [CommRing T] [Div T] (v : DspVec T) (hr : v.isComplex = false)
    (k : RegKind) (addr : Nat) (st : MultiCoreSettings) (cis : T → Cx T) (a b : T) (z : Cx T) :
    (∃ w, (∀ sched, v.conj k addr st sched = .finished w) ∧ w.isErroneous = true ∧ w.len = 0) ∧
    (∃ w, v.multiplyComplexExponential cis a b = some w ∧ w.isErroneous = true ∧ w.len = 0) ∧
    (∃ w, (∀ sched, v.offsetComplex k addr st z sched = .finished w) ∧ w.isErroneous = true ∧ w.len = 0) ∧
    (∃ w, (∀ sched, v.scaleComplex k addr st z sched = .finished w) ∧ w.isErroneous = true ∧ w.len = 0) := by
  have ha : v.assertComplex = { v.markInvalid with numberSpace := v.numberSpace.toReal } := by
    simp [assertComplex, hr]
  have hcont : v.assertComplex.content = some [] := by
    rw [ha]; simp [content, slice, markInvalid]
  have hl0 : v.assertComplex.validLen = 0 := by rw [ha]; rfl
  have he : v.assertComplex.isErroneous = true := by rw [ha]; rfl
  have hdelta : v.assertComplex.delta = none := by rw [ha]; rfl
  have hw : 0 < k.len := by cases k <;> decide
  have hmod := Nat.mod_lt addr hw
  have hcalc : calcDataAlignmentReqs addr k.len 0 = ⟨0, 0, 0⟩ := by
    unfold calcDataAlignmentReqs
    simp only
    rw [if_pos (by omega)]
  refine ⟨⟨v.assertComplex.withCells v.assertComplex.data.cells, fun sched => ?_, he, hl0⟩,
    ⟨v.assertComplex, ?_, he, hl0⟩, ⟨v.markInvalid, fun sched => by simp [offsetComplex, hr], rfl, rfl⟩,
    ⟨v.markInvalid, fun sched => by simp [scaleComplex, hr], rfl, rfl⟩⟩
  · unfold DspVec.conj
    rw [hcont]
    have hz : ∀ (f : List T → List T) (g : Cx T → Cx T), simdComplexOperation addr k.len f g .small st sched [] =
        .finished [] := by
      intro f g
      unfold simdComplexOperation
      simp only [List.length_nil, hcalc]
      have hc : simdCenter addr k.len f .small st sched ⟨0, 0, 0⟩ [] = .finished [] := by
        unfold simdCenter
        have : SimdPartition.center (⟨0, 0, 0⟩ : SimdPartition) ([] : List T) = some [] := by
          simp [SimdPartition.center]
        rw [this]
        have : arrayToRegs (addr + 0) k.len ([] : List T) = some [] := by simp [arrayToRegs]
        simp only [this]
        rw [executeWithRange_nil _ _ _ _ _ hw]
        simp
      simp only [hc]
      simp [toComplex?, mapEdges, edgePositions, edgeNext, fromComplex]
    simp only [hz]
    simp [mapOutcome, splice]
  · unfold multiplyComplexExponential
    simp [hcont, toComplex?, hdelta]

example : ({ exampleVec with numberSpace := .realOrComplex false } : DspVec Int).isComplex = false := rfl

end Dsp
