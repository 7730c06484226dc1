import Verif.Spec.Storage
import Verif.Model.Complex
import Verif.Lemmas.Simd
import Verif.Props.Chunk
/-
C18 - C20: SIMD partition, alignment, and equality of the SIMD and the scalar computation.
-/
namespace Dsp
variable {T : Type}

/-! ### C18 -/

/-- C18: whatever the address, register width and length: the slice is cut into a left part, a
    register part (a whole number of registers) and a right part; `center` returns the register part,
    `edge_iter` the other two, and the mutable edge iterator visits exactly each element of the
    other two parts once (mapping over it changes exactly these). -/
theorem C18_partition_tiles (addr w : Nat) (hw : 0 < w) (a : List T) :
    ∃ l c r, a = l ++ c ++ r ∧ c.length % w = 0 ∧
      (calcDataAlignmentReqs addr w a.length).center a = some c ∧
      (calcDataAlignmentReqs addr w a.length).edgeIter a = some (l ++ r) ∧
      ∀ f : T → T, mapEdges (calcDataAlignmentReqs addr w a.length).left
        (calcDataAlignmentReqs addr w a.length).right f a = some (l.map f ++ c ++ r.map f) := by
  obtain ⟨l, c, r, ha, hl, hr, hc, h1, h2, h3⟩ := split_parts addr w hw a
  obtain ⟨g1, g2, g3⟩ := calc_wf addr w a.length hw
  generalize calcDataAlignmentReqs addr w a.length = p at *
  have hlen : a.length = l.length + c.length + r.length := by rw [ha]; simp; omega
  refine ⟨l, c, r, ha, hc, ?_, ?_, ?_⟩
  · unfold SimdPartition.center
    split
    · rename_i h; rw [h1 (by omega)]
    · rw [slice_ok _ _ _ (by omega) (by omega), ha, g1]
      rw [show a.length - p.right - p.left = c.length by omega, ← hl, List.append_assoc]
      simp
  · unfold SimdPartition.edgeIter
    rw [slice_ok _ _ _ (by omega) (by omega), slice_ok _ _ _ (by omega) (by omega)]
    simp only [Option.bind_eq_bind, Option.bind_some, Option.some.injEq]
    rw [g1, show a.length - p.right = (l ++ c).length by simp; omega,
      show a.length - (l ++ c).length = r.length by simp; omega, ← hl, ha]
    simp
  · intro f
    rw [ha, ← hl, ← hr]
    exact mapEdges_eq f l c r

/-- Ten numbers at an address which is two elements past a register of four. -/
example : (calcDataAlignmentReqs 6 4 10).center [0, 1, 2, 3, 4, 5, 6, 7, 8, 9] = some [2, 3, 4, 5, 6, 7, 8, 9] ∧
    mapEdges 2 0 (fun x => x + 100) [0, 1, 2, 3, 4, 5, 6, 7, 8, 9] =
      some [100, 101, 2, 3, 4, 5, 6, 7, 8, 9] := by decide

/-! ### C19 -/

/-- C19: exact description of the panics. Converting the register part into registers panics
    if and only if the data is long enough to contain a register and twice the misalignment is not
    a multiple of the register width (the code should skip `w - misalignment` elements, it skips
    `misalignment`). Otherwise the registers are exactly the register part. -/
theorem C19_registers_partial (addr w : Nat) (hw : 0 < w) (a c : List T)
    (hc : (calcDataAlignmentReqs addr w a.length).center a = some c) :
    (arrayToRegs (addr + (calcDataAlignmentReqs addr w a.length).left) w c = none ↔
      addr % w + w ≤ a.length ∧ (2 * (addr % w)) % w ≠ 0) ∧
    ((2 * (addr % w)) % w = 0 ∨ a.length < addr % w + w →
      ∃ regs, arrayToRegs (addr + (calcDataAlignmentReqs addr w a.length).left) w c = some regs ∧
        regs.flatten = c ∧ ∀ r ∈ regs, r.length = w) := by
  obtain ⟨l, c', r, ha, hl, hr, hcm, h1, h2, h3⟩ := split_parts addr w hw a
  have hcc : c' = c := by
    obtain ⟨l2, c2, r2, ha2, _, hc2, _, hm⟩ := C18_partition_tiles addr w hw a
    rw [hc2] at hc
    simp only [Option.some.injEq] at hc
    subst hc
    have hm' := hm id
    have hlen : a.length = l.length + c'.length + r.length := by rw [ha]; simp; omega
    have hx : (calcDataAlignmentReqs addr w a.length).center a = some c' := by
      obtain ⟨g1, g2, g3⟩ := calc_wf addr w a.length hw
      generalize calcDataAlignmentReqs addr w a.length = p at *
      unfold SimdPartition.center
      split
      · rename_i h; rw [h1 (by omega)]
      · rw [slice_ok _ _ _ (by omega) (by omega), ha, g1]
        rw [show a.length - p.right - p.left = c'.length by omega, ← hl, List.append_assoc]
        simp
    rw [hc2] at hx
    exact (Option.some.inj hx).symm
  subst hcc
  have hsub : ∀ regs, chunks w c' = some regs → regs.flatten = c' ∧ ∀ r ∈ regs, r.length = w := by
    intro regs hr
    unfold chunks at hr
    rw [if_neg (by omega)] at hr
    simp only [Option.some.injEq] at hr
    subst hr
    refine ⟨flatten_blocks_all hw c', ?_⟩
    intro r hr
    simp only [List.mem_map, List.mem_range] at hr
    obtain ⟨k, hk, rfl⟩ := hr
    have hk' := (lt_ceilDiv_iff hw).mp hk
    rw [blk_length, Nat.min_eq_left]
    have := Nat.div_add_mod c'.length w
    rw [hcm, Nat.add_zero, Nat.mul_comm] at this
    have hkk : k < c'.length / w := by
      apply Nat.lt_of_mul_lt_mul_right (a := w); omega
    have := Nat.mul_le_mul_right w hkk
    rw [Nat.succ_mul] at this
    omega
  by_cases he : c' = []
  · have := h2 he
    constructor
    · unfold arrayToRegs; rw [if_pos he]; simp; omega
    · intro _; exact ⟨[], by unfold arrayToRegs; rw [if_pos he], by simp [he], by simp⟩
  · have hleft := h3 he
    have hlen : addr % w + w ≤ a.length := by
      by_contra hlt
      have : (calcDataAlignmentReqs addr w a.length).left = a.length := by
        unfold calcDataAlignmentReqs; simp only; rw [if_pos (by omega)]
      exact he (h1 this)
    have hal : (addr + addr % w) % w = (2 * (addr % w)) % w := by
      rw [Nat.add_mod, Nat.mod_mod, Nat.two_mul]
    rw [hleft]
    unfold arrayToRegs
    rw [if_neg he, hal]
    by_cases h0 : (2 * (addr % w)) % w = 0
    · rw [if_neg (by omega), if_neg (by omega)]
      have hch : ∃ regs, chunks w c' = some regs := by
        unfold chunks; rw [if_neg (by omega)]; exact ⟨_, rfl⟩
      obtain ⟨regs, hregs⟩ := hch
      refine ⟨by rw [hregs]; simp [h0], fun _ => ⟨regs, hregs, hsub regs hregs⟩⟩
    · rw [if_pos h0]
      refine ⟨⟨fun _ => ⟨hlen, h0⟩, fun _ => rfl⟩, ?_⟩
      intro h; rcases h with h | h
      · exact absurd h h0
      · omega

/-- A register part of two registers at an address in the middle of a register. -/
example : (calcDataAlignmentReqs 6 4 10).center [0, 1, 2, 3, 4, 5, 6, 7, 8, 9] =
    some [2, 3, 4, 5, 6, 7, 8, 9] ∧ (2 * (6 % 4)) % 4 = 0 := by decide

/-- C19 for data which is aligned to 16 bytes (`q` elements: 4 for `f32`, 2 for `f64`), as returned
    by the usual allocators: 16 byte registers (fallback, SSE: `w = q`) and 32 byte registers (AVX:
    `w = 2 q`) never panic. -/
theorem C19_heap_data_partial (addr q w : Nat) (hq : 0 < q) (hw : w = q ∨ w = 2 * q)
    (haddr : addr % q = 0) : (2 * (addr % w)) % w = 0 := by
  obtain ⟨k, hk⟩ := Nat.dvd_of_mod_eq_zero haddr
  subst hk
  rcases hw with rfl | rfl
  · simp
  · have : 2 * (q * k % (2 * q)) % (2 * q) = 2 * (q * k) % (2 * q) := by
      rw [Nat.mul_mod, Nat.mod_mod, ← Nat.mul_mod]
    rw [this, show 2 * (q * k) = 2 * q * k by ring]; simp

example : 0 < 4 ∧ (8 = 4 ∨ 8 = 2 * 4) ∧ 12 % 4 = 0 := by decide

/-- C19 is violated: scaling eight `f32` which begin one element after a 16 byte boundary panics
    with 4-lane registers (`f32x4` of the fallback or SSE). -/
theorem C19_unaligned_panics_violated :
    simdRealOperation 1 4 (List.map (2 * ·)) (2 * ·) .small (.withThresholds 1 0 0 0 0) []
      ([1, 2, 3, 4, 5, 6, 7, 8] : List Int) = .panic := by decide

/-- The same with 16 byte aligned data and AVX-512 registers of 16 `f32`. -/
theorem C19_avx512_panics_violated :
    simdRealOperation 4 16 (List.map (2 * ·)) (2 * ·) .small (.withThresholds 1 0 0 0 0) []
      (List.replicate 32 (1 : Int)) = .panic := by decide

/-- C19 is violated for complex data: complex points are cut in two when the data begins in the
    middle of a 2-lane register (`f64x2`): multiplying the points `1+2j`, `3+4j` by `j` should give
    `-2+1j`, `-4+3j`. -/
theorem C19_complex_cut_violated :
    let j : Cx Int := ⟨0, 1⟩
    let scaleReg : List Int → List Int := fun r => match r with
      | [a, b] => fromComplex [Cx.mul ⟨a, b⟩ j]
      | r => r
    simdComplexOperation 1 2 scaleReg (Cx.mul · j) .small (.withThresholds 1 0 0 0 0) []
      [1, 2, 3, 4] = .finished [1, -3, 2, 4] ∧
    fromComplex (([⟨1, 2⟩, ⟨3, 4⟩] : List (Cx Int)).map (Cx.mul · j)) = [-2, 1, -4, 3] := by
  decide

/-! ### C20 -/

theorem blk_full {s k : Nat} (_ : 0 < s) (c : List T) (h : c.length % s = 0) (hk : k * s < c.length) :
    (blk s c k).length = s := by
  rw [blk_length, Nat.min_eq_left]
  have := Nat.div_add_mod c.length s
  rw [h, Nat.add_zero, Nat.mul_comm] at this
  have hkk : k < c.length / s := by
    apply Nat.lt_of_mul_lt_mul_right (a := s); omega
  have := Nat.mul_le_mul_right s hkk
  rw [Nat.succ_mul] at this
  omega

theorem simdCenter_eq (addr w : Nat) (hw : 0 < w) (op : List T → List T)
    (hop : ∀ r, r.length ≤ w → (op r).length = r.length) (c : Complexity) (st : MultiCoreSettings)
    (a : List T) (hal : AlignmentAccepted addr w a.length)
    (hempty : addr % w + w ≤ a.length ∨ determineNumberOfChunks 0 c st ≤ 1)
    (l ctr r : List T) (ha : a = l ++ ctr ++ r)
    (hl : l.length = (calcDataAlignmentReqs addr w a.length).left)
    (hctr : (calcDataAlignmentReqs addr w a.length).center a = some ctr)
    (ctr' : List T) (hbm : IsBlockMap w w (fun _ b => op b) 0 ctr ctr') :
    Always (fun sched => simdCenter addr w op c st sched (calcDataAlignmentReqs addr w a.length) a)
      (l ++ ctr' ++ r) := by
  obtain ⟨regs, hregs, _, _⟩ := (C19_registers_partial addr w hw a ctr hctr).2 hal
  unfold simdCenter
  rw [hctr]
  simp only [hregs]
  have g1 := (calc_wf addr w a.length hw).1
  by_cases he : ctr = []
  · subst he
    have hc' : ctr' = [] := by have := hbm.1; simpa using this
    subst hc'
    have hlen : a.length < addr % w + w := by
      by_contra hcon
      have e : (calcDataAlignmentReqs addr w a.length) = ⟨addr % w, (a.length - addr % w) % w, a.length⟩ := by
        unfold calcDataAlignmentReqs; simp only; rw [if_neg (by omega)]
      rw [e] at hctr
      unfold SimdPartition.center at hctr
      simp only at hctr
      have hm := Nat.mod_lt (a.length - addr % w) hw
      rw [if_neg (by omega), slice_ok _ _ _ (by omega) (by omega)] at hctr
      have := congrArg List.length (Option.some.inj hctr)
      simp only [List.length_take, List.length_drop, List.length_nil] at this
      omega
    have hn : determineNumberOfChunks 0 c st ≤ 1 := by omega
    have hex : ∀ sched, executeWithRange c st ([] : List T) w (blockLoop w w (fun _ r => op r)) sched
        = .finished [] := by
      intro sched
      unfold executeWithRange
      simp only [List.length_nil]
      rw [if_neg (by omega)]
      have : ceilDiv 0 w = 0 := by unfold ceilDiv; rw [Nat.div_eq_of_lt (by omega)]
      simp [blockLoop, this]
    refine (Always.const (l ++ [] ++ r)).congr fun sched => ?_
    rw [hex]
    have e : (calcDataAlignmentReqs addr w a.length).left = a.length := by
      unfold calcDataAlignmentReqs; simp only; rw [if_pos (by omega)]
    refine congrArg Outcome.finished ?_
    rw [if_pos (by rw [e, g1])]
    simpa using ha
  · obtain ⟨r', hr', hall⟩ := C13_schedule_independent ctr he w w hw hw ⟨1, by omega⟩
      (fun _ b => op b) (fun _ b => hop b)
    have : r' = ctr' := blockMap_unique (p := w) hw
      (st := 0) ⟨hr'.1, fun k hk => by rw [hr'.2 k hk]⟩ hbm
    subst this
    have hleft : ¬ (calcDataAlignmentReqs addr w a.length).left = (calcDataAlignmentReqs addr w a.length).len := by
      intro h
      unfold SimdPartition.center at hctr
      rw [if_pos h] at hctr
      exact he (Option.some.inj hctr).symm
    refine (hall c st).map (fun sched h => by simp only [h]) (fun sched h => ?_)
    simp only [h, hleft, if_false]
    rw [splice_eq' ha hl.symm hr'.1.symm]

/-- C20 for real operations with one operand (`offset`, `scale`, ...): on every accepted alignment,
    for every register width, length, multi core setting and schedule, the SIMD computation gives the
    plain loop `a.map f`. (The condition on empty register parts excludes the panic of C12 for
    empty data; it holds for all operations of complexity `Small`.) -/
theorem C20_real (addr w : Nat) (hw : 0 < w) (op : List T → List T) (f : T → T)
    (hop : LaneWise w op f) (c : Complexity) (st : MultiCoreSettings) (a : List T)
    (hal : AlignmentAccepted addr w a.length)
    (hempty : addr % w + w ≤ a.length ∨ determineNumberOfChunks 0 c st ≤ 1) :
    Always (fun sched => simdRealOperation addr w op f c st sched a) (a.map f) := by
  obtain ⟨l, ctr, r, ha, hl, hr, hcm, h1, h2, h3⟩ := split_parts addr w hw a
  have hctr : (calcDataAlignmentReqs addr w a.length).center a = some ctr := by
    have hlen : a.length = l.length + ctr.length + r.length := by rw [ha]; simp; omega
    obtain ⟨g1, g2, g3⟩ := calc_wf addr w a.length hw
    generalize calcDataAlignmentReqs addr w a.length = p at *
    unfold SimdPartition.center
    split
    · rename_i h; rw [h1 (by omega)]
    · rw [slice_ok _ _ _ (by omega) (by omega), ha, g1]
      rw [show a.length - p.right - p.left = ctr.length by omega, ← hl, List.append_assoc]
      simp
  have hbm : IsBlockMap w w (fun _ b => op b) 0 ctr (ctr.map f) := by
    refine ⟨by simp, fun k hk => ?_⟩
    show blk w (ctr.map f) k = op (blk w ctr k)
    rw [hop.2 _ (blk_full hw ctr hcm hk)]
    simp [blk, List.map_take, List.map_drop]
  refine (simdCenter_eq addr w hw op hop.1 c st a hal hempty l ctr r ha hl hctr _ hbm).map
    (fun sched h => ?_) (fun sched h => ?_)
  · unfold simdRealOperation; simp only [h]
  · unfold simdRealOperation
    simp only [h]
    rw [← hl, ← hr]
    have := mapEdges_eq f l (ctr.map f) r
    rw [this, ha]; simp

/-- Doubling ten numbers two elements past a register boundary, on two workers. -/
example : LaneWise 4 (List.map (2 * ·)) (fun x : Int => 2 * x) ∧ AlignmentAccepted 6 4 10 ∧
    6 % 4 + 4 ≤ 10 ∧
    simdRealOperation 6 4 (List.map (2 * ·)) (2 * ·) .large (.withThresholds 2 0 0 0 0) [0, 1]
      ([1, 2, 3, 4, 5, 6, 7, 8, 9, 10] : List Int) = .finished [2, 4, 6, 8, 10, 12, 14, 16, 18, 20] :=
  ⟨⟨fun r _ => by simp, fun _ _ => rfl⟩, .inl (by decide), by decide, by decide⟩

theorem fromComplex_blk (cs : List (Cx T)) (h k : Nat) :
    blk (2 * h) (fromComplex cs) k = fromComplex (blk h cs k) := by
  unfold blk
  rw [fromComplex_take, fromComplex_drop, show 2 * (k * h) = k * (2 * h) by ring]


/-- The parts of the data together with the results of the accessors. -/
theorem split_center (addr w : Nat) (hw : 0 < w) (a : List T) :
    ∃ l c r, a = l ++ c ++ r ∧ l.length = (calcDataAlignmentReqs addr w a.length).left ∧
      r.length = (calcDataAlignmentReqs addr w a.length).right ∧ c.length % w = 0 ∧
      (calcDataAlignmentReqs addr w a.length).center a = some c ∧
      (calcDataAlignmentReqs addr w a.length).edgeIter a = some (l ++ r) ∧
      ((calcDataAlignmentReqs addr w a.length).left = a.length → c = [] ∧ r = []) ∧
      (c ≠ [] → (calcDataAlignmentReqs addr w a.length).left = addr % w) := by
  obtain ⟨l, c, r, ha, hl, hr, hcm, h1, h2, h3⟩ := split_parts addr w hw a
  have hlen : a.length = l.length + c.length + r.length := by rw [ha]; simp; omega
  obtain ⟨g1, g2, g3⟩ := calc_wf addr w a.length hw
  refine ⟨l, c, r, ha, hl, hr, hcm, ?_, ?_, ?_, h3⟩ <;>
    generalize calcDataAlignmentReqs addr w a.length = p at *
  · unfold SimdPartition.center
    split
    · rename_i h; rw [h1 (by omega)]
    · rw [slice_ok _ _ _ (by omega) (by omega), ha, g1]
      rw [show a.length - p.right - p.left = c.length by omega, ← hl, List.append_assoc]
      simp
  · unfold SimdPartition.edgeIter
    rw [slice_ok _ _ _ (by omega) (by omega), slice_ok _ _ _ (by omega) (by omega)]
    simp only [Option.bind_eq_bind, Option.bind_some, Option.some.injEq]
    rw [g1, show a.length - p.right = (l ++ c).length by simp; omega,
      show a.length - (l ++ c).length = r.length by simp; omega, ← hl, ha]
    simp
  · intro h
    refine ⟨h1 h, List.eq_nil_of_length_eq_zero (by omega)⟩

/-- Even addresses and register sizes never cut a complex number. -/
theorem calc_even (addr w n : Nat) (hw : 0 < w) (hw2 : w % 2 = 0) (he : addr % 2 = 0) :
    (calcDataAlignmentReqs addr w (2 * n)).left % 2 = 0 ∧
    (calcDataAlignmentReqs addr w (2 * n)).right % 2 = 0 := by
  obtain ⟨h, rfl⟩ := Nat.dvd_of_mod_eq_zero hw2
  have e : ∀ x, (x % (2 * h)) % 2 = x % 2 := fun x => Nat.mod_mul_right_mod x 2 h
  unfold calcDataAlignmentReqs
  simp only
  have := e addr
  have := e (2 * n - addr % (2 * h))
  split
  · simp
  · simp only; omega

/-- Complex version of `split_center`. -/
theorem split_complex (addr w : Nat) (hw : 0 < w) (hw2 : w % 2 = 0) (he : addr % 2 = 0)
    (cs : List (Cx T)) :
    ∃ l c r, cs = l ++ c ++ r ∧
      2 * l.length = (calcDataAlignmentReqs addr w (2 * cs.length)).left ∧
      2 * r.length = (calcDataAlignmentReqs addr w (2 * cs.length)).right ∧
      (2 * c.length) % w = 0 ∧
      (calcDataAlignmentReqs addr w (2 * cs.length)).center (fromComplex cs) = some (fromComplex c) ∧
      (calcDataAlignmentReqs addr w (2 * cs.length)).cedgeIter cs = some (l ++ r) := by
  obtain ⟨l, c, r, ha, hl, hr, hcm, h1, h2, h3, h4⟩ := split_center addr w hw (fromComplex cs)
  obtain ⟨e1, e2⟩ := calc_even addr w cs.length hw hw2 he
  obtain ⟨g1, g2, g3⟩ := calc_wf addr w (2 * cs.length) hw
  rw [length_fromComplex] at *
  generalize calcDataAlignmentReqs addr w (2 * cs.length) = p at *
  have hlen : 2 * cs.length = l.length + c.length + r.length := by
    have := congrArg List.length ha
    simp only [length_fromComplex, List.length_append] at this; omega
  obtain ⟨l, rfl⟩ := exists_fromComplex (l := l) (by omega)
  obtain ⟨c, rfl⟩ := exists_fromComplex (l := c) (by omega)
  obtain ⟨r, rfl⟩ := exists_fromComplex (l := r) (by omega)
  have ha' : cs = l ++ c ++ r := by
    apply fromComplex_injective; rw [ha]; simp
  simp only [length_fromComplex] at *
  refine ⟨l, c, r, ha', hl, hr, hcm, h1, ?_⟩
  unfold SimdPartition.cedgeIter
  have hn : cs.length = l.length + c.length + r.length := by omega
  rw [slice_ok _ _ _ (by omega) (by omega), slice_ok _ _ _ (by omega) (by omega)]
  simp only [Option.bind_eq_bind, Option.bind_some, Option.some.injEq]
  rw [show p.len / 2 - p.right / 2 = (l ++ c).length by simp; omega,
    show p.len / 2 - (l ++ c).length = r.length by simp; omega,
    show p.left / 2 - 0 = l.length by omega, ha']
  simp

theorem fromComplex_map_length {f : Cx T → Cx T} (cs : List (Cx T)) :
    (fromComplex (cs.map f)).length = (fromComplex cs).length := by simp

/-- C20 for complex operations with one operand, on accepted alignments which do not cut points
    (even number of elements before the first register). -/
theorem C20_complex (addr w : Nat) (hw : 0 < w) (hw2 : w % 2 = 0) (op : List T → List T)
    (f : Cx T → Cx T) (hop : PointWise w op f) (c : Complexity) (st : MultiCoreSettings)
    (cs : List (Cx T)) (hal : AlignmentAccepted addr w (2 * cs.length)) (heven : addr % 2 = 0)
    (hempty : addr % w + w ≤ 2 * cs.length ∨ determineNumberOfChunks 0 c st ≤ 1) :
    Always (fun sched => simdComplexOperation addr w op f c st sched (fromComplex cs))
      (fromComplex (cs.map f)) := by
  obtain ⟨l, ctr, r, ha, hl, hr, hcm, hctr, _⟩ := split_complex addr w hw hw2 heven cs
  have hlen := length_fromComplex cs
  have hbm : IsBlockMap w w (fun _ b => op b) 0 (fromComplex ctr) (fromComplex (ctr.map f)) := by
    refine ⟨by simp, fun k hk => ?_⟩
    show blk w (fromComplex (ctr.map f)) k = op (blk w (fromComplex ctr) k)
    obtain ⟨h, rfl⟩ := Nat.dvd_of_mod_eq_zero hw2
    have hf := blk_full hw (fromComplex ctr) (s := 2 * h) (k := k) (by simpa using hcm) hk
    rw [fromComplex_blk] at hf
    rw [fromComplex_blk, fromComplex_blk, hop.2 _ (by simpa using hf)]
    simp [blk, List.map_take, List.map_drop]
  have hc := simdCenter_eq addr w hw op hop.1 c st (fromComplex cs) (by rw [hlen]; exact hal)
    (by rw [hlen]; exact hempty) (fromComplex l) (fromComplex ctr) (fromComplex r)
    (by rw [ha]; simp) (by rw [hlen, length_fromComplex]; exact hl) (by rw [hlen]; exact hctr) _ hbm
  refine hc.map (fun sched h => ?_) (fun sched h => ?_)
  · unfold simdComplexOperation; simp only [h]
  · unfold simdComplexOperation
    simp only [h]
    rw [← fromComplex_append, ← fromComplex_append, toComplex?_fromComplex]
    simp only
    rw [hlen, ← hl, ← hr, Nat.mul_div_cancel_left _ (by decide), Nat.mul_div_cancel_left _ (by decide)]
    rw [mapEdges_eq f l (ctr.map f) r, ha]; simp

/-- Multiplying five points by `2+3j` with registers of two points, two elements past a register
    boundary. -/
example :
    let f : Cx Int → Cx Int := fun x => Cx.mul x ⟨2, 3⟩
    let op : List Int → List Int := fun r => match toComplex? r with
      | some cs => fromComplex (cs.map f)
      | none => r
    PointWise 4 op f ∧ AlignmentAccepted 6 4 10 ∧ 6 % 2 = 0 ∧
    simdComplexOperation 6 4 op f .medium (.withThresholds 2 0 0 0 0) [1, 0]
      [1, 0, 0, 1, 1, 1, 2, 0, 0, 2] = .finished [2, 3, -3, 2, -1, 5, 4, 6, -6, 4] := by
  refine ⟨⟨fun r _ => ?_, fun cs _ => by simp⟩, .inl (by decide), by decide, by decide⟩
  cases h : toComplex? r with
  | none => simp [h]
  | some cs => simp [fromComplex_of_toComplex? h]

/-! #### Binary operations -/

/-- Specification: a register operation with two operands works lane by lane like `f`. -/
def LaneWise2 (w : Nat) (op : List T → List T → List T) (f : T → T → T) : Prop :=
  ∀ r o, r.length = w → o.length = w → op r o = List.zipWith f r o

/-- Specification: a register operation with two operands works point by point like `f`. -/
def PointWise2 (w : Nat) (op : List T → List T → List T) (f : Cx T → Cx T → Cx T) : Prop :=
  ∀ cs ds : List (Cx T), 2 * cs.length = w → 2 * ds.length = w →
    op (fromComplex cs) (fromComplex ds) = fromComplex (List.zipWith f cs ds)

theorem mapM_some {α β : Type} (g : α → β) (f : α → Option β) : ∀ l : List α,
    (∀ x ∈ l, f x = some (g x)) → l.mapM f = some (l.map g)
  | [], _ => rfl
  | x :: l, h => by
    rw [List.mapM_cons, h x (by simp), mapM_some g f l (fun y hy => h y (by simp [hy]))]
    rfl

theorem simdBinaryCenter_eq (addr w : Nat) (hw : 0 < w) (op : List T → List T → List T)
    (a b : List T) (hal : AlignmentAccepted addr w a.length)
    (l ctr r : List T) (ha : a = l ++ ctr ++ r)
    (hl : l.length = (calcDataAlignmentReqs addr w a.length).left)
    (hctr : (calcDataAlignmentReqs addr w a.length).center a = some ctr)
    (other : List T) (hother : (calcDataAlignmentReqs addr w a.length).center b = some other)
    (hcm : ctr.length % w = 0)
    (hlen : other.length = ctr.length)
    (ctr' : List T) (hlen' : ctr'.length = ctr.length)
    (hbm : ∀ k, k * w < ctr.length → blk w ctr' k = op (blk w ctr k) (blk w other k)) :
    simdBinaryCenter addr w op (calcDataAlignmentReqs addr w a.length) a b =
      some (l ++ ctr' ++ r) := by
  obtain ⟨regs, hregs, _, _⟩ := (C19_registers_partial addr w hw a ctr hctr).2 hal
  unfold simdBinaryCenter
  rw [hctr, hother]
  simp only [Option.bind_eq_bind, Option.bind_some, hregs]
  have hregs' : regs = (List.range (ceilDiv ctr.length w)).map (blk w ctr) := by
    unfold arrayToRegs at hregs
    split at hregs
    · rename_i he; subst he
      have : ceilDiv 0 w = 0 := by unfold ceilDiv; rw [Nat.div_eq_of_lt (by omega)]
      simp [this] at hregs ⊢; exact hregs
    · split at hregs
      · simp at hregs
      · split at hregs
        · simp at hregs
        · unfold chunks at hregs
          rw [if_neg (by omega)] at hregs
          exact (Option.some.inj hregs).symm
  have hm : (regs.zipIdx).mapM (fun (x : List T × Nat) =>
      (slice other (x.2 * w) (x.2 * w + w)).bind fun o => some (op x.1 o)) = some ((regs.zipIdx).map fun x => blk w ctr' x.2) := by
    apply mapM_some
    intro x hx
    obtain ⟨r, i⟩ := x
    have hx' := List.mem_zipIdx hx
    have hi : i < regs.length := by omega
    have hi2 : i * w < ctr.length := by
      rw [hregs'] at hi
      exact (lt_ceilDiv_iff hw).mp (by simpa using hi)
    have hr : r = blk w ctr i := by
      have e := hx'.2.2
      simp only [Nat.sub_zero] at e
      rw [e]
      simp [hregs']
    have hfull := blk_full hw other (by rw [hlen]; exact hcm) (k := i) (by omega)
    rw [blk_length] at hfull
    show (slice other (i * w) (i * w + w)).bind _ = _
    rw [slice_ok _ _ _ (by omega) (by omega)]
    simp only [Option.bind_some]
    rw [hbm i hi2, hr]
    unfold blk
    rw [Nat.add_sub_cancel_left]
  rw [hm]
  simp only [Option.bind_some]
  have hfl : ((regs.zipIdx).map fun x => blk w ctr' x.2).flatten = ctr' := by
    have : ((regs.zipIdx).map fun x => blk w ctr' x.2) =
        (List.range (ceilDiv ctr'.length w)).map (blk w ctr') := by
      apply List.ext_getElem?
      intro i
      simp only [List.getElem?_map, List.getElem?_zipIdx]
      rw [hregs', hlen']
      by_cases hi : i < ceilDiv ctr.length w
      · simp [hi]
      · simp [hi]
    rw [this]; exact flatten_blocks_all hw ctr'
  rw [hfl]
  congr 1
  split
  · rename_i h
    unfold SimdPartition.center at hctr
    rw [if_pos h] at hctr
    have := Option.some.inj hctr
    subst this
    have : ctr' = [] := List.eq_nil_of_length_eq_zero (by simpa using hlen')
    subst this; exact ha
  · rw [splice_eq' ha hl.symm hlen'.symm]

theorem zipWith_blk {α β γ : Type} (f : α → β → γ) (w k : Nat) (a : List α) (b : List β) :
    blk w (List.zipWith f a b) k = List.zipWith f (blk w a k) (blk w b k) := by
  unfold blk
  rw [List.drop_zipWith, List.take_zipWith]

/-- C20 for real operations with two operands (`add`, `sub`, `mul`, `div` of real vectors): on every
    accepted alignment the SIMD computation combines the elements position by position. -/
theorem C20_binary_real (addr w : Nat) (hw : 0 < w) (op : List T → List T → List T)
    (f : T → T → T) (hop : LaneWise2 w op f) (a b : List T) (hab : b.length = a.length)
    (hal : AlignmentAccepted addr w a.length) :
    simdBinaryReal addr w op f a b = some (List.zipWith f a b) := by
  obtain ⟨l, c, r, ha, hl, hr, hcm, h1, h2, -, -⟩ := split_center addr w hw a
  obtain ⟨l', c', r', hb, hl', hr', hcm', h1', h2', -, -⟩ := split_center addr w hw b
  rw [hab] at hl' hr' h1' h2'
  have n1 := congrArg List.length ha
  have n2 := congrArg List.length hb
  simp only [List.length_append] at n1 n2
  have hcc : c'.length = c.length := by omega
  unfold simdBinaryReal
  simp only
  rw [simdBinaryCenter_eq addr w hw op a b hal l c r ha hl h1 c' h1' hcm hcc (List.zipWith f c c')
    (by simp; omega) (by
      intro k hk
      rw [zipWith_blk, hop _ _ (blk_full hw c hcm hk) (blk_full hw c' hcm' (by omega))])]
  rw [h2']
  simp only [Option.bind_eq_bind, Option.bind_some]
  rw [← hl, ← hr, zipEdges_eq f l (List.zipWith f c c') r l' r' (by omega) (by omega), ha, hb,
    List.zipWith_append (by simp; omega), List.zipWith_append (by omega)]

example : LaneWise2 4 (List.zipWith (· - ·)) (fun x y : Int => x - y) ∧ AlignmentAccepted 6 4 10 ∧
    simdBinaryReal 6 4 (List.zipWith (· - ·)) (· - ·) [10, 20, 30, 40, 50, 60, 70, 80, 90, 100]
      ([1, 2, 3, 4, 5, 6, 7, 8, 9, 10] : List Int) = some [9, 18, 27, 36, 45, 54, 63, 72, 81, 90] :=
  ⟨fun _ _ _ _ => rfl, .inl (by decide), by decide⟩

/-- C20 for complex operations with two operands. -/
theorem C20_binary_complex (addr w : Nat) (hw : 0 < w) (hw2 : w % 2 = 0)
    (op : List T → List T → List T) (f : Cx T → Cx T → Cx T) (hop : PointWise2 w op f)
    (cs ds : List (Cx T)) (hab : ds.length = cs.length) (heven : addr % 2 = 0)
    (hal : AlignmentAccepted addr w (2 * cs.length)) :
    simdBinaryComplex addr w op f (fromComplex cs) (fromComplex ds) =
      some (fromComplex (List.zipWith f cs ds)) := by
  obtain ⟨l, c, r, ha, hl, hr, hcm, h1, h2⟩ := split_complex addr w hw hw2 heven cs
  obtain ⟨l', c', r', hb, hl', hr', hcm', h1', h2'⟩ := split_complex addr w hw hw2 heven ds
  rw [hab] at hl' hr' h1' h2'
  have n1 := congrArg List.length ha
  have n2 := congrArg List.length hb
  simp only [List.length_append] at n1 n2
  have hcc : c'.length = c.length := by omega
  unfold simdBinaryComplex
  simp only
  rw [length_fromComplex]
  have hc := simdBinaryCenter_eq addr w hw op (fromComplex cs) (fromComplex ds)
    (by rw [length_fromComplex]; exact hal) (fromComplex l) (fromComplex c) (fromComplex r)
    (by rw [ha]; simp) (by simpa using hl) (by simpa using h1) (fromComplex c') (by simpa using h1')
    (by simpa using hcm) (by simp; omega) (fromComplex (List.zipWith f c c')) (by simp; omega) (by
      intro k hk
      obtain ⟨h, rfl⟩ := Nat.dvd_of_mod_eq_zero hw2
      have f1 := blk_full hw (fromComplex c) (s := 2 * h) (k := k) (by simpa using hcm) hk
      have f2 := blk_full hw (fromComplex c') (s := 2 * h) (k := k) (by simpa using hcm')
        (by simp only [length_fromComplex] at hk ⊢; omega)
      rw [fromComplex_blk] at f1 f2
      rw [fromComplex_blk, fromComplex_blk, fromComplex_blk, zipWith_blk, hop _ _ (by simpa using f1)
        (by simpa using f2)])
  rw [length_fromComplex] at hc
  rw [hc, ← fromComplex_append, ← fromComplex_append, toComplex?_fromComplex]
  simp only [Option.bind_eq_bind, Option.bind_some, toComplex?_fromComplex, h2']
  rw [← hl, ← hr, Nat.mul_div_cancel_left _ (by decide), Nat.mul_div_cancel_left _ (by decide)]
  rw [zipEdges_eq f l (List.zipWith f c c') r l' r' (by omega) (by omega)]
  simp only [Option.bind_eq_bind, Option.bind_some]
  rw [ha, hb, List.zipWith_append (by simp; omega), List.zipWith_append (by omega)]

end Dsp
