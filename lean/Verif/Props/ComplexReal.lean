import Verif.Model.ComplexReal
import Verif.Spec.Convert
import Verif.Lemmas.BlockMap
import Verif.Lemmas.Pad
import Verif.Props.Construct
import Verif.Props.Interleave
import Verif.Props.Registers
import Verif.Props.Elementary
/-
C04, C29, C30: conversions between complex and real vectors.
-/
namespace Dsp
open DspVec
variable {T : Type}

theorem asReal_isComplex (v : DspVec T) : v.asReal.isComplex = false := by
  unfold asReal; split
  · rfl
  · split <;> rfl

theorem asReal_meta (v : DspVec T) : v.asReal.data = v.data ∧ v.asReal.validLen = v.validLen ∧
    v.asReal.delta = v.delta ∧ v.asReal.dom = v.dom := by
  unfold asReal; split
  · exact ⟨rfl, rfl, rfl, rfl⟩
  · split <;> rename_i h <;> exact ⟨rfl, rfl, rfl, h.symm⟩

theorem asComplex_isComplex (v : DspVec T) : v.asComplex.isComplex = true := by
  unfold asComplex; split
  · rfl
  · split <;> rfl

theorem asComplex_meta (v : DspVec T) : v.asComplex.data = v.data ∧
    v.asComplex.validLen = v.validLen ∧ v.asComplex.delta = v.delta ∧ v.asComplex.dom = v.dom := by
  unfold asComplex; split
  · exact ⟨rfl, rfl, rfl, rfl⟩
  · split <;> rename_i h <;> exact ⟨rfl, rfl, rfl, h.symm⟩

/-- The in-place loop. -/
theorem complexToRealLoop_eq (op : Cx T → T) (cs : List (Cx T)) (s : List T) :
    ∃ rest, complexToRealLoop op cs.length (fromComplex cs ++ s) = some (cs.map op ++ rest) ∧
      (cs.map op ++ rest).length = (fromComplex cs ++ s).length := by
  have := forRange_inv (P := fun i c => c = (cs.map op).take i ++ (fromComplex cs ++ s).drop i ∧
      i ≤ cs.length)
    (fun i c => do
      let re ← get c (2 * i)
      let im ← get c (2 * i + 1)
      put c i (op ⟨re, im⟩)) 0 cs.length (fromComplex cs ++ s) (by simp) (by
      rintro i c - hi ⟨rfl, -⟩
      have hi : i < cs.length := by omega
      have hg : ∀ j, i ≤ j → ((cs.map op).take i ++ (fromComplex cs ++ s).drop i)[j]? =
          (fromComplex cs ++ s)[j]? := by
        intro j hj
        rw [List.getElem?_append_right (by simp; omega), List.getElem?_drop]
        congr 1; simp; omega
      have h1 : get ((cs.map op).take i ++ (fromComplex cs ++ s).drop i) (2 * i) = some cs[i].re := by
        unfold get
        rw [hg _ (by omega), List.getElem?_append_left (by simp; omega), getElem?_fromComplex_even]
        simp [hi]
      have h2 : get ((cs.map op).take i ++ (fromComplex cs ++ s).drop i) (2 * i + 1) =
          some cs[i].im := by
        unfold get
        rw [hg _ (by omega), List.getElem?_append_left (by simp; omega), getElem?_fromComplex_odd]
        simp [hi]
      have hl : i < (fromComplex cs ++ s).length := by simp; omega
      refine ⟨_, ?_, rfl, by omega⟩
      simp only [h1, h2, Option.bind_eq_bind, Option.bind_some]
      rw [put_eq (by simp; omega)]
      congr 1
      rw [List.set_append_right _ _ (by simp)]
      have e : i - ((cs.map op).take i).length = 0 := by simp [Nat.le_of_lt hi]
      rw [e, List.drop_eq_getElem_cons hl, List.set_cons_zero, List.take_add_one]
      simp [hi])
  obtain ⟨r, h1, h2, -⟩ := this
  rw [Nat.zero_add, List.take_of_length_le (by simp)] at h2
  refine ⟨_, by rw [← h2]; exact h1, ?_⟩
  simp; omega

/-- What a complex vector with given points looks like. -/
theorem cells_of_content {v : DspVec T} {c : List T} (h : v.content = some c) :
    (∃ s, v.data.cells = c ++ s) ∧ v.validLen = c.length := by
  unfold content slice at h
  split at h
  · rename_i hh
    simp only [Option.some.injEq, List.drop_zero, Nat.sub_zero] at h
    refine ⟨⟨v.data.cells.drop v.validLen, ?_⟩, ?_⟩
    · rw [← h, List.take_append_drop]
    · rw [← h]; simp; omega
  · exact absurd h (by simp)

theorem content_of_cells {v : DspVec T} {c s : List T} (h1 : v.data.cells = c ++ s)
    (h2 : v.validLen = c.length) : v.content = some c := by
  unfold content; rw [h1, h2, slice_append_left]

theorem realVersion_asReal {v w : DspVec T} {c s : List T} (h1 : w.data.cells = c ++ s)
    (h2 : w.validLen = c.length) (h3 : w.delta = v.delta) (h4 : w.dom = v.dom) :
    RealVersion v w.asReal c := by
  obtain ⟨m1, m2, m3, m4⟩ := asReal_meta w
  exact ⟨content_of_cells (by rw [m1, h1]) (by rw [m2, h2]), by rw [len, m2, h2],
    asReal_isComplex w, by rw [m4, h4], by rw [m3, h3]⟩

/-- C30, in place: `to_real`, `to_imag`, `magnitude`, `magnitude_squared` and `phase` (`op` is the
    function of one complex number) turn the points `cs` into the numbers `op c`, for every
    storage size and whatever lies behind the valid data. -/
theorem C30_in_place (op : Cx T → T) (v : DspVec T) (hc : v.isComplex = true) (cs : List (Cx T))
    (h : v.content = some (fromComplex cs)) :
    ∃ w, v.toRealWith op = some w ∧ RealVersion v w (cs.map op) := by
  obtain ⟨⟨s, hs⟩, hl⟩ := cells_of_content h
  rw [length_fromComplex] at hl
  obtain ⟨rest, hr, -⟩ := complexToRealLoop_eq op cs s
  have hlen : v.len / 2 = cs.length := by unfold len; omega
  refine ⟨_, ?_, realVersion_asReal (v := v)
    (w := { v.withCells (cs.map op ++ rest) with validLen := v.validLen / 2 }) (s := rest) rfl ?_ rfl rfl⟩
  · unfold toRealWith
    rw [if_neg (by simp [hc]), hlen, hs, hr]
    rfl
  · show v.validLen / 2 = _
    simp; omega

/-- The conversion through `from_src_to_dest` with one worker. -/
theorem convert_always (op : Cx T → T) (st : MultiCoreSettings) (cs : List (Cx T)) (temp : List T)
    (ht : temp.length = cs.length) :
    Always (fromSrcToDest .small st (fromComplex cs).length 2 temp 1
      (blockLoop 1 2 (convertPair op (fromComplex cs)))) (cs.map op) := by
  by_cases h0 : cs.length = 0
  · have : cs = [] := List.length_eq_zero_iff.mp h0
    subst this
    have : temp = [] := List.length_eq_zero_iff.mp (by simpa using ht)
    subst this
    have hn : ∀ c, determineNumberOfChunks c .small st = 1 := by
      intro c; unfold determineNumberOfChunks; split
      · assumption
      · rfl
    refine Always.congr (Always.const _) fun sched => ?_
    unfold fromSrcToDest
    simp only [hn]
    rw [if_neg (by omega)]
    simp [blockLoop, ceilDiv]
  · obtain ⟨r, hr1, hr2, hr3⟩ := C13_source_target temp (fromComplex cs).length 1 2 cs.length 1
      (by omega) (by omega) (by omega) (by omega) (by simp [ht]) (by simp)
      (convertPair op (fromComplex cs)) (fun i x _ => by unfold convertPair; split <;> simp)
    have : r = cs.map op := by
      apply List.ext_getElem?
      intro k
      by_cases hk : k < cs.length
      · have hb := congrArg (·[0]?) (hr2 k hk)
        have e1 : (fromComplex cs)[k * 2]? = some cs[k].re := by
          rw [Nat.mul_comm, getElem?_fromComplex_even]; simp [hk]
        have e2 : (fromComplex cs)[k * 2 + 1]? = some cs[k].im := by
          rw [Nat.mul_comm, getElem?_fromComplex_odd]; simp [hk]
        simp only [convertPair, e1, e2, blk_getElem?, List.getElem?_map] at hb
        have hk' : k < temp.length := by omega
        simpa [hk, hk', blk_getElem?] using hb
      · rw [List.getElem?_eq_none (by omega), List.getElem?_eq_none (by simp; omega)]
    rw [← this]
    exact hr3 .small st

/-- C30, with a buffer: `to_real_b`, `to_imag_b`, `phase_b` give the same numbers for every buffer
    which is large enough and whatever it contains. -/
theorem C30_buffered [Zero T] (op : Cx T → T) (st : MultiCoreSettings) (v : DspVec T)
    (hc : v.isComplex = true) (cs : List (Cx T)) (h : v.content = some (fromComplex cs))
    (b : Buffer T) (hb : BufferOk b v.data cs.length) :
    ∃ w b', Always (v.toRealBWith op st b) (w, b') ∧ RealVersion v w (cs.map op) := by
  obtain ⟨⟨s, hs⟩, hl⟩ := cells_of_content h
  rw [length_fromComplex] at hl
  have hlen : v.len / 2 = cs.length := by unfold len; omega
  obtain ⟨temp, ht1, ht2⟩ := borrow_ok b v.data cs.length hb
  obtain ⟨rest, hrest⟩ := trade_ok b v.data (cs.map op) (by simpa using hb)
  refine ⟨{ v with data := (b.trade (cs.map op) v.data).2, validLen := v.len / 2 }.asReal,
    (b.trade (cs.map op) v.data).1, ?_, ?_⟩
  · have := convert_always op st cs temp ht2
    refine this.map (fun sched hr => ?_) (fun sched hr => ?_) <;>
    · unfold toRealBWith
      rw [if_neg (by simp [hc]), hlen]
      simp only [ht1, h]
      rw [if_neg (by simp), hr]
      try rfl
  · refine realVersion_asReal (s := rest) ?_ ?_ rfl rfl
    · show (b.trade (cs.map op) v.data).2.cells = _
      rw [hrest]
    · show v.len / 2 = _
      simp [hlen]

example : let v : DspVec Int := { exampleVec with numberSpace := .complex, domain := .freq }
    v.isComplex = true ∧ v.content = some (fromComplex [⟨1, 2⟩, ⟨3, 4⟩, ⟨5, 6⟩]) ∧
    BufferOk (.fixedLen [7, 7, 7, 7]) v.data 3 ∧
    (v.toRealWith Cx.im).map (·.content) = some (some [2, 4, 6]) := by decide

/-! ### Destination vectors -/

theorem resize_real [Zero T] (d : DspVec T) (hw : d.WF) (hk : NotInline d.data.kind)
    (hr : d.isComplex = false) (n : Nat) (hn : CanHold d.data n) :
    ∃ d', d.resize n = (d', .ok ()) ∧ d'.validLen = n ∧ d'.WF ∧ d'.SameMeta d ∧
      d.data.cells.length ≤ d'.data.cells.length := by
  obtain ⟨d', h1, h2, h3, h4, -, h6⟩ := (C02_resize d hw hk n).2.2 (by simp [hr]) hn
  exact ⟨d', h1, h2, h3, h4, by rw [h6]; simp⟩

theorem prepareTarget_ok [Zero T] (v dest : DspVec T) (hc : v.isComplex = true)
    (hw : dest.WF) (hk : NotInline dest.data.kind) (hr : dest.isComplex = false)
    (hn : CanHold dest.data v.len) :
    ∃ d, prepareTarget v dest = some (.inr d) ∧ d.validLen = v.len / 2 ∧ v.len ≤ d.data.cells.length ∧
      d.isComplex = false ∧ d.dom = dest.dom ∧ d.delta = v.delta := by
  obtain ⟨d1, h1, h2, h3, h4, h5⟩ := resize_real dest hw hk hr v.len hn
  have hr1 : d1.isComplex = false := by unfold isComplex; rw [h4.2.2.1]; exact hr
  have hk1 : NotInline d1.data.kind := by rw [h4.2.2.2]; exact hk
  have hl1 : v.len ≤ d1.data.cells.length := by rw [← h2]; exact h3.1
  obtain ⟨d2, g1, g2, g3, g4, g5⟩ := resize_real d1 h3 hk1 hr1 (v.len / 2) (.inl (by omega))
  have hr2 : d2.isComplex = false := by unfold isComplex; rw [g4.2.2.1]; exact hr1
  have hdom : d2.dom = dest.dom := by unfold dom; rw [g4.2.1, h4.2.1]
  refine ⟨{ d2 with delta := v.delta }, ?_, g2, ?_, hr2, hdom, rfl⟩
  · unfold prepareTarget
    rw [if_neg (by simp [hc, hr]), h1]
    simp only [g1]
  · show v.len ≤ d2.data.cells.length
    omega

theorem realVersion_target {d w : DspVec T} {c : List T} (e : w = d.withCells (splice d.data.cells 0 c))
    (h1 : d.validLen = c.length) (_ : c.length ≤ d.data.cells.length) (h3 : d.isComplex = false) :
    RealVersion d w c := by
  subst e
  refine ⟨content_of_cells (c := c) (s := d.data.cells.drop c.length) ?_ h1, h1, h3, rfl, rfl⟩
  show splice d.data.cells 0 c = _
  simp [splice]

/-- C30, with a destination (partial): `get_real`, `get_imag`, `get_phase` write the same numbers into the
    destination. Missing: destinations of fixed size which can hold the result but not the whole
    complex vector, see `C30_destination_violated`. -/
theorem C30_destination_partial [Zero T] (op : Cx T → T) (st : MultiCoreSettings) (v dest : DspVec T)
    (hc : v.isComplex = true) (cs : List (Cx T)) (h : v.content = some (fromComplex cs))
    (hw : dest.WF) (hk : NotInline dest.data.kind) (hr : dest.isComplex = false)
    (hn : CanHold dest.data v.len) :
    ∃ w, Always (v.getRealWith op st dest) w ∧
      RealVersion { dest with delta := v.delta } w (cs.map op) := by
  obtain ⟨⟨s, hs⟩, hl⟩ := cells_of_content h
  rw [length_fromComplex] at hl
  have hlen : v.len / 2 = cs.length := by unfold len; omega
  obtain ⟨d, h1, h2, h3, h4, h5, h6⟩ := prepareTarget_ok v dest hc hw hk hr hn
  have hle : cs.length ≤ d.data.cells.length := by omega
  have hsl : slice d.data.cells 0 (v.len / 2) = some (d.data.cells.take cs.length) := by
    rw [hlen, slice_ok _ _ _ (by omega) hle]; simp
  refine ⟨d.withCells (splice d.data.cells 0 (cs.map op)), ?_, ?_⟩
  · have := convert_always op st cs (d.data.cells.take cs.length) (by simp; omega)
    refine this.map (fun sched hr => ?_) (fun sched hr => ?_) <;>
    · unfold getRealWith
      simp only [h1, hsl, h]
      rw [hr]
  · obtain ⟨a1, a2, a3, a4, a5⟩ := realVersion_target (d := d) (c := cs.map op) rfl
      (by rw [h2, hlen]; simp) (by simpa using hle) h4
    exact ⟨a1, a2, a3, a4.trans h5, a5.trans h6⟩

/-- C30 is violated for destinations with a fixed size: the destination is first resized to the
    length of the complex vector, although half of it suffices, and the failure is a panic. -/
theorem C30_destination_violated :
    let v : DspVec Int := ⟨⟨.vec, [1, 2, 3, 4]⟩, some 1, .time, .complex, 4⟩
    let dest : DspVec Int := ⟨⟨.fixed, [0, 0]⟩, some 1, .time, .real, 2⟩
    v.WF ∧ dest.WF ∧ CanHold dest.data (v.len / 2) ∧
      ∀ sched, v.getRealWith Cx.re (.singleThreaded (calibrate none)) dest sched = .panic := by
  refine ⟨by decide, by decide, .inl (by decide), fun sched => by rfl⟩

/-! ### Registers -/

theorem storeHalves_eq (k : RegKind) (simdOp : List T → List T) (op : Cx T → T)
    (hop : ∀ ds : List (Cx T), 2 * ds.length = k.len →
      regStoreHalf k (simdOp (fromComplex ds)) = ds.map op)
    (c : List (Cx T)) (hc : (2 * c.length) % k.len = 0) (t : List T) (ht : t.length = c.length) :
    storeHalves k simdOp ((List.range (ceilDiv (2 * c.length) k.len)).map (blk k.len (fromComplex c))) t =
      some (c.map op) := by
  have hk2 : k.len = 2 * (k.len / 2) := by cases k <;> rfl
  have hk0 : 0 < k.len / 2 := by cases k <;> decide
  generalize hw : k.len / 2 = w at *
  obtain ⟨m, hm⟩ : ∃ m, c.length = m * w := by
    obtain ⟨m, hm⟩ := Nat.dvd_of_mod_eq_zero hc
    refine ⟨m, ?_⟩
    rw [hk2] at hm
    have : 2 * c.length = 2 * (w * m) := by rw [hm]; ring
    have := Nat.eq_of_mul_eq_mul_left (by omega) this
    rw [this, Nat.mul_comm]
  have hmc : ceilDiv (2 * c.length) k.len = m := by
    unfold ceilDiv
    rw [hk2, hm, show 2 * (m * w) + 2 * w - 1 = (2 * w - 1) + (2 * w) * m by
      have : 2 * (m * w) = 2 * w * m := by ring
      omega]
    rw [Nat.add_mul_div_left _ _ (by omega), Nat.div_eq_of_lt (by omega)]; simp
  rw [hmc]
  unfold storeHalves
  simp only [List.length_map, List.length_range]
  obtain ⟨r, h1, h2, -⟩ := forRange_inv (P := fun i r => r = (c.map op).take (i * w) ++ t.drop (i * w) ∧
      i ≤ m)
    (fun i t => do
      let r ← get ((List.range m).map (blk k.len (fromComplex c))) i
      copyFromSlice t (i * (k.len / 2)) (i * (k.len / 2) + k.len / 2) (regStoreHalf k (simdOp r)))
    0 m t (by simp) (by
      rintro i s - hi ⟨rfl, -⟩
      have hi : i < m := by omega
      have hiw : i * w + w ≤ c.length := by
        have := Nat.mul_le_mul_right w hi
        rw [Nat.succ_mul] at this; omega
      refine ⟨_, ?_, rfl, by omega⟩
      have hg : get ((List.range m).map (blk k.len (fromComplex c))) i =
          some (fromComplex (blk w c i)) := by
        unfold get
        rw [List.getElem?_map, List.getElem?_range hi, hk2, ← fromComplex_blk]; rfl
      have hbl : (blk w c i).length = w := by simp [blk]; omega
      simp only [hg, Option.bind_eq_bind, Option.bind_some]
      rw [hop _ (by rw [hbl]; omega), hw]
      rw [copyFromSlice_ok _ _ _ _ (by omega) (by simp; omega) (by simp [hbl])]
      congr 1
      rw [splice_eq' (a := (c.map op).take (i * w)) (b := (t.drop (i * w)).take w)
        (s := (t.drop (i * w)).drop w) (by simp) (by simp; omega) (by simp [hbl]; omega)]
      rw [List.drop_drop, ← Nat.succ_mul]
      congr 1
      rw [Nat.succ_mul, List.take_add]
      simp [blk])
  refine h1.trans ?_
  rw [h2, Nat.zero_add, ← hm]
  rw [List.take_of_length_le (by simp), List.drop_of_length_le (by omega), List.append_nil]

/-- The conversion with registers, bit for bit: `op'` for the points in registers, `op` for the others. -/
theorem simdComplexToReal_split (k : RegKind) (addr : Nat) (simdOp : List T → List T) (op op' : Cx T → T)
    (hop : ∀ ds : List (Cx T), 2 * ds.length = k.len →
      regStoreHalf k (simdOp (fromComplex ds)) = ds.map op')
    (cs : List (Cx T)) (hal : AlignmentAccepted addr k.len (2 * cs.length)) (heven : addr % 2 = 0)
    (temp : List T) (ht : temp.length = cs.length) :
    ∃ l c r, cs = l ++ c ++ r ∧
      simdComplexToReal k addr simdOp op (fromComplex cs) temp = some (l.map op ++ c.map op' ++ r.map op) := by
  have hw : 0 < k.len := by cases k <;> decide
  have hw2 : k.len % 2 = 0 := by cases k <;> decide
  obtain ⟨l, c, r, ha, hl, hr, hcm, hctr, hedge⟩ := split_complex addr k.len hw hw2 heven cs
  obtain ⟨g1, g2, g3⟩ := calc_wf addr k.len (2 * cs.length) hw
  have hreg := (C19_registers_partial addr k.len hw (fromComplex cs) (fromComplex c)
    (by rw [length_fromComplex]; exact hctr)).2 (by rw [length_fromComplex]; exact hal)
  rw [length_fromComplex] at hreg
  unfold simdComplexToReal
  rw [length_fromComplex]
  generalize calcDataAlignmentReqs addr k.len (2 * cs.length) = p at *
  obtain ⟨regs, hregs, hregs2, -⟩ := hreg
  have hcl := congrArg List.length ha
  simp only [List.length_append] at hcl
  obtain ⟨ta, tb, tc, htd, hta, htb, htc⟩ := split3 temp l.length c.length (by omega)
  have hrc : p.rcenter temp = some tb := by
    unfold SimdPartition.rcenter
    split
    · rename_i h
      have : tb = [] := List.length_eq_zero_iff.mp (by omega)
      rw [this]
    · rw [slice_ok _ _ _ (by omega) (by omega), htd]
      have e1 : p.left / 2 = ta.length := by omega
      have e2 : p.len / 2 - p.right / 2 - p.left / 2 = tb.length := by omega
      rw [e2, e1]; simp
  have hregsv : regs = (List.range (ceilDiv (2 * c.length) k.len)).map (blk k.len (fromComplex c)) := by
    unfold arrayToRegs at hregs
    split at hregs
    · rename_i h
      have : c = [] := by
        have := congrArg List.length h
        exact List.length_eq_zero_iff.mp (by simpa using this)
      subst this
      simp at hregs
      have : ceilDiv 0 k.len = 0 := by unfold ceilDiv; exact Nat.div_eq_of_lt (by omega)
      simp [← hregs, this]
    · split at hregs
      · simp at hregs
      · split at hregs
        · simp at hregs
        · unfold chunks at hregs
          rw [if_neg (by omega)] at hregs
          simpa using hregs.symm
  have hst := storeHalves_eq k simdOp op' hop c hcm tb htb
  rw [← hregsv] at hst
  have htemp : (if p.left = p.len then temp else splice temp (p.left / 2) (c.map op')) =
      ta ++ c.map op' ++ tc := by
    split
    · rename_i h
      have hc0 : c = [] := List.length_eq_zero_iff.mp (by omega)
      have : tb = [] := List.length_eq_zero_iff.mp (by omega)
      rw [htd, this, hc0]; simp
    · exact splice_eq' htd (by omega) (by simp [htb])
  have hz : zipEdges l.length r.length (fun _ x => op x) (ta ++ c.map op' ++ tc) (l ++ r) =
      some (l.map op ++ c.map op' ++ r.map op) := by
    have := zipEdges_eq (fun (_ : T) x => op x) ta (c.map op') tc l r (by omega) (by omega)
    rw [hta, show tc.length = r.length by omega] at this
    rw [this]
    have hzz : ∀ (x : List T) (y : List (Cx T)), x.length = y.length →
        List.zipWith (fun _ z => op z) x y = y.map op := by
      intro x
      induction x with
      | nil => intro y h; rw [List.length_eq_zero_iff.mp h.symm]; rfl
      | cons a x ih =>
        intro y h
        cases y with
        | nil => simp at h
        | cons b y => simp [ih y (by simpa using h)]
    rw [hzz _ _ hta, hzz _ _ (by omega)]
  have e1 : p.left / 2 = l.length := by omega
  have e2 : p.right / 2 = r.length := by omega
  have hsl : slice (ta ++ c.map op' ++ tc) 0 (p.len / 2) = some (ta ++ c.map op' ++ tc) := by
    rw [slice_ok _ _ _ (by omega) (by simp; omega)]
    simp; omega
  rw [e1] at htemp
  refine ⟨l, c, r, ha, ?_⟩
  simp only [hctr, hrc, hregs, hst, htemp, toComplex?_fromComplex, hedge, hsl, e1, e2, hz,
    Option.bind_eq_bind, Option.bind_some]
  congr 1
  simp [splice]
  omega

/-- The conversion with registers. -/
theorem simdComplexToReal_eq (k : RegKind) (addr : Nat) (simdOp : List T → List T) (op : Cx T → T)
    (hop : ∀ ds : List (Cx T), 2 * ds.length = k.len →
      regStoreHalf k (simdOp (fromComplex ds)) = ds.map op)
    (cs : List (Cx T)) (hal : AlignmentAccepted addr k.len (2 * cs.length)) (heven : addr % 2 = 0)
    (temp : List T) (ht : temp.length = cs.length) :
    simdComplexToReal k addr simdOp op (fromComplex cs) temp = some (cs.map op) := by
  obtain ⟨l, c, r, h, h'⟩ := simdComplexToReal_split k addr simdOp op op hop cs hal heven temp ht
  rw [h', h]
  simp

/-- The register operations behind `magnitude_squared_b` and `magnitude_b`. -/
theorem regNormSq_op [Add T] [Sub T] [Mul T] [Div T] [Zero T] (k : RegKind) (hk : k ≠ .avxF64x4)
    (ds : List (Cx T)) (h : 2 * ds.length = k.len) :
    regStoreHalf k (regComplexAbsSquared k (fromComplex ds)) = ds.map Cx.normSq :=
  C45_norms_partial k hk ds h

theorem regNorm_op [Add T] [Sub T] [Mul T] [Div T] [Zero T] (sqrt : T → T) (k : RegKind)
    (hk : k ≠ .avxF64x4) (ds : List (Cx T)) (h : 2 * ds.length = k.len) :
    regStoreHalf k (regComplexAbs sqrt k (fromComplex ds)) = ds.map (fun c => sqrt c.normSq) := by
  unfold regComplexAbs
  cases k <;> simp only [RegKind.len] at h
  case avxF64x4 => exact absurd rfl hk
  case fallbackF32x4 =>
    match ds, h with
    | [a, b], _ => rfl
  case sseF32x4 =>
    match ds, h with
    | [a, b], _ => rfl
  case fallbackF64x2 =>
    match ds, h with
    | [a], _ => rfl
  case sseF64x2 =>
    match ds, h with
    | [a], _ => rfl
  case avxF32x8 =>
    match ds, h with
    | [a, b, c, d], _ => rfl

/-- C30, `magnitude_b` and `magnitude_squared_b` (partial): the same numbers as in place. Missing: the
    alignments which the SIMD splitting does not accept (`C19_…`) and the AVX registers with four
    `f64` (`C30_avx_f64_violated`). `simdOp` and `op` are the operation on a register and on a point. -/
theorem C30_magnitude_b_partial [Zero T] (k : RegKind) (addr : Nat) (simdOp : List T → List T)
    (op : Cx T → T) (hop : ∀ ds : List (Cx T), 2 * ds.length = k.len →
      regStoreHalf k (simdOp (fromComplex ds)) = ds.map op)
    (v : DspVec T) (hc : v.isComplex = true) (cs : List (Cx T))
    (h : v.content = some (fromComplex cs)) (b : Buffer T) (hb : BufferOk b v.data cs.length)
    (hal : AlignmentAccepted addr k.len v.len) (heven : addr % 2 = 0) :
    ∃ w b', v.magnitudeBWith k addr simdOp op b = some (w, b') ∧ RealVersion v w (cs.map op) := by
  obtain ⟨⟨s, hs⟩, hl⟩ := cells_of_content h
  rw [length_fromComplex] at hl
  have hlen : v.len / 2 = cs.length := by unfold len; omega
  obtain ⟨temp, ht1, ht2⟩ := borrow_ok b v.data cs.length hb
  obtain ⟨rest, hrest⟩ := trade_ok b v.data (cs.map op) (by simpa using hb)
  have hsimd := simdComplexToReal_eq k addr simdOp op hop cs
    (by rw [← hl]; exact hal) heven temp ht2
  refine ⟨{ v with data := (b.trade (cs.map op) v.data).2, validLen := v.validLen / 2 }.asReal,
    (b.trade (cs.map op) v.data).1, ?_, ?_⟩
  · unfold magnitudeBWith
    rw [if_neg (by simp [hc]), hlen]
    simp only [ht1, h, hsimd, Option.bind_eq_bind, Option.bind_some]
  · refine realVersion_asReal (s := rest) ?_ ?_ rfl rfl
    · show (b.trade (cs.map op) v.data).2.cells = _
      rw [hrest]
    · show v.len / 2 = _
      simp [hlen]

/-- C30: the theorem applies to `magnitude_squared_b` and `magnitude_b` of all register types but one. -/
theorem C30_magnitude_squared_b_partial [Add T] [Sub T] [Mul T] [Div T] [Zero T] (k : RegKind)
    (hk : k ≠ .avxF64x4) (sqrt : T → T) (addr : Nat)
    (v : DspVec T) (hc : v.isComplex = true) (cs : List (Cx T))
    (h : v.content = some (fromComplex cs)) (b : Buffer T) (hb : BufferOk b v.data cs.length)
    (hal : AlignmentAccepted addr k.len v.len) (heven : addr % 2 = 0) :
    (∃ w b', v.magnitudeBWith k addr (regComplexAbsSquared k) Cx.normSq b = some (w, b') ∧
      RealVersion v w (cs.map fun c => c.re * c.re + c.im * c.im)) ∧
    (∃ w b', v.magnitudeBWith k addr (regComplexAbs sqrt k) (fun c => sqrt c.normSq) b = some (w, b') ∧
      RealVersion v w (cs.map fun c => sqrt (c.re * c.re + c.im * c.im))) :=
  ⟨C30_magnitude_b_partial k addr _ _ (regNormSq_op k hk) v hc cs h b hb hal heven,
   C30_magnitude_b_partial k addr _ _ (regNorm_op sqrt k hk) v hc cs h b hb hal heven⟩

example : let v : DspVec Int := exampleVec
    AlignmentAccepted 4 RegKind.sseF32x4.len v.len ∧
    (v.magnitudeBWith .sseF32x4 4 (regComplexAbsSquared .sseF32x4) Cx.normSq (.single [9])).map
      (·.1.content) = some (some [5, 25, 61]) := ⟨.inl (by decide), by decide⟩

/-- C30 is violated with AVX and `f64`: `magnitude_squared_b` differs from `magnitude_squared`. -/
theorem C30_avx_f64_violated :
    let v : DspVec Int := ⟨⟨.vec, [3, 4, 5, 12]⟩, some 1, .time, .complex, 4⟩
    v.WF ∧ (v.magnitudeBWith .avxF64x4 0 (regComplexAbsSquared .avxF64x4) Cx.normSq .noBuffer).map
      (·.1.content) = some (some [25, 25]) ∧
    (v.toRealWith Cx.normSq).map (·.content) = some (some [25, 169]) := by decide

/-- C30, `get_magnitude` and `get_magnitude_squared` (partial): the same numbers for vectors which fill
    their storage. Missing: vectors which do not fill their storage (see
    `C30_get_magnitude_storage_violated`), and what is missing in `C30_magnitude_b_partial` and
    `C30_destination_partial`. -/
theorem C30_get_magnitude_partial [Zero T] (k : RegKind) (addr : Nat) (simdOp : List T → List T)
    (op : Cx T → T) (hop : ∀ ds : List (Cx T), 2 * ds.length = k.len →
      regStoreHalf k (simdOp (fromComplex ds)) = ds.map op)
    (v dest : DspVec T) (hc : v.isComplex = true) (cs : List (Cx T))
    (h : v.content = some (fromComplex cs)) (hfull : v.allocLen = v.len)
    (hw : dest.WF) (hk : NotInline dest.data.kind) (hr : dest.isComplex = false)
    (hn : CanHold dest.data v.len)
    (hal : AlignmentAccepted addr k.len v.len) (heven : addr % 2 = 0) :
    ∃ w, v.getMagnitudeWith k addr simdOp op dest = some w ∧
      RealVersion { dest with delta := v.delta } w (cs.map op) := by
  obtain ⟨⟨s, hs⟩, hl⟩ := cells_of_content h
  rw [length_fromComplex] at hl
  have hlen : v.len / 2 = cs.length := by unfold len; omega
  obtain ⟨d, h1, h2, h3, h4, h5, h6⟩ := prepareTarget_ok v dest hc hw hk hr hn
  have hle : cs.length ≤ d.data.cells.length := by omega
  have hs0 : s = [] := by
    have := congrArg List.length hs
    simp only [List.length_append, length_fromComplex] at this
    unfold allocLen len at hfull
    exact List.length_eq_zero_iff.mp (by omega)
  rw [hs0, List.append_nil] at hs
  have hsl : slice d.data.cells 0 (v.len / 2) = some (d.data.cells.take cs.length) := by
    rw [hlen, slice_ok _ _ _ (by omega) hle]; simp
  have hsimd := simdComplexToReal_eq k addr simdOp op hop cs
    (by rw [← hl]; exact hal) heven (d.data.cells.take cs.length) (by simp; omega)
  refine ⟨d.withCells (splice d.data.cells 0 (cs.map op)), ?_, ?_⟩
  · unfold getMagnitudeWith
    simp only [h1, hsl, hs, hsimd, Option.bind_eq_bind, Option.bind_some]
  · obtain ⟨a1, a2, a3, a4, a5⟩ := realVersion_target (d := d) (c := cs.map op) rfl
      (by rw [h2, hlen]; simp) (by simpa using hle) h4
    exact ⟨a1, a2, a3, a4.trans h5, a5.trans h6⟩

/-- C30 is violated by `get_magnitude` for a vector which does not fill its storage: panic. -/
theorem C30_get_magnitude_storage_violated :
    let dest : DspVec Int := ⟨⟨.vec, []⟩, some 1, .time, .real, 0⟩
    exampleVec.WF ∧
    (exampleVec.getMagnitudeWith .sseF32x4 0 (regComplexAbsSquared .sseF32x4) Cx.normSq dest).isNone =
      true ∧
    (exampleVec.toRealWith Cx.normSq).map (·.content) = some (some [5, 25, 61]) := by decide

example : let dest : DspVec Int := ⟨⟨.vec, [9]⟩, some 1, .time, .real, 1⟩
    let v : DspVec Int := { exampleVec with validLen := 8 }
    v.allocLen = v.len ∧ CanHold dest.data v.len ∧
    (v.getMagnitudeWith .sseF32x4 2 (regComplexAbsSquared .sseF32x4) Cx.normSq dest).map (·.content) =
      some (some [5, 25, 61, 11300]) := ⟨by decide, .inr trivial, by decide⟩

/-! ### C29: real to complex and back -/

theorem content_of_pts_real {v : DspVec T} {l : List (List T)} (h : v.pts = some l) :
    v.content = some l.flatten := by
  obtain ⟨-, ⟨s, hs⟩, h1, -, -⟩ := cells_of_pts h
  exact content_of_cells hs h1

theorem interleave_two_flatten [Zero T] (c : List T) :
    (interleaveSpec [(0 : T)] 2 (c.map (fun x => [x]))).flatten = fromComplex (c.map fun x => ⟨x, 0⟩) := by
  induction c with
  | nil => rfl
  | cons x c ih => simp [interleaveSpec, fromComplex] at ih ⊢; exact ih

theorem complexVersion_asComplex {v w : DspVec T} {cs : List (Cx T)}
    (h : w.content = some (fromComplex cs)) (h3 : w.delta = v.delta) (h4 : w.dom = v.dom) :
    ComplexVersion v w.asComplex cs := by
  obtain ⟨m1, m2, m3, m4⟩ := asComplex_meta w
  obtain ⟨-, hl⟩ := cells_of_content h
  refine ⟨?_, ?_, asComplex_isComplex w, by rw [m4, h4], by rw [m3, h3]⟩
  · unfold content; rw [m1, m2]; exact h
  · rw [len, m2, hl, length_fromComplex]

/-- C29: `to_complex` turns every number `x` into `x + 0j`, provided that the storage can hold the
    result; otherwise an error is reported. -/
theorem C29_to_complex [Zero T] (v : DspVec T) (hw : v.WF) (hk : NotInline v.data.kind)
    (hr : v.isComplex = false) (c : List T) (h : v.content = some c) :
    (CanHold v.data (2 * v.len) → ∃ w, v.toComplexVec = some (w, .ok ()) ∧
      ComplexVersion v w (c.map fun x => ⟨x, 0⟩)) ∧
    (¬ CanHold v.data (2 * v.len) → v.toComplexVec = some (v.asComplex, .error .typeCanNotResize)) := by
  obtain ⟨h1, h2⟩ := C09_zero_interleave v hw hk 2 (by omega) (by simp [hr])
  obtain ⟨⟨s, hs⟩, hl⟩ := cells_of_content h
  refine ⟨fun hcan => ?_, fun hcan => ?_⟩
  · obtain ⟨v', l, h3, h4, h5, h6⟩ := h2 hcan
    have hp := pts_real hr hs hl.symm
    rw [h4, Option.some.injEq] at hp
    have hz : v.zeroPoint = [0] := by simp [zeroPoint, stride, hr]
    rw [hz, hp] at h5
    have h7 := content_of_pts_real h5
    rw [interleave_two_flatten] at h7
    refine ⟨v'.asComplex, ?_, complexVersion_asComplex h7 h6.1 (by unfold dom; rw [h6.2.1])⟩
    unfold toComplexVec
    simp [hr, h3]
  · unfold toComplexVec
    simp [hr, h1 hcan]

/-- C29: real to complex to real gives the original numbers, the imaginary parts are zero. -/
theorem C29_round_trip [Zero T] (v : DspVec T) (hw : v.WF) (hk : NotInline v.data.kind)
    (hr : v.isComplex = false) (c : List T) (h : v.content = some c)
    (hcan : CanHold v.data (2 * v.len)) :
    ∃ w, v.toComplexVec = some (w, .ok ()) ∧ w.isComplex = true ∧ w.len = 2 * v.len ∧
      (∃ u, w.toRealWith Cx.re = some u ∧ RealVersion v u c) ∧
      (∃ u, w.toRealWith Cx.im = some u ∧ RealVersion v u (List.replicate v.len 0)) := by
  obtain ⟨w, h1, h2⟩ := (C29_to_complex v hw hk hr c h).1 hcan
  obtain ⟨-, hl⟩ := cells_of_content h
  obtain ⟨g1, g2, g3, g4, g5⟩ := h2
  have hre := C30_in_place Cx.re w g3 _ g1
  have him := C30_in_place Cx.im w g3 _ g1
  have e1 : (c.map fun x => (⟨x, 0⟩ : Cx T)).map Cx.re = c := by
    rw [List.map_map]; exact List.map_id c
  have e2 : (c.map fun x => (⟨x, 0⟩ : Cx T)).map Cx.im = List.replicate v.len 0 := by
    rw [List.map_map]
    show c.map (fun _ => 0) = _
    rw [List.map_const', len, hl]
  rw [e1] at hre
  rw [e2] at him
  refine ⟨w, h1, g3, by rw [g2, len, hl]; simp, ?_, ?_⟩
  · obtain ⟨u, k1, k2, k3, k4, k5, k6⟩ := hre
    exact ⟨u, k1, k2, k3, k4, k5.trans g4, k6.trans g5⟩
  · obtain ⟨u, k1, k2, k3, k4, k5, k6⟩ := him
    exact ⟨u, k1, k2, k3, k4, k5.trans g4, k6.trans g5⟩

/-- C29 with a buffer (not for the empty vector, see `C51_to_complex_b_empty_violated`). -/
theorem C29_to_complex_b [Zero T] (v : DspVec T) (hw : v.WF)
    (hr : v.isComplex = false) (c : List T) (h : v.content = some c) (hne : c ≠ [])
    (b : Buffer T) (hb : BufferOk b v.data (2 * v.len)) :
    ∃ w b', v.toComplexVecB b = some (w, b') ∧ ComplexVersion v w (c.map fun x => ⟨x, 0⟩) := by
  obtain ⟨⟨s, hs⟩, hl⟩ := cells_of_content h
  have hn : v.len ≠ 0 := by
    unfold len; rw [hl]; exact fun h0 => hne (List.length_eq_zero_iff.mp h0)
  obtain ⟨v', b', l, h3, h4, h5, h6⟩ := C09_zero_interleave_b v hw b 2 (by omega) hb hn
  have hp := pts_real hr hs hl.symm
  rw [h4, Option.some.injEq] at hp
  have hz : v.zeroPoint = [0] := by simp [zeroPoint, stride, hr]
  rw [hz, hp] at h5
  have h7 := content_of_pts_real h5
  rw [interleave_two_flatten] at h7
  refine ⟨v'.asComplex, b', ?_, complexVersion_asComplex h7 h6.1 (by unfold dom; rw [h6.2.1])⟩
  unfold toComplexVecB
  simp [hr, h3]

/-- C29 is violated by `to_complex_b` of an empty vector: panic. -/
theorem C51_to_complex_b_empty_violated :
    let v : DspVec Int := ⟨⟨.vec, []⟩, some 1, .time, .real, 0⟩
    v.WF ∧ (v.toComplexVec).map (·.2) = some (.ok ()) ∧ (v.toComplexVecB (.single [])).isNone = true := by
  decide

/-- C29/C01 are violated if the storage can not grow: the vector returned together with the error
    claims to be complex but may have an odd length. -/
theorem C01_to_complex_error_violated :
    let v : DspVec Int := ⟨⟨.fixed, [1, 2, 3]⟩, some 1, .time, .real, 3⟩
    v.WF ∧ ∃ w, v.toComplexVec = some (w, .error .typeCanNotResize) ∧ w.isComplex = true ∧ w.len = 3 :=
  ⟨by decide, _, rfl, by decide, by decide⟩

example : let v : DspVec Int := ⟨⟨.vec, [1, 2, 3, 9]⟩, some 5, .timeOrFreq .frequency, .realOrComplex false, 3⟩
    v.WF ∧ v.content = some [1, 2, 3] ∧ v.isComplex = false ∧
    (v.toComplexVec).map (·.1.content) = some (some [1, 0, 2, 0, 3, 0]) := by decide

/-! ### C04: real and imaginary parts -/

theorem deinterleave_aux (cs : List (Cx T)) : ∀ (a b r i : List T), b.length = a.length →
    r.length = cs.length → i.length = cs.length →
    ((fromComplex cs).zipIdx (2 * a.length)).foldlM deinterleaveStep (a ++ r, b ++ i) =
      some (a ++ cs.map Cx.re, b ++ cs.map Cx.im) := by
  induction cs with
  | nil =>
    intro a b r i _ hr hi
    rw [List.length_eq_zero_iff.mp hr, List.length_eq_zero_iff.mp hi]
    rfl
  | cons c cs ih =>
    intro a b r i hab hr hi
    match r, i, hr, hi with
    | x :: r, y :: i, hr, hi =>
      have h1 : deinterleaveStep (a ++ x :: r, b ++ y :: i) (c.re, 2 * a.length) =
          some (a ++ c.re :: r, b ++ y :: i) := by
        unfold deinterleaveStep
        simp only [Nat.mul_mod_right, if_true, Nat.mul_div_cancel_left _ (show 0 < 2 by omega)]
        rw [put_eq (by simp)]
        simp
      have h2 : deinterleaveStep (a ++ c.re :: r, b ++ y :: i) (c.im, 2 * a.length + 1) =
          some (a ++ c.re :: r, b ++ c.im :: i) := by
        unfold deinterleaveStep
        have e1 : (2 * a.length + 1) % 2 = 1 := by omega
        have e2 : (2 * a.length + 1) / 2 = b.length := by omega
        simp only [e1, e2]
        rw [put_eq (a := b ++ y :: i) (by simp)]
        simp
      have h3 := ih (a ++ [c.re]) (b ++ [c.im]) r i (by simp [hab]) (by simpa using hr) (by simpa using hi)
      simp only [fromComplex, List.zipIdx_cons, List.foldlM_cons, h1, h2, Option.bind_eq_bind, Option.bind_some]
      rw [show 2 * a.length + 1 + 1 = 2 * (a ++ [c.re]).length by simp; omega]
      simpa using h3

theorem getRealImag_ok [Zero T] (v re im : DspVec T) (hc : v.isComplex = true) (cs : List (Cx T))
    (h : v.content = some (fromComplex cs)) (hw1 : re.WF) (hk1 : NotInline re.data.kind)
    (hr1 : re.isComplex = false) (hn1 : CanHold re.data cs.length)
    (hw2 : im.WF) (hk2 : NotInline im.data.kind)
    (hr2 : im.isComplex = false) (hn2 : CanHold im.data cs.length) :
    ∃ r i, v.getRealImag re im = some (r, i) ∧ RealVersion re r (cs.map Cx.re) ∧
      RealVersion im i (cs.map Cx.im) := by
  obtain ⟨-, hl⟩ := cells_of_content h
  rw [length_fromComplex] at hl
  have hlen : v.len / 2 = cs.length := by unfold len; omega
  obtain ⟨d1, a1, a2, a3, a4, -⟩ := resize_real re hw1 hk1 hr1 _ hn1
  obtain ⟨d2, b1, b2, b3, b4, -⟩ := resize_real im hw2 hk2 hr2 _ hn2
  have l1 : cs.length ≤ d1.data.cells.length := by rw [← a2]; exact a3.1
  have l2 : cs.length ≤ d2.data.cells.length := by rw [← b2]; exact b3.1
  have s1 : slice d1.data.cells 0 cs.length = some (d1.data.cells.take cs.length) := by
    rw [slice_ok _ _ _ (by omega) l1]; simp
  have s2 : slice d2.data.cells 0 cs.length = some (d2.data.cells.take cs.length) := by
    rw [slice_ok _ _ _ (by omega) l2]; simp
  have hd := deinterleave_aux cs [] [] (d1.data.cells.take cs.length) (d2.data.cells.take cs.length) rfl
    (by simp; omega) (by simp; omega)
  have hd' : deinterleave (fromComplex cs) (d1.data.cells.take cs.length)
      (d2.data.cells.take cs.length) = some (cs.map Cx.re, cs.map Cx.im) := by
    unfold deinterleave; simpa using hd
  refine ⟨d1.withCells (splice d1.data.cells 0 (cs.map Cx.re)),
    d2.withCells (splice d2.data.cells 0 (cs.map Cx.im)), ?_, ?_, ?_⟩
  · unfold getRealImag
    rw [if_neg (by simp [hc, hr1, hr2]), hlen, a1, b1]
    simp only [s1, s2, h, hd', Option.bind_eq_bind, Option.bind_some]
  · obtain ⟨x1, x2, x3, x4, x5⟩ := realVersion_target (d := d1) (c := cs.map Cx.re) rfl
      (by simp [a2]) (by simpa using l1) (by unfold isComplex; rw [a4.2.2.1]; exact hr1)
    exact ⟨x1, x2, x3, x4.trans (by unfold dom; rw [a4.2.1]), x5.trans a4.1⟩
  · obtain ⟨x1, x2, x3, x4, x5⟩ := realVersion_target (d := d2) (c := cs.map Cx.im) rfl
      (by simp [b2]) (by simpa using l2) (by unfold isComplex; rw [b4.2.2.1]; exact hr2)
    exact ⟨x1, x2, x3, x4.trans (by unfold dom; rw [b4.2.1]), x5.trans b4.1⟩

theorem zipWith_mk_re : ∀ (r i : List T), r.length = i.length →
    (List.zipWith Cx.mk r i).map Cx.re = r ∧ (List.zipWith Cx.mk r i).map Cx.im = i
  | [], [], _ => ⟨rfl, rfl⟩
  | x :: r, y :: i, h => by
    obtain ⟨h1, h2⟩ := zipWith_mk_re r i (by simpa using h)
    simp [h1, h2]

/-- C04: `interleave_to_complex_*_vec` of two containers gives a complex vector from which
    `get_real_imag` reads back both; containers of different length are rejected. -/
theorem C04_interleave [Zero T] [One T] (r i : List T) (isFreq : Bool) (re im : DspVec T)
    (hw1 : re.WF) (hk1 : NotInline re.data.kind) (hr1 : re.isComplex = false)
    (hn1 : CanHold re.data r.length) (hw2 : im.WF) (hk2 : NotInline im.data.kind)
    (hr2 : im.isComplex = false) (hn2 : CanHold im.data r.length) :
    (r.length ≠ i.length → interleaveToComplex r i isFreq = .error .inputMustHaveTheSameSize) ∧
    (r.length = i.length → ∃ v, interleaveToComplex r i isFreq = .ok v ∧ v.isComplex = true ∧
      v.points = r.length ∧
      ∃ re' im', v.getRealImag re im = some (re', im') ∧ RealVersion re re' r ∧ RealVersion im im' i) := by
  refine ⟨fun h => by simp [interleaveToComplex, h], fun h => ?_⟩
  obtain ⟨e1, e2⟩ := zipWith_mk_re r i h
  refine ⟨⟨⟨.vec, fromComplex (List.zipWith Cx.mk r i)⟩, some 1, if isFreq then .freq else .time, .complex,
    (fromComplex (List.zipWith Cx.mk r i)).length⟩, by simp [interleaveToComplex, h], rfl, ?_, ?_⟩
  · simp [points, isComplex, NumberSpace.isComplex, h]
  · have hz : (List.zipWith Cx.mk r i).length = r.length := by simp [h]
    have := getRealImag_ok (v := ⟨⟨.vec, fromComplex (List.zipWith Cx.mk r i)⟩, some 1,
      if isFreq then .freq else .time, .complex, (fromComplex (List.zipWith Cx.mk r i)).length⟩) re im
      rfl (List.zipWith Cx.mk r i) (content_of_cells (s := []) (by simp) rfl)
      hw1 hk1 hr1 (by rw [hz]; exact hn1) hw2 hk2 hr2 (by rw [hz]; exact hn2)
    rw [e1, e2] at this
    exact this

theorem interleaveInto_eq (cs : List (Cx T)) (data : List T) (hd : data.length = 2 * cs.length) :
    interleaveInto data (cs.map Cx.re) (cs.map Cx.im) = some (fromComplex cs) := by
  unfold interleaveInto
  rw [hd]
  obtain ⟨r, h1, h2, -⟩ := forRange_inv
    (P := fun i d => d = (fromComplex cs).take i ++ data.drop i ∧ i ≤ 2 * cs.length)
    (fun i d => do
      if i % 2 = 0 then do
        let x ← get (cs.map Cx.re) (i / 2)
        put d i x
      else do
        let x ← get (cs.map Cx.im) (i / 2)
        put d i x) 0 (2 * cs.length) data (by simp) (by
      rintro i d - hi ⟨rfl, -⟩
      have hi : i < 2 * cs.length := by omega
      have hi2 : i / 2 < cs.length := by omega
      have hset : ∀ x, (fromComplex cs)[i]? = some x →
          put ((fromComplex cs).take i ++ data.drop i) i x =
            some ((fromComplex cs).take (i + 1) ++ data.drop (i + 1)) := by
        intro x hx
        rw [put_eq (by simp; omega)]
        congr 1
        rw [List.set_append_right _ _ (by simp)]
        have e : i - ((fromComplex cs).take i).length = 0 := by simp; omega
        rw [e, List.drop_eq_getElem_cons (by omega), List.set_cons_zero, List.take_add_one, hx]
        simp
      refine ⟨_, ?_, rfl, by omega⟩
      by_cases he : i % 2 = 0
      · have hx : (fromComplex cs)[i]? = some cs[i / 2].re := by
          conv_lhs => rw [show i = 2 * (i / 2) by omega]
          rw [getElem?_fromComplex_even]; simp [hi2]
        have hg : get (cs.map Cx.re) (i / 2) = some cs[i / 2].re := by simp [get, hi2]
        simp only [he, if_true, hg, Option.bind_eq_bind, Option.bind_some]
        exact hset _ hx
      · have hx : (fromComplex cs)[i]? = some cs[i / 2].im := by
          conv_lhs => rw [show i = 2 * (i / 2) + 1 by omega]
          rw [getElem?_fromComplex_odd]; simp [hi2]
        have hg : get (cs.map Cx.im) (i / 2) = some cs[i / 2].im := by simp [get, hi2]
        simp only [he, if_false, hg, Option.bind_eq_bind, Option.bind_some]
        exact hset _ hx)
  refine h1.trans ?_
  rw [h2, Nat.zero_add, List.take_of_length_le (by simp), List.drop_of_length_le (by omega), List.append_nil]

/-- C04: `set_real_imag` overwrites a complex vector with the given parts, `get_real_imag` returns
    them; parts of different length are rejected and nothing changes. -/
theorem C04_set_get [Zero T] (v pr pi : DspVec T) (hc : v.isComplex = true) (r i : List T)
    (hpr : pr.content = some r) (hpi : pi.content = some i) :
    (r.length ≠ i.length → v.setRealImag pr pi = some (v, .error .invalidArgumentLength)) ∧
    (r.length = i.length → ∃ w, v.setRealImag pr pi = some (w, .ok ()) ∧
      ComplexVersion v w (List.zipWith Cx.mk r i) ∧ w.SameMeta v ∧
      ∀ (re im : DspVec T), re.WF → NotInline re.data.kind → re.isComplex = false →
        CanHold re.data r.length → im.WF → NotInline im.data.kind → im.isComplex = false →
        CanHold im.data r.length →
        ∃ re' im', w.getRealImag re im = some (re', im') ∧ RealVersion re re' r ∧
          RealVersion im im' i) := by
  obtain ⟨-, l1⟩ := cells_of_content hpr
  obtain ⟨-, l2⟩ := cells_of_content hpi
  refine ⟨fun h => ?_, fun h => ?_⟩
  · unfold setRealImag len
    rw [l1, l2, if_pos h]
  · obtain ⟨e1, e2⟩ := zipWith_mk_re r i h
    have hz : (List.zipWith Cx.mk r i).length = r.length := by simp [h]
    have hcont : ∀ w : DspVec T, w.data.cells = fromComplex (List.zipWith Cx.mk r i) →
        w.validLen = r.length + i.length → w.content = some (fromComplex (List.zipWith Cx.mk r i)) := by
      intro w h1 h2
      exact content_of_cells (s := []) (by rw [h1]; simp) (by rw [h2, length_fromComplex, hz]; omega)
    refine ⟨{ v.withCells (fromComplex (List.zipWith Cx.mk r i)) with validLen := r.length + i.length },
      ?_, ⟨hcont _ rfl rfl, ?_, hc, rfl, rfl⟩, ⟨rfl, rfl, rfl, rfl⟩, ?_⟩
    · unfold setRealImag len
      rw [l1, l2, if_neg (by simpa using h)]
      have hs : slice (resizeCells v.data.cells (r.length + i.length)) 0 (r.length + i.length) =
          some (resizeCells v.data.cells (r.length + i.length)) := by
        rw [slice_ok _ _ _ (by omega) (by simp)]; simp
      have hi := interleaveInto_eq (List.zipWith Cx.mk r i)
        (resizeCells v.data.cells (r.length + i.length)) (by rw [length_resizeCells, hz]; omega)
      rw [e1, e2] at hi
      simp only [hpr, hpi, hs, hi, Option.bind_eq_bind, Option.bind_some]
    · show r.length + i.length = _
      rw [hz]; omega
    · intro re im a1 a2 a3 a4 b1 b2 b3 b4
      have := getRealImag_ok (v := { v.withCells (fromComplex (List.zipWith Cx.mk r i)) with
          validLen := r.length + i.length }) re im hc (List.zipWith Cx.mk r i) (hcont _ rfl rfl)
        a1 a2 a3 (by rw [hz]; exact a4) b1 b2 b3 (by rw [hz]; exact b4)
      rw [e1, e2] at this
      exact this

example : let re : DspVec Int := ⟨⟨.vec, [1, 2, 3]⟩, some 1, .time, .real, 2⟩
    let im : DspVec Int := ⟨⟨.arrayVec 4, [8, 9]⟩, some 1, .time, .real, 2⟩
    re.content = some [1, 2] ∧ im.content = some [8, 9] ∧ re.WF ∧ im.WF ∧ NotInline im.data.kind ∧
    (exampleVec.setRealImag re im).map (fun x => x.1.content) = some (some [1, 8, 2, 9]) ∧
    ((exampleVec.setRealImag re im).bind (fun x => x.1.getRealImag im re)).map
      (fun x => (x.1.content, x.2.content)) = some (some [1, 2], some [8, 9]) := by decide

/-- The documentation says that the setters leave an empty vector if the number space is not complex;
    they do not check it (see C32). -/
theorem C32_setter_violated :
    let v : DspVec Int := ⟨⟨.vec, [1]⟩, some 1, .timeOrFreq .time, .realOrComplex false, 1⟩
    let p : DspVec Int := ⟨⟨.vec, [7]⟩, some 1, .timeOrFreq .time, .realOrComplex false, 1⟩
    v.isComplex = false ∧ (v.setRealImag p p).map (fun x => (x.1.len, x.1.isErroneous, x.2)) =
      some (2, false, .ok ()) := by decide

end Dsp
