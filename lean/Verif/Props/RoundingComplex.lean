import Verif.Props.Rounding
/-
C73 for complex vectors: rounding errors of the real and of the imaginary part.
-/
namespace Dsp
open DspVec
variable {T : Type}

/-! ### Real and imaginary part -/

/-- The real or the imaginary part. -/
def Cx.part (im : Bool) (z : Cx T) : T := if im then z.im else z.re

section
variable [Add T] [Zero T]

omit [Zero T] in
theorem part_add (b : Bool) (x y : Cx T) : (x + y).part b = x.part b + y.part b := by cases b <;> rfl
omit [Add T] in
theorem part_zero (b : Bool) : (0 : Cx T).part b = 0 := by cases b <;> rfl

omit [Add T] [Zero T] in
theorem part_sub [Sub T] (b : Bool) (x y : Cx T) : (x - y).part b = x.part b - y.part b := by cases b <;> rfl

omit [Add T] [Zero T] in
theorem evens_fromComplex' : ∀ q : List (Cx T), evens (fromComplex q) = q.map Cx.re
  | [] => rfl
  | c :: q => by simp [fromComplex, evens, evens_fromComplex' q]

omit [Add T] [Zero T] in
theorem odds_fromComplex' : ∀ q : List (Cx T), odds (fromComplex q) = q.map Cx.im
  | [] => rfl
  | c :: q => by simp [fromComplex, odds, odds_fromComplex' q]

theorem regSumComplex_part (b : Bool) (q : List (Cx T)) :
    (regSumComplex (fromComplex q)).part b = regSumReal (q.map (Cx.part b)) := by
  unfold regSumComplex
  rw [evens_fromComplex', odds_fromComplex']
  cases b <;> rfl

omit [Zero T] in
theorem foldl_part {E : Type} (b : Bool) (g : E → Cx T) (l : List E) (s : Cx T) :
    (l.foldl (fun s x => s + g x) s).part b = l.foldl (fun s x => s + (g x).part b) (s.part b) := by
  induction l generalizing s with
  | nil => rfl
  | cons x l ih => rw [List.foldl_cons, List.foldl_cons, ih, part_add]

/-- Registers of complex numbers are added component by component. -/
theorem plainRegSum_part (b : Bool) (k : RegKind) (rc : List (List (Cx T))) :
    (regSumComplex (plainRegSum k (rc.map fromComplex))).part b =
      regSumReal ((rc.map fun r => r.map (Cx.part b)).foldl (regZip (· + ·)) (List.replicate (k.len / 2) 0)) := by
  have key : ∀ (rc : List (List (Cx T))) (s : List (Cx T)), ∃ q,
      (rc.map fromComplex).foldl (regZip (· + ·)) (fromComplex s) = fromComplex q ∧
      q.map (Cx.part b) = (rc.map fun r => r.map (Cx.part b)).foldl (regZip (· + ·)) (s.map (Cx.part b)) := by
    intro rc
    induction rc with
    | nil => intro s; exact ⟨s, rfl, rfl⟩
    | cons r rc ih =>
      intro s
      obtain ⟨q, q1, q2⟩ := ih (List.zipWith (fun x y => ⟨x.re + y.re, x.im + y.im⟩) s r)
      refine ⟨q, ?_, ?_⟩
      · rw [List.map_cons, List.foldl_cons, ← q1]
        unfold regZip; rw [zipWith_fromComplex]
      · rw [q2, List.map_cons, List.foldl_cons]
        unfold regZip
        rw [List.map_zipWith, List.zipWith_map]
        cases b <;> rfl
  have hz : regSplat k (0 : T) = fromComplex (List.replicate (k.len / 2) 0) := by cases k <;> rfl
  obtain ⟨q, q1, q2⟩ := key rc (List.replicate (k.len / 2) 0)
  unfold plainRegSum
  rw [hz, q1, regSumComplex_part, q2]
  simp [part_zero]

theorem kahanSum_part [Sub T] (b : Bool) (l : List (Cx T)) :
    (kahanSum (· + ·) (· - ·) (0 : Cx T) l).part b = kahanSum (· + ·) (· - ·) 0 (l.map (Cx.part b)) := by
  have key : ∀ (l : List (Cx T)) (s c : Cx T),
      ((l.foldl (kahanStep (· + ·) (· - ·)) (s, c)).1.part b, (l.foldl (kahanStep (· + ·) (· - ·)) (s, c)).2.part b) =
      (l.map (Cx.part b)).foldl (kahanStep (· + ·) (· - ·)) (s.part b, c.part b) := by
    intro l
    induction l with
    | nil => intro s c; rfl
    | cons x l ih =>
      intro s c
      rw [List.foldl_cons, List.map_cons, List.foldl_cons, ih]
      unfold kahanStep
      simp only [part_add, part_sub]
  have := congrArg Prod.fst (key l 0 0)
  rw [part_zero] at this
  exact this

/-- The compensated summation of registers of complex numbers. -/
theorem kahanRegSum_part [Sub T] (b : Bool) (k : RegKind) (rc : List (List (Cx T))) :
    (regSumComplex (kahanRegSum k (rc.map fromComplex))).part b =
      regSumReal (kahanSum (regZip (· + ·)) (regZip (· - ·)) (List.replicate (k.len / 2) 0) (rc.map fun r => r.map (Cx.part b))) := by
  have hzip : ∀ (f : T → T → T) (x y : List (Cx T)), regZip f (fromComplex x) (fromComplex y) =
      fromComplex (List.zipWith (fun x y => ⟨f x.re y.re, f x.im y.im⟩) x y) := fun f x y => by
    unfold regZip; rw [zipWith_fromComplex]
  have hpart : ∀ (f : T → T → T) (x y : List (Cx T)),
      (List.zipWith (fun x y => (⟨f x.re y.re, f x.im y.im⟩ : Cx T)) x y).map (Cx.part b) =
        regZip f (x.map (Cx.part b)) (y.map (Cx.part b)) := fun f x y => by
    unfold regZip
    rw [List.map_zipWith, List.zipWith_map]
    cases b <;> rfl
  have key : ∀ (rc : List (List (Cx T))) (s c : List (Cx T)), ∃ q p,
      (rc.map fromComplex).foldl (kahanStep (regZip (· + ·)) (regZip (· - ·))) (fromComplex s, fromComplex c) =
        (fromComplex q, fromComplex p) ∧
      (q.map (Cx.part b), p.map (Cx.part b)) = (rc.map fun r => r.map (Cx.part b)).foldl
        (kahanStep (regZip (· + ·)) (regZip (· - ·))) (s.map (Cx.part b), c.map (Cx.part b)) := by
    intro rc
    induction rc with
    | nil => intro s c; exact ⟨s, c, rfl, rfl⟩
    | cons r rc ih =>
      intro s c
      rw [List.map_cons, List.foldl_cons, List.map_cons, List.foldl_cons]
      unfold kahanStep
      simp only [hzip]
      obtain ⟨q, p, q1, q2⟩ := ih _ _
      refine ⟨q, p, q1, ?_⟩
      simp only [hpart] at q2
      exact q2
  have hz : regSplat k (0 : T) = fromComplex (List.replicate (k.len / 2) 0) := by cases k <;> rfl
  obtain ⟨q, p, q1, q2⟩ := key rc (List.replicate (k.len / 2) 0) (List.replicate (k.len / 2) 0)
  unfold kahanRegSum kahanSum
  rw [hz, q1]
  simp only
  rw [regSumComplex_part, show q.map (Cx.part b) = _ from congrArg Prod.fst q2]
  simp [part_zero]

/-! ### The additions -/

/-- What `sum`, `sum_sq` and the dot products of complex vectors compute: registers `rc` and edges of complex numbers. -/
def complexForm (acc : List (List T) → List T) (rc : List (List (Cx T))) (edges : List (Cx T)) : Cx T :=
  (if rc = [] then 0 else 0 + regSumComplex (acc (rc.map fromComplex))) + edges.foldl (fun s x => s + x) 0

/-- The registers and edges contain exactly the numbers `l`. -/
structure Covers (k : RegKind) (rc : List (List (Cx T))) (edges l : List (Cx T)) : Prop where
  full : ∀ r ∈ rc, 2 * r.length = k.len
  count : rc.length ≤ l.length / (k.len / 2)
  few : edges.length ≤ k.len
  all : (rc.flatten : Multiset (Cx T)) + (edges : Multiset (Cx T)) = (l : Multiset (Cx T))

theorem half_len (k : RegKind) : 2 * (k.len / 2) = k.len ∧ 0 < k.len / 2 := by cases k <;> decide

/-- The parts of the plain form. -/
theorem complexForm_sumOf {k : RegKind} {rc : List (List (Cx T))} {edges l : List (Cx T)} (h : Covers k rc edges l) (b : Bool) :
    SumOf (sumDepth l.length (k.len / 2)) ((complexForm (plainRegSum k) rc edges).part b) (l.map (Cx.part b) : Multiset T) := by
  obtain ⟨h1, h2⟩ := half_len k
  have hl : (l.map (Cx.part b) : Multiset T) = ((rc.map fun r => r.map (Cx.part b)).flatten : Multiset T) + (edges.map (Cx.part b) : Multiset T) := by
    have := congrArg (Multiset.map (Cx.part b)) h.all
    rw [Multiset.map_add, Multiset.map_coe, Multiset.map_coe, Multiset.map_coe, List.map_flatten] at this
    exact this.symm
  rw [hl]
  unfold complexForm sumDepth
  rw [part_add, foldl_part, part_zero]
  have he : SumOf (2 * (k.len / 2)) (edges.foldl (fun s x => s + x.part b) 0) (edges.map (Cx.part b) : Multiset T) := by
    have := (SumOf.zero (T := T) 0).foldl_leaves (Cx.part b) edges
    rw [show (0 : Multiset T) + (edges.map (Cx.part b) : Multiset T) = (edges.map (Cx.part b) : Multiset T) from zero_add _] at this
    exact this.mono (by have := h.few; omega)
  have hfew := h.few
  have hcnt := h.count
  generalize l.length / (k.len / 2) = Q at hcnt ⊢
  refine SumOf.add ?_ (he.mono (by omega))
  split
  · rename_i hreg; subst hreg; rw [part_zero]; exact .zero _
  · rw [part_add, part_zero, plainRegSum_part]
    have h0 : ∀ n, List.Forall₂ (SumOf 0) (List.replicate n (0 : T)) (List.replicate n (0 : Multiset T)) := by
      intro n
      induction n with
      | zero => exact .nil
      | succ n ih => rw [List.replicate_succ, List.replicate_succ]; exact .cons (.zero 0) ih
    obtain ⟨S, e1, e2, e3⟩ := plainRegSum_sumOf (k.len / 2) (rc.map fun r => r.map (Cx.part b)) (List.replicate (k.len / 2) 0) 0 _ (by simp) (h0 _) (by
      intro r hr
      obtain ⟨q, q1, rfl⟩ := List.mem_map.1 hr
      have := h.full q q1
      simp only [List.length_map]; omega)
    have hs := regSumReal_sumOf e1
    rw [e3, e2] at hs
    simp only [List.sum_replicate, smul_zero, zero_add, List.length_map] at hs
    have := (SumOf.zero (T := T) (rc.length + k.len / 2)).add hs
    rw [show (0 : Multiset T) + (((rc.map fun r => r.map (Cx.part b)).flatten : List T) : Multiset T) = _ from zero_add _] at this
    refine this.mono ?_
    omega

end

section
variable [Add T] [Zero T]

theorem sumComplexWith_form (k : RegKind) (addr : Nat) (st : MultiCoreSettings)
    (f : List T → List T) (g : Cx T → Cx T)
    (hf : ∀ r : List (Cx T), 2 * r.length = k.len → f (fromComplex r) = fromComplex (r.map g))
    (cs ss : List (Cx T)) (order : List Nat)
    (hal : ComplexAlignmentAccepted addr k.len (2 * cs.length)) :
    ∃ rc edges, Covers k rc edges (cs.map g) ∧
      sumComplexWith k addr st f g (fromComplex cs ++ fromComplex ss) (2 * cs.length) order =
        some (complexForm (plainRegSum k) rc edges) := by
  obtain ⟨l, c, r, ha, hl, hr, hcm, h1, h2⟩ := split_complex addr k.len k.len_pos k.len_even hal.2 cs
  obtain ⟨g1, g2, g3⟩ := calc_wf addr k.len (2 * cs.length) k.len_pos
  obtain ⟨regs, r1, r2, r3⟩ := (C19_registers_partial addr k.len k.len_pos (fromComplex cs)
    (fromComplex c) (by rw [length_fromComplex]; exact h1)).2 (by rw [length_fromComplex]; exact hal.1)
  obtain ⟨rc, c1, c2, c3⟩ := regs_complex k.len k.len_even regs c r3 r2
  rw [length_fromComplex] at r1
  have hedge := edges_le addr k.len (2 * cs.length) k.len_pos
  obtain ⟨hh1, hh2⟩ := half_len k
  refine ⟨rc.map (fun r => r.map g), (l ++ r).map g, ⟨?_, ?_, ?_, ?_⟩, ?_⟩
  · intro r hr
    obtain ⟨q, q1, rfl⟩ := List.mem_map.1 hr
    simpa using c3 q q1
  · have := regs_count hh2 (regs := rc) (c := c) (a := cs) (fun r hr => by have := c3 r hr; omega) c2 (by rw [ha]; simp; omega)
    simpa using this
  · simp only [List.length_map, List.length_append]; omega
  · rw [← List.map_flatten, c2, ha, Multiset.coe_add, Multiset.coe_eq_coe, ← List.map_append]
    refine List.Perm.map g ?_
    rw [List.append_assoc]
    exact List.perm_append_comm_assoc _ _ _
  · unfold sumComplexWith
    rw [show 2 * cs.length = (fromComplex cs).length by simp, slice_append_left]
    simp only [Option.bind_eq_bind, Option.bind_some, length_fromComplex]
    rw [center_append _ _ _ (by simp; omega), h1, ← fromComplex_append, toComplex?_fromComplex]
    simp only [Option.bind_some, chunkedResults_small]
    rw [cedgeIter_append _ _ _ (by omega) (by omega), h2]
    have hmap : regs.map f = (rc.map (fun r => r.map g)).map fromComplex := by
      rw [c1, List.map_map, List.map_map]
      exact List.map_congr_left fun r hr => hf r (c3 r hr)
    have hfold : (l ++ r).foldl (fun s x => s + g x) (0 : Cx T) = ((l ++ r).map g).foldl (fun s x => s + x) 0 := by
      rw [List.foldl_map]
    unfold complexForm
    by_cases hc : c = []
    · have hrc : rc = [] := by
        cases rc with
        | nil => rfl
        | cons q rc =>
          have h3 := c3 q (by simp)
          rw [hc, List.flatten_cons] at c2
          have := congrArg List.length c2
          simp at this; simp [this.1] at h3; omega
      subst hc hrc
      simp only [show fromComplex ([] : List (Cx T)) = [] from rfl, if_true, List.mapM_nil,
        Option.pure_def, Option.bind_some, List.map_nil, List.foldl_nil, hfold]
    · have hc' : fromComplex c ≠ [] := by
        intro h; apply hc; have := congrArg List.length h; simp at this; exact this
      have hrc : rc.map (fun r => r.map g) ≠ [] := by
        intro h
        apply hc
        rw [← c2, List.map_eq_nil_iff.1 h]; rfl
      simp only [if_neg hc', if_neg hrc, List.mapM_cons, List.mapM_nil, Option.bind_eq_bind, id, sumChunk,
        Nat.add_zero, r1, Option.bind_some, Option.pure_def, List.map_cons, List.map_nil,
        List.foldl_cons, List.foldl_nil, hfold, hmap]
end

section
variable [AddCommMagma T] [Zero T] [Sub T] [CommMagma T] [Div T]

/-- C73, with nothing but the commutativity of addition and multiplication: the real and the imaginary part of `sum` and `sum_sq` of a
    complex vector. -/
theorem C73_additions_complex (k : RegKind) (addr : Nat) (st : MultiCoreSettings)
    (v : DspVec T) (hv : v.WF) (cs : List (Cx T)) (ha : v.content = some (fromComplex cs))
    (heven : v.allocLen % 2 = 0) (hal : ComplexAlignmentAccepted addr k.len v.len) (order : List Nat) :
    (∃ x, v.sumComplex k addr st order = some x ∧
      SumOf (sumDepth cs.length (k.len / 2)) x.re (cs.map Cx.re : Multiset T) ∧
      SumOf (sumDepth cs.length (k.len / 2)) x.im (cs.map Cx.im : Multiset T)) ∧
    (∃ x, v.sumSqComplex k addr st order = some x ∧
      SumOf (sumDepth cs.length (k.len / 2)) x.re (cs.map fun z => z.re * z.re - z.im * z.im : Multiset T) ∧
      SumOf (sumDepth cs.length (k.len / 2)) x.im (cs.map fun z => z.re * z.im + z.im * z.re : Multiset T)) := by
  obtain ⟨h1, h2⟩ := hv.cells_eq ha
  have hlen : v.validLen = 2 * cs.length := by rw [← h2]; simp
  have hal' : ComplexAlignmentAccepted addr k.len (2 * cs.length) := by rw [← hlen]; exact hal
  obtain ⟨ss, hs⟩ := exists_fromComplex (l := v.data.cells.drop v.validLen) (by
    have : v.data.cells.length % 2 = 0 := heven
    have := hv.1
    simp only [List.length_drop]; omega)
  unfold DspVec.sumComplex sumSqComplex
  rw [h1, hs, hlen]
  obtain ⟨rc, ed, c1, e1⟩ := sumComplexWith_form k addr st (fun r => r) (fun x => x) (fun r _ => by simp) cs ss order hal'
  obtain ⟨rc', ed', c2, e2⟩ := sumComplexWith_form k addr st (fun r => regMulComplex k r r) (fun x => x * x) (fun r hr => by
    rw [(C45_complex_pairs k).1 r r hr hr, List.zipWith_self]; rfl) cs ss order hal'
  refine ⟨⟨_, e1, ?_, ?_⟩, _, e2, ?_, ?_⟩
  · have := complexForm_sumOf c1 false
    rw [List.map_map, List.length_map] at this
    exact this
  · have := complexForm_sumOf c1 true
    rw [List.map_map, List.length_map] at this
    exact this
  · have := complexForm_sumOf c2 false
    rw [List.map_map, List.length_map] at this
    exact this
  · have := complexForm_sumOf c2 true
    rw [List.map_map, List.length_map] at this
    exact this

theorem dotComplexWith_form (k : RegKind) (addr : Nat) (st : MultiCoreSettings) (acc : List (List T) → List T)
    (a s b : List (Cx T)) (hab : b.length = a.length) (order : List Nat)
    (hal : ComplexAlignmentAccepted addr k.len (2 * a.length)) :
    ∃ rc edges, Covers k rc edges (List.zipWith Cx.mul a b) ∧
      dotComplexWith k addr st acc (fromComplex a ++ fromComplex s) (2 * a.length) (fromComplex b) order =
        some (complexForm acc rc edges) := by
  obtain ⟨l, c, r, ha, hl, hr, hcm, h1, h2⟩ := split_complex addr k.len k.len_pos k.len_even hal.2 a
  obtain ⟨l', c', r', ha', hl', hr', hcm', h1', h2'⟩ :=
    split_complex addr k.len k.len_pos k.len_even hal.2 b
  rw [hab] at hl' hr' h1' h2'
  have e1 := congrArg List.length ha
  have e2 := congrArg List.length ha'
  simp only [List.length_append] at e1 e2
  have q1 : l'.length = l.length := by omega
  have q3 : r'.length = r.length := by omega
  have q2 : c'.length = c.length := by omega
  obtain ⟨g1, g2, g3⟩ := calc_wf addr k.len (2 * a.length) k.len_pos
  obtain ⟨regs, r1, r2, r3⟩ := (C19_registers_partial addr k.len k.len_pos (fromComplex a)
    (fromComplex c) (by rw [length_fromComplex]; exact h1)).2 (by rw [length_fromComplex]; exact hal.1)
  rw [length_fromComplex] at r1
  obtain ⟨h, hh⟩ := Nat.dvd_of_mod_eq_zero k.len_even
  have hPl : (List.zipWith Cx.mul c c').length = c.length := by simp [q2]
  have hdot := dotRegs_eq (addr + (calcDataAlignmentReqs addr k.len (2 * a.length)).left) k.len k.len_pos
    (regMulComplex k) (fromComplex c) (fromComplex c') (by simpa using hcm) (by simp; omega) regs r1
    (fromComplex (List.zipWith Cx.mul c c')) (fun i hi => by
      have f1 := blk_full k.len_pos (fromComplex c) (by simpa using hcm) hi
      have f2 := blk_full k.len_pos (fromComplex c') (k := i) (s := k.len)
        (by simp only [length_fromComplex]; rw [q2]; exact hcm)
        (by simp only [length_fromComplex] at hi ⊢; omega)
      rw [hh, fromComplex_blk] at f1 f2
      simp only [length_fromComplex] at f1 f2
      rw [hh, fromComplex_blk, fromComplex_blk, fromComplex_blk,
        (C45_complex_pairs k).1 _ _ (by rw [hh]; exact f1) (by rw [hh]; exact f2), zipWith_blk])
  have hPm : (fromComplex (List.zipWith Cx.mul c c')).length % k.len = 0 := by
    rw [length_fromComplex, hPl]; exact hcm
  have hlenP : (fromComplex (List.zipWith Cx.mul c c')).length = (fromComplex c).length := by
    simp [q2]
  have hfull : ∀ x ∈ (List.range (ceilDiv (fromComplex c).length k.len)).map
      (blk k.len (fromComplex (List.zipWith Cx.mul c c'))), x.length = k.len := by
    intro x hx
    obtain ⟨i, i1, i2⟩ := List.mem_map.mp hx
    rw [← i2]
    exact blk_full k.len_pos _ hPm (by
      rw [hlenP]; exact (lt_ceilDiv_iff k.len_pos).mp (by simpa using i1))
  have hfl : ((List.range (ceilDiv (fromComplex c).length k.len)).map
      (blk k.len (fromComplex (List.zipWith Cx.mul c c')))).flatten =
      fromComplex (List.zipWith Cx.mul c c') := by
    have := flatten_blocks_all k.len_pos (fromComplex (List.zipWith Cx.mul c c'))
    rw [hlenP] at this; exact this
  obtain ⟨rc, c1, c2, c3⟩ := regs_complex k.len k.len_even _ _ hfull hfl
  have hedge := edges_le addr k.len (2 * a.length) k.len_pos
  obtain ⟨hh1, hh2⟩ := half_len k
  refine ⟨rc, List.zipWith Cx.mul (l ++ r) (l' ++ r'), ⟨c3, ?_, ?_, ?_⟩, ?_⟩
  · exact regs_count hh2 (regs := rc) (c := List.zipWith Cx.mul c c') (a := List.zipWith Cx.mul a b)
      (fun r hr => by have := c3 r hr; omega) c2 (by rw [hPl]; simp; omega)
  · simp only [List.length_zipWith, List.length_append]; omega
  · have he : List.zipWith Cx.mul a b = List.zipWith Cx.mul l l' ++ (List.zipWith Cx.mul c c' ++ List.zipWith Cx.mul r r') := by
      rw [ha, ha', List.zipWith_append (by simp; omega), List.zipWith_append (by omega), List.append_assoc]
    rw [c2, he, List.zipWith_append (by omega), Multiset.coe_add, Multiset.coe_eq_coe]
    exact List.perm_append_comm_assoc _ _ _
  · unfold dotComplexWith
    rw [show 2 * a.length = (fromComplex a).length by simp, slice_append_left]
    simp only [Option.bind_eq_bind, Option.bind_some, length_fromComplex]
    rw [center_append _ _ _ (by simp; omega), h1, h1', ← fromComplex_append, toComplex?_fromComplex,
      toComplex?_fromComplex]
    simp only [Option.bind_some, getZipped_small]
    rw [cedgeIter_append _ _ _ (by omega) (by omega), h2, h2']
    simp only [Option.bind_some]
    have he : ((l ++ r).zip (l' ++ r')).foldl (fun s x => s + x.1 * x.2) (0 : Cx T) =
        (List.zipWith Cx.mul (l ++ r) (l' ++ r')).foldl (fun s x => s + x) 0 := by
      rw [List.zip, ← List.foldl_map (f := fun x : Cx T × Cx T => x.1 * x.2) (g := fun s x => s + x), List.map_zipWith]
      rfl
    unfold complexForm
    by_cases hc : c' = []
    · have hc2 : c = [] := List.eq_nil_of_length_eq_zero (by rw [← q2, hc]; rfl)
      have hrc : rc = [] := by
        cases rc with
        | nil => rfl
        | cons q rc =>
          have h3 := c3 q (by simp)
          rw [hc, List.zipWith_nil_right, List.flatten_cons] at c2
          have := congrArg List.length c2
          simp at this; simp [this.1] at h3; omega
      subst hc hc2 hrc
      simp only [show fromComplex ([] : List (Cx T)) = [] from rfl, if_true, List.mapM_nil,
        Option.pure_def, Option.bind_some, List.foldl_nil, he]
    · have hc' : fromComplex c' ≠ [] := by
        intro h; apply hc; have := congrArg List.length h; simp at this; exact this
      have hrc : rc ≠ [] := by
        intro h
        rw [h] at c2
        have := congrArg List.length c2
        rw [hPl] at this
        exact hc (List.eq_nil_of_length_eq_zero (by rw [q2, ← this]; rfl))
      simp only [if_neg hc', if_neg hrc, List.mapM_cons, List.mapM_nil, Option.bind_eq_bind, id,
        Nat.add_zero, hdot, Option.bind_some, Option.pure_def,
        List.foldl_cons, List.foldl_nil, he, c1]

/-- Both dot products of complex vectors. -/
theorem dotProductComplex_form (prec : Bool) (k : RegKind) (addr : Nat)
    (st : MultiCoreSettings) (v o : DspVec T) (hv : v.WF) (hc : v.isComplex = true)
    (hoc : o.isComplex = true) (hd : v.dom = o.dom)
    (a b : List (Cx T)) (ha : v.content = some (fromComplex a))
    (hb : o.content = some (fromComplex b)) (hlen : b.length = a.length)
    (heven : v.allocLen % 2 = 0)
    (hal : ComplexAlignmentAccepted addr k.len v.len) (order : List Nat) :
    ∃ rc edges, Covers k rc edges (List.zipWith Cx.mul a b) ∧
      v.dotProductComplex prec k addr st o order =
        some (.ok (complexForm (if prec then kahanRegSum k else plainRegSum k) rc edges)) := by
  obtain ⟨h1, h2⟩ := hv.cells_eq ha
  have hlen' : v.validLen = 2 * a.length := by rw [← h2]; simp
  obtain ⟨ss, hs⟩ := exists_fromComplex (l := v.data.cells.drop v.validLen) (by
    have : v.data.cells.length % 2 = 0 := heven
    have h3 := hv.1
    have h4 := hv.2 hc
    simp only [List.length_drop]; omega)
  obtain ⟨rc, ed, e1, e2⟩ := dotComplexWith_form k addr st (if prec then kahanRegSum k else plainRegSum k) a ss b hlen order
    (by rw [← hlen']; exact hal)
  refine ⟨rc, ed, e1, ?_⟩
  unfold dotProductComplex
  rw [if_neg (by simp [hc]), if_neg (by simp [hoc, hd]), hb]
  simp only [Option.bind_eq_bind, Option.bind_some]
  rw [h1, hs, hlen', e2]
  rfl

/-- C73, with nothing but commutativity: `dot_product` of complex vectors. -/
theorem C73_additions_dot_complex (k : RegKind) (addr : Nat)
    (st : MultiCoreSettings) (v o : DspVec T) (hv : v.WF) (hc : v.isComplex = true)
    (hoc : o.isComplex = true) (hd : v.dom = o.dom)
    (a b : List (Cx T)) (ha : v.content = some (fromComplex a))
    (hb : o.content = some (fromComplex b)) (hlen : b.length = a.length)
    (heven : v.allocLen % 2 = 0)
    (hal : ComplexAlignmentAccepted addr k.len v.len) (order : List Nat) :
    ∃ x, v.dotProductComplex false k addr st o order = some (.ok x) ∧
      SumOf (sumDepth a.length (k.len / 2)) x.re (List.zipWith (fun x y => x.re * y.re - x.im * y.im) a b : Multiset T) ∧
      SumOf (sumDepth a.length (k.len / 2)) x.im (List.zipWith (fun x y => x.re * y.im + x.im * y.re) a b : Multiset T) := by
  obtain ⟨rc, ed, e1, e2⟩ := dotProductComplex_form false k addr st v o hv hc hoc hd a b ha hb hlen heven hal order
  have hl : (List.zipWith Cx.mul a b).length = a.length := by simp [hlen]
  refine ⟨_, e2, ?_, ?_⟩
  · have := complexForm_sumOf e1 false
    rw [List.map_zipWith, hl] at this
    exact this
  · have := complexForm_sumOf e1 true
    rw [List.map_zipWith, hl] at this
    exact this

end

/-! ### Rounding errors -/

section
variable {R : Rounding}

noncomputable instance : AddCommMagma (Fl R) :=
  { (inferInstance : Add (Fl R)) with
    add_comm := fun x y => congrArg Fl.mk (congrArg R.rnd (add_comm x.val y.val)) }
noncomputable instance : CommMagma (Fl R) :=
  { (inferInstance : Mul (Fl R)) with
    mul_comm := fun x y => congrArg Fl.mk (congrArg R.rnd (mul_comm x.val y.val)) }

/-- The rounded difference of two approximations. -/
theorem Approx.sub {B z m w n : ℝ} {x y : Fl R} (h : Approx B x.val z m) (h' : Approx B y.val w n) :
    Approx (B * (1 + R.u)) (x - y).val (z - w) (m + n) := (h.minus h').round

/-- The rounded real part of a product. -/
theorem Approx.mul_re (x y : Cx (Fl R)) : Approx ((1 + R.u) ^ 2) (x.re * y.re - x.im * y.im).val
    (x.re.val * y.re.val - x.im.val * y.im.val) (|x.re.val * y.re.val| + |x.im.val * y.im.val|) := by
  rw [pow_two]; exact (Approx.mul _ _).sub (Approx.mul _ _)

/-- The rounded imaginary part of a product. -/
theorem Approx.mul_im (x y : Cx (Fl R)) : Approx ((1 + R.u) ^ 2) (x.re * y.im + x.im * y.re).val
    (x.re.val * y.im.val + x.im.val * y.re.val) (|x.re.val * y.im.val| + |x.im.val * y.re.val|) := by
  rw [pow_two]; exact (Approx.mul _ _).add (Approx.mul _ _)

/-- C73: the rounding errors of `sum` and `sum_sq` of complex vectors. -/
theorem C73_sum_complex_error (k : RegKind) (addr : Nat) (st : MultiCoreSettings)
    (v : DspVec (Fl R)) (hv : v.WF) (cs : List (Cx (Fl R))) (ha : v.content = some (fromComplex cs))
    (heven : v.allocLen % 2 = 0) (hal : ComplexAlignmentAccepted addr k.len v.len) (order : List Nat) :
    (∃ x, v.sumComplex k addr st order = some x ∧
      |x.re.val - exactSum (cs.map Cx.re)| ≤ ((1 + R.u) ^ sumDepth cs.length (k.len / 2) - 1) * absSum (cs.map Cx.re) ∧
      |x.im.val - exactSum (cs.map Cx.im)| ≤ ((1 + R.u) ^ sumDepth cs.length (k.len / 2) - 1) * absSum (cs.map Cx.im)) ∧
    (∃ x, v.sumSqComplex k addr st order = some x ∧
      |x.re.val - (cs.map fun z => z.re.val * z.re.val - z.im.val * z.im.val).sum| ≤
        ((1 + R.u) ^ (sumDepth cs.length (k.len / 2) + 2) - 1) *
          (cs.map fun z => |z.re.val * z.re.val| + |z.im.val * z.im.val|).sum ∧
      |x.im.val - (cs.map fun z => z.re.val * z.im.val + z.im.val * z.re.val).sum| ≤
        ((1 + R.u) ^ (sumDepth cs.length (k.len / 2) + 2) - 1) *
          (cs.map fun z => |z.re.val * z.im.val| + |z.im.val * z.re.val|).sum) := by
  have hone : (1 : ℝ) ≤ (1 + R.u) ^ 2 := one_le_pow₀ (by linarith [R.u_nonneg])
  obtain ⟨⟨x, x1, x2, x3⟩, y, y1, y2, y3⟩ := C73_additions_complex k addr st v hv cs ha heven hal order
  refine ⟨⟨x, x1, C73_rounding x2, C73_rounding x3⟩, y, y1, ?_, ?_⟩
  · have := Approx.leaves cs _ _ _ y2.approx (fun z _ => Approx.mul_re z z) hone
    rw [← pow_add] at this; exact this.1
  · have := Approx.leaves cs _ _ _ y3.approx (fun z _ => Approx.mul_im z z) hone
    rw [← pow_add] at this; exact this.1

theorem zipWith_pairs {A B C : Type} (f : A → B → C) (a : List A) (b : List B) :
    List.zipWith f a b = (a.zip b).map fun p => f p.1 p.2 := by
  rw [List.zip, List.map_zipWith]

/-- C73: the rounding error of `dot_product` of complex vectors. -/
theorem C73_dot_complex_error (k : RegKind) (addr : Nat)
    (st : MultiCoreSettings) (v o : DspVec (Fl R)) (hv : v.WF) (hc : v.isComplex = true)
    (hoc : o.isComplex = true) (hd : v.dom = o.dom)
    (a b : List (Cx (Fl R))) (ha : v.content = some (fromComplex a))
    (hb : o.content = some (fromComplex b)) (hlen : b.length = a.length)
    (heven : v.allocLen % 2 = 0)
    (hal : ComplexAlignmentAccepted addr k.len v.len) (order : List Nat) :
    ∃ x, v.dotProductComplex false k addr st o order = some (.ok x) ∧
      |x.re.val - (List.zipWith (fun x y => x.re.val * y.re.val - x.im.val * y.im.val) a b).sum| ≤
        ((1 + R.u) ^ (sumDepth a.length (k.len / 2) + 2) - 1) *
          (List.zipWith (fun x y => |x.re.val * y.re.val| + |x.im.val * y.im.val|) a b).sum ∧
      |x.im.val - (List.zipWith (fun x y => x.re.val * y.im.val + x.im.val * y.re.val) a b).sum| ≤
        ((1 + R.u) ^ (sumDepth a.length (k.len / 2) + 2) - 1) *
          (List.zipWith (fun x y => |x.re.val * y.im.val| + |x.im.val * y.re.val|) a b).sum := by
  have hone : (1 : ℝ) ≤ (1 + R.u) ^ 2 := one_le_pow₀ (by linarith [R.u_nonneg])
  obtain ⟨x, h1, h2, h3⟩ := C73_additions_dot_complex k addr st v o hv hc hoc hd a b ha hb hlen heven hal order
  refine ⟨x, h1, ?_, ?_⟩
  · rw [zipWith_pairs] at h2
    have := Approx.leaves (a.zip b) _ _ _ h2.approx (fun p _ => Approx.mul_re p.1 p.2) hone
    rw [← pow_add] at this
    rw [zipWith_pairs, zipWith_pairs]; exact this.1
  · rw [zipWith_pairs] at h3
    have := Approx.leaves (a.zip b) _ _ _ h3.approx (fun p _ => Approx.mul_im p.1 p.2) hone
    rw [← pow_add] at this
    rw [zipWith_pairs, zipWith_pairs]; exact this.1

/-- The parts of the compensated form. -/
theorem complexForm_kahan {k : RegKind} {rc : List (List (Cx (Fl R)))} {edges l : List (Cx (Fl R))} (h : Covers k rc edges l)
    (hn : ((l.length / (k.len / 2) : Nat) : ℝ) * R.u ≤ 1 / 100) (b : Bool) :
    Approx ((1 + 8 * R.u) * (1 + R.u) ^ (k.len + 1)) ((complexForm (kahanRegSum k) rc edges).part b).val
      (exactSum (l.map (Cx.part b))) (absSum (l.map (Cx.part b))) := by
  have hu := R.u_nonneg
  obtain ⟨h1, h2⟩ := half_len k
  have hl : ((rc.map fun r => r.map (Cx.part b)).flatten : Multiset (Fl R)) + (edges.map (Cx.part b) : Multiset (Fl R)) =
      (l.map (Cx.part b) : Multiset (Fl R)) := by
    have := congrArg (Multiset.map (Cx.part b)) h.all
    rw [Multiset.map_add, Multiset.map_coe, Multiset.map_coe, Multiset.map_coe, List.map_flatten] at this
    exact this
  have hpow : ∀ {i j : Nat}, i ≤ j → (1 + 8 * R.u) * (1 + R.u) ^ i ≤ (1 + 8 * R.u) * (1 + R.u) ^ j := fun h =>
    mul_le_mul_of_nonneg_left (pow_le_pow_right₀ (by linarith) h) (by linarith)
  have hE : exactSum (rc.map fun r => r.map (Cx.part b)).flatten + exactSum (edges.map (Cx.part b)) = exactSum (l.map (Cx.part b)) := by
    have := congrArg (fun s : Multiset (Fl R) => (s.map Fl.val).sum) hl
    simpa only [exactSum, Multiset.map_add, Multiset.sum_add, Multiset.map_coe, Multiset.sum_coe] using this
  have hA : absSum (rc.map fun r => r.map (Cx.part b)).flatten + absSum (edges.map (Cx.part b)) = absSum (l.map (Cx.part b)) := by
    have := congrArg (fun s : Multiset (Fl R) => (s.map fun x => |x.val|).sum) hl
    simpa only [absSum, Multiset.map_add, Multiset.sum_add, Multiset.map_coe, Multiset.sum_coe] using this
  rw [← hE, ← hA]
  unfold complexForm
  rw [part_add, foldl_part, part_zero, pow_succ, ← mul_assoc]
  refine Approx.add ?_ ?_
  · split
    · rename_i hreg; subst hreg
      have h1 : (1 : ℝ) ≤ (1 + R.u) ^ k.len := one_le_pow₀ (by linarith)
      rw [part_zero]
      simpa [exactSum, absSum] using (Approx.zero (R := R)).mono (C := (1 + 8 * R.u) * (1 + R.u) ^ k.len) (by nlinarith)
    · rw [part_add, part_zero, kahanRegSum_part]
      have hfull : ∀ r ∈ rc.map fun r => r.map (Cx.part b), r.length = k.len / 2 := by
        intro r hr
        obtain ⟨q, q1, rfl⟩ := List.mem_map.1 hr
        have := h.full q q1
        simp only [List.length_map]; omega
      rw [kahan_columns _ _ hfull]
      have h0 := kahan_lanes_approx (k.len / 2) h2 _ hn _ hfull (by simpa using h.count)
      have hz := ((Approx.zero (R := R)).mono (h0.2.2)).add h0
      rw [zero_add, zero_add] at hz
      refine hz.mono ?_
      rw [mul_assoc, ← pow_succ]
      exact hpow (by omega)
  · have := Approx.foldl (R := R) (B := 1) (Cx.part b) (fun x => (x.part b).val) (fun x => |(x.part b).val|) edges 0 0 0 Approx.zero
      (fun x _ => Approx.exact _)
    rw [zero_add, zero_add, one_mul] at this
    unfold exactSum absSum
    rw [List.map_map, List.map_map]
    refine this.mono ?_
    have h3 : (1 + R.u) ^ edges.length ≤ (1 + R.u) ^ k.len := pow_le_pow_right₀ (by linarith) h.few
    have h4 : 0 ≤ (1 + R.u) ^ k.len := by positivity
    nlinarith

/-- C73: the rounding error of `dot_product_prec` of complex vectors does not grow with the number of points. -/
theorem C73_dot_prec_complex_error (k : RegKind) (addr : Nat)
    (st : MultiCoreSettings) (v o : DspVec (Fl R)) (hv : v.WF) (hc : v.isComplex = true)
    (hoc : o.isComplex = true) (hd : v.dom = o.dom)
    (a b : List (Cx (Fl R))) (ha : v.content = some (fromComplex a))
    (hb : o.content = some (fromComplex b)) (hlen : b.length = a.length)
    (heven : v.allocLen % 2 = 0)
    (hal : ComplexAlignmentAccepted addr k.len v.len)
    (hn : ((a.length / (k.len / 2) : Nat) : ℝ) * R.u ≤ 1 / 100) (order : List Nat) :
    ∃ x, v.dotProductComplex true k addr st o order = some (.ok x) ∧
      |x.re.val - (List.zipWith (fun x y => x.re.val * y.re.val - x.im.val * y.im.val) a b).sum| ≤
        ((1 + 8 * R.u) * (1 + R.u) ^ (k.len + 3) - 1) *
          (List.zipWith (fun x y => |x.re.val * y.re.val| + |x.im.val * y.im.val|) a b).sum ∧
      |x.im.val - (List.zipWith (fun x y => x.re.val * y.im.val + x.im.val * y.re.val) a b).sum| ≤
        ((1 + 8 * R.u) * (1 + R.u) ^ (k.len + 3) - 1) *
          (List.zipWith (fun x y => |x.re.val * y.im.val| + |x.im.val * y.re.val|) a b).sum := by
  have hone : (1 : ℝ) ≤ (1 + R.u) ^ 2 := one_le_pow₀ (by linarith [R.u_nonneg])
  obtain ⟨rc, ed, e1, e2⟩ := dotProductComplex_form true k addr st v o hv hc hoc hd a b ha hb hlen heven hal order
  have hl : (List.zipWith Cx.mul a b).length = a.length := by simp [hlen]
  have hk := complexForm_kahan e1 (by rw [hl]; exact hn)
  refine ⟨_, e2, ?_, ?_⟩
  · have h := hk false
    rw [List.map_zipWith, zipWith_pairs] at h
    have := Approx.leaves (a.zip b) _ _ _ h (fun p _ => Approx.mul_re p.1 p.2) hone
    rw [mul_assoc, ← pow_add] at this
    rw [zipWith_pairs, zipWith_pairs]; exact this.1
  · have h := hk true
    rw [List.map_zipWith, zipWith_pairs] at h
    have := Approx.leaves (a.zip b) _ _ _ h (fun p _ => Approx.mul_im p.1 p.2) hone
    rw [mul_assoc, ← pow_add] at this
    rw [zipWith_pairs, zipWith_pairs]; exact this.1

/-- C73: the rounding error of `sum_prec` of complex `f64` vectors. -/
theorem C73_sum_prec_complex_error (st : MultiCoreSettings) (v : DspVec (Fl R)) (cs : List (Cx (Fl R)))
    (ha : v.content = some (fromComplex cs)) (hn : (cs.length : ℝ) * R.u ≤ 1 / 100) (order : List Nat) :
    ∃ x, v.sumPrecComplex st order = some x ∧
      |x.re.val - exactSum (cs.map Cx.re)| ≤ 10 * R.u * absSum (cs.map Cx.re) ∧
      |x.im.val - exactSum (cs.map Cx.im)| ≤ 10 * R.u * absSum (cs.map Cx.im) := by
  have hu := R.u_nonneg
  unfold sumPrecComplex sumPrecComplexWith
  have hs : slice v.data.cells 0 v.validLen = some (fromComplex cs) := ha
  rw [hs]
  simp only [Option.bind_eq_bind, Option.bind_some, chunkedResults_small]
  by_cases hc : cs = []
  · subst hc
    refine ⟨0, rfl, ?_, ?_⟩ <;> simp [exactSum, absSum] <;> rfl
  have hc' : fromComplex cs ≠ [] := by
    intro h; apply hc; have := congrArg List.length h; simp at this; exact this
  refine ⟨0 + kahanSum (· + ·) (· - ·) 0 cs, ?_, ?_⟩
  · rw [if_neg hc']
    simp [toComplex?_fromComplex]
  have hu1 : R.u ≤ 1 / 100 := by
    have : (1 : ℝ) ≤ cs.length := by exact_mod_cast List.length_pos_iff.2 hc
    nlinarith
  have key : ∀ b : Bool, |((0 + kahanSum (· + ·) (· - ·) (0 : Cx (Fl R)) cs).part b).val - exactSum (cs.map (Cx.part b))| ≤
      10 * R.u * absSum (cs.map (Cx.part b)) := by
    intro b
    rw [part_add, part_zero, kahanSum_part]
    have hk := kahan_approx (cs.map (Cx.part b)) (by simpa using hn)
    have hz := ((Approx.zero (R := R)).mono hk.2.2).add hk
    rw [zero_add, zero_add] at hz
    refine hz.1.trans (mul_le_mul_of_nonneg_right ?_ ((abs_nonneg _).trans hz.2.1))
    nlinarith [mul_nonneg hu hu]
  exact ⟨key false, key true⟩

/-- Complex vectors with three points of rounded numbers (53 binary digits) which meet the hypotheses. -/
example :
    let v : DspVec (Fl (binaryRounding 52)) := ⟨⟨.vec, [⟨1⟩, ⟨1/3⟩, ⟨2⟩, ⟨-5⟩, ⟨0⟩, ⟨1/10⟩]⟩, some ⟨1⟩, .time, .complex, 6⟩
    v.WF ∧ v.content = some (fromComplex [⟨⟨1⟩, ⟨1/3⟩⟩, ⟨⟨2⟩, ⟨-5⟩⟩, ⟨⟨0⟩, ⟨1/10⟩⟩]) ∧ v.allocLen % 2 = 0 ∧
      ComplexAlignmentAccepted 2 RegKind.avxF64x4.len v.len ∧
      ((3 : Nat) : ℝ) * (binaryRounding 52).u ≤ 1 / 100 := by
  refine ⟨⟨by decide, by decide⟩, rfl, rfl, ⟨.inl (by decide), by decide⟩, ?_⟩
  norm_num [binaryRounding]

end
end Dsp
