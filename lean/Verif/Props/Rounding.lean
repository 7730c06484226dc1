import Verif.Spec.Rounding
import Verif.Props.Sums
import Mathlib.Tactic.GCongr
import Mathlib.Tactic.NormNum
/-
C73: rounding errors of sums and dot products.
-/
namespace Dsp
open DspVec
variable {T : Type}

/-! ### Additions without laws -/

namespace SumOf
variable [Add T] [Zero T]

theorem mono {d e : Nat} {r : T} {s : Multiset T} (h : SumOf d r s) (hde : d ≤ e) : SumOf e r s := by
  induction h generalizing e with
  | zero => exact .zero _
  | leaf => exact .leaf _ _
  | add h1 h2 ih1 ih2 =>
    obtain ⟨e, rfl⟩ : ∃ e', e = e' + 1 := ⟨e - 1, by omega⟩
    exact .add (ih1 (by omega)) (ih2 (by omega))

/-- Add the elements of a list one after the other. -/
theorem foldl {d : Nat} {r : T} {s : Multiset T} (h : SumOf d r s) : ∀ {l : List T} {S : List (Multiset T)},
    List.Forall₂ (SumOf d) l S → SumOf (d + l.length) (l.foldl (· + ·) r) (s + S.sum)
  | _, _, .nil => by simpa using h
  | x :: l, t :: S, .cons h1 h2 => by
    have := (h.add h1).foldl (l := l) (S := S) (h2.imp fun _ _ h => h.mono (by omega))
    simpa [add_assoc, Nat.add_comm, Nat.add_left_comm] using this

/-- Add numbers one after the other. -/
theorem foldl_leaves {E : Type} {d : Nat} (g : E → T) : ∀ {r : T} {s : Multiset T} (l : List E), SumOf d r s →
    SumOf (d + l.length) (l.foldl (fun a x => a + g x) r) (s + (l.map g : Multiset T))
  | _, _, [], h => by simpa using h
  | r, s, x :: l, h => by
    have := (h.add (.leaf d (g x))).foldl_leaves g l
    rw [show d + (x :: l).length = d + 1 + l.length by simp; omega]
    simpa [add_assoc] using this

end SumOf

variable [Add T] [Zero T]

/-- The lanes of the accumulated registers. -/
theorem plainRegSum_sumOf (n : Nat) : ∀ (regs : List (List T)) (s : List T) (d : Nat) (S : List (Multiset T)),
    s.length = n → List.Forall₂ (SumOf d) s S → (∀ r ∈ regs, r.length = n) →
    ∃ S', List.Forall₂ (SumOf (d + regs.length)) (regs.foldl (regZip (· + ·)) s) S' ∧
      S'.sum = S.sum + (regs.flatten : Multiset T) ∧ (regs.foldl (regZip (· + ·)) s).length = n
  | [], s, d, S, hs, h, _ => ⟨S, by simpa using h, by simp, hs⟩
  | r :: regs, s, d, S, hs, h, hr => by
    have h1 : r.length = n := hr r (by simp)
    have hSl : S.length = n := by rw [← h.length_eq, hs]
    have step : ∀ (s r : List T) (S : List (Multiset T)), s.length = r.length → List.Forall₂ (SumOf d) s S →
        List.Forall₂ (SumOf (d + 1)) (List.zipWith (· + ·) s r) (List.zipWith (· + ·) S (r.map fun x => {x})) := by
      intro s r S hl h
      induction h generalizing r with
      | nil => simp
      | cons h1 h2 ih =>
        cases r with
        | nil => simp at hl
        | cons x r => exact .cons (h1.add (.leaf _ _)) (ih r (by simpa using hl))
    obtain ⟨S', e1, e2, e3⟩ := plainRegSum_sumOf n regs (regZip (· + ·) s r) (d + 1) _ (by simp [regZip, hs, h1])
      (step s r S (by omega) h) (fun r hr' => hr r (by simp [hr']))
    refine ⟨S', ?_, ?_, e3⟩
    · rw [List.foldl_cons, show d + (r :: regs).length = d + 1 + regs.length by simp; omega]; exact e1
    · rw [e2, zipWith_add_sum _ _ (by simp; omega)]
      have : (r.map fun x => ({x} : Multiset T)).sum = (r : Multiset T) := by
        clear * -
        induction r with
        | nil => rfl
        | cons x r ih => rw [List.map_cons, List.sum_cons, ih]; rfl
      rw [this, List.flatten_cons, ← Multiset.coe_add, add_assoc]

/-- The sum of the lanes of a register. -/
theorem regSumReal_sumOf {d : Nat} {r : List T} {S : List (Multiset T)} (h : List.Forall₂ (SumOf d) r S) :
    SumOf (d + r.length) (regSumReal r) S.sum := by
  cases h with
  | nil => exact .zero _
  | cons h1 h2 =>
    have := h1.foldl h2
    simp only [regSumReal, List.sum_cons]
    exact this.mono (by simp)

/-- The registers of a chunk. -/
theorem regs_sumOf (k : RegKind) (regs : List (List T)) (h : ∀ r ∈ regs, r.length = k.len) :
    SumOf (regs.length + k.len) (regSumReal (plainRegSum k regs)) (regs.flatten : Multiset T) := by
  have h0 : ∀ n, List.Forall₂ (SumOf 0) (List.replicate n (0 : T)) (List.replicate n (0 : Multiset T)) := by
    intro n
    induction n with
    | zero => exact .nil
    | succ n ih => rw [List.replicate_succ, List.replicate_succ]; exact .cons (.zero 0) ih
  obtain ⟨S, e1, e2, e3⟩ := plainRegSum_sumOf k.len regs (regSplat k 0) 0 (List.replicate k.len 0) (by simp [regSplat]) (h0 _) h
  have := regSumReal_sumOf e1
  rw [e3, e2] at this
  unfold plainRegSum
  simpa using this

theorem edges_le (addr w n : Nat) (hw : 0 < w) :
    (calcDataAlignmentReqs addr w n).left + (calcDataAlignmentReqs addr w n).right ≤ 2 * w := by
  unfold calcDataAlignmentReqs
  have h1 := Nat.mod_lt addr hw
  simp only
  split
  · simp only; omega
  · have h2 := Nat.mod_lt (n - addr % w) hw
    simp only; omega

omit [Add T] [Zero T] in
theorem regs_count {w : Nat} (hw : 0 < w) {regs : List (List T)} {c a : List T} (h : ∀ r ∈ regs, r.length = w)
    (hf : regs.flatten = c) (hc : c.length ≤ a.length) : regs.length ≤ a.length / w := by
  have := length_flatten_of h
  rw [hf] at this
  rw [Nat.le_div_iff_mul_le hw, Nat.mul_comm]
  omega

theorem sumRealWith_sumOf (k : RegKind) (addr : Nat) (st : MultiCoreSettings)
    (f : List T → List T) (g : T → T) (hf : ∀ r, r.length = k.len → f r = r.map g) (a s : List T)
    (order : List Nat) (hal : AlignmentAccepted addr k.len a.length) :
    ∃ x, sumRealWith k addr st f g (a ++ s) a.length order = some x ∧
      SumOf (sumDepth a.length k.len) x (a.map g : Multiset T) := by
  obtain ⟨l, c, r, ha, hl, hr, hcm, h1, h2, -, -⟩ := split_center addr k.len k.len_pos a
  obtain ⟨g1, g2, g3⟩ := calc_wf addr k.len a.length k.len_pos
  obtain ⟨regs, r1, r2, r3⟩ := (C19_registers_partial addr k.len k.len_pos a c h1).2 hal
  have hedge := edges_le addr k.len a.length k.len_pos
  unfold sumRealWith
  rw [slice_append_left]
  simp only [Option.bind_eq_bind, Option.bind_some]
  rw [center_append _ _ _ (by omega), h1, edgeIter_append _ _ _ (by omega) (by omega), h2]
  simp only [Option.bind_some, chunkedResults_small]
  have hedges : SumOf (2 * k.len) ((l ++ r).foldl (fun s x => s + g x) 0) ((l ++ r).map g : Multiset T) := by
    have := (SumOf.zero (T := T) 0).foldl_leaves g (l ++ r)
    rw [zero_add] at this
    exact this.mono (by simp; omega)
  have hcl : c.length ≤ a.length := by rw [ha]; simp; omega
  have hcnt := regs_count k.len_pos r3 r2 hcl
  have hcenter : SumOf (a.length / k.len + k.len) (regSumReal (plainRegSum k (regs.map f))) (c.map g : Multiset T) := by
    have := regs_sumOf k (regs.map f) (by
      intro r hr
      obtain ⟨q, q1, q2⟩ := List.mem_map.mp hr
      rw [← q2, hf q (r3 q q1)]; simp [r3 q q1])
    rw [show (regs.map f).flatten = c.map g by
      rw [← r2, List.map_flatten]
      congr 1
      exact List.map_congr_left fun r hr => hf r (r3 r hr)] at this
    exact this.mono (by simp; omega)
  have he : (a.map g : Multiset T) = (c.map g : Multiset T) + ((l ++ r).map g : Multiset T) := by
    rw [ha, Multiset.coe_add, Multiset.coe_eq_coe, ← List.map_append]
    refine List.Perm.map g ?_
    rw [List.append_assoc]
    refine (List.perm_append_comm_assoc l c r)
  rw [he]
  unfold sumDepth
  by_cases hc : c = []
  · subst hc
    simp only [if_true, List.mapM_nil, Option.pure_def, Option.bind_some, List.map_nil, List.foldl_nil]
    refine ⟨_, rfl, ?_⟩
    have := (SumOf.zero (T := T) (a.length / k.len + 2 * k.len)).add (hedges.mono (by omega))
    exact this
  · simp only [if_neg hc, List.mapM_cons, List.mapM_nil, Option.bind_eq_bind, id, sumChunk,
      Nat.add_zero, r1, Option.bind_some, Option.pure_def, List.map_cons, List.map_nil,
      List.foldl_cons, List.foldl_nil]
    refine ⟨_, rfl, ?_⟩
    have h0 := (SumOf.zero (T := T) (a.length / k.len + k.len)).add hcenter
    rw [zero_add] at h0
    exact (h0.mono (by have := k.len_pos; omega)).add (hedges.mono (by omega))

/-- C73, without any law for the arithmetic: `sum` and `sum_sq` add exactly the valid numbers (their squares), every one once, and no
    number goes through more than `n / w + 2 w + 1` additions, for every register type (`w` numbers), settings and order. -/
theorem C73_additions [Mul T] (k : RegKind) (addr : Nat) (st : MultiCoreSettings) (v : DspVec T) (hv : v.WF) (a : List T)
    (ha : v.content = some a) (hal : AlignmentAccepted addr k.len v.len) (order : List Nat) :
    (∃ x, v.sum k addr st order = some x ∧ SumOf (sumDepth a.length k.len) x (a : Multiset T)) ∧
    (∃ x, v.sumSq k addr st order = some x ∧ SumOf (sumDepth a.length k.len) x (a.map fun x => x * x : Multiset T)) := by
  obtain ⟨h1, h2⟩ := hv.cells_eq ha
  have hal' : AlignmentAccepted addr k.len a.length := by rw [h2]; exact hal
  unfold DspVec.sum sumSq
  rw [h1, ← h2]
  refine ⟨?_, sumRealWith_sumOf k addr st _ _ (fun r _ => ?_) a _ order hal'⟩
  · have := sumRealWith_sumOf k addr st (fun r => r) (fun x => x) (fun r _ => by simp) a (v.data.cells.drop a.length) order hal'
    simpa using this
  · unfold regZip
    rw [List.zipWith_self]

/-- C73, `sum_prec` of `f32` vectors: the numbers are converted and added in a row. -/
theorem C73_additions_f32 {S : Type} (conv : S → T) (st : MultiCoreSettings) (v : DspVec S) (a : List S)
    (ha : v.content = some a) (order : List Nat) :
    ∃ x, v.sumPrecF32 conv st order = some x ∧ SumOf (a.length + 1) x (a.map conv : Multiset T) := by
  unfold sumPrecF32 sumPrecWith
  have hs : slice v.data.cells 0 v.validLen = some a := ha
  rw [hs]
  simp only [Option.bind_eq_bind, Option.bind_some, chunkedResults_small]
  by_cases hc : a = []
  · subst hc; exact ⟨_, rfl, .zero _⟩
  · refine ⟨_, by rw [if_neg hc], ?_⟩
    have := (SumOf.zero (T := T) 0).foldl_leaves conv a
    rw [show 0 + a.length = a.length by simp, show (0 : Multiset T) + (a.map conv : Multiset T) = (a.map conv : Multiset T) from zero_add _] at this
    have h0 := (SumOf.zero (T := T) a.length).add this
    rw [zero_add] at h0
    exact h0

/-- The additions of `dot_product` and `dot_product_prec` of real numbers: registers of products and products of the edges. -/
theorem dotRealWith_form [Mul T] (k : RegKind) (addr : Nat) (st : MultiCoreSettings) (acc : List (List T) → List T)
    (a s b : List T) (hab : b.length = a.length) (order : List Nat) (hal : AlignmentAccepted addr k.len a.length) :
    ∃ (regs : List (List T)) (edges : List T), (∀ r ∈ regs, r.length = k.len) ∧ regs.length ≤ a.length / k.len ∧
      edges.length ≤ 2 * k.len ∧
      (regs.flatten : Multiset T) + (edges : Multiset T) = (List.zipWith (· * ·) a b : Multiset T) ∧
      dotRealWith k addr st acc (a ++ s) a.length b order =
        some ((if regs = [] then 0 else 0 + regSumReal (acc regs)) + edges.foldl (fun s x => s + x) 0) := by
  obtain ⟨l, c, r, l', c', r', ha, hb, q1, q2, q3, hcm, h1, h1', h2, h2'⟩ :=
    split_same addr k.len k.len_pos a b hab
  obtain ⟨g1, g2, g3⟩ := calc_wf addr k.len a.length k.len_pos
  obtain ⟨regs, r1, r2, r3⟩ := (C19_registers_partial addr k.len k.len_pos a c h1).2 hal
  have hdot := dotRegs_eq (addr + (calcDataAlignmentReqs addr k.len a.length).left) k.len k.len_pos
    (regZip (· * ·)) c c' hcm (by omega) regs r1 (List.zipWith (· * ·) c c')
    (fun i _ => zipWith_blk _ _ _ _ _)
  have hPl : (List.zipWith (· * ·) c c').length = c.length := by simp [q2]
  have hPm : (List.zipWith (· * ·) c c').length % k.len = 0 := by rw [hPl]; exact hcm
  have hfull : ∀ x ∈ (List.range (ceilDiv c.length k.len)).map (blk k.len (List.zipWith (· * ·) c c')),
      x.length = k.len := by
    intro x hx
    obtain ⟨i, i1, i2⟩ := List.mem_map.mp hx
    rw [← i2]
    exact blk_full k.len_pos _ hPm (by
      rw [hPl]; exact (lt_ceilDiv_iff k.len_pos).mp (by simpa using i1))
  have hfl : ((List.range (ceilDiv c.length k.len)).map (blk k.len (List.zipWith (· * ·) c c'))).flatten =
      List.zipWith (· * ·) c c' := by
    have := flatten_blocks_all k.len_pos (List.zipWith (· * ·) c c')
    rw [hPl] at this; exact this
  have hcl : c.length ≤ a.length := by rw [ha]; simp; omega
  have hsl := edges_le addr k.len a.length k.len_pos
  refine ⟨_, List.zipWith (· * ·) (l ++ r) (l' ++ r'), hfull, ?_, ?_, ?_, ?_⟩
  · exact regs_count k.len_pos hfull hfl (by rw [hPl]; exact hcl)
  · obtain ⟨l0, c0, r0, ha0, hl0, hr0, -, e1, e2, -, -⟩ := split_center addr k.len k.len_pos a
    have : l ++ r = l0 ++ r0 := Option.some.inj (h2.symm.trans e2)
    rw [this]
    simp only [List.length_zipWith, List.length_append]
    omega
  · have he : List.zipWith (· * ·) a b = List.zipWith (· * ·) l l' ++ (List.zipWith (· * ·) c c' ++ List.zipWith (· * ·) r r') := by
      rw [ha, hb, zipWith_mul_append (by simp; omega), zipWith_mul_append (by omega), List.append_assoc]
    rw [hfl, he, zipWith_mul_append (by omega), Multiset.coe_add, Multiset.coe_eq_coe]
    exact List.perm_append_comm_assoc _ _ _
  · unfold dotRealWith
    rw [slice_append_left]
    simp only [Option.bind_eq_bind, Option.bind_some]
    rw [center_append _ _ _ (by omega), h1, edgeIter_append _ _ _ (by omega) (by omega), h2, h1', h2']
    simp only [Option.bind_some, getZipped_small]
    have he : ((l ++ r).zip (l' ++ r')).foldl (fun s x => s + x.1 * x.2) 0 =
        (List.zipWith (· * ·) (l ++ r) (l' ++ r')).foldl (fun s x => s + x) 0 := by
      rw [List.zip, ← List.foldl_map (f := fun x : T × T => x.1 * x.2) (g := fun s x => s + x), List.map_zipWith]
    by_cases hc : c' = []
    · have hc2 : c = [] := List.eq_nil_of_length_eq_zero (by rw [← q2, hc]; rfl)
      have hz : ceilDiv 0 k.len = 0 := by unfold ceilDiv; rw [Nat.div_eq_of_lt (by have := k.len_pos; omega)]
      subst hc hc2
      simp [hz, he]
    · have hreg : (List.range (ceilDiv c.length k.len)).map (blk k.len (List.zipWith (· * ·) c c')) ≠ [] := by
        intro h
        rw [h] at hfl
        have := congrArg List.length hfl
        rw [hPl] at this
        exact hc (List.eq_nil_of_length_eq_zero (by rw [q2, ← this]; rfl))
      simp only [if_neg hc, if_neg hreg, List.mapM_cons, List.mapM_nil, Option.bind_eq_bind, id,
        Nat.add_zero, hdot, Option.bind_some, Option.pure_def, List.foldl_cons, List.foldl_nil, he]

/-- C73, without any law: `dot_product` of real vectors adds exactly the products of the numbers at the same position, every one once,
    and no product goes through more than `n / w + 2 w + 1` additions. -/
theorem C73_additions_dot [Sub T] [Mul T] (k : RegKind) (addr : Nat) (st : MultiCoreSettings) (v o : DspVec T) (hv : v.WF)
    (hr : v.isComplex = false) (a b : List T) (ha : v.content = some a) (hb : o.content = some b) (hlen : b.length = a.length)
    (hal : AlignmentAccepted addr k.len v.len) (order : List Nat) :
    ∃ x, v.dotProduct false k addr st o order = some (.ok x) ∧
      SumOf (sumDepth a.length k.len) x (List.zipWith (· * ·) a b : Multiset T) := by
  obtain ⟨h1, h2⟩ := hv.cells_eq ha
  obtain ⟨regs, edges, f1, f2, f3, f4, f5⟩ := dotRealWith_form k addr st (plainRegSum k) a (v.data.cells.drop a.length) b hlen
    order (by rw [h2]; exact hal)
  refine ⟨(if regs = [] then 0 else 0 + regSumReal (plainRegSum k regs)) + edges.foldl (fun s x => s + x) 0, ?_, ?_⟩
  · unfold dotProduct
    rw [if_neg (by simp [hr]), hb]
    simp only [Option.bind_eq_bind, Option.bind_some]
    rw [h1, ← h2]
    simp only [Bool.false_eq_true, if_false]
    rw [f5]; rfl
  · rw [← f4]
    unfold sumDepth
    have he : SumOf (2 * k.len) (edges.foldl (fun s x => s + x) 0) (edges : Multiset T) := by
      have := (SumOf.zero (T := T) 0).foldl_leaves (fun x => x) edges
      rw [show (0 : Multiset T) + (edges.map (fun x => x) : Multiset T) = edges by simp] at this
      exact this.mono (by omega)
    refine SumOf.add ?_ (he.mono (by omega))
    split
    · rename_i hreg; subst hreg; exact .zero _
    · have h0 := (SumOf.zero (T := T) (a.length / k.len + k.len)).add ((regs_sumOf k regs f1).mono (by omega))
      rw [show (0 : Multiset T) + (regs.flatten : Multiset T) = (regs.flatten : Multiset T) from zero_add _] at h0
      exact h0.mono (by have := k.len_pos; omega)

/-- The lanes of a register sum. -/
theorem regZip_range {A B C : Type} (f : A → B → C) (n : Nat) (p : Nat → A) (q : Nat → B) :
    List.zipWith f ((List.range n).map p) ((List.range n).map q) = (List.range n).map fun i => f (p i) (q i) := by
  rw [List.zipWith_map, List.zipWith_self]

omit [Add T] in
theorem reg_range {n : Nat} {r : List T} (h : r.length = n) : r = (List.range n).map fun i => r.getD i 0 := by
  subst h
  apply List.ext_getElem?
  intro i
  by_cases hi : i < r.length
  · simp [hi]
  · simp [hi]

/-- The compensated summation of lists of `n` numbers is the compensated summation of every column. -/
theorem kahan_columns [Sub T] (n : Nat) (regs : List (List T)) (h : ∀ r ∈ regs, r.length = n) :
    kahanSum (regZip (· + ·)) (regZip (· - ·)) (List.replicate n (0 : T)) regs =
      (List.range n).map fun i => kahanSum (· + ·) (· - ·) 0 (regs.map fun r => r.getD i 0) := by
  have key : ∀ (regs : List (List T)) (p q : Nat → T), (∀ r ∈ regs, r.length = n) →
      regs.foldl (kahanStep (regZip (· + ·)) (regZip (· - ·))) ((List.range n).map p, (List.range n).map q) =
      ((List.range n).map fun i => ((regs.map fun r => r.getD i 0).foldl (kahanStep (· + ·) (· - ·)) (p i, q i)).1,
       (List.range n).map fun i => ((regs.map fun r => r.getD i 0).foldl (kahanStep (· + ·) (· - ·)) (p i, q i)).2) := by
    intro regs
    induction regs with
    | nil => intro p q _; rfl
    | cons r regs ih =>
      intro p q hr
      have h1 : r.length = n := hr r (by simp)
      rw [List.foldl_cons]
      have : kahanStep (regZip (· + ·)) (regZip (· - ·)) ((List.range n).map p, (List.range n).map q) r =
          ((List.range n).map fun i => (kahanStep (· + ·) (· - ·) (p i, q i) (r.getD i 0)).1,
           (List.range n).map fun i => (kahanStep (· + ·) (· - ·) (p i, q i) (r.getD i 0)).2) := by
        unfold kahanStep regZip
        conv_lhs => rw [reg_range h1]
        simp only [regZip_range]
      rw [this, ih _ _ (fun r hr' => hr r (by simp [hr']))]
      rfl
  unfold kahanSum
  rw [show List.replicate n (0 : T) = (List.range n).map fun _ => 0 by simp, key regs _ _ h]

/-- The compensated summation of registers is the compensated summation of every lane. -/
theorem kahanRegSum_lanes [Sub T] (k : RegKind) (regs : List (List T)) (h : ∀ r ∈ regs, r.length = k.len) :
    kahanRegSum k regs = (List.range k.len).map fun i => kahanSum (· + ·) (· - ·) 0 (regs.map fun r => r.getD i 0) :=
  kahan_columns k.len regs h

omit [Add T] in
theorem lanes_multiset (n : Nat) : ∀ (regs : List (List T)), (∀ r ∈ regs, r.length = n) →
    ((List.range n).map fun i => ((regs.map fun r => r.getD i 0 : List T) : Multiset T)).sum = (regs.flatten : Multiset T)
  | [], _ => by simp
  | r :: regs, h => by
    have ih := lanes_multiset n regs (fun r hr' => h r (by simp [hr']))
    have h1 : r.length = n := h r (by simp)
    have e : ∀ i, (((r :: regs).map fun r => r.getD i 0 : List T) : Multiset T) =
        {r.getD i 0} + ((regs.map fun r => r.getD i 0 : List T) : Multiset T) := fun i => rfl
    simp only [e]
    rw [List.sum_map_add, ih, List.flatten_cons, ← Multiset.coe_add]
    congr 1
    conv_rhs => rw [reg_range h1]
    generalize List.range n = l
    induction l with
    | nil => rfl
    | cons x l ih => rw [List.map_cons, List.sum_cons, ih]; rfl

/-! ### Rounding errors -/

section
variable {R : Rounding}

theorem Rounding.u_nonneg (R : Rounding) : 0 ≤ R.u := by
  have := (abs_nonneg _).trans (R.error 1)
  simpa using this

/-- C73: the error of any way to add numbers, if no number goes through more than `d` additions. -/
theorem C73_rounding {d : Nat} {r : Fl R} {l : List (Fl R)} (h : SumOf d r (l : Multiset (Fl R))) :
    |r.val - exactSum l| ≤ ((1 + R.u) ^ d - 1) * absSum l := by
  have hu := R.u_nonneg
  have key : ∀ {d : Nat} {r : Fl R} {s : Multiset (Fl R)}, SumOf d r s →
      |r.val - (s.map Fl.val).sum| ≤ ((1 + R.u) ^ d - 1) * (s.map fun x => |x.val|).sum ∧
      |(s.map Fl.val).sum| ≤ (s.map fun x => |x.val|).sum := by
    intro d r s h
    have hp : ∀ d : Nat, (1 : ℝ) ≤ (1 + R.u) ^ d := fun d => one_le_pow₀ (by linarith)
    induction h with
    | zero d => simp; rfl
    | leaf d x =>
      have := hp d
      simp only [Multiset.map_singleton, Multiset.sum_singleton, sub_self, abs_zero, le_refl, and_true]
      exact mul_nonneg (by linarith) (abs_nonneg _)
    | @add d a b s t h1 h2 ih1 ih2 =>
      obtain ⟨i1, i2⟩ := ih1
      obtain ⟨j1, j2⟩ := ih2
      simp only [Multiset.map_add, Multiset.sum_add]
      generalize (Multiset.map Fl.val s).sum = X at *
      generalize (Multiset.map Fl.val t).sum = Y at *
      generalize (Multiset.map (fun x => |x.val|) s).sum = M at *
      generalize (Multiset.map (fun x => |x.val|) t).sum = N at *
      refine ⟨?_, (abs_add_le _ _).trans (by linarith)⟩
      have e := R.error (a.val + b.val)
      have hab : |a.val + b.val| ≤ (1 + R.u) ^ d * (M + N) := by
        have k1 : |a.val| ≤ |a.val - X| + |X| := by
          have := abs_add_le (a.val - X) X; simpa using this
        have k2 : |b.val| ≤ |b.val - Y| + |Y| := by
          have := abs_add_le (b.val - Y) Y; simpa using this
        have := abs_add_le a.val b.val
        linarith
      have ht : |(a + b).val - (X + Y)| ≤ |(a + b).val - (a.val + b.val)| + (|a.val - X| + |b.val - Y|) := by
        have := abs_add_le ((a + b).val - (a.val + b.val)) ((a.val - X) + (b.val - Y))
        have h2 := abs_add_le (a.val - X) (b.val - Y)
        have e : (a + b).val - (X + Y) = ((a + b).val - (a.val + b.val)) + ((a.val - X) + (b.val - Y)) := by ring
        rw [e]; linarith
      have he : |(a + b).val - (a.val + b.val)| ≤ R.u * ((1 + R.u) ^ d * (M + N)) :=
        e.trans (mul_le_mul_of_nonneg_left hab hu)
      rw [pow_succ]
      nlinarith
  simpa [exactSum, absSum] using (key h).1

/-- C73: the rounding error of `sum` grows with `n / w`, not with `n`. -/
theorem C73_sum_error (k : RegKind) (addr : Nat) (st : MultiCoreSettings) (v : DspVec (Fl R)) (hv : v.WF) (a : List (Fl R))
    (ha : v.content = some a) (hal : AlignmentAccepted addr k.len v.len) (order : List Nat) :
    ∃ x, v.sum k addr st order = some x ∧ |x.val - exactSum a| ≤ ((1 + R.u) ^ sumDepth a.length k.len - 1) * absSum a := by
  obtain ⟨x, h1, h2⟩ := (C73_additions k addr st v hv a ha hal order).1
  exact ⟨x, h1, C73_rounding h2⟩

/-- One step of the compensated summation. -/
theorem kahan_step_error (A P X : ℝ) (i : Nat) (s c x : Fl R) (hA : P + |x.val| ≤ A) (hX : |X| ≤ P) (hu : R.u ≤ 1 / 100)
    (hi : (i : ℝ) * R.u ≤ 1 / 100) (h1 : |s.val - c.val - X| ≤ 2 * R.u * P + 20 * i * (R.u * (R.u * A)))
    (h2 : |c.val| ≤ 5 * (R.u * A)) :
    let r := kahanStep (· + ·) (· - ·) (s, c) x
    |r.1.val - r.2.val - (X + x.val)| ≤ 2 * R.u * (P + |x.val|) + 20 * ((i + 1 : Nat) : ℝ) * (R.u * (R.u * A)) ∧
      |r.2.val| ≤ 5 * (R.u * A) := by
  intro r
  have hu0 := R.u_nonneg
  obtain ⟨y, hy⟩ : ∃ y, R.rnd (x.val - c.val) = y := ⟨_, rfl⟩
  obtain ⟨t, ht⟩ : ∃ t, R.rnd (s.val + y) = t := ⟨_, rfl⟩
  obtain ⟨d, hd⟩ : ∃ d, R.rnd (t - s.val) = d := ⟨_, rfl⟩
  obtain ⟨e, he⟩ : ∃ e, R.rnd (d - y) = e := ⟨_, rfl⟩
  have r1 : r.1.val = t := by rw [← ht, ← hy]; rfl
  have r2 : r.2.val = e := by rw [← he, ← hd, ← ht, ← hy]; rfl
  rw [r1, r2]
  have ey := R.error (x.val - c.val)
  have et := R.error (s.val + y)
  have ed := R.error (t - s.val)
  have ee := R.error (d - y)
  rw [hy] at ey
  rw [ht] at et
  rw [hd] at ed
  rw [he] at ee
  clear r1 r2 hy ht hd he r
  generalize s.val = s at *
  generalize c.val = c at *
  generalize x.val = x at *
  generalize R.u = u at *
  obtain ⟨q, hq⟩ : ∃ q, u * A = q := ⟨_, rfl⟩
  rw [hq] at h1 h2 ⊢
  have hP0 : 0 ≤ P := (abs_nonneg _).trans hX
  have hx0 := abs_nonneg x
  have hA0 : 0 ≤ A := by linarith
  have hq0 : 0 ≤ q := by rw [← hq]; exact mul_nonneg hu0 hA0
  have hqA : q ≤ A / 100 := by rw [← hq]; nlinarith
  have huq0 : 0 ≤ u * q := mul_nonneg hu0 hq0
  have huq : u * q ≤ q / 100 := by nlinarith
  have hux : u * |x| ≤ q := by rw [← hq]; exact mul_le_mul_of_nonneg_left (by linarith) hu0
  have huP : u * P ≤ q := by rw [← hq]; exact mul_le_mul_of_nonneg_left (by linarith) hu0
  have hiq : (i : ℝ) * (u * q) ≤ q / 100 := by
    have : (i : ℝ) * u * q ≤ 1 / 100 * q := mul_le_mul_of_nonneg_right hi hq0
    linarith
  -- the sum so far
  have hs : |s| ≤ 108 / 100 * A := by
    have e1 : s = (s - c - X) + (c + X) := by ring
    have e2 := abs_add_le (s - c - X) (c + X)
    have e3 := abs_add_le c X
    rw [← e1] at e2
    nlinarith
  have hxc : |x - c| ≤ |x| + 5 * q := by
    have := abs_sub x c; linarith
  have hyb : |y| ≤ |x - c| + u * |x - c| := by
    have e2 := abs_add_le (y - (x - c)) (x - c)
    rw [show y - (x - c) + (x - c) = y by ring] at e2
    linarith
  have huxc : u * |x - c| ≤ u * |x| + 5 * (u * q) := by
    have := mul_le_mul_of_nonneg_left hxc hu0; linarith
  have hyA : |y| ≤ 108 / 100 * A := by linarith
  have hE : |s + y| ≤ 22 / 10 * A := by
    have := abs_add_le s y; linarith
  have huE : u * |s + y| ≤ 22 / 10 * q := by
    have := mul_le_mul_of_nonneg_left hE hu0
    rw [← hq]; linarith
  have hts : |t - s| ≤ |y| + 22 / 10 * q := by
    have e2 := abs_add_le (t - (s + y)) y
    rw [show t - (s + y) + y = t - s by ring] at e2
    linarith
  have hutsA : u * |t - s| ≤ 12 / 10 * q := by
    have h3 : |t - s| ≤ 12 / 10 * A := by linarith
    have := mul_le_mul_of_nonneg_left h3 hu0
    rw [← hq]; linarith
  have hdy : |d - y| ≤ 34 / 10 * q := by
    have e2 := abs_add_le (d - (t - s)) (t - (s + y))
    rw [show d - (t - s) + (t - (s + y)) = d - y by ring] at e2
    linarith
  have hudy : u * |d - y| ≤ 34 / 10 * (u * q) := by
    have := mul_le_mul_of_nonneg_left hdy hu0; linarith
  constructor
  · have huts : u * |t - s| ≤ u * |x| + 9 * (u * q) := by
      have h3 : |t - s| ≤ |x| + 5 * q + u * |x - c| + 22 / 10 * q := by linarith
      have h4 := mul_le_mul_of_nonneg_left h3 hu0
      have h5 : u * (u * |x - c|) ≤ 11 / 10 * (u * q) := by
        have : u * |x - c| ≤ 11 / 10 * q := by linarith
        have := mul_le_mul_of_nonneg_left this hu0; linarith
      linarith
    have e1 : t - e - (X + x) = (s - c - X) + ((t - s - d) + ((d - y - e) + (y - (x - c)))) := by ring
    have e2 := abs_add_le (s - c - X) ((t - s - d) + ((d - y - e) + (y - (x - c))))
    have e3 := abs_add_le (t - s - d) ((d - y - e) + (y - (x - c)))
    have e4 := abs_add_le (d - y - e) (y - (x - c))
    rw [abs_sub_comm (t - s) d] at e3
    rw [abs_sub_comm (d - y) e] at e4
    rw [e1]
    push_cast
    linarith
  · have e2 := abs_add_le (e - (d - y)) (d - y)
    rw [show e - (d - y) + (d - y) = e by ring] at e2
    linarith

/-- C73: compensated summation of `n` numbers with `n u` at most one percent: the error is at most `8 u` times the sum of the absolute
    values, however many numbers there are. -/
theorem C73_kahan (l : List (Fl R)) (hn : (l.length : ℝ) * R.u ≤ 1 / 100) :
    |(kahanSum (· + ·) (· - ·) 0 l).val - exactSum l| ≤ 8 * R.u * absSum l := by
  have hu0 := R.u_nonneg
  by_cases hl : l = []
  · subst hl
    simp [kahanSum, exactSum, absSum]; rfl
  have hu : R.u ≤ 1 / 100 := by
    have : (1 : ℝ) ≤ l.length := by exact_mod_cast List.length_pos_iff.2 hl
    nlinarith
  obtain ⟨A, hA⟩ : ∃ A, absSum l = A := ⟨_, rfl⟩
  have key : ∀ (l : List (Fl R)) (i : Nat) (s c : Fl R) (P X : ℝ), P + absSum l ≤ A → |X| ≤ P → ((i + l.length : Nat) : ℝ) * R.u ≤ 1 / 100 →
      |s.val - c.val - X| ≤ 2 * R.u * P + 20 * i * (R.u * (R.u * A)) → |c.val| ≤ 5 * (R.u * A) →
      let r := l.foldl (kahanStep (· + ·) (· - ·)) (s, c)
      |r.1.val - r.2.val - (X + exactSum l)| ≤ 2 * R.u * (P + absSum l) + 20 * ((i + l.length : Nat) : ℝ) * (R.u * (R.u * A)) ∧
        |r.2.val| ≤ 5 * (R.u * A) := by
    intro l
    induction l with
    | nil => intro i s c P X _ _ _ h1 h2; simpa [exactSum, absSum] using ⟨h1, h2⟩
    | cons x l ih =>
      intro i s c P X hP hX hi h1 h2
      have e1 : exactSum (x :: l) = x.val + exactSum l := by simp [exactSum]
      have e2 : absSum (x :: l) = |x.val| + absSum l := by simp [absSum]
      have hnn : 0 ≤ absSum l := by
        unfold absSum
        refine List.sum_nonneg fun y hy => ?_
        obtain ⟨z, -, rfl⟩ := List.mem_map.1 hy
        exact abs_nonneg _
      have hii : (i : ℝ) * R.u ≤ 1 / 100 := by
        have : (i : ℝ) ≤ ((i + (x :: l).length : Nat) : ℝ) := by exact_mod_cast Nat.le_add_right _ _
        nlinarith
      obtain ⟨k1, k2⟩ := kahan_step_error A P X i s c x (by rw [e2] at hP; linarith) hX hu hii h1 h2
      have := ih (i + 1) _ _ (P + |x.val|) (X + x.val) (by rw [e2] at hP; linarith)
        ((abs_add_le _ _).trans (by linarith)) (by rw [show i + 1 + l.length = i + (x :: l).length by simp; omega]; exact hi) k1 k2
      rw [show i + 1 + l.length = i + (x :: l).length by simp; omega] at this
      rw [e1, e2, ← add_assoc, ← add_assoc]
      exact this
  obtain ⟨k1, k2⟩ := key l 0 0 0 0 0 (by linarith) (by simp) (by simpa using hn)
    (by simp [show (0 : Fl R).val = 0 from rfl])
    (by
      have : 0 ≤ absSum l := by
        unfold absSum
        refine List.sum_nonneg fun y hy => ?_
        obtain ⟨z, -, rfl⟩ := List.mem_map.1 hy
        exact abs_nonneg _
      rw [show (0 : Fl R).val = 0 from rfl, abs_zero, ← hA]
      positivity)
  unfold kahanSum
  generalize l.foldl (kahanStep (· + ·) (· - ·)) (0, 0) = r at *
  rw [hA] at k1 ⊢
  simp only [zero_add] at k1 k2
  have hA0 : 0 ≤ R.u * A := by linarith [abs_nonneg r.2.val]
  have hlast : (l.length : ℝ) * (R.u * (R.u * A)) ≤ 1 / 100 * (R.u * A) := by
    have := mul_le_mul_of_nonneg_right hn hA0
    linarith
  have e := abs_add_le (r.1.val - r.2.val - exactSum l) r.2.val
  rw [show r.1.val - r.2.val - exactSum l + r.2.val = r.1.val - exactSum l by ring] at e
  linarith

/-- C73: the rounding error of `sum_prec` (`f64`) does not grow with the number of points. -/
theorem C73_sum_prec_error (st : MultiCoreSettings) (v : DspVec (Fl R)) (a : List (Fl R)) (ha : v.content = some a)
    (hn : (a.length : ℝ) * R.u ≤ 1 / 100) (order : List Nat) :
    ∃ x, v.sumPrec st order = some x ∧ |x.val - exactSum a| ≤ 10 * R.u * absSum a := by
  unfold sumPrec sumPrecWith
  have hs : slice v.data.cells 0 v.validLen = some a := ha
  rw [hs]
  simp only [Option.bind_eq_bind, Option.bind_some, chunkedResults_small]
  by_cases hc : a = []
  · subst hc; exact ⟨_, rfl, by simp [exactSum, absSum]; rfl⟩
  refine ⟨_, by rw [if_neg hc], ?_⟩
  have hk := C73_kahan a hn
  have hu0 := R.u_nonneg
  have hu : R.u ≤ 1 / 100 := by
    have : (1 : ℝ) ≤ a.length := by exact_mod_cast List.length_pos_iff.2 hc
    nlinarith
  have hab : |exactSum a| ≤ absSum a := by
    clear * -
    unfold exactSum absSum
    induction a with
    | nil => simp
    | cons x a ih =>
      simp only [List.map_cons, List.sum_cons]
      exact (abs_add_le _ _).trans (by linarith)
  have hA0 := (abs_nonneg _).trans hab
  simp only [List.foldl_cons, List.foldl_nil]
  generalize kahanSum (· + ·) (· - ·) 0 a = K at *
  have e : |(0 + K).val - K.val| ≤ R.u * |K.val| := by
    have := R.error (0 + K.val)
    rw [zero_add] at this
    show |R.rnd (0 + K.val) - K.val| ≤ _
    rw [zero_add]; exact this
  have hK : |K.val| ≤ 2 * absSum a := by
    have e2 := abs_add_le (K.val - exactSum a) (exactSum a)
    rw [sub_add_cancel] at e2
    nlinarith
  have e3 := abs_add_le ((0 + K).val - K.val) (K.val - exactSum a)
  rw [sub_add_sub_cancel] at e3
  nlinarith

/-! ### Products and several stages -/

/-- `r` approximates `z`: the error is at most `B - 1` times `m`, where `m` bounds `z`. -/
def Approx (B : ℝ) (r z m : ℝ) : Prop := |r - z| ≤ (B - 1) * m ∧ |z| ≤ m ∧ 1 ≤ B

theorem Approx.mono {B C r z m : ℝ} (h : Approx B r z m) (hBC : B ≤ C) : Approx C r z m :=
  ⟨h.1.trans (mul_le_mul_of_nonneg_right (by linarith) ((abs_nonneg _).trans h.2.1)), h.2.1, h.2.2.trans hBC⟩

theorem Approx.zero : Approx 1 (0 : Fl R).val 0 0 := by
  refine ⟨?_, by simp, le_refl _⟩
  simp [show (0 : Fl R).val = 0 from rfl]

/-- Rounding. -/
theorem Approx.round {B x z m : ℝ} (h : Approx B x z m) : Approx (B * (1 + R.u)) (R.rnd x) z m := by
  obtain ⟨h1, h2, h3⟩ := h
  have hu := R.u_nonneg
  have hm := (abs_nonneg _).trans h2
  refine ⟨?_, h2, by nlinarith⟩
  have e := R.error x
  have k1 : |x| ≤ B * m := by
    have := abs_add_le (x - z) z
    rw [sub_add_cancel] at this; linarith
  have k2 := abs_add_le (R.rnd x - x) (x - z)
  rw [sub_add_sub_cancel] at k2
  have k3 := mul_le_mul_of_nonneg_left k1 hu
  nlinarith

theorem Approx.exact (x : ℝ) : Approx 1 x x |x| := ⟨by simp, le_refl _, le_refl _⟩

theorem Approx.plus {B x z m y w n : ℝ} (h : Approx B x z m) (h' : Approx B y w n) : Approx B (x + y) (z + w) (m + n) := by
  refine ⟨?_, (abs_add_le _ _).trans (by linarith [h.2.1, h'.2.1]), h.2.2⟩
  have := abs_add_le (x - z) (y - w)
  rw [show x + y - (z + w) = x - z + (y - w) by ring]
  linarith [h.1, h'.1]

theorem Approx.minus {B x z m y w n : ℝ} (h : Approx B x z m) (h' : Approx B y w n) : Approx B (x - y) (z - w) (m + n) := by
  have : Approx B (-y) (-w) n := by
    refine ⟨?_, by rw [abs_neg]; exact h'.2.1, h'.2.2⟩
    rw [show -y - -w = -(y - w) by ring, abs_neg]; exact h'.1
  simpa [sub_eq_add_neg] using h.plus this

/-- The rounded sum of two approximations. -/
theorem Approx.add {B z m w n : ℝ} {x y : Fl R} (h : Approx B x.val z m) (h' : Approx B y.val w n) :
    Approx (B * (1 + R.u)) (x + y).val (z + w) (m + n) := (h.plus h').round

/-- The rounded product of two numbers. -/
theorem Approx.mul (x y : Fl R) : Approx (1 + R.u) (x * y).val (x.val * y.val) |x.val * y.val| := by
  have := (Approx.exact (x.val * y.val)).round (R := R)
  rwa [one_mul] at this

/-- Approximations added one after the other. -/
theorem Approx.foldl {B : ℝ} {E : Type} (f : E → Fl R) (z m : E → ℝ) : ∀ (l : List E) (r : Fl R) (zr mr : ℝ), Approx B r.val zr mr →
    (∀ x ∈ l, Approx B (f x).val (z x) (m x)) →
    Approx (B * (1 + R.u) ^ l.length) (l.foldl (fun s x => s + f x) r).val (zr + (l.map z).sum) (mr + (l.map m).sum)
  | [], r, zr, mr, h, _ => by simpa using h
  | x :: l, r, zr, mr, h, hl => by
    have hu := R.u_nonneg
    have := Approx.foldl f z m l _ _ _ (h.add (hl x (by simp))) (fun y hy => (hl y (by simp [hy])).mono (by
      have := h.2.2; nlinarith))
    simpa [add_assoc, pow_succ, mul_assoc, mul_comm, mul_left_comm] using this

/-- Numbers which are approximations themselves. -/
theorem Approx.leaves {B C r : ℝ} {E : Type} (l : List E) (y : E → Fl R) (z m : E → ℝ)
    (hr : Approx C r (exactSum (l.map y)) (absSum (l.map y))) (hl : ∀ x ∈ l, Approx B (y x).val (z x) (m x)) (hB : 1 ≤ B) :
    Approx (C * B) r (l.map z).sum (l.map m).sum := by
  have k : |exactSum (l.map y) - (l.map z).sum| ≤ (B - 1) * (l.map m).sum ∧ absSum (l.map y) ≤ B * (l.map m).sum ∧
      |(l.map z).sum| ≤ (l.map m).sum := by
    clear hr
    unfold exactSum absSum
    induction l with
    | nil => simp
    | cons x l ih =>
      obtain ⟨i1, i2, i3⟩ := ih (fun x hx => hl x (by simp [hx]))
      obtain ⟨j1, j2, -⟩ := hl x (by simp)
      simp only [List.map_cons, List.sum_cons]
      refine ⟨?_, ?_, (abs_add_le _ _).trans (by linarith)⟩
      · have := abs_add_le ((y x).val - z x) (((l.map y).map Fl.val).sum - (l.map z).sum)
        rw [show (y x).val - z x + (((l.map y).map Fl.val).sum - (l.map z).sum) =
          (y x).val + ((l.map y).map Fl.val).sum - (z x + (l.map z).sum) by ring] at this
        linarith
      · have := abs_add_le ((y x).val - z x) (z x)
        rw [sub_add_cancel] at this
        linarith
  obtain ⟨k1, k2, k3⟩ := k
  obtain ⟨h1, h2, h3⟩ := hr
  have hm := (abs_nonneg _).trans k3
  refine ⟨?_, k3, by nlinarith⟩
  have := abs_add_le (r - exactSum (l.map y)) (exactSum (l.map y) - (l.map z).sum)
  rw [sub_add_sub_cancel] at this
  have := mul_le_mul_of_nonneg_left k2 (sub_nonneg.2 h3)
  nlinarith

theorem exactSum_le (l : List (Fl R)) : |exactSum l| ≤ absSum l := by
  unfold exactSum absSum
  induction l with
  | nil => simp
  | cons x a ih =>
    simp only [List.map_cons, List.sum_cons]
    exact (abs_add_le _ _).trans (by linarith)

/-- Additions. -/
theorem SumOf.approx {d : Nat} {r : Fl R} {l : List (Fl R)} (h : SumOf d r (l : Multiset (Fl R))) :
    Approx ((1 + R.u) ^ d) r.val (exactSum l) (absSum l) :=
  ⟨C73_rounding h, exactSum_le l, one_le_pow₀ (by linarith [R.u_nonneg])⟩

/-- C73: the rounding error of `sum_sq`. -/
theorem C73_sum_sq_error (k : RegKind) (addr : Nat) (st : MultiCoreSettings) (v : DspVec (Fl R)) (hv : v.WF) (a : List (Fl R))
    (ha : v.content = some a) (hal : AlignmentAccepted addr k.len v.len) (order : List Nat) :
    ∃ x, v.sumSq k addr st order = some x ∧
      |x.val - (a.map fun x => x.val * x.val).sum| ≤
        ((1 + R.u) ^ (sumDepth a.length k.len + 1) - 1) * (a.map fun x => x.val * x.val).sum := by
  obtain ⟨x, h1, h2⟩ := (C73_additions k addr st v hv a ha hal order).2
  refine ⟨x, h1, ?_⟩
  have hm : (a.map fun x : Fl R => |x.val * x.val|) = a.map fun x => x.val * x.val :=
    List.map_congr_left fun x _ => abs_mul_self _
  have := Approx.leaves a (fun x => x * x) (fun x => x.val * x.val) (fun x => |x.val * x.val|) h2.approx
    (fun x _ => Approx.mul x x) (by linarith [R.u_nonneg])
  rw [hm, ← pow_succ] at this
  exact this.1

/-- C73: the rounding error of `dot_product` of real vectors. -/
theorem C73_dot_error (k : RegKind) (addr : Nat) (st : MultiCoreSettings) (v o : DspVec (Fl R)) (hv : v.WF) (hr : v.isComplex = false)
    (a b : List (Fl R)) (ha : v.content = some a) (hb : o.content = some b) (hlen : b.length = a.length)
    (hal : AlignmentAccepted addr k.len v.len) (order : List Nat) :
    ∃ x, v.dotProduct false k addr st o order = some (.ok x) ∧
      |x.val - (List.zipWith (fun x y => x.val * y.val) a b).sum| ≤
        ((1 + R.u) ^ (sumDepth a.length k.len + 1) - 1) * (List.zipWith (fun x y => |x.val * y.val|) a b).sum := by
  obtain ⟨x, h1, h2⟩ := C73_additions_dot k addr st v o hv hr a b ha hb hlen hal order
  refine ⟨x, h1, ?_⟩
  have e : ∀ {X : Type} (f : Fl R → Fl R → X), List.zipWith f a b = (a.zip b).map fun p => f p.1 p.2 := by
    intro X f; rw [List.zip, List.map_zipWith]
  rw [e (· * ·)] at h2
  have := Approx.leaves (a.zip b) (fun p => p.1 * p.2) (fun p => p.1.val * p.2.val) (fun p => |p.1.val * p.2.val|) h2.approx
    (fun p _ => Approx.mul p.1 p.2) (by linarith [R.u_nonneg])
  rw [← pow_succ] at this
  rw [e, e]
  exact this.1

theorem kahan_approx (l : List (Fl R)) (hn : (l.length : ℝ) * R.u ≤ 1 / 100) :
    Approx (1 + 8 * R.u) (kahanSum (· + ·) (· - ·) 0 l).val (exactSum l) (absSum l) := by
  refine ⟨?_, exactSum_le l, by linarith [R.u_nonneg]⟩
  have := C73_kahan l hn
  rwa [add_sub_cancel_left]

/-- Compensated summation in `n` lanes, then the sum of the lanes. -/
theorem kahan_lanes_approx (n : Nat) (hpos : 0 < n) (m : Nat) (hn : (m : ℝ) * R.u ≤ 1 / 100) (regs : List (List (Fl R)))
    (f1 : ∀ r ∈ regs, r.length = n) (f2 : regs.length ≤ m) :
    Approx ((1 + 8 * R.u) * (1 + R.u) ^ (n - 1))
      (regSumReal ((List.range n).map fun i => kahanSum (· + ·) (· - ·) (0 : Fl R) (regs.map fun r : List (Fl R) => r.getD i 0))).val
      (exactSum regs.flatten) (absSum regs.flatten) := by
  have hu := R.u_nonneg
  have hlanes : ∀ i ∈ List.range n, Approx (1 + 8 * R.u)
      (kahanSum (· + ·) (· - ·) (0 : Fl R) (regs.map fun r : List (Fl R) => r.getD i 0)).val
      (exactSum (regs.map fun r => r.getD i 0)) (absSum (regs.map fun r => r.getD i 0)) := by
    intro i _
    refine kahan_approx _ (le_trans ?_ hn)
    refine mul_le_mul_of_nonneg_right ?_ hu
    rw [List.length_map]
    exact_mod_cast f2
  obtain ⟨w, hw⟩ : ∃ w, n = w + 1 := ⟨n - 1, by omega⟩
  have hsumE : ((List.range n).map fun i => exactSum (regs.map fun r => r.getD i 0)).sum = exactSum regs.flatten := by
    have := congrArg (fun s : Multiset (Fl R) => (s.map Fl.val).sum) (lanes_multiset n regs f1)
    simp only [Multiset.map_coe, Multiset.sum_coe] at this
    unfold exactSum
    rw [← this]
    generalize List.range n = l
    induction l with
    | nil => simp
    | cons x l ih => rw [List.map_cons, List.sum_cons, ih]; simp
  have hsumA : ((List.range n).map fun i => absSum (regs.map fun r => r.getD i 0)).sum = absSum regs.flatten := by
    have := congrArg (fun s : Multiset (Fl R) => (s.map fun x => |x.val|).sum) (lanes_multiset n regs f1)
    simp only [Multiset.map_coe, Multiset.sum_coe] at this
    unfold absSum
    rw [← this]
    generalize List.range n = l
    induction l with
    | nil => simp
    | cons x l ih => rw [List.map_cons, List.sum_cons, ih]; simp
  rw [← hsumE, ← hsumA]
  rw [hw, List.range_succ_eq_map] at hlanes ⊢
  simp only [List.map_cons, regSumReal, List.sum_cons, List.foldl_map, List.map_map]
  have h0 := Approx.foldl (R := R) (fun i : Nat => kahanSum (· + ·) (· - ·) 0 (regs.map fun r : List (Fl R) => r.getD (i + 1) 0))
    (fun i => exactSum (regs.map fun r => r.getD (i + 1) 0)) (fun i => absSum (regs.map fun r => r.getD (i + 1) 0))
    (List.range w) _ _ _ (hlanes 0 (by simp)) (fun i hi => hlanes (i + 1) (by simpa using hi))
  rw [List.length_range] at h0
  exact h0

/-- C73: the rounding error of `dot_product_prec` of real vectors does not grow with the number of points. -/
theorem C73_dot_prec_error (k : RegKind) (addr : Nat) (st : MultiCoreSettings) (v o : DspVec (Fl R)) (hv : v.WF) (hr : v.isComplex = false)
    (a b : List (Fl R)) (ha : v.content = some a) (hb : o.content = some b) (hlen : b.length = a.length)
    (hal : AlignmentAccepted addr k.len v.len) (hn : ((a.length / k.len : Nat) : ℝ) * R.u ≤ 1 / 100) (order : List Nat) :
    ∃ x, v.dotProduct true k addr st o order = some (.ok x) ∧
      |x.val - (List.zipWith (fun x y => x.val * y.val) a b).sum| ≤
        ((1 + 8 * R.u) * (1 + R.u) ^ (2 * k.len + 2) - 1) * (List.zipWith (fun x y => |x.val * y.val|) a b).sum := by
  have hu := R.u_nonneg
  obtain ⟨h1, h2⟩ := hv.cells_eq ha
  obtain ⟨regs, edges, f1, f2, f3, f4, f5⟩ := dotRealWith_form k addr st (kahanRegSum k) a (v.data.cells.drop a.length) b hlen
    order (by rw [h2]; exact hal)
  refine ⟨(if regs = [] then 0 else 0 + regSumReal (kahanRegSum k regs)) + edges.foldl (fun s x => s + x) 0, ?_, ?_⟩
  · unfold dotProduct
    rw [if_neg (by simp [hr]), hb]
    simp only [Option.bind_eq_bind, Option.bind_some]
    rw [h1, ← h2]
    simp only [if_true]
    rw [f5]; rfl
  · have e : ∀ {X : Type} (f : Fl R → Fl R → X), List.zipWith f a b = (a.zip b).map fun p => f p.1 p.2 := by
      intro X f; rw [List.zip, List.map_zipWith]
    have hpow : ∀ {i j : Nat}, i ≤ j → (1 + 8 * R.u) * (1 + R.u) ^ i ≤ (1 + 8 * R.u) * (1 + R.u) ^ j := fun h =>
      mul_le_mul_of_nonneg_left (pow_le_pow_right₀ (by linarith) h) (by linarith)
    -- the edges
    have hedge : Approx ((1 + 8 * R.u) * (1 + R.u) ^ (2 * k.len)) (edges.foldl (fun s x => s + x) (0 : Fl R)).val
        (exactSum edges) (absSum edges) := by
      have := Approx.foldl (R := R) (B := 1) (fun x => x) (fun x => x.val) (fun x => |x.val|) edges 0 0 0 Approx.zero
        (fun x _ => Approx.exact _)
      rw [zero_add, zero_add, one_mul] at this
      refine this.mono ?_
      have h3 : (1 + R.u) ^ edges.length ≤ (1 + R.u) ^ (2 * k.len) := pow_le_pow_right₀ (by linarith) f3
      have h4 : 0 ≤ (1 + R.u) ^ (2 * k.len) := by positivity
      nlinarith
    -- the center
    have hcenter : Approx ((1 + 8 * R.u) * (1 + R.u) ^ (2 * k.len))
        (if regs = [] then (0 : Fl R) else 0 + regSumReal (kahanRegSum k regs)).val (exactSum regs.flatten) (absSum regs.flatten) := by
      split
      · rename_i h; subst h
        have h1 : (1 : ℝ) ≤ (1 + R.u) ^ (2 * k.len) := one_le_pow₀ (by linarith)
        simpa [exactSum, absSum] using (Approx.zero (R := R)).mono (C := (1 + 8 * R.u) * (1 + R.u) ^ (2 * k.len)) (by nlinarith)
      · rw [kahanRegSum_lanes k regs f1]
        have h0 := kahan_lanes_approx k.len k.len_pos (a.length / k.len) hn regs f1 f2
        have hz := ((Approx.zero (R := R)).mono (h0.2.2)).add h0
        rw [zero_add, zero_add] at hz
        refine hz.mono ?_
        rw [mul_assoc, ← pow_succ]
        exact hpow (by have := k.len_pos; omega)
    have hall := hcenter.add hedge
    have hE : exactSum regs.flatten + exactSum edges = exactSum (List.zipWith (· * ·) a b) := by
      have := congrArg (fun s : Multiset (Fl R) => (s.map Fl.val).sum) f4
      simpa [exactSum] using this
    have hA : absSum regs.flatten + absSum edges = absSum (List.zipWith (· * ·) a b) := by
      have := congrArg (fun s : Multiset (Fl R) => (s.map fun x => |x.val|).sum) f4
      simpa [absSum] using this
    rw [hE, hA, e (· * ·)] at hall
    have := Approx.leaves (a.zip b) (fun p => p.1 * p.2) (fun p => p.1.val * p.2.val) (fun p => |p.1.val * p.2.val|) hall
      (fun p _ => Approx.mul p.1 p.2) (by linarith [R.u_nonneg])
    rw [mul_assoc, mul_assoc, ← pow_two, ← pow_add] at this
    rw [e, e]
    exact this.1

/-- C73: the rounding error of `sum_sq_prec` (`f64`). -/
theorem C73_sum_sq_prec_error (st : MultiCoreSettings) (v : DspVec (Fl R)) (a : List (Fl R)) (ha : v.content = some a)
    (hn : (a.length : ℝ) * R.u ≤ 1 / 100) (order : List Nat) :
    ∃ x, v.sumSqPrec st order = some x ∧
      |x.val - (a.map fun x => x.val * x.val).sum| ≤ 12 * R.u * (a.map fun x => x.val * x.val).sum := by
  have hu := R.u_nonneg
  have hm : (a.map fun x : Fl R => |x.val * x.val|) = a.map fun x => x.val * x.val :=
    List.map_congr_left fun x _ => abs_mul_self _
  have hm0 : 0 ≤ (a.map fun x : Fl R => x.val * x.val).sum := by
    rw [← hm]
    exact List.sum_nonneg (by intro y hy; obtain ⟨z, -, rfl⟩ := List.mem_map.1 hy; exact abs_nonneg _)
  unfold sumSqPrec sumPrecWith
  have hs : slice v.data.cells 0 v.validLen = some a := ha
  rw [hs]
  simp only [Option.bind_eq_bind, Option.bind_some, chunkedResults_small]
  by_cases hc : a = []
  · subst hc; exact ⟨_, rfl, by simp; rfl⟩
  refine ⟨_, by rw [if_neg hc], ?_⟩
  have hu1 : R.u ≤ 1 / 100 := by
    have : (1 : ℝ) ≤ a.length := by exact_mod_cast List.length_pos_iff.2 hc
    nlinarith
  simp only [List.foldl_cons, List.foldl_nil]
  have hk := kahan_approx (a.map fun x => x * x) (by simpa using hn)
  have hz := ((Approx.zero (R := R)).mono hk.2.2).add hk
  rw [zero_add, zero_add] at hz
  have := Approx.leaves a (fun x => x * x) (fun x => x.val * x.val) (fun x => |x.val * x.val|) hz
    (fun x _ => Approx.mul x x) (by linarith)
  rw [hm] at this
  refine this.1.trans (mul_le_mul_of_nonneg_right ?_ hm0)
  nlinarith [mul_nonneg hu hu]

/-- C73: the rounding error of `sum_prec` and `sum_sq_prec` of `f32` vectors: `u` belongs to `f64`, the conversion is exact. -/
theorem C73_f32_error {S : Type} (conv : S → Fl R) (st : MultiCoreSettings) (v : DspVec S) (a : List S) (ha : v.content = some a)
    (order : List Nat) :
    (∃ x, v.sumPrecF32 conv st order = some x ∧
      |x.val - exactSum (a.map conv)| ≤ ((1 + R.u) ^ (a.length + 1) - 1) * absSum (a.map conv)) ∧
    (∃ x, v.sumSqPrecF32 conv st order = some x ∧
      |x.val - (a.map fun x => (conv x).val * (conv x).val).sum| ≤
        ((1 + R.u) ^ (a.length + 2) - 1) * (a.map fun x => (conv x).val * (conv x).val).sum) := by
  obtain ⟨x, h1, h2⟩ := C73_additions_f32 conv st v a ha order
  obtain ⟨y, h3, h4⟩ := C73_additions_f32 (fun x => conv x * conv x) st v a ha order
  refine ⟨⟨x, h1, C73_rounding h2⟩, y, h3, ?_⟩
  have hm : (a.map fun x => |(conv x).val * (conv x).val|) = a.map fun x => (conv x).val * (conv x).val :=
    List.map_congr_left fun x _ => abs_mul_self _
  have := Approx.leaves a (fun x => conv x * conv x) (fun x => (conv x).val * (conv x).val)
    (fun x => |(conv x).val * (conv x).val|) h4.approx (fun x _ => Approx.mul _ _) (by linarith [R.u_nonneg])
  rw [hm, ← pow_succ] at this
  exact this.1

/-- A vector with five rounded numbers (24 binary digits) which meets the hypotheses. -/
example :
    let v : DspVec (Fl (binaryRounding 23)) := ⟨⟨.vec, [⟨1⟩, ⟨1/3⟩, ⟨2⟩, ⟨-5⟩, ⟨0⟩, ⟨1/10⟩]⟩, some ⟨1⟩, .time, .real, 5⟩
    v.WF ∧ v.isComplex = false ∧ v.content = some [⟨1⟩, ⟨1/3⟩, ⟨2⟩, ⟨-5⟩, ⟨0⟩] ∧
      AlignmentAccepted 3 RegKind.fallbackF64x2.len v.len ∧ sumDepth 5 RegKind.fallbackF64x2.len = 7 ∧
      ((5 : Nat) : ℝ) * (binaryRounding 23).u ≤ 1 / 100 ∧
      ((1 + (binaryRounding 23).u) ^ 7 - 1 ≤ 1 / 1000000) := by
  refine ⟨⟨by decide, by decide⟩, rfl, rfl, .inl (by decide), by decide, ?_, ?_⟩ <;> norm_num [binaryRounding]

end
end Dsp
