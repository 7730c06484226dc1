import Verif.Props.SpecialComplex
import Verif.Props.RoundingComplex
/-
C90: dot_product_prec with infinities and NaN.
-/
namespace Dsp
open DspVec
variable {T : Type} [Field T] [LinearOrder T] [IsStrictOrderedRing T]

/-- The numbers of all columns are the numbers of all rows. -/
theorem columns_sum {E : Type} [AddCommMonoid E] (n : Nat) (regs : List (List E)) (h : ∀ r ∈ regs, r.length = n) :
    ((List.range n).map fun i => (regs.map fun r => r.getD i 0).sum).sum = regs.flatten.sum := by
  induction regs with
  | nil => simp
  | cons r regs ih =>
    have e : ((List.range n).map fun i => r.getD i 0) = r := (reg_range (h r (by simp))).symm
    have := ih fun q hq => h q (by simp [hq])
    simp only [List.map_cons, List.sum_cons, List.sum_map_add, List.flatten_cons, List.sum_append]
    rw [this, e]

omit [IsStrictOrderedRing T] in
/-- There is only one sum. -/
theorem IsSum.eq_sum {l : List (Wide T)} {s : Wide T} (h : IsSum l s) : s = l.sum := by
  have hm := sumMeans l
  obtain ⟨h1, h2, h3, h4⟩ := h
  generalize l.sum = t at hm
  cases t with
  | nan => exact h1 hm
  | posInf => exact h2 hm.1 hm.2
  | negInf => exact h3 hm.1 hm.2
  | num x =>
    obtain ⟨xs, e1, rfl⟩ := hm
    exact h4 xs e1

omit [IsStrictOrderedRing T] in
/-- Compensated sums of columns: the sum, or NaN; the sum if there are only numbers. -/
theorem kahan_columns_special (n : Nat) (regs : List (List (Wide T))) (h : ∀ r ∈ regs, r.length = n) :
    (((List.range n).map fun i => kahanSum (· + ·) (· - ·) (0 : Wide T) (regs.map fun r => r.getD i 0)).sum = regs.flatten.sum ∨
      ((List.range n).map fun i => kahanSum (· + ·) (· - ·) (0 : Wide T) (regs.map fun r => r.getD i 0)).sum = .nan) ∧
    ((∀ x ∈ regs.flatten, ∃ t, x = .num t) →
      ((List.range n).map fun i => kahanSum (· + ·) (· - ·) (0 : Wide T) (regs.map fun r => r.getD i 0)).sum = regs.flatten.sum) := by
  have uniq : ∀ (l : List (Wide T)) (s : Wide T), IsSum l s → s = l.sum := fun l s hs => hs.eq_sum
  have dich : ∀ l : List (Wide T), kahanSum (· + ·) (· - ·) (0 : Wide T) l = l.sum ∨ kahanSum (· + ·) (· - ·) (0 : Wide T) l = .nan := by
    intro l
    by_cases hl : ∀ x ∈ l.dropLast, ∃ t, x = .num t
    · exact .inl (uniq l _ ((kahan_special l).1 hl))
    · push Not at hl
      exact .inr ((kahan_special l).2 hl)
  rw [← columns_sum n regs h]
  constructor
  · by_cases hn : ∀ i ∈ List.range n, kahanSum (· + ·) (· - ·) (0 : Wide T) (regs.map fun r => r.getD i 0) = (regs.map fun r => r.getD i 0).sum
    · exact .inl (congrArg List.sum (List.map_congr_left hn))
    · push Not at hn
      obtain ⟨i, hi, hne⟩ := hn
      refine .inr ((isSum_sum _).1 (.inl (List.mem_map.mpr ⟨i, hi, (dich _).resolve_left hne⟩)))
  · intro hf
    refine congrArg List.sum (List.map_congr_left fun i hi => ?_)
    refine uniq _ _ ((kahan_special _).1 fun x hx => ?_)
    obtain ⟨r, hr, rfl⟩ := List.mem_map.mp (List.mem_of_mem_dropLast hx)
    have hir : i < r.length := by rw [h r hr]; exact List.mem_range.mp hi
    refine hf _ (List.mem_flatten.mpr ⟨r, hr, ?_⟩)
    rw [List.getD_eq_getElem?_getD, List.getElem?_eq_getElem hir]
    exact List.getElem_mem hir

/-- The registers and the edges together. -/
theorem kahan_form_special {l : List (Wide T)} (regs : List (List (Wide T))) (edges : List (Wide T)) (n : Nat)
    (h : ∀ r ∈ regs, r.length = n)
    (hl : (regs.flatten : Multiset (Wide T)) + (edges : Multiset (Wide T)) = (l : Multiset (Wide T))) (x : Wide T)
    (hx : x = ((List.range n).map fun i => kahanSum (· + ·) (· - ·) (0 : Wide T) (regs.map fun r => r.getD i 0)).sum) :
    (IsSum l (x + edges.sum) ∨ x + edges.sum = .nan) ∧ ((∀ y ∈ l, ∃ t, y = .num t) → IsSum l (x + edges.sum)) := by
  have hs : regs.flatten.sum + edges.sum = l.sum := by
    have := congrArg Multiset.sum hl
    simpa only [Multiset.sum_add, Multiset.sum_coe] using this
  obtain ⟨k1, k2⟩ := kahan_columns_special n regs h
  rw [← hx] at k1 k2
  constructor
  · rcases k1 with e | e
    · rw [e, hs]; exact .inl (isSum_sum l)
    · rw [e]; exact .inr rfl
  · intro hf
    rw [k2 fun y hy => hf y ?_, hs]
    · exact isSum_sum l
    · have : y ∈ (regs.flatten : Multiset (Wide T)) + (edges : Multiset (Wide T)) := Multiset.mem_add.mpr (.inl hy)
      rw [hl] at this
      exact this

/-- C90: `dot_product_prec` of real vectors of equal length gives the sum of the products or NaN, and the sum if all products are numbers. -/
theorem C90_dot_prec (k : RegKind) (addr : Nat) (st : MultiCoreSettings) (v o : DspVec (Wide T)) (hv : v.WF) (hr : v.isComplex = false)
    (a b : List (Wide T)) (ha : v.content = some a) (hb : o.content = some b) (hlen : b.length = a.length)
    (hal : AlignmentAccepted addr k.len v.len) (order : List Nat) :
    ∃ s, v.dotProduct true k addr st o order = some (.ok s) ∧
      (IsSum (List.zipWith (· * ·) a b) s ∨ s = .nan) ∧
      ((∀ p ∈ List.zipWith (· * ·) a b, ∃ t, p = .num t) → IsSum (List.zipWith (· * ·) a b) s) := by
  obtain ⟨h1, h2⟩ := hv.cells_eq ha
  obtain ⟨regs, edges, f1, f2, f3, f4, f5⟩ := dotRealWith_form k addr st (kahanRegSum k) a (v.data.cells.drop a.length) b hlen
    order (by rw [h2]; exact hal)
  have he : edges.foldl (fun s x => s + x) 0 = edges.sum := by rw [List.sum_eq_foldl]
  refine ⟨(if regs = [] then 0 else 0 + regSumReal (kahanRegSum k regs)) + edges.foldl (fun s x => s + x) 0, ?_, ?_⟩
  · unfold dotProduct
    rw [if_neg (by simp [hr]), hb]
    simp only [Option.bind_eq_bind, Option.bind_some]
    rw [h1, ← h2]
    simp only [if_true]
    rw [f5]; rfl
  · rw [he]
    refine kahan_form_special regs edges k.len f1 f4 _ ?_
    split
    · rename_i hreg
      subst hreg
      simp [kahanSum]
    · rw [zero_add, regSumReal_eq, kahanRegSum_lanes k regs f1]

/-- C90: the same for both parts of `dot_product_prec` of complex vectors. -/
theorem C90_dot_prec_complex (k : RegKind) (addr : Nat) (st : MultiCoreSettings) (v o : DspVec (Wide T)) (hv : v.WF)
    (hc : v.isComplex = true) (hoc : o.isComplex = true) (hd : v.dom = o.dom) (a b : List (Cx (Wide T)))
    (ha : v.content = some (fromComplex a)) (hb : o.content = some (fromComplex b)) (hlen : b.length = a.length)
    (heven : v.allocLen % 2 = 0) (hal : ComplexAlignmentAccepted addr k.len v.len) (order : List Nat) :
    ∃ s, v.dotProductComplex true k addr st o order = some (.ok s) ∧
      ∀ p, p = (List.zipWith (fun x y => x.re * y.re - x.im * y.im) a b, s.re) ∨
          p = (List.zipWith (fun x y => x.re * y.im + x.im * y.re) a b, s.im) →
        (IsSum p.1 p.2 ∨ p.2 = .nan) ∧ ((∀ y ∈ p.1, ∃ t, y = .num t) → IsSum p.1 p.2) := by
  obtain ⟨rc, edges, hcov, hs⟩ := dotProductComplex_form true k addr st v o hv hc hoc hd a b ha hb hlen heven hal order
  refine ⟨_, hs, ?_⟩
  have key : ∀ im : Bool, (IsSum ((List.zipWith Cx.mul a b).map (Cx.part im)) ((complexForm (kahanRegSum k) rc edges).part im) ∨
      (complexForm (kahanRegSum k) rc edges).part im = .nan) ∧ ((∀ y ∈ (List.zipWith Cx.mul a b).map (Cx.part im), ∃ t, y = .num t) →
        IsSum ((List.zipWith Cx.mul a b).map (Cx.part im)) ((complexForm (kahanRegSum k) rc edges).part im)) := by
    intro im
    have hfull : ∀ r ∈ rc.map fun r => r.map (Cx.part im), r.length = k.len / 2 := by
      intro r hr
      obtain ⟨q, q1, rfl⟩ := List.mem_map.1 hr
      have := hcov.full q q1
      simp only [List.length_map]; omega
    have hl : ((rc.map fun r => r.map (Cx.part im)).flatten : Multiset (Wide T)) + (edges.map (Cx.part im) : Multiset (Wide T)) =
        ((List.zipWith Cx.mul a b).map (Cx.part im) : Multiset (Wide T)) := by
      have := congrArg (Multiset.map (Cx.part im)) hcov.all
      rw [Multiset.map_add, Multiset.map_coe, Multiset.map_coe, Multiset.map_coe, List.map_flatten] at this
      exact this
    have he : (complexForm (kahanRegSum k) rc edges).part im =
        (if rc = [] then (0 : Cx (Wide T)) else 0 + regSumComplex (kahanRegSum k (rc.map fromComplex))).part im +
          (edges.map (Cx.part im)).sum := by
      unfold complexForm
      rw [part_add, foldl_part, part_zero, List.sum_eq_foldl, List.foldl_map]
    rw [he]
    refine kahan_form_special _ _ (k.len / 2) hfull hl _ ?_
    split
    · rename_i hreg
      subst hreg
      simp [kahanSum, part_zero]
    · rw [part_add, part_zero, zero_add, kahanRegSum_part, regSumReal_eq, kahan_columns _ _ hfull]
  intro p hp
  have hre : (List.zipWith Cx.mul a b).map (Cx.part false) = List.zipWith (fun x y => x.re * y.re - x.im * y.im) a b := by
    rw [List.map_zipWith]; rfl
  have him : (List.zipWith Cx.mul a b).map (Cx.part true) = List.zipWith (fun x y => x.re * y.im + x.im * y.re) a b := by
    rw [List.map_zipWith]; rfl
  rcases hp with rfl | rfl
  · have := key false
    rw [hre] at this; exact this
  · have := key true
    rw [him] at this; exact this

/-- The hypotheses of `C90_dot_prec_complex` are met. -/
example :
    let v : DspVec (Wide ℚ) := ⟨⟨.vec, [.num 0, .posInf, .num 2, .num 1]⟩, some (.num 1), .time, .complex, 4⟩
    v.WF ∧ v.isComplex = true ∧ v.content = some (fromComplex [⟨.num 0, .posInf⟩, ⟨.num 2, .num 1⟩]) ∧ v.allocLen % 2 = 0 ∧
      ComplexAlignmentAccepted 0 RegKind.sseF64x2.len v.len :=
  ⟨⟨by decide, by decide⟩, by decide, by decide, by decide, .inl (by decide), by decide⟩

/-- C90, violated by `dot_product_prec` for every register type: the products are an infinity and numbers, `dot_product` gives infinity,
`dot_product_prec` NaN. -/
theorem C90_dot_prec_violated (k : RegKind) : ∃ v o : DspVec (Wide ℚ), v.WF ∧ o.WF ∧ v.isComplex = false ∧ o.isComplex = false ∧
    v.content = some (.posInf :: List.replicate (2 * k.len - 1) (.num 1)) ∧ o.content = some (List.replicate (2 * k.len) (.num 1)) ∧
    v.dotProduct false k 0 (.withThresholds 1 0 0 0 0) o [] = some (.ok .posInf) ∧
    v.dotProduct true k 0 (.withThresholds 1 0 0 0 0) o [] = some (.ok .nan) := by
  refine ⟨⟨⟨.vec, .posInf :: List.replicate (2 * k.len - 1) (.num 1)⟩, some (.num 1), .time, .real, 2 * k.len⟩,
    ⟨⟨.vec, List.replicate (2 * k.len) (.num 1)⟩, some (.num 1), .time, .real, 2 * k.len⟩, ?_⟩
  cases k <;> exact ⟨⟨by decide, by decide⟩, ⟨by decide, by decide⟩, rfl, rfl, by decide, by decide, by decide +kernel, by decide +kernel⟩

end Dsp
