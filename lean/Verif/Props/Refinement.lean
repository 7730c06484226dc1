import Verif.Lemmas.Shows
import Verif.Props.Reorg
import Verif.Props.Construct
import Verif.Props.Pad
import Verif.Props.Interleave
import Verif.Props.SplitMerge
import Verif.Props.DiffSum
import Verif.Props.Elementary
import Verif.Props.RealOps
import Verif.Props.Mapping
import Verif.Props.ComplexReal
import Verif.Props.ComplexOps
import Verif.Props.Windows
import Verif.Props.Fft
import Verif.Props.Interp
import Mathlib.Algebra.Field.Rat
/-
C53: every history of operations means what the specification of signals says, whatever the
environment: storages, stale contents, buffers, settings of the workers, registers, addresses, schedules.
-/
namespace Dsp
open DspVec
variable {T : Type}

/-! ### From the theorems about the single operations to signals -/

namespace DspVec.Shows
variable {v w : DspVec T} {s : Signal T}

theorem of_replaced (h : v.Shows s) {N : Numbers T} (hN : N.isComplex = s.numbers.isComplex) {c : List T}
    (hr : Replaced v w c) (hc : c = N.flat) : w.Shows { s with numbers := N } :=
  h.of_content hr.2.2.1 hN (by rw [hr.1, hc])

theorem permutes [Zero T] (f : ∀ {α : Type}, List α → List α) (hf : Natural fun _ l => f l) (h : v.Shows s)
    (hp : PermutesPoints f v w) : w.Shows { s with numbers := s.numbers.rearrange fun _ l => f l } := by
  obtain ⟨⟨l, h1, h2⟩, -, hm, -⟩ := hp
  rw [h.pts] at h1
  cases h1
  exact h.rearrange (fun _ l => f l) hf hm h2

/-- The number space and the domain follow from what a user can observe. -/
theorem of_typed {g : Bool} {N : Numbers T} {d : DataDomain} (ht : w.Typed) (hg : w.Generic ↔ g = true)
    (hc : w.content = some N.flat) (hx : w.isComplex = N.isComplex) (hd : w.dom = d) :
    w.Shows ⟨N, d, g, w.delta⟩ := by
  subst hd
  rcases ht with ⟨b, d, h1, h2⟩ | ⟨h1, h2⟩
  · have : g = true := hg.1 ⟨b, d, h1, h2⟩
    subst this
    simp only [DspVec.isComplex, h1, NumberSpace.isComplex] at hx
    refine ⟨hc, ?_, ?_, rfl⟩
    · simp only [if_true]; rw [h1, hx]
    · simp only [if_true]; rw [h2]; simp only [DspVec.dom, h2, Domain.domain]
  · have : g = false := by
      cases g with
      | false => rfl
      | true =>
        obtain ⟨b, d, h3, h4⟩ := hg.2 rfl
        rcases h1 with h1 | h1 <;> rw [h1] at h3 <;> cases h3
    subst this
    refine ⟨hc, ?_, ?_, rfl⟩
    · simp only [Bool.false_eq_true, if_false]
      rw [← hx]
      rcases h1 with h1 | h1 <;> simp [DspVec.isComplex, h1, NumberSpace.isComplex]
    · simp only [Bool.false_eq_true, if_false]
      rcases h2 with h2 | h2 <;> simp [DspVec.dom, h2, Domain.domain]

theorem asReal {u : DspVec T} (h : v.Shows s) (h1 : u.numberSpace = v.numberSpace) (h2 : u.domain = v.domain)
    {xs : List T} (hr : RealVersion v u.asReal xs) : u.asReal.Shows { s with numbers := .real xs } := by
  obtain ⟨r1, -, -, -, r5⟩ := hr
  have hs := h.space
  have hd := h.domain
  refine ⟨r1, ?_, ?_, r5.trans h.delta⟩ <;> unfold DspVec.asReal <;> rw [h1, hs]
  · cases s.generic
    · cases s.numbers.isComplex <;> simp [rededicateForce, Numbers.isComplex] <;> split <;> rfl
    · simp [rededicateForce, DspVec.isComplex, NumberSpace.isComplex, Numbers.isComplex]
  · have hdm : u.dom = s.dom := by rw [← h.dom]; simp [DspVec.dom, h2]
    cases hg : s.generic
    · rw [hg] at hd
      cases hx : s.numbers.isComplex <;> simp [hdm] <;> cases s.dom <;> simp [rededicateForce]
    · rw [hg] at hd
      simp at hd
      simp [rededicateForce, DspVec.dom, Domain.domain, h2, hd]

theorem asComplex {u : DspVec T} (h : v.Shows s) (h1 : u.numberSpace = v.numberSpace)
    (h2 : u.domain = v.domain) {cs : List (Cx T)} (hr : ComplexVersion v u.asComplex cs) :
    u.asComplex.Shows { s with numbers := .complex cs } := by
  obtain ⟨r1, -, -, -, r5⟩ := hr
  have hs := h.space
  have hd := h.domain
  refine ⟨r1, ?_, ?_, r5.trans h.delta⟩ <;> unfold DspVec.asComplex <;> rw [h1, hs]
  · cases s.generic
    · cases s.numbers.isComplex <;> simp [rededicateForce, Numbers.isComplex] <;> split <;> rfl
    · simp [rededicateForce, DspVec.isComplex, NumberSpace.isComplex, Numbers.isComplex]
  · have hdm : u.dom = s.dom := by rw [← h.dom]; simp [DspVec.dom, h2]
    cases hg : s.generic
    · rw [hg] at hd
      cases hx : s.numbers.isComplex <;> simp [hdm] <;> cases s.dom <;> simp [rededicateForce]
    · rw [hg] at hd
      simp at hd
      simp [rededicateForce, DspVec.dom, Domain.domain, h2, hd]

end DspVec.Shows


/-! ### The single operations -/

section Steps
variable [Field T] {v : DspVec T} {s : Signal T}

theorem takeFill_le {α : Type} (z : α) {n : Nat} {l : List α} (h : n ≤ l.length) : takeFill z n l = l.take n := by
  simp [takeFill, Nat.sub_eq_zero_of_le h]

theorem takeFill_ge {α : Type} (z : α) {n : Nat} {l : List α} (h : l.length ≤ n) :
    takeFill z n l = l ++ List.replicate (n - l.length) z := by
  simp [takeFill, List.take_of_length_le h]

theorem fromComplex_replicate_zero (n : Nat) :
    fromComplex (List.replicate n (⟨0, 0⟩ : Cx T)) = List.replicate (2 * n) 0 := by
  induction n with
  | zero => rfl
  | succ n ih =>
    rw [List.replicate_succ, show 2 * (n + 1) = 2 * n + 1 + 1 by omega, List.replicate_succ, List.replicate_succ, ← ih]
    rfl

/-- Changing the length to `n`, in a storage whose first `n` cells are the old content filled up with
    zeros. -/
theorem shows_resized {w : DspVec T} (h : v.Shows s) (n : Nat) (hn : ¬ (v.isComplex = true ∧ n % 2 = 1))
    (hm : w.SameMeta v) (hc : w.content = some (takeFill 0 n s.numbers.flat)) :
    w.Shows ((Call.resize n : Call T).meaning s) := by
  simp only [Call.meaning]
  cases hN : s.numbers with
  | real xs =>
    rw [hN] at hc
    exact h.of_content hm (by rw [hN]; rfl) hc
  | complex cs =>
    rw [hN] at hc
    have hx : v.isComplex = true := by rw [h.isComplex, hN]; rfl
    have hn' : ¬ n % 2 = 1 := fun e => hn ⟨hx, e⟩
    simp only [hn', if_false]
    refine h.of_content hm (by rw [hN]; rfl) ?_
    rw [hc]
    obtain ⟨m, rfl⟩ : ∃ m, n = 2 * m := ⟨n / 2, by omega⟩
    simp only [Numbers.flat, takeFill, fromComplex_append, fromComplex_replicate_zero, length_fromComplex,
      fromComplex_take, Nat.mul_div_cancel_left m (show 0 < 2 by omega), ← Nat.mul_sub]

theorem resize_small {v : DspVec T} (hw : v.WF) {n : Nat} (hn : ¬ (v.isComplex = true ∧ n % 2 = 1)) (hle : n ≤ v.len) :
    v.resize n = ({ v with validLen := n }, .ok ()) := by
  unfold resize
  have h1 : (v.isComplex && n % 2 != 0) = false := by
    cases hc : v.isComplex
    · rfl
    · have : n % 2 = 0 := by
        rcases Nat.mod_two_eq_zero_or_one n with h | h
        · exact h
        · exact absurd ⟨hc, h⟩ hn
      simp [this]
  have h2 : ¬ n > v.allocLen := by
    have := hw.1; simp only [len] at *; show ¬ v.data.cells.length < n; omega
  simp only [h1, Bool.false_eq_true, if_false, h2]

omit [Field T] in
theorem content_shorter {v : DspVec T} {c : List T} (h : v.content = some c) {n : Nat} (hle : n ≤ v.len) :
    ({ v with validLen := n } : DspVec T).content = some (c.take n) := by
  obtain ⟨h1, h2⟩ := content_iff.1 h
  refine content_iff.2 ⟨Nat.le_trans hle h1, ?_⟩
  rw [← h2, List.take_take]
  congr 1
  simp only [len] at hle
  show n = min n v.validLen
  omega

theorem step_resize (h : v.Shows s) (n : Nat) (hs : v.Safe (.resize n)) :
    (v.resize n).1.Shows ((Call.resize n : Call T).meaning s) := by
  obtain ⟨hk, hs⟩ := hs
  obtain ⟨r1, r2, r3⟩ := C02_resize v h.wf hk n
  by_cases hodd : v.isComplex = true ∧ n % 2 = 1
  · rw [r1 hodd]
    simp only [Call.meaning]
    cases hN : s.numbers with
    | real xs => rw [h.isComplex, hN] at hodd; cases hodd.1
    | complex cs => simp only [hodd.2, if_true]; exact h
  · by_cases hle : n ≤ v.len
    · rw [resize_small h.wf hodd hle]
      refine shows_resized h n hodd ⟨rfl, rfl, rfl, rfl⟩ ?_
      rw [takeFill_le _ (by rw [← h.len]; exact hle)]
      exact content_shorter h.content hle
    · rcases hs with hs | hs | ⟨hfull, hcan⟩
      · exact absurd hs hodd
      · exact absurd hs hle
      · obtain ⟨v', e, e1, e2, e3, -, e5⟩ := r3 hodd hcan
        rw [e]
        refine shows_resized h n hodd e3 ?_
        obtain ⟨c1, c2⟩ := content_iff.1 h.content
        have hlen := h.len
        rw [List.take_of_length_le (by simp only [allocLen, len] at hfull; omega)] at c2
        refine content_iff.2 ⟨e2.1, ?_⟩
        rw [takeFill_ge _ (by omega), e5, c2, List.take_of_length_le]
        simp only [len] at e1 ⊢
        simp
        omega

theorem step_resizeB (h : v.Shows s) (b : Buffer T) (n : Nat) (hs : v.Safe (.resizeB b n)) :
    ∃ w, v.apply (.resizeB b n) = some w ∧ w.Shows ((Call.resize n : Call T).meaning s) := by
  by_cases hodd : v.isComplex = true ∧ n % 2 = 1
  · refine ⟨v, ?_, ?_⟩
    · simp [apply, resizeB, hodd]
    · simp only [Call.meaning]
      cases hN : s.numbers with
      | real xs => rw [h.isComplex, hN] at hodd; cases hodd.1
      | complex cs => simp only [hodd.2, if_true]; exact h
  · have hle := hs.resolve_left hodd
    have h1 : (v.isComplex && n % 2 != 0) = false := by
      cases hc : v.isComplex
      · rfl
      · have : n % 2 = 0 := by
          rcases Nat.mod_two_eq_zero_or_one n with h | h
          · exact h
          · exact absurd ⟨hc, h⟩ hodd
        simp [this]
    refine ⟨{ v with validLen := n }, ?_, ?_⟩
    · simp only [apply, resizeB, h1, Bool.false_eq_true, if_false, resize_small h.wf hodd hle, Option.map_some]
    · refine shows_resized h n hodd ⟨rfl, rfl, rfl, rfl⟩ ?_
      rw [takeFill_le _ (by rw [← h.len]; exact hle)]
      exact content_shorter h.content hle

theorem step_zeroPad (h : v.Shows s) (p : Nat) (o : PaddingOption) (hs : v.Safe (.zeroPad p o)) :
    ∃ w, v.apply (.zeroPad p o) = some w ∧ w.Shows ((Call.zeroPad p o : Call T).meaning s) := by
  obtain ⟨hk, hs⟩ := hs
  obtain ⟨r1, -, r3⟩ := C07_zero_pad v h.wf hk p o
  have hp := h.points
  simp only [Call.meaning]
  by_cases hle : p ≤ v.points
  · refine ⟨v, by simp [apply, r1 hle], ?_⟩
    rw [if_pos (by omega)]; exact h
  · obtain ⟨w, l, e1, e2, e3, -, e5⟩ := r3 (by omega) (hs.resolve_left hle)
    refine ⟨w, by simp [apply, e1], ?_⟩
    rw [if_neg (by omega)]
    rw [h.pts] at e2; cases e2
    refine h.rearrange (fun z l => padSpec z l p (surroundRight l.length p) o) (natural_pad p o) e5 ?_
    rw [e3]
    simp only [Numbers.length_pointLists, hp]

theorem step_zeroPadB (h : v.Shows s) (b : Buffer T) (p : Nat) (o : PaddingOption) (hs : v.Safe (.zeroPadB b p o)) :
    ∃ w, v.apply (.zeroPadB b p o) = some w ∧ w.Shows ((Call.zeroPad p o : Call T).meaning s) := by
  have hp := h.points
  simp only [Call.meaning]
  by_cases hle : p ≤ v.points
  · refine ⟨v, by simp [apply, C08_zero_pad_b_error v h.wf b p o hle], ?_⟩
    rw [if_pos (by omega)]; exact h
  · obtain ⟨hb, ho⟩ := hs.resolve_left hle
    obtain ⟨w, b', l, e1, e2, e3, e5⟩ := zero_pad_b_spec v h.wf b p hb o
      (by rcases ho with rfl | ⟨rfl, -⟩ <;> simp) (by omega)
    refine ⟨w, by simp [apply, e1], ?_⟩
    rw [if_neg (by omega)]
    rw [h.pts] at e2; cases e2
    refine h.rearrange (fun z l => padSpec z l p (surroundRight l.length p) o) (natural_pad p o) e5 ?_
    rw [e3]
    simp only [Numbers.length_pointLists, hp]
    rcases ho with rfl | ⟨rfl, ho⟩
    · rfl
    · congr 2
      simp only [surroundRight, surroundRightB]
      omega

theorem step_zeroInterleave (h : v.Shows s) (f : Nat) (hs : v.Safe (.zeroInterleave f)) :
    ∃ w, v.apply (.zeroInterleave f) = some w ∧ w.Shows ((Call.zeroInterleave f : Call T).meaning s) := by
  obtain ⟨hk, hf, hal, hcan⟩ := hs
  obtain ⟨w, l, e1, e2, e3, e5⟩ := (C09_zero_interleave v h.wf hk f hf hal).2 hcan
  refine ⟨w, by simp [apply, e1], ?_⟩
  rw [h.pts] at e2; cases e2
  exact h.rearrange (fun z l => interleaveSpec z f l) (natural_interleave f) e5 e3

theorem step_zeroInterleaveB (h : v.Shows s) (b : Buffer T) (f : Nat) (hs : v.Safe (.zeroInterleaveB b f)) :
    ∃ w, v.apply (.zeroInterleaveB b f) = some w ∧ w.Shows ((Call.zeroInterleave f : Call T).meaning s) := by
  obtain ⟨hf, hne, hb⟩ := hs
  obtain ⟨w, b', l, e1, e2, e3, e5⟩ := C09_zero_interleave_b v h.wf b f hf hb hne
  refine ⟨w, by simp [apply, e1], ?_⟩
  rw [h.pts] at e2; cases e2
  exact h.rearrange (fun z l => interleaveSpec z f l) (natural_interleave f) e5 e3

theorem step_reverse (h : v.Shows s) :
    ∃ w, v.apply .reverse = some w ∧ w.Shows ((Call.reverse : Call T).meaning s) := by
  obtain ⟨w, e, hp⟩ := C05_reverse v h.wf
  exact ⟨w, e, h.permutes List.reverse natural_reverse hp⟩

theorem step_swapHalves (h : v.Shows s) :
    ∃ w, v.apply .swapHalves = some w ∧ w.Shows ((Call.swapHalves : Call T).meaning s) := by
  obtain ⟨w, e, hp⟩ := C06_swap_halves v h.wf
  exact ⟨w, e, h.permutes (fun l => rotateRight l (l.length / 2)) natural_rotateRight hp⟩

theorem step_fftShift (h : v.Shows s) :
    ∃ w, v.apply .fftShift = some w ∧ w.Shows ((Call.swapHalves : Call T).meaning s) := by
  obtain ⟨w, e, hp⟩ := C06_fft_shift v h.wf
  exact ⟨w, e, h.permutes (fun l => rotateRight l (l.length / 2)) natural_rotateRight hp⟩

theorem step_ifftShift (h : v.Shows s) (hs : v.Safe .ifftShift) :
    ∃ w, v.apply .ifftShift = some w ∧ w.Shows ((Call.swapHalvesBack : Call T).meaning s) := by
  obtain ⟨w, e, hp⟩ := C06_ifft_shift v h.wf hs
  exact ⟨w, e, h.permutes (fun l => rotateLeft l (l.length / 2)) natural_rotateLeft hp⟩

theorem step_decimatei (h : v.Shows s) (k d : Nat) (hs : v.Safe (.decimatei k d)) :
    ∃ w, v.apply (.decimatei k d) = some w ∧ w.Shows ((Call.decimate k d : Call T).meaning s) := by
  obtain ⟨w, L, e1, e2, e3, e4, -⟩ := C41_decimatei v _ h.pts k d hs
  refine ⟨w, e1, h.rearrange (fun _ l => everyNth k d l) (natural_everyNth k d) e4 ?_⟩
  rw [e2]
  congr 1
  unfold everyNth
  refine (eq_filterMap_range L _ _ ?_ e3).symm
  by_contra hlt
  have hk : 1 ≤ k := hs
  have := e3 s.numbers.pointLists.length
  rw [List.getElem?_eq_getElem (by omega), List.getElem?_eq_none] at this
  · cases this
  · have : s.numbers.pointLists.length ≤ s.numbers.pointLists.length * k := Nat.le_mul_of_pos_right _ hk
    omega

omit [Field T] in
theorem pointLists_differences [Sub T] (N : Numbers T) :
    (N.mapLists (differences (· - ·)) (differences Cx.sub)).pointLists = differences pointSub N.pointLists := by
  cases N with
  | real xs =>
    simp only [Numbers.mapLists, Numbers.pointLists, differences, ← List.map_tail, List.map_zipWith,
      List.zipWith_map]
    rfl
  | complex cs =>
    simp only [Numbers.mapLists, Numbers.pointLists, differences, ← List.map_tail, List.map_zipWith,
      List.zipWith_map]
    rfl

omit [Field T] in
theorem pointLists_differencesWithStart [Sub T] (N : Numbers T) :
    (N.mapLists (differencesWithStart (· - ·)) (differencesWithStart Cx.sub)).pointLists =
      differencesWithStart pointSub N.pointLists := by
  have h := pointLists_differences N
  cases N with
  | real xs =>
    cases xs with
    | nil => rfl
    | cons x xs =>
      simp only [Numbers.mapLists, Numbers.pointLists, differencesWithStart, List.map_cons] at h ⊢
      rw [h]
  | complex xs =>
    cases xs with
    | nil => rfl
    | cons x xs =>
      simp only [Numbers.mapLists, Numbers.pointLists, differencesWithStart, List.map_cons] at h ⊢
      rw [h]

theorem getElem?_differences {α : Type} (sub : α → α → α) (l : List α) (i : Nat) :
    (differences sub l)[i]? = (l[i + 1]?).bind fun b => (l[i]?).map fun a => sub b a := by
  simp only [differences, List.getElem?_zipWith]
  rw [List.getElem?_tail]
  cases l[i + 1]? <;> cases l[i]? <;> rfl

theorem eq_differences {α : Type} (sub : α → α → α) (l l' : List α) (hlen : l'.length = l.length - 1)
    (h : ∀ i a b, l[i]? = some a → l[i + 1]? = some b → l'[i]? = some (sub b a)) : l' = differences sub l := by
  apply List.ext_getElem?
  intro i
  rw [getElem?_differences]
  by_cases hi : i + 1 < l.length
  · rw [h i l[i] l[i + 1] (by simp) (by simp)]
    simp [hi, show i < l.length by omega]
  · rw [List.getElem?_eq_none (by omega), List.getElem?_eq_none (l := l) (by omega)]
    rfl

omit [Field T] in
theorem isComplex_mapLists (N : Numbers T) (f : List T → List T) (g : List (Cx T) → List (Cx T)) :
    (N.mapLists f g).isComplex = N.isComplex := by cases N <;> rfl

theorem step_diff (h : v.Shows s) (hs : v.Safe .diff) :
    ∃ w, v.apply .diff = some w ∧ w.Shows ((Call.diff : Call T).meaning s) := by
  obtain ⟨w, l, l', e1, e2, e3, e4, e5, e6⟩ := C11_diff v h.wf hs.1 hs.2
  rw [h.pts] at e2; cases e2
  refine ⟨w, e1, h.of_pts e4 (isComplex_mapLists _ _ _) ?_⟩
  rw [e3, pointLists_differences, eq_differences pointSub _ _ e5 e6]

theorem step_diffWithStart (h : v.Shows s) (hs : v.Safe .diffWithStart) :
    ∃ w, v.apply .diffWithStart = some w ∧ w.Shows ((Call.diffWithStart : Call T).meaning s) := by
  obtain ⟨w, l, l', e1, e2, e3, e4, e5, e6, e7⟩ := C11_diff_with_start v h.wf hs
  rw [h.pts] at e2; cases e2
  refine ⟨w, e1, h.of_pts e4 (isComplex_mapLists _ _ _) ?_⟩
  rw [e3, pointLists_differencesWithStart]
  congr 1
  cases hl : s.numbers.pointLists with
  | nil =>
    rw [hl] at e5
    simp [differencesWithStart, List.eq_nil_of_length_eq_zero e5]
  | cons x xs =>
    rw [hl] at e5 e6 e7
    cases l' with
    | nil => simp at e5
    | cons y ys =>
      simp only [List.getElem?_cons_zero, Option.some.injEq] at e6
      subst e6
      simp only [differencesWithStart]
      congr 1
      refine eq_differences pointSub _ _ (by simpa using e5) (fun i a b ha hb => ?_)
      simpa using e7 i a b ha hb

theorem sum_filterMap_component (l : List (Cx T)) :
    ((l.map fun c => [c.re, c.im]).filterMap (fun p => p[0]?)).sum = (l.map Cx.re).sum ∧
    ((l.map fun c => [c.re, c.im]).filterMap (fun p => p[1]?)).sum = (l.map Cx.im).sum := by
  constructor <;> congr 1 <;> simp [List.filterMap_map, List.filterMap_eq_map']

theorem step_cumSum (h : v.Shows s) :
    ∃ w, v.apply .cumSum = some w ∧ w.Shows ((Call.cumSum : Call T).meaning s) := by
  obtain ⟨w, l, l', e1, e2, e3, e4, e5, e6⟩ := C11_cum_sum v h.wf
  rw [h.pts] at e2; cases e2
  refine ⟨w, e1, h.of_pts e4 (isComplex_mapLists _ _ _) ?_⟩
  rw [e3]
  congr 1
  have hm := (cells_of_pts e3).1
  have hst : w.stride = s.numbers.width := by rw [stride_congr e4.2.2.1, h.stride]
  rw [hst] at hm
  rw [h.stride] at e6
  cases hN : s.numbers with
  | real xs =>
    rw [hN] at hm e5 e6
    obtain ⟨ys, rfl⟩ := exists_singles l' hm
    simp only [Numbers.mapLists, Numbers.pointLists, List.length_map] at e5 e6 ⊢
    congr 1
    apply List.ext_getElem (by simp [prefixSums, e5])
    intro i h1 h2
    have := e6 i 0 (by omega) (by simp [Numbers.width, Numbers.isComplex])
    simp only [List.getElem?_map, List.getElem?_eq_getElem h1, Option.map_some, Option.bind_some,
      List.getElem?_cons_zero, Option.some.injEq] at this
    rw [this]
    simp [prefixSums, ← List.map_take, List.filterMap_map]
  | complex cs =>
    rw [hN] at hm e5 e6
    obtain ⟨ys, rfl⟩ := exists_pairs l' hm
    simp only [Numbers.mapLists, Numbers.pointLists, List.length_map] at e5 e6 ⊢
    congr 1
    apply List.ext_getElem (by simp [prefixSumsCx, prefixSums, e5])
    intro i h1 h2
    have t0 := e6 i 0 (by omega) (by simp [Numbers.width, Numbers.isComplex])
    have t1 := e6 i 1 (by omega) (by simp [Numbers.width, Numbers.isComplex])
    simp only [List.getElem?_map, List.getElem?_eq_getElem h1, Option.map_some, Option.bind_some,
      List.getElem?_cons_zero, List.getElem?_cons_succ, Option.some.injEq, ← List.map_take] at t0 t1
    rw [(sum_filterMap_component _).1] at t0
    rw [(sum_filterMap_component _).2] at t1
    apply Cx.ext
    · rw [t0]; simp [prefixSumsCx, prefixSums, List.map_take]
    · rw [t1]; simp [prefixSumsCx, prefixSums, List.map_take]

theorem step_rededicate (h : v.Shows s) (ty : VecType) (hs : v.Safe (.rededicate ty)) :
    (v.rededicate ty).Shows ((Call.rededicate ty : Call T).meaning s) := by
  have hx := h.isComplex
  have hd := h.dom
  have hdc : ∀ w : DspVec T, w.data = v.data → w.validLen = v.validLen → w.content = v.content := by
    intro w h1 h2; simp [content, h1, h2]
  by_cases hg : ty = .gen
  · subst hg
    have : v.rededicate .gen = v.rededicateForce .gen := by
      simp [rededicate, rededicateForce, isComplex, NumberSpace.isComplex]
    rw [this]
    refine ⟨(hdc _ rfl rfl).trans h.content, ?_, ?_, h.delta⟩
    · simp [rededicateForce, Call.meaning, hx]
    · simp [rededicateForce, Call.meaning, hd]
  · obtain ⟨h1, h2⟩ := hs.resolve_left hg
    have : v.rededicate ty = v.rededicateForce ty := by simp [rededicate, h1]
    rw [this]
    have hc : (v.rededicateForce ty).content = some s.numbers.flat := by
      rw [← h.content]; cases ty <;> rfl
    have hde : (v.rededicateForce ty).delta = s.delta := by
      rw [← h.delta]; cases ty <;> rfl
    rw [hx] at h1
    rw [hd] at h2
    cases ty <;> first | exact absurd rfl hg | skip
    all_goals
      simp only [rededicateForce, isComplex, NumberSpace.isComplex, dom, Domain.domain] at h1 h2
      refine ⟨hc, ?_, ?_, hde⟩
      · simp only [Call.meaning, Bool.false_eq_true, if_false, ← h1]; rfl
      · simp only [Call.meaning, Bool.false_eq_true, if_false, ← h2]; rfl

omit [Field T] in
theorem shows_complex (h : v.Shows s) (hc : v.isComplex = true) : ∃ cs, s.numbers = .complex cs := by
  rw [h.isComplex] at hc
  cases hN : s.numbers with
  | real xs => rw [hN] at hc; cases hc
  | complex cs => exact ⟨cs, rfl⟩

omit [Field T] in
theorem shows_real (h : v.Shows s) (hc : v.isComplex = false) : ∃ xs, s.numbers = .real xs := by
  rw [h.isComplex] at hc
  cases hN : s.numbers with
  | real xs => exact ⟨xs, rfl⟩
  | complex cs => rw [hN] at hc; cases hc

theorem step_toComplex (h : v.Shows s) (hs : v.Safe .toComplex) :
    ∃ w, v.apply .toComplex = some w ∧ w.Shows ((Call.toComplex : Call T).meaning s) := by
  obtain ⟨hk, hr, hcan⟩ := hs
  obtain ⟨xs, hN⟩ := shows_real h hr
  have hc := h.content
  rw [hN] at hc
  obtain ⟨w, e1, e2⟩ := (C29_to_complex v h.wf hk hr xs hc).1 hcan
  obtain ⟨u, -, z1, -, -, z4⟩ := (C09_zero_interleave v h.wf hk 2 (by omega) (by simp [hr])).2 hcan
  have hw : w = u.asComplex := by
    simp [toComplexVec, hr, z1] at e1
    exact e1.symm
  refine ⟨w, by simp [apply, e1], ?_⟩
  subst hw
  simp only [Call.meaning, hN, Numbers.asCx]
  exact h.asComplex z4.2.2.1 z4.2.1 e2

theorem step_toComplexB (h : v.Shows s) (b : Buffer T) (hs : v.Safe (.toComplexB b)) :
    ∃ w, v.apply (.toComplexB b) = some w ∧ w.Shows ((Call.toComplex : Call T).meaning s) := by
  obtain ⟨hr, hne, hb⟩ := hs
  obtain ⟨xs, hN⟩ := shows_real h hr
  have hc := h.content
  rw [hN] at hc
  have hx : xs ≠ [] := by
    rintro rfl
    have := h.len
    rw [hN] at this
    exact hne this
  obtain ⟨w, b', e1, e2⟩ := C29_to_complex_b v h.wf hr xs hc hx b hb
  obtain ⟨u, b'', -, z1, -, -, z4⟩ := C09_zero_interleave_b v h.wf b 2 (by omega) hb hne
  have hw : w = u.asComplex := by
    simp [toComplexVecB, hr, z1] at e1
    exact e1.1.symm
  refine ⟨w, by simp [apply, e1], ?_⟩
  subst hw
  simp only [Call.meaning, hN, Numbers.asCx]
  exact h.asComplex z4.2.2.1 z4.2.1 e2

theorem step_complexToReal (h : v.Shows s) (op : Cx T → T) (hc : v.isComplex = true) :
    ∃ w, v.apply (.complexToReal op) = some w ∧ w.Shows ((Call.complexToReal op).meaning s) := by
  obtain ⟨cs, hN⟩ := shows_complex h hc
  have hcn := h.content
  rw [hN] at hcn
  obtain ⟨w, e1, e2⟩ := C30_in_place op v hc cs hcn
  have e1' := e1
  unfold toRealWith at e1'
  simp only [hc, Bool.true_eq_false, if_false, Option.bind_eq_bind, Option.bind_eq_some_iff, Option.some.injEq] at e1'
  obtain ⟨cells, -, rfl⟩ := e1'
  refine ⟨_, e1, ?_⟩
  simp only [Call.meaning, hN]
  exact h.asReal (by rfl) (by rfl) e2

theorem asReal_of_toRealBWith {op : Cx T → T} {st : MultiCoreSettings} {b b' : Buffer T} {sched : List Nat}
    {w : DspVec T} (hc : v.isComplex = true) (he : v.toRealBWith op st b sched = .finished (w, b')) :
    ∃ u : DspVec T, w = u.asReal ∧ u.numberSpace = v.numberSpace ∧ u.domain = v.domain := by
  unfold toRealBWith at he
  simp only [hc, Bool.true_eq_false, if_false] at he
  split at he
  · split at he
    · cases he
    · split at he
      · cases he
      · cases he
      · simp only [Outcome.finished.injEq, Prod.mk.injEq] at he
        exact ⟨_, he.1.symm, rfl, rfl⟩
  · cases he

theorem step_complexToRealB (h : v.Shows s) (op : Cx T → T) (b : Buffer T) (st : MultiCoreSettings)
    (sched : List Nat) (hs : v.Safe (.complexToRealB op b st sched)) :
    ∃ w, Always (fun sched => (v.toRealBWith op st b sched).vec) w ∧ w.Shows ((Call.complexToReal op).meaning s) := by
  obtain ⟨hc, hb⟩ := hs
  obtain ⟨cs, hN⟩ := shows_complex h hc
  have hcn := h.content
  rw [hN] at hcn
  have hp := h.points
  rw [hN] at hp
  obtain ⟨w, b', e1, e2⟩ := C30_buffered op st v hc cs hcn b (by rw [← show v.points = cs.length from hp]; exact hb)
  obtain ⟨sc, hsc⟩ := e1.2
  obtain ⟨u, rfl, hu1, hu2⟩ := asReal_of_toRealBWith hc hsc
  refine ⟨_, e1.map (fun sc hr => by simp only [hr]; rfl) (fun sc hr => by simp only [hr]; rfl), ?_⟩
  simp only [Call.meaning, hN]
  exact h.asReal hu1 hu2 e2

theorem step_magnitudeB (h : v.Shows s) (k : RegKind) (addr : Nat) (simdOp : List T → List T) (op : Cx T → T)
    (b : Buffer T) (hs : v.Safe (.magnitudeB k addr simdOp op b)) :
    ∃ w, v.apply (.magnitudeB k addr simdOp op b) = some w ∧ w.Shows ((Call.complexToReal op).meaning s) := by
  obtain ⟨hc, hb, ⟨ha1, ha2⟩, hop⟩ := hs
  obtain ⟨cs, hN⟩ := shows_complex h hc
  have hcn := h.content
  rw [hN] at hcn
  have hp := h.points
  rw [hN] at hp
  obtain ⟨w, b', e1, e2⟩ := C30_magnitude_b_partial k addr simdOp op hop v hc cs hcn b
    (by rw [← show v.points = cs.length from hp]; exact hb) ha1 ha2
  have e1' := e1
  refine ⟨w, by simp [apply, e1], ?_⟩
  unfold magnitudeBWith at e1'
  simp only [hc, Bool.true_eq_false, if_false, Option.bind_eq_bind, Option.bind_eq_some_iff, Option.some.injEq,
    Prod.mk.injEq] at e1'
  obtain ⟨_, -, _, -, _, -, rfl, -⟩ := e1'
  simp only [Call.meaning, hN]
  exact h.asReal (by rfl) (by rfl) e2

theorem step_setComplex {w : DspVec T} (h : v.Shows s) (hc : v.isComplex = true) {cs : List (Cx T)}
    (h1 : ComplexVersion v w cs) (h2 : w.SameMeta v) : w.Shows ((Call.setComplex cs).meaning s) := by
  simp only [Call.meaning]
  exact h.of_content h2 (by rw [← h.isComplex, hc]; rfl) h1.1

theorem step_setRealImag (h : v.Shows s) (re im : DspVec T) (hs : v.Safe (.setRealImag re im)) :
    ∃ w, v.apply (.setRealImag re im) = some w ∧ w.Shows ((VecOp.setRealImag re im).call.meaning s) := by
  obtain ⟨hc, h1, h2, h3⟩ := hs
  have e1 : re.content = some (re.data.cells.take re.validLen) := content_iff.2 ⟨h1.1, rfl⟩
  have e2 : im.content = some (im.data.cells.take im.validLen) := content_iff.2 ⟨h2.1, rfl⟩
  obtain ⟨w, r1, r2, r3, -⟩ := (C04_set_get v re im hc _ _ e1 e2).2 (by
    have := h1.1; have := h2.1; simp only [len] at *; simp; omega)
  refine ⟨w, by simp [apply, r1], ?_⟩
  simp only [VecOp.call, e1, e2, Option.getD_some]
  exact step_setComplex h hc r2 r3

theorem step_setMagPhase (h : v.Shows s) (cart : T → T → Cx T) (m p : DspVec T) (hs : v.Safe (.setMagPhase cart m p)) :
    ∃ w, v.apply (.setMagPhase cart m p) = some w ∧ w.Shows ((VecOp.setMagPhase cart m p).call.meaning s) := by
  obtain ⟨hc, h1, h2, h3⟩ := hs
  have e1 : m.content = some (m.data.cells.take m.validLen) := content_iff.2 ⟨h1.1, rfl⟩
  have e2 : p.content = some (p.data.cells.take p.validLen) := content_iff.2 ⟨h2.1, rfl⟩
  obtain ⟨w, r1, r2, r3, -⟩ := (C46_set_get cart (fun c => (c.re, c.im)) v m p hc _ _ e1 e2).2 (by
    have := h1.1; have := h2.1; simp only [len] at *; simp; omega)
  refine ⟨w, by simp [apply, r1], ?_⟩
  simp only [VecOp.call, e1, e2, Option.getD_some]
  exact step_setComplex h hc r2 r3

/-! merge -/

theorem map_mergeLists {α β : Type} (g : α → β) (lists : List (List α)) :
    (mergeLists lists).map g = mergeLists (lists.map (List.map g)) := by
  simp only [mergeLists, List.map_filterMap, List.map_map, List.length_map]
  have : (List.length ∘ List.map g : List α → Nat) = List.length := by funext l; simp
  rw [this]
  congr 1
  funext i
  simp only [List.getElem?_map, Option.bind_map, Option.map_bind]
  congr 1
  funext l
  simp

theorem eq_mergeLists {α : Type} (lists : List (List α)) (r : Nat) (hne : lists ≠ [])
    (hlen : ∀ l ∈ lists, l.length = r) (L : List α) (hL : L.length = r * lists.length)
    (h : ∀ j l, lists[j]? = some l → ∀ q, q < r → L[q * lists.length + j]? = l[q]?) : mergeLists lists = L := by
  have hk : 0 < lists.length := List.length_pos_iff.2 hne
  have hsum : (lists.map List.length).sum = r * lists.length := by
    rw [List.map_congr_left (g := fun _ => r) hlen]
    simp [Nat.mul_comm]
  unfold mergeLists
  refine eq_filterMap_range L _ _ (by omega) (fun t => ?_)
  have hj : t % lists.length < lists.length := Nat.mod_lt _ hk
  rw [List.getElem?_eq_getElem hj, Option.bind_some]
  by_cases hq : t / lists.length < r
  · rw [← h (t % lists.length) _ (List.getElem?_eq_getElem hj) _ hq, Nat.mul_comm]
    congr 1
    exact (Nat.div_add_mod t lists.length).symm
  · rw [List.getElem?_eq_none, List.getElem?_eq_none]
    · rw [hlen _ (List.getElem_mem hj)]; omega
    · rw [hL]
      have := (Nat.le_div_iff_mul_le hk).1 (Nat.le_of_not_lt hq)
      exact this

omit [Field T] in
theorem pointLists_of_pts (u : DspVec T) {L : List (List T)} (hL : u.pts = some L) :
    (u.isComplex = false → (u.content.getD []).map (fun x => [x]) = L) ∧
    (u.isComplex = true → ((u.content.bind toComplex?).getD []).map (fun c => [c.re, c.im]) = L) := by
  obtain ⟨h1, h2, h3⟩ := (pts_iff u L).mp hL
  have hc : u.content = some L.flatten := content_iff.2 ⟨h1, h2⟩
  constructor
  · intro hr
    obtain ⟨xs, rfl⟩ := exists_singles L (by simpa [stride, hr] using h3)
    rw [hc, flatten_singles]; rfl
  · intro hr
    obtain ⟨cs, rfl⟩ := exists_pairs L (by simpa [stride, hr] using h3)
    rw [hc, flatten_pairs]
    simp

theorem step_merge (h : v.Shows s) (sources : List (DspVec T)) (hs : v.Safe (.merge sources)) :
    ∃ w, v.apply (.merge sources) = some w ∧ w.Shows ((VecOp.merge sources).call.meaning s) := by
  obtain ⟨hk, hne, r, hsrc, hcan, hreal⟩ := hs
  obtain ⟨w, l, e1, e2, e3, e4, e5⟩ := C10_merge_partial v h.wf hk sources hne r hsrc hcan hreal
  refine ⟨w, by simp [apply, e1], ?_⟩
  -- the points of the sources
  have key : ∀ lists : List (List (List T)), lists.length = sources.length →
      (∀ (j : Nat) (u : DspVec T), sources[j]? = some u → ∃ L, lists[j]? = some L ∧ u.pts = some L) → mergeLists lists = l := by
    intro lists hl hj
    have get : ∀ (j : Nat) L, lists[j]? = some L → ∃ u, sources[j]? = some u ∧ u.pts = some L := by
      intro j L hL
      have hlt : j < sources.length := by rw [← hl]; exact (List.getElem?_eq_some_iff.mp hL).1
      obtain ⟨L', h1, h2⟩ := hj j sources[j] (by simp [hlt])
      rw [hL] at h1; cases h1
      exact ⟨_, by simp [hlt], h2⟩
    refine eq_mergeLists lists r (by intro e; apply hne; rw [e] at hl; exact List.eq_nil_of_length_eq_zero hl.symm) ?_ l
      (by rw [e4, hl]) ?_
    · intro L hL
      obtain ⟨j, hj'⟩ := List.mem_iff_getElem?.1 hL
      obtain ⟨u, h1, h2⟩ := get j L hj'
      obtain ⟨-, -, u3⟩ := hsrc u (List.mem_of_getElem? h1)
      rw [← u3, ← (cells_of_pts h2).2.2.2.2]
    · intro j L hL q hq
      obtain ⟨u, h1, h2⟩ := get j L hL
      rw [hl]
      exact e5 j u L h1 h2 q hq
  simp only [VecOp.call, Call.meaning]
  cases hN : s.numbers with
  | real xs =>
    have hr : v.isComplex = false := by rw [h.isComplex, hN]; rfl
    refine h.of_pts e3 (by rw [hN]; rfl) ?_
    rw [e2]
    simp only [Numbers.pointLists, map_mergeLists, List.map_map]
    rw [key _ (by simp)]
    intro j u hu
    obtain ⟨u1, u2, -⟩ := hsrc u (List.mem_of_getElem? hu)
    obtain ⟨L, hL⟩ := u1.exists_pts
    refine ⟨L, ?_, hL⟩
    rw [List.getElem?_map, hu, Option.map_some, ← (pointLists_of_pts u hL).1 (u2.trans hr)]
    rfl
  | complex cs =>
    have hr : v.isComplex = true := by rw [h.isComplex, hN]; rfl
    refine h.of_pts e3 (by rw [hN]; rfl) ?_
    rw [e2]
    simp only [Numbers.pointLists, map_mergeLists, List.map_map]
    rw [key _ (by simp)]
    intro j u hu
    obtain ⟨u1, u2, -⟩ := hsrc u (List.mem_of_getElem? hu)
    obtain ⟨L, hL⟩ := u1.exists_pts
    refine ⟨L, ?_, hL⟩
    rw [List.getElem?_map, hu, Option.map_some, ← (pointLists_of_pts u hL).2 (u2.trans hr)]
    rfl

/-! Operations on every number -/

omit [Field T] in
theorem content_complex_unique {cs ds : List (Cx T)} (h1 : v.content = some (fromComplex cs))
    (h2 : v.content = some (fromComplex ds)) : cs = ds := by
  rw [h1] at h2
  have := congrArg toComplex? (Option.some.inj h2)
  rw [toComplex?_fromComplex, toComplex?_fromComplex] at this
  exact Option.some.inj this

omit [Field T] in
/-- An operation which works on every real number and on every complex number. -/
theorem step_map {run : List Nat → Outcome (DspVec T)} (f : List T → List T) (g : List (Cx T) → List (Cx T))
    (h : v.Shows s)
    (hr : v.isComplex = false → ∀ xs, v.content = some xs → ∃ w, Always run w ∧ Replaced v w (f xs))
    (hc : v.isComplex = true → ∀ cs, v.content = some (fromComplex cs) →
      ∃ w, Always run w ∧ Replaced v w (fromComplex (g cs))) :
    ∃ w, Always run w ∧ w.Shows { s with numbers := s.numbers.mapLists f g } := by
  have hcn := h.content
  have hx := h.isComplex
  cases hN : s.numbers with
  | real xs =>
    rw [hN] at hcn hx
    obtain ⟨w, h1, h2⟩ := hr hx xs hcn
    exact ⟨w, h1, h.of_replaced (by rw [hN]; rfl) h2 rfl⟩
  | complex cs =>
    rw [hN] at hcn hx
    obtain ⟨w, h1, h2⟩ := hc hx cs hcn
    exact ⟨w, h1, h.of_replaced (by rw [hN]; rfl) h2 rfl⟩

omit [Field T] in
theorem addr_real {k : RegKind} {addr : Nat} (hs : AddrSafe v k addr) (hr : v.isComplex = false) :
    AlignmentAccepted addr k.len v.len := by simpa [AddrSafe, hr] using hs

omit [Field T] in
theorem addr_complex {k : RegKind} {addr : Nat} (hs : AddrSafe v k addr) (hr : v.isComplex = true) :
    ComplexAlignmentAccepted addr k.len v.len := by simpa [AddrSafe, hr] using hs

theorem step_offset (h : v.Shows s) (k : RegKind) (addr : Nat) (st : MultiCoreSettings) (x : T)
    (hs : AddrSafe v k addr) :
    ∃ w, Always (v.offset k addr st x) w ∧ w.Shows ((Call.offset x).meaning s) := by
  refine step_map _ _ h (fun hr xs hc => ?_) (fun hr cs hc => ?_)
  · obtain ⟨a, h1, h2, -⟩ := C20_real_vector k addr st x v h.wf hr (addr_real hs hr)
    rw [hc] at h1; cases h1
    exact h2
  · obtain ⟨a, h1, h2, -⟩ := C20_complex_vector k addr st x ⟨0, 0⟩ v h.wf hr (addr_complex hs hr)
    cases content_complex_unique hc h1
    exact h2

theorem step_scale (h : v.Shows s) (k : RegKind) (addr : Nat) (st : MultiCoreSettings) (x : T)
    (hs : AddrSafe v k addr) :
    ∃ w, Always (v.scale k addr st x) w ∧ w.Shows ((Call.scale x).meaning s) := by
  refine step_map _ _ h (fun hr xs hc => ?_) (fun hr cs hc => ?_)
  · obtain ⟨a, h1, -, h2⟩ := C20_real_vector k addr st x v h.wf hr (addr_real hs hr)
    rw [hc] at h1; cases h1
    exact h2
  · obtain ⟨a, h1, -, h2, -⟩ := C20_complex_vector k addr st x ⟨0, 0⟩ v h.wf hr (addr_complex hs hr)
    cases content_complex_unique hc h1
    exact h2

theorem step_offsetComplex (h : v.Shows s) (k : RegKind) (addr : Nat) (st : MultiCoreSettings) (x : Cx T)
    (hx : v.isComplex = true) (hs : AddrSafe v k addr) :
    ∃ w, Always (v.offsetComplex k addr st x) w ∧ w.Shows ((Call.offsetComplex x).meaning s) := by
  refine step_map _ _ h (fun hr xs hc => ?_) (fun hr cs hc => ?_)
  · rw [hx] at hr; cases hr
  · obtain ⟨a, h1, -, -, h2, -⟩ := C20_complex_vector k addr st 0 x v h.wf hr (addr_complex hs hr)
    cases content_complex_unique hc h1
    exact h2

theorem step_scaleComplex (h : v.Shows s) (k : RegKind) (addr : Nat) (st : MultiCoreSettings) (x : Cx T)
    (hx : v.isComplex = true) (hs : AddrSafe v k addr) :
    ∃ w, Always (v.scaleComplex k addr st x) w ∧ w.Shows ((Call.scaleComplex x).meaning s) := by
  refine step_map _ _ h (fun hr xs hc => ?_) (fun hr cs hc => ?_)
  · rw [hx] at hr; cases hr
  · obtain ⟨a, h1, -, -, -, h2⟩ := C20_complex_vector k addr st 0 x v h.wf hr (addr_complex hs hr)
    cases content_complex_unique hc h1
    exact h2

theorem step_mathOp (h : v.Shows s) (lib : MathLib T) (op : MathOp T) (st : MultiCoreSettings)
    (hs : v.len ≠ 0 ∨ determineNumberOfChunks 0 .medium st ≤ 1) :
    ∃ w, Always (v.mathOp lib op st) w ∧ w.Shows ((Call.mathOp lib op).meaning s) := by
  obtain ⟨c1, c2⟩ := C47_math_ops lib op st v h.wf hs
  refine step_map _ _ h (fun hr xs hc => ?_) (fun hr cs hc => ?_)
  · obtain ⟨a, w, h1, h2, h3⟩ := c1 hr
    rw [hc] at h1; cases h1
    exact ⟨w, h2, h3⟩
  · obtain ⟨a, w, h1, h2, h3⟩ := c2 hr
    cases content_complex_unique hc h1
    exact ⟨w, h2, h3⟩

theorem step_sqrt (h : v.Shows s) (lib : MathLib T) (k : RegKind) (addr : Nat) (st : MultiCoreSettings)
    (hs : AddrSafe v k addr) :
    ∃ w, Always (v.sqrt lib k addr st) w ∧ w.Shows ((Call.sqrt lib).meaning s) := by
  refine step_map _ _ h (fun hr xs hc => ?_) (fun hr cs hc => ?_)
  · obtain ⟨a, h1, h2, -⟩ := C47_sqrt_square_abs lib k addr st v h.wf hr (addr_real hs hr)
    rw [hc] at h1; cases h1
    exact h2
  · obtain ⟨⟨a, w, h1, h2, h3⟩, -⟩ := C47_sqrt_square_complex lib k addr st v h.wf hr
    cases content_complex_unique hc h1
    exact ⟨w, h2, h3⟩

theorem step_abs (h : v.Shows s) (lib : MathLib T) (k : RegKind) (addr : Nat) (st : MultiCoreSettings)
    (hl : ∀ x, lib.sqrt (x * x) = lib.abs x) (hx : v.isComplex = false) (hs : AddrSafe v k addr) :
    ∃ w, Always (v.abs lib k addr st) w ∧ w.Shows ((Call.abs lib).meaning s) := by
  refine step_map _ _ h (fun hr xs hc => ?_) (fun hr cs hc => ?_)
  · obtain ⟨a, h1, -, -, h2⟩ := C47_sqrt_square_abs lib k addr st v h.wf hr (addr_real hs hr)
    rw [hc] at h1; cases h1
    exact h2 hl
  · rw [hx] at hr; cases hr

theorem step_conj (h : v.Shows s) (k : RegKind) (addr : Nat) (st : MultiCoreSettings)
    (hx : v.isComplex = true) (hs : AddrSafe v k addr) :
    ∃ w, Always (v.conj k addr st) w ∧ w.Shows ((Call.conj : Call T).meaning s) := by
  refine step_map _ _ h (fun hr xs hc => ?_) (fun hr cs hc => ?_)
  · rw [hx] at hr; cases hr
  · exact C31_conj_partial k addr st v h.wf hr cs hc (addr_complex hs hr)

theorem step_square (h : v.Shows s) (k : RegKind) (addr : Nat) (st : MultiCoreSettings)
    (hs : AddrSafe v k addr) :
    ∃ w, Always (v.square k addr st) w ∧ w.Shows ((Call.square : Call T).meaning s) := by
  have lib : MathLib T := ⟨fun _ x => x, fun _ x => x, id, id, id⟩
  refine step_map _ _ h (fun hr xs hc => ?_) (fun hr cs hc => ?_)
  · obtain ⟨a, h1, -, h2, -⟩ := C47_sqrt_square_abs lib k addr st v h.wf hr (addr_real hs hr)
    rw [hc] at h1; cases h1
    exact h2
  · obtain ⟨-, a, w, h1, h2, h3⟩ := C47_sqrt_square_complex lib k addr st v h.wf hr
    cases content_complex_unique hc h1
    exact ⟨w, h2, h3⟩

theorem step_mapInplace (h : v.Shows s) (f : T → Nat → T) (st : MultiCoreSettings) (hr : v.isComplex = false) :
    ∃ w, Always (v.mapInplace st f) w ∧ w.Shows ((Call.mapReal f).meaning s) := by
  obtain ⟨xs, hN⟩ := shows_real h hr
  have hc := h.content
  rw [hN] at hc
  obtain ⟨w, h1, h2, -, h4, -⟩ := C27_map_inplace_partial st f v h.wf hr xs hc
  refine ⟨w, h1, ?_⟩
  simp only [Call.meaning]
  exact h.of_content h4 (isComplex_mapLists _ _ _) (by rw [h2, hN]; rfl)

theorem step_mapInplaceComplex (h : v.Shows s) (f : Cx T → Nat → Cx T) (st : MultiCoreSettings)
    (hr : v.isComplex = true) (hal : v.allocLen % 2 = 0) :
    ∃ w, Always (v.mapInplaceComplex st f) w ∧ w.Shows ((Call.mapComplex f).meaning s) := by
  obtain ⟨cs, hN⟩ := shows_complex h hr
  have hc := h.content
  rw [hN] at hc
  obtain ⟨w, h1, h2, -, h4⟩ := C27_map_inplace_complex_partial st f v h.wf hr hal cs hc
  refine ⟨w, h1, ?_⟩
  simp only [Call.meaning]
  exact h.of_content h4 (isComplex_mapLists _ _ _) (by rw [h2, hN]; rfl)

/-! Windows -/

theorem fromComplex_weight (f : Nat → T) (cs : List (Cx T)) :
    fromComplex (cs.mapIdx fun i c => ⟨c.re * f i, c.im * f i⟩) =
      (fromComplex cs).mapIdx fun p x => x * f (p / 2) := by
  apply List.ext_getElem?
  intro i
  rcases Nat.even_or_odd' i with ⟨k, rfl | rfl⟩
  · rw [getElem?_fromComplex_even, List.getElem?_mapIdx, List.getElem?_mapIdx, getElem?_fromComplex_even,
      show 2 * k / 2 = k by omega]
    cases cs[k]? <;> rfl
  · rw [getElem?_fromComplex_odd, List.getElem?_mapIdx, List.getElem?_mapIdx, getElem?_fromComplex_odd,
      show (2 * k + 1) / 2 = k by omega]
    cases cs[k]? <;> rfl

theorem shows_windowed {w : DspVec T} {f : Nat → T} (h : v.Shows s) (hw : Windowed v w f) :
    w.Shows { s with numbers := s.numbers.weight f } := by
  obtain ⟨a, h1, h2⟩ := hw
  rw [h.content] at h1
  cases h1
  refine h.of_replaced (by cases s.numbers <;> rfl) h2 ?_
  rw [h.stride]
  cases hN : s.numbers with
  | real xs => simp [Numbers.flat, Numbers.weight, Numbers.width, Numbers.isComplex]
  | complex cs =>
    simp only [Numbers.flat, Numbers.weight, Numbers.width, Numbers.isComplex, if_true]
    exact (fromComplex_weight f cs).symm

theorem windowed_of_safe (hv : v.WF) (st : MultiCoreSettings) (w : WindowFunction T) (hs : WindowSafe v st w) :
    ∃ v', Always (v.applyWindow st w) v' ∧ Windowed v v' (w.window · v.points) := by
  rcases hs with ⟨h1, h2⟩ | ⟨h1, h2, h3, h4⟩
  · exact C16_general_path st w v hv h1 h2
  · exact C16_symmetric_partial st w v hv h1 h2 h3 h4

theorem step_applyWindow (h : v.Shows s) (w : WindowFunction T) (st : MultiCoreSettings) (hs : WindowSafe v st w) :
    ∃ v', Always (v.applyWindow st w) v' ∧ v'.Shows ((Call.applyWindow w).meaning s) := by
  obtain ⟨v', h1, h2⟩ := windowed_of_safe h.wf st w hs
  refine ⟨v', h1, ?_⟩
  simp only [Call.meaning]
  rw [← h.points]
  exact shows_windowed h h2

theorem step_unapplyWindow (h : v.Shows s) (w : WindowFunction T) (st : MultiCoreSettings) (hs : WindowSafe v st w) :
    ∃ v', Always (v.unapplyWindow st w) v' ∧ v'.Shows ((Call.unapplyWindow w).meaning s) := by
  obtain ⟨v', h1, h2⟩ := windowed_of_safe h.wf st ⟨w.isSymmetric, fun i n => 1 / w.window i n⟩ (by
    rcases hs with hs | ⟨a, b, c⟩
    · exact .inl hs
    · exact .inr ⟨a, fun i hi => by show 1 / _ = 1 / _; rw [b i hi], c⟩)
  refine ⟨v', h1, ?_⟩
  simp only [Call.meaning]
  rw [← h.points]
  exact shows_windowed h h2

/-! Transforms -/

theorem cpoints_shows (h : v.Shows s) : v.cpoints = some s.numbers.asCx := by
  unfold cpoints
  rw [h.content, h.isComplex, Option.bind_some]
  cases s.numbers with
  | real xs => rfl
  | complex cs => exact toComplex?_fromComplex cs

theorem shows_transform {K : FftKernel T} {d : DataDomain} {f : List (Cx T) → List (Cx T)} {w : DspVec T} (h : v.Shows s)
    (h1 : w.cpoints = some (f s.numbers.asCx)) (h2 : w.isComplex = true) (h3 : w.dom = d) (h4 : w.Typed)
    (h5 : w.Generic ↔ v.Generic)
    (h6 : w.delta = if K.useRust (2 * v.points) then v.delta.map (fun d => (v.points : T) * d) else v.delta) :
    w.Shows (s.transform K d f) := by
  unfold Signal.transform
  rw [← h.points, ← h.delta, ← h6]
  refine Shows.of_typed h4 (h5.trans h.generic_iff) ?_ h2 h3
  exact (cpoints_complex h2).1 h1

theorem step_plainFft (h : v.Shows s) (K : FftKernel T) (b : Buffer T) (hs : v.Safe (.plainFft K b)) :
    ∃ w, v.apply (.plainFft K b) = some w ∧ w.Shows ((Call.plainFft K).meaning s) := by
  obtain ⟨hd, hK, hb⟩ := hs
  obtain ⟨w, b', cs, e1, e2, e3, e4, e5, e6, e7, e8, -, -, -, e9⟩ := C34_plain_fft K hK v h.wf h.typed hd b hb
  rw [cpoints_shows h] at e2; cases e2
  exact ⟨w, by simp [apply, e1], shows_transform h e3 e5 e6 e7 e8 e9⟩

theorem step_fft (h : v.Shows s) (K : FftKernel T) (b : Buffer T) (hs : v.Safe (.fft K b)) :
    ∃ w, v.apply (.fft K b) = some w ∧ w.Shows ((Call.fft K).meaning s) := by
  obtain ⟨hd, hK, hb⟩ := hs
  obtain ⟨w, b', cs, e1, e2, e3, e4, e5, e6, e7, e8, -, -, e9⟩ := C34_fft K hK v h.wf h.typed hd b hb
  rw [cpoints_shows h] at e2; cases e2
  exact ⟨w, by simp [apply, e1], shows_transform (f := fun cs => rotateRight (K.forward cs) (cs.length / 2)) h e3 e5 e6 e7 e8 e9⟩

omit [Field T] in
theorem not_generic_of_space (hg : ∀ c, v.numberSpace ≠ .realOrComplex c) : ¬ v.Generic := by
  rintro ⟨b, d, h1, -⟩
  exact hg b h1

theorem step_plainIfft (h : v.Shows s) (K : FftKernel T) (b : Buffer T) (hs : v.Safe (.plainIfft K b)) :
    ∃ w, v.apply (.plainIfft K b) = some w ∧ w.Shows ((Call.plainIfft K).meaning s) := by
  obtain ⟨hd, hg, hK, hb⟩ := hs
  obtain ⟨w, b', cs, e1, e2, e3, e4, e5, e6, -, ⟨e7, e8⟩, -, e9⟩ := C34_plain_ifft K hK v h.wf h.typed hd b hb
  rw [cpoints_shows h] at e2; cases e2
  exact ⟨w, by simp [apply, e1], shows_transform h e3 e5 (e6 (not_generic_of_space hg)) e7 e8 e9⟩

theorem step_ifft (h : v.Shows s) (K : FftKernel T) (k : RegKind) (addr : Nat) (st : MultiCoreSettings) (b : Buffer T)
    (sched : List Nat) (hs : v.Safe (.ifft K k addr st b sched)) :
    ∃ w, Always (fun sched => (v.ifft K k addr st b sched).vec) w ∧ w.Shows ((Call.ifft K).meaning s) := by
  obtain ⟨hc, hd, hg, h1, ⟨hK, hb⟩, hal⟩ := hs
  obtain ⟨w, b', cs, e1, e2, e3, e4, e5, ⟨e7, e8⟩, -, e6, -, e9⟩ :=
    C34_ifft K hK k addr st v h.wf h.typed hc hd b hb.2 h1 hal
  rw [cpoints_shows h] at e2; cases e2
  refine ⟨w, e1.map (fun sc hr => by simp only [hr]; rfl) (fun sc hr => by simp only [hr]; rfl), ?_⟩
  have hl : v.points = s.numbers.asCx.length := by
    rw [h.points]; cases s.numbers <;> simp [Numbers.count, Numbers.asCx]
  rw [hl] at e3
  exact shows_transform (f := fun cs => K.inverse (rotateLeft (cs.map (Cx.scaleBy (1 / (cs.length : T)))) (cs.length / 2)))
    h e3 e5 (e6 (not_generic_of_space hg)) e7 e8 e9

theorem step_mirror (h : v.Shows s) (b : Buffer T) (hs : v.Safe (.mirror b)) :
    ∃ w, v.apply (.mirror b) = some w ∧ w.Shows ((Call.mirror : Call T).meaning s) := by
  obtain ⟨hc, hne, hb⟩ := hs
  obtain ⟨cs, hN⟩ := shows_complex h hc
  have hcp := cpoints_shows h
  rw [hN] at hcp
  cases cs with
  | nil =>
    have := h.len
    rw [hN] at this
    exact absurd this hne
  | cons c0 cs =>
    obtain ⟨w, b', e1, e2, e3, -⟩ := C36_mirror v hc c0 cs hcp b hb
    refine ⟨w, by simp [apply, e1], ?_⟩
    simp only [Call.meaning, hN]
    have hwc : w.isComplex = true := by unfold isComplex at *; rw [e3.2.2.1]; exact hc
    exact h.of_content e3 (by rw [hN]; rfl) ((cpoints_complex hwc).1 e2)

end Steps

/-! ### C53 -/

section
variable [Field T]

/-- An operation without workers. -/
theorem always_of_apply {v w : DspVec T} {op : VecOp T}
    (hx : ∀ sched, v.exec (op.withSchedule sched) = .ofOption (v.apply op)) (h : v.apply op = some w) :
    Always (fun sched => v.exec (op.withSchedule sched)) w :=
  (Always.const w).congr fun sched => by rw [hx, h]; rfl

/-- C53: a vector which shows the signal `s`, in a safe environment: the operation does not panic, whatever
    the schedule of its workers; it terminates with some schedule; and whenever it terminates the vector
    shows the signal which the specification names. -/
theorem C53_step (v : DspVec T) (s : Signal T) (op : VecOp T) (h : v.Shows s) (hs : v.Safe op) :
    ∃ w, Always (fun sched => v.exec (op.withSchedule sched)) w ∧ w.Shows (op.call.meaning s) := by
  have plain : ∀ {op : VecOp T} {s' : Signal T},
      (∀ sched, v.exec (op.withSchedule sched) = .ofOption (v.apply op)) →
      (∃ w, v.apply op = some w ∧ w.Shows s') →
      ∃ w, Always (fun sched => v.exec (op.withSchedule sched)) w ∧ w.Shows s' :=
    fun hx ⟨w, h1, h2⟩ => ⟨w, always_of_apply hx h1, h2⟩
  cases op with
  | resize n => exact plain (fun _ => rfl) ⟨_, rfl, step_resize h n hs⟩
  | resizeB b n => exact plain (fun _ => rfl) (step_resizeB h b n hs)
  | zeroPad p o => exact plain (fun _ => rfl) (step_zeroPad h p o hs)
  | zeroPadB b p o => exact plain (fun _ => rfl) (step_zeroPadB h b p o hs)
  | zeroInterleave f => exact plain (fun _ => rfl) (step_zeroInterleave h f hs)
  | zeroInterleaveB b f => exact plain (fun _ => rfl) (step_zeroInterleaveB h b f hs)
  | reverse => exact plain (fun _ => rfl) (step_reverse h)
  | swapHalves => exact plain (fun _ => rfl) (step_swapHalves h)
  | fftShift => exact plain (fun _ => rfl) (step_fftShift h)
  | ifftShift => exact plain (fun _ => rfl) (step_ifftShift h hs)
  | diff => exact plain (fun _ => rfl) (step_diff h hs)
  | diffWithStart => exact plain (fun _ => rfl) (step_diffWithStart h hs)
  | cumSum => exact plain (fun _ => rfl) (step_cumSum h)
  | decimatei k d => exact plain (fun _ => rfl) (step_decimatei h k d hs)
  | rededicate ty => exact plain (fun _ => rfl) ⟨_, rfl, step_rededicate h ty hs⟩
  | toComplex => exact plain (fun _ => rfl) (step_toComplex h hs)
  | toComplexB b => exact plain (fun _ => rfl) (step_toComplexB h b hs)
  | complexToReal op => exact plain (fun _ => rfl) (step_complexToReal h op hs)
  | complexToRealB op b st sched => exact step_complexToRealB h op b st sched hs
  | magnitudeB k addr simdOp op b => exact plain (fun _ => rfl) (step_magnitudeB h k addr simdOp op b hs)
  | setRealImag re im => exact plain (fun _ => rfl) (step_setRealImag h re im hs)
  | setMagPhase cart m p => exact plain (fun _ => rfl) (step_setMagPhase h cart m p hs)
  | merge sources => exact plain (fun _ => rfl) (step_merge h sources hs)
  | offset k addr st x _ => exact step_offset h k addr st x hs
  | offsetComplex k addr st x _ => exact step_offsetComplex h k addr st x hs.1 hs.2
  | scale k addr st x _ => exact step_scale h k addr st x hs
  | scaleComplex k addr st x _ => exact step_scaleComplex h k addr st x hs.1 hs.2
  | mathOp lib op st _ => exact step_mathOp h lib op st hs
  | sqrt lib k addr st _ => exact step_sqrt h lib k addr st hs
  | square k addr st _ => exact step_square h k addr st hs
  | abs lib k addr st _ => exact step_abs h lib k addr st hs.1 hs.2.1 hs.2.2
  | conj k addr st _ => exact step_conj h k addr st hs.1 hs.2
  | mapInplace f st _ => exact step_mapInplace h f st hs
  | mapInplaceComplex f st _ => exact step_mapInplaceComplex h f st hs.1 hs.2
  | applyWindow w st _ => exact step_applyWindow h w st hs
  | unapplyWindow w st _ => exact step_unapplyWindow h w st hs
  | plainFft K b => exact plain (fun _ => rfl) (step_plainFft h K b hs)
  | fft K b => exact plain (fun _ => rfl) (step_fft h K b hs)
  | plainIfft K b => exact plain (fun _ => rfl) (step_plainIfft h K b hs)
  | ifft K k addr st b sched => exact step_ifft h K k addr st b sched hs
  | mirror b => exact plain (fun _ => rfl) (step_mirror h b hs)
  | plainSfft K b => exact hs.elim
  | sfft K b => exact hs.elim
  | plainSifft tiny K st b sched => exact hs.elim

omit [Field T] in
/-- Every operation has some schedule. -/
theorem VecOp.exists_withSchedule (op : VecOp T) : ∃ sched, op.withSchedule sched = op := by
  cases op <;> first | exact ⟨_, rfl⟩ | exact ⟨[], rfl⟩

omit [Field T] in
/-- What a user can observe determines the signal. -/
theorem DspVec.Shows.unique {v : DspVec T} {s s' : Signal T} (h : v.Shows s) (h' : v.Shows s') : s = s' := by
  have h1 : s.numbers = s'.numbers := Numbers.flat_inj (by rw [← h.isComplex, ← h'.isComplex])
    (Option.some.inj (h.content.symm.trans h'.content))
  have h2 : s.dom = s'.dom := by rw [← h.dom, ← h'.dom]
  have h3 : s.generic = s'.generic := by
    rw [Bool.eq_iff_iff, ← h.generic_iff, ← h'.generic_iff]
  have h4 : s.delta = s'.delta := by rw [← h.delta, ← h'.delta]
  cases s; cases s'; simp only at h1 h2 h3 h4; subst h1 h2 h3 h4; rfl

omit [Field T] in
/-- Every well formed vector of one of the types of the library shows a signal. -/
theorem DspVec.WF.shows {v : DspVec T} (h : v.WF) (ht : v.Typed) : ∃ s, v.Shows s := by
  obtain ⟨L, hL⟩ := h.exists_pts
  obtain ⟨h1, h2, h3⟩ := (pts_iff v L).mp hL
  obtain ⟨N, hN, rfl⟩ := Numbers.exists_of_pointLists v.isComplex L (by
    intro p hp; rw [h3 p hp]; rfl)
  have hc : v.content = some N.flat := content_iff.2 ⟨h1, by rw [h2, Numbers.flatten_pointLists]⟩
  by_cases hg : v.Generic
  · exact ⟨_, Shows.of_typed (g := true) ht (by simp [hg]) hc hN.symm rfl⟩
  · exact ⟨_, Shows.of_typed (g := false) ht (by simp [hg]) hc hN.symm rfl⟩

/-- C53: a history of operations. The vector shows the signal `s` at the beginning and every
    environment is safe: no operation panics, and if all workers terminated the vector shows the
    signal which the calls mean: the environment has no influence. -/
theorem C53_history (v : DspVec T) (s : Signal T) (ops : List (VecOp T)) (h : v.Shows s) (hs : v.SafeAll ops) :
    v.execAll ops = .running ∨
      ∃ w, v.execAll ops = .finished w ∧ w.Shows (s.after (ops.map VecOp.call)) := by
  induction ops generalizing v s with
  | nil => exact .inr ⟨v, rfl, h⟩
  | cons op ops ih =>
    obtain ⟨hs1, hs2⟩ := hs
    obtain ⟨w, ⟨ha, -⟩, hw⟩ := C53_step v s op h hs1
    obtain ⟨sched, hsch⟩ := op.exists_withSchedule
    have ha := ha sched
    simp only [hsch] at ha
    rcases ha with hr | hf
    · left; simp only [execAll, hr]; rfl
    · have := ih w _ hw (hs2 w hf)
      simp only [execAll, hf]
      exact this

/-- C53: with suitable schedules a history terminates. `ops'` differs from `ops` in schedules only. -/
theorem C53_history_terminates (v : DspVec T) (s : Signal T) (ops : List (VecOp T)) (h : v.Shows s)
    (hs : ∀ scheds : List (List Nat), scheds.length = ops.length → v.SafeAll (List.zipWith VecOp.withSchedule ops scheds)) :
    ∃ scheds w, scheds.length = ops.length ∧
      v.execAll (List.zipWith VecOp.withSchedule ops scheds) = .finished w ∧
      w.Shows (s.after (ops.map VecOp.call)) := by
  have hcall : ∀ (op : VecOp T) sc, (op.withSchedule sc).call = op.call := by
    intro op sc; cases op <;> rfl
  have htwice : ∀ (op : VecOp T) sc sc', (op.withSchedule sc).withSchedule sc' = op.withSchedule sc' := by
    intro op sc sc'; cases op <;> rfl
  induction ops generalizing v s with
  | nil => exact ⟨[], v, rfl, rfl, h⟩
  | cons op ops ih =>
    have hs0 := (hs (List.replicate (ops.length + 1) []) (by simp)).1
    obtain ⟨w, ⟨-, sc, hsc⟩, hw⟩ := C53_step v s _ h hs0
    simp only [htwice] at hsc
    rw [hcall] at hw
    obtain ⟨scheds, u, h1, h2, h3⟩ := ih w _ hw (fun scheds hl =>
      (hs (sc :: scheds) (by simp [hl])).2 w hsc)
    refine ⟨sc :: scheds, u, by simp [h1], ?_, h3⟩
    simp only [List.zipWith_cons_cons, execAll, hsc]
    exact h2

/-- C53: two vectors which show the same signal (in storages of any kind and size, with any unused
    contents) and two histories which consist of the same calls (with any buffers, settings of the workers,
    registers, addresses and schedules) in safe environments: a user can not tell the results apart. -/
theorem C53_environment (v v' w w' : DspVec T) (s : Signal T) (ops ops' : List (VecOp T))
    (h : v.Shows s) (h' : v'.Shows s) (hs : v.SafeAll ops) (hs' : v'.SafeAll ops')
    (hc : ops.map VecOp.call = ops'.map VecOp.call) (hw : v.execAll ops = .finished w)
    (hw' : v'.execAll ops' = .finished w') :
    w.content = w'.content ∧ w.len = w'.len ∧ w.points = w'.points ∧ w.isComplex = w'.isComplex ∧
      w.dom = w'.dom ∧ w.delta = w'.delta := by
  have key : ∀ {v w : DspVec T} {ops : List (VecOp T)}, v.Shows s → v.SafeAll ops → v.execAll ops = .finished w →
      w.Shows (s.after (ops.map VecOp.call)) := by
    intro v w ops h hs hw
    rcases C53_history v s ops h hs with hr | ⟨u, hu, hsh⟩
    · rw [hw] at hr; cases hr
    · rw [hw] at hu; cases hu; exact hsh
  have a := key h hs hw
  have b := key h' hs' hw'
  rw [hc] at a
  exact ⟨a.content.trans b.content.symm, a.len.trans b.len.symm, a.points.trans b.points.symm,
    a.isComplex.trans b.isComplex.symm, a.dom.trans b.dom.symm, a.delta.trans b.delta.symm⟩

/-- C43 (partial: the environments of `DspVec.Safe`): the kind and the contents of a buffer have no
    influence, and neither has the choice between the version with a buffer and the one without. -/
theorem C43_buffers_transparent_partial (v w w' : DspVec T) (hv : v.WF) (ht : v.Typed) (op op' : VecOp T)
    (hs : v.Safe op) (hs' : v.Safe op') (hc : op.call = op'.call) (hw : v.exec op = .finished w)
    (hw' : v.exec op' = .finished w') :
    w.content = w'.content ∧ w.len = w'.len ∧ w.points = w'.points ∧ w.isComplex = w'.isComplex ∧
      w.dom = w'.dom ∧ w.delta = w'.delta := by
  obtain ⟨s, h⟩ := hv.shows ht
  refine C53_environment v v w w' s [op] [op'] h h ⟨hs, fun _ _ => trivial⟩ ⟨hs', fun _ _ => trivial⟩ (by simp [hc]) ?_ ?_
  · simp only [execAll, hw]; rfl
  · simp only [execAll, hw']; rfl

/-- C51 (partial: the environments of `DspVec.Safe`, the rest panics, see the theorems whose names begin
    with `C51_`): no operation of a history panics. -/
theorem C51_no_panic_partial (v : DspVec T) (hv : v.WF) (ht : v.Typed) (ops : List (VecOp T)) (hs : v.SafeAll ops) :
    v.execAll ops ≠ .panic := by
  obtain ⟨s, h⟩ := hv.shows ht
  rcases C53_history v s ops h hs with hr | ⟨w, hw, -⟩
  · rw [hr]; simp
  · rw [hw]; simp

/-- C52 (partial: the environments of `DspVec.Safe`): the unused part of the storage, its size and its
    kind have no influence on what a history computes. -/
theorem C52_unused_storage_partial (v v' w w' : DspVec T) (hv : v.WF) (ht : v.Typed)
    (h1 : v'.content = v.content) (h2 : v'.numberSpace = v.numberSpace) (h3 : v'.domain = v.domain)
    (h4 : v'.delta = v.delta) (ops : List (VecOp T)) (hs : v.SafeAll ops) (hs' : v'.SafeAll ops)
    (hw : v.execAll ops = .finished w) (hw' : v'.execAll ops = .finished w') :
    w.content = w'.content ∧ w.len = w'.len ∧ w.points = w'.points ∧ w.isComplex = w'.isComplex ∧
      w.dom = w'.dom ∧ w.delta = w'.delta := by
  obtain ⟨s, h⟩ := hv.shows ht
  exact C53_environment v v' w w' s ops ops h
    ⟨h1.trans h.content, h2.trans h.space, h3.trans h.domain, h4.trans h.delta⟩ hs hs' rfl hw hw'

end

/-! ### Non-vacuity -/

/-- A vector with unused storage. -/
def histVec : DspVec ℚ := ⟨⟨.vec, [1, 2, 3, 70]⟩, some 1, .time, .real, 3⟩
/-- The same numbers in a storage of another kind. -/
def histVec' : DspVec ℚ := ⟨⟨.arrayVec 20, [1, 2, 3]⟩, some 1, .time, .real, 3⟩
/-- The signal of both. -/
def histSignal : Signal ℚ := ⟨.real [1, 2, 3], .time, false, some 1⟩
/-- A history with buffers. -/
def histOps : List (VecOp ℚ) :=
  [.reverse, .zeroPadB (.single [9]) 6 .surround, .offset .sseF32x4 0 ⟨1, 0, 0, 0, 0⟩ 5 [],
    .toComplexB .noBuffer, .mirror .noBuffer]
/-- The same calls in another environment. -/
def histOps' : List (VecOp ℚ) :=
  [.reverse, .zeroPad 6 .surround, .offset .avxF64x4 2 ⟨4, 0, 0, 0, 0⟩ 5 [1, 2, 3], .toComplex, .mirror (.single [])]

example : histVec.Shows histSignal ∧ histVec'.Shows histSignal ∧ histVec.WF ∧ histVec.Typed ∧
    histVec'.content = histVec.content :=
  ⟨⟨rfl, rfl, rfl, rfl⟩, ⟨rfl, rfl, rfl, rfl⟩, ⟨by decide, by decide⟩, .inr ⟨.inl rfl, .inl rfl⟩, rfl⟩

theorem histOps_safe : histVec.SafeAll histOps := by
  refine ⟨trivial, fun w hw => ?_⟩
  cases hw
  refine ⟨.inr ⟨trivial, .inr ⟨rfl, rfl⟩⟩, fun w hw => ?_⟩
  cases hw
  refine ⟨?_, fun w hw => ?_⟩
  · show AlignmentAccepted _ _ _
    left; decide
  cases hw
  refine ⟨⟨rfl, by decide, trivial⟩, fun w hw => ?_⟩
  cases hw
  refine ⟨⟨rfl, by decide, trivial⟩, fun w hw => trivial⟩

theorem histOps'_safe : histVec'.SafeAll histOps' := by
  refine ⟨trivial, fun w hw => ?_⟩
  cases hw
  refine ⟨⟨(fun c h => by cases h), .inr (.inr (Nat.le.intro (k := 14) rfl : (6 : Nat) ≤ 20))⟩, fun w hw => ?_⟩
  cases hw
  refine ⟨?_, fun w hw => ?_⟩
  · show AlignmentAccepted _ _ _
    left; decide
  cases hw
  refine ⟨⟨(fun c h => by cases h), rfl, .inr (Nat.le.intro (k := 8) rfl : (12 : Nat) ≤ 20)⟩, fun w hw => ?_⟩
  cases hw
  refine ⟨⟨rfl, by decide, trivial⟩, fun w hw => trivial⟩

example : histOps.map VecOp.call = histOps'.map VecOp.call := rfl
example : (histSignal.after ((histOps.take 2).map VecOp.call)).numbers = .real [0, 0, 3, 2, 1, 0] := rfl
example : ∃ w, histVec.execAll histOps = .finished w := ⟨_, rfl⟩
end Dsp
