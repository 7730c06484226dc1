import Mathlib.Tactic.IntervalCases
import Verif.Props.SplitMerge

/-! C10: exactly when `split_into` and `merge` of real vectors work, and what happens otherwise. -/

namespace Dsp
open DspVec
variable {T : Type}

theorem forRange_append {S : Type} (f : Nat → S → Option S) (a b start : Nat) (s : S) :
    forRange start (a + b) f s = (forRange start a f s).bind (forRange (start + a) b f) := by
  induction a generalizing start s with
  | zero => simp [forRange]
  | succ a ih =>
    have e : a + 1 + b = (a + b) + 1 := by omega
    rw [e]
    simp only [forRange]
    cases f start s with
    | none => rfl
    | some s' =>
      simp only [Option.bind_some]
      rw [ih (start + 1) s']
      congr 2; omega

/-- A loop panics if one of its rounds panics in each state which can be reached. -/
theorem forRange_none {S : Type} (P : S → Prop) (f : Nat → S → Option S) (n start : Nat) (s : S) (hs : P s)
    (hkeep : ∀ i s s', P s → f i s = some s' → P s') (i : Nat) (h1 : start ≤ i) (h2 : i < start + n)
    (hbad : ∀ s, P s → f i s = none) : forRange start n f s = none := by
  induction n generalizing start s with
  | zero => omega
  | succ n ih =>
    simp only [forRange]
    by_cases he : i = start
    · subst he; rw [hbad s hs]; rfl
    · cases hf : f start s with
      | none => rfl
      | some s' =>
        rw [Option.bind_some]
        exact ih (start + 1) s' (hkeep _ _ _ hs hf) (by omega) (by omega)

/-- The storage of every target (after it was resized to `r` numbers) has a cell for each cell of the storage of
    the vector which `split_into` sends to it. -/
def SplitFits (v : DspVec T) (targets : List (DspVec T)) (r : Nat) : Prop :=
  ∀ i, i < v.allocLen → ∀ t, targets[i % targets.length]? = some t → i / targets.length < max r t.allocLen

theorem resizeAll_alloc [Zero T] (n : Nat) (ts ts' : List (DspVec T))
    (h : ∀ t ∈ ts, t.WF ∧ NotInline t.data.kind ∧ CanHold t.data n ∧ ¬ (t.isComplex = true ∧ n % 2 = 1))
    (hr : resizeAll n ts = (ts', .ok ())) :
    ∀ (j : Nat) (t t' : DspVec T), ts[j]? = some t → ts'[j]? = some t' → t'.allocLen = max n t.allocLen := by
  induction ts generalizing ts' with
  | nil => simp
  | cons t ts ih =>
    obtain ⟨a, b, c, d⟩ := h t (by simp)
    obtain ⟨t1, e1, e2, e3, e4, -, e6⟩ := (C02_resize t a b n).2.2 d c
    rw [resizeAll, e1] at hr
    simp only [Prod.mk.injEq] at hr
    obtain ⟨rfl, hr2⟩ := hr
    intro j u u' hu hu'
    cases j with
    | zero =>
      simp only [List.getElem?_cons_zero, Option.some.injEq] at hu hu'
      subst hu hu'
      unfold allocLen
      rw [e6]; simp; omega
    | succ j =>
      simp only [List.getElem?_cons_succ] at hu hu'
      exact ih _ (fun t ht => h t (by simp [ht])) (Prod.ext rfl hr2) j u u' hu hu'

/-- One round of the loop of `split_into` for real vectors. -/
def splitRound (data : List T) (k i : Nat) (ts : List (DspVec T)) : Option (List (DspVec T)) := do
  let x ← get data i
  putTarget ts (i % k) (i / k) x

theorem splitInto_real [Zero T] (v : DspVec T) (hc : v.isComplex = false) (targets ts : List (DspVec T)) (r : Nat)
    (hk : targets ≠ []) (hr : v.len = r * targets.length) (hres : resizeAll r targets = (ts, .ok ())) :
    v.splitInto targets = (forRange 0 v.data.cells.length (splitRound v.data.cells targets.length) ts).bind
      fun ts => some (ts, .ok ()) := by
  have hkpos : 0 < targets.length := List.length_pos_iff.mpr hk
  have hcond : ¬ ((targets.length == 0 || v.len % targets.length != 0) = true) := by
    rw [hr]; simp; exact hk
  have hdiv : v.len / targets.length = r := by rw [hr, Nat.mul_div_cancel _ hkpos]
  simp only [splitInto, if_neg hcond, hdiv, hres, hc, Bool.false_eq_true, if_false]
  rfl

theorem putTarget_none (ts : List (DspVec T)) (j p : Nat) (x : T)
    (h : ∀ t, ts[j]? = some t → t.data.cells.length ≤ p) : putTarget ts j p x = none := by
  unfold putTarget get
  cases ht : ts[j]? with
  | none => rfl
  | some t =>
    have : ¬ p < t.data.cells.length := by have := h t ht; omega
    simp [put, this]

/-- C10, `split_into` of a real vector with `r * k` numbers into `k` targets, without a condition on the storages:
    it gives the right points **if and only if** the storages of the targets have a cell for each cell of the
    storage of the vector (unused ones too); otherwise it panics. -/
theorem C10_split_exact [Zero T] (v : DspVec T) (h : v.WF) (hc : v.isComplex = false) (targets : List (DspVec T))
    (hk : targets ≠ []) (r : Nat) (hr : v.points = r * targets.length)
    (ht : ∀ t ∈ targets, t.WF ∧ NotInline t.data.kind ∧ t.isComplex = false ∧ CanHold t.data r) :
    (SplitFits v targets r →
      ∃ ts' l, v.splitInto targets = some (ts', .ok ()) ∧ v.pts = some l ∧
        ts'.length = targets.length ∧
        ∀ j (t' : DspVec T), ts'[j]? = some t' →
          (∃ l', t'.pts = some l' ∧ l'.length = r ∧
            ∀ q, q < r → l'[q]? = l[q * targets.length + j]?) ∧
          ∀ t, targets[j]? = some t → t'.SameMeta t) ∧
    (¬ SplitFits v targets r → v.splitInto targets = none) := by
  have hkpos : 0 < targets.length := List.length_pos_iff.mpr hk
  have hst : v.stride = 1 := by simp [stride, hc]
  have hlen : v.validLen = r * targets.length := by
    rw [← hr]; simp [points, hc]
  have hle : r * targets.length ≤ v.data.cells.length := by rw [← hlen]; exact h.1
  have ht' : ∀ t ∈ targets, t.WF ∧ NotInline t.data.kind ∧ CanHold t.data r ∧ ¬ (t.isComplex = true ∧ r % 2 = 1) :=
    fun t htm => ⟨(ht t htm).1, (ht t htm).2.1, (ht t htm).2.2.2, by simp [(ht t htm).2.2.1]⟩
  obtain ⟨ts0, r1, r2, r3⟩ := resizeAll_ok r targets ht'
  have ralloc := resizeAll_alloc r targets ts0 ht' r1
  have hsplit := splitInto_real v hc targets ts0 r hk hlen r1
  have htarget : ∀ (i : Nat) (ts : List (DspVec T)), SameShape ts0 ts → ∃ t u, ts[i % targets.length]? = some t ∧
      targets[i % targets.length]? = some u ∧ t.data.cells.length = max r u.allocLen := by
    intro i ts hs
    have hj : i % targets.length < targets.length := Nat.mod_lt _ hkpos
    have hj2 : i % targets.length < ts.length := by rw [hs.1]; omega
    have hj3 : i % targets.length < ts0.length := by omega
    refine ⟨ts[i % targets.length], targets[i % targets.length], by simp [hj2], by simp [hj], ?_⟩
    have e1 := (hs.2 (i % targets.length) ts0[i % targets.length] ts[i % targets.length] (by simp [hj3]) (by simp [hj2])).2.2
    rw [e1]
    exact ralloc (i % targets.length) _ _ (List.getElem?_eq_getElem hj) (List.getElem?_eq_getElem hj3)
  refine ⟨fun hfits => ?_, fun hbad => ?_⟩
  · -- the vector without its unused cells
    set v0 : DspVec T := v.withCells (v.data.cells.take v.validLen) with hv0
    have h0 : v0.WF := ⟨by
      show v.validLen ≤ (v.data.cells.take v.validLen).length
      rw [List.length_take]; have := h.1; omega, fun hcc => by
      have : v.isComplex = true := hcc
      rw [hc] at this; cases this⟩
    obtain ⟨ts1, l, a1, a2, a3, a4⟩ := C10_split_partial v0 h0 targets hk r hr
      (fun _ => by
        show (v.data.cells.take v.validLen).length = v.validLen
        rw [List.length_take]; have := h.1; omega)
      (fun t htm => ⟨(ht t htm).1, (ht t htm).2.1, by rw [(ht t htm).2.2.1]; exact hc.symm, by
        have : v0.stride = 1 := hst
        rw [this, Nat.mul_one]; exact (ht t htm).2.2.2⟩)
    have hsplit0 := splitInto_real v0 hc targets ts0 r hk hlen r1
    have hl0 : v0.data.cells.length = r * targets.length := by
      show (v.data.cells.take v.validLen).length = _
      rw [List.length_take]; omega
    rw [a1, hl0] at hsplit0
    cases hf : forRange 0 (r * targets.length) (splitRound v0.data.cells targets.length) ts0 with
    | none => rw [hf] at hsplit0; cases hsplit0
    | some tsr =>
      rw [hf, Option.bind_some] at hsplit0
      obtain rfl : ts1 = tsr := (Prod.mk.inj (Option.some.inj hsplit0)).1
      have hpts : v.pts = v0.pts := by
        have hc0 : v0.isComplex = false := hc
        have hd0 : v0.data.cells = v.data.cells.take v.validLen := rfl
        have hn0 : v0.validLen = v.validLen := rfl
        have hle0 := h0.1
        rw [hn0] at hle0
        simp only [pts, hc, hc0, hn0, Bool.false_eq_true, if_false]
        rw [if_pos h.1, if_pos hle0, hd0, List.take_take, Nat.min_self]
      -- the first rounds do the same
      have hsame : forRange 0 (r * targets.length) (splitRound v.data.cells targets.length) ts0 = some ts1 := by
        rw [← hf]
        have key : ∀ n start s, start + n ≤ r * targets.length →
            forRange start n (splitRound v.data.cells targets.length) s =
              forRange start n (splitRound v0.data.cells targets.length) s := by
          intro n
          induction n with
          | zero => intros; rfl
          | succ n ih =>
            intro start s hle'
            have e : splitRound v.data.cells targets.length start s = splitRound v0.data.cells targets.length start s := by
              unfold splitRound get
              show _ = (do
                let x ← (v.data.cells.take v.validLen)[start]?
                putTarget s (start % targets.length) (start / targets.length) x)
              rw [List.getElem?_take, if_pos (by omega)]
            simp only [forRange, e]
            congr 1
            funext s'
            exact ih (start + 1) s' (by omega)
        exact key _ 0 ts0 (by omega)
      have hshape1 : SameShape ts0 ts1 := by
        obtain ⟨x, x1, x2⟩ := forRange_inv (fun _ ts => SameShape ts0 ts) (splitRound v.data.cells targets.length) 0
          (r * targets.length) ts0 (SameShape.refl _) (by
            intro i ts _ hi hs
            obtain ⟨t, u, t1, t2, t3⟩ := htarget i ts hs
            have hq : i / targets.length < r := by rw [Nat.div_lt_iff_lt_mul hkpos]; omega
            have hi' : i < v.data.cells.length := by omega
            obtain ⟨ts', p1, p2, _⟩ := putTarget_ok ts (i % targets.length) (i / targets.length) v.data.cells[i] t t1
              (by rw [t3]; omega)
            exact ⟨ts', by simp [splitRound, get_eq hi', p1], hs.trans p2⟩)
        rw [hsame] at x1
        rw [Option.some.inj x1]; exact x2
      -- the other rounds do not touch the points
      obtain ⟨ts2, b1, b2, b3⟩ := forRange_inv (fun _ ts => SameShape ts0 ts ∧
          ∀ j p, p < r → cellAt ts j p = cellAt ts1 j p) (splitRound v.data.cells targets.length)
        (r * targets.length) (v.data.cells.length - r * targets.length) ts1 ⟨hshape1, fun _ _ _ => rfl⟩ (by
          rintro i ts hi1 hi2 ⟨hs, hcell⟩
          obtain ⟨t, u, t1, t2, t3⟩ := htarget i ts hs
          have hi' : i < v.data.cells.length := by omega
          have hq : r ≤ i / targets.length := (Nat.le_div_iff_mul_le hkpos).mpr hi1
          obtain ⟨ts', p1, p2, p3⟩ := putTarget_ok ts (i % targets.length) (i / targets.length) v.data.cells[i] t t1
            (by rw [t3]; exact hfits i hi' u t2)
          refine ⟨ts', by simp [splitRound, get_eq hi', p1], hs.trans p2, fun j p hp => ?_⟩
          rw [p3, if_neg (by omega)]
          exact hcell j p hp)
      refine ⟨ts2, l, ?_, by rw [hpts]; exact a2, by rw [b2.1, r2], fun j t' htj => ?_⟩
      · have e : v.data.cells.length = r * targets.length + (v.data.cells.length - r * targets.length) := by omega
        rw [hsplit, e, forRange_append, hsame, Option.bind_some, Nat.zero_add, b1, Option.bind_some]
      · have hj : j < ts2.length := (List.getElem?_eq_some_iff.mp htj).1
        have hj1 : j < ts1.length := by rw [a3]; rw [b2.1, r2] at hj; exact hj
        have hj0 : j < ts0.length := by rw [b2.1] at hj; exact hj
        obtain ⟨⟨l', c1, c2, c3⟩, c4⟩ := a4 j ts1[j] (by simp [hj1])
        obtain ⟨⟨m1, m2, m3, m4⟩, m5, m6⟩ := b2.2 j ts0[j] t' (by simp [hj0]) htj
        obtain ⟨⟨n1, n2, n3, n4⟩, n5, n6⟩ := hshape1.2 j ts0[j] ts1[j] (by simp [hj0]) (by simp [hj1])
        have hjt : j < targets.length := by omega
        have hu := ht targets[j] (List.getElem_mem hjt)
        obtain ⟨⟨o1, o2, o3, o4⟩, o5, o6⟩ := r3 j targets[j] ts0[j] (by simp [hjt]) (by simp [hj0])
        have hreal1 : ts1[j].isComplex = false := by
          rw [← hu.2.2.1]; unfold isComplex; rw [n3, o3]
        have hreal2 : t'.isComplex = false := by
          rw [← hu.2.2.1]; unfold isComplex; rw [m3, o3]
        refine ⟨⟨l', ?_, c2, c3⟩, fun t htt => ?_⟩
        · rw [← c1]
          have hv : t'.validLen = r := by rw [m5, o5]
          have hv1 : ts1[j].validLen = r := by rw [n5, o5]
          have ht1 : t'.data.cells.take r = ts1[j].data.cells.take r := by
            apply List.ext_getElem?
            intro p
            rw [List.getElem?_take, List.getElem?_take]
            by_cases hp : p < r
            · rw [if_pos hp, if_pos hp]
              have := b3 j p hp
              simpa [cellAt, htj, hj1] using this
            · rw [if_neg hp, if_neg hp]
          simp only [pts, hreal1, hreal2, hv, hv1, m6, n6, ht1]
        · obtain ⟨q1, q2, q3, q4⟩ := c4 t htt
          exact ⟨(m1.trans n1.symm).trans q1, (m2.trans n2.symm).trans q2, (m3.trans n3.symm).trans q3,
            (m4.trans n4.symm).trans q4⟩
  · unfold SplitFits at hbad
    push Not at hbad
    obtain ⟨i, hi, t, hti, hbad⟩ := hbad
    rw [hsplit, forRange_none (SameShape ts0) (splitRound v.data.cells targets.length) v.data.cells.length 0 ts0
      (SameShape.refl _) ?_ i (by omega) (by rw [Nat.zero_add]; exact hi) ?_]
    · rfl
    · intro i s s' hs hf
      unfold splitRound at hf
      cases hg : get v.data.cells i with
      | none => rw [hg] at hf; cases hf
      | some x =>
        rw [hg] at hf
        simp only [Option.bind_eq_bind, Option.bind_some] at hf
        obtain ⟨t, u, t1, t2, t3⟩ := htarget i s hs
        by_cases hp : i / targets.length < t.data.cells.length
        · obtain ⟨s2, p1, p2, _⟩ := putTarget_ok s (i % targets.length) (i / targets.length) x t t1 hp
          rw [hf] at p1
          rw [Option.some.inj p1]; exact hs.trans p2
        · rw [putTarget_none s _ _ x (by intro t' h'; rw [t1] at h'; obtain rfl := Option.some.inj h'; omega)] at hf
          cases hf
    · intro s hs
      obtain ⟨t2, u, e1, e2, e3⟩ := htarget i s hs
      rw [hti] at e2
      obtain rfl := Option.some.inj e2
      unfold splitRound
      have hi' : i < v.data.cells.length := hi
      rw [get_eq hi']
      simp only [Option.bind_eq_bind, Option.bind_some]
      exact putTarget_none s _ _ _ (by intro t' h'; rw [e1] at h'; obtain rfl := Option.some.inj h'; omega)

/-! ### merge -/

/-- Every cell of the storage of the result (unused ones too) has a cell in the storage of the source from which
    `merge` takes it. -/
def MergeFits (v : DspVec T) (sources : List (DspVec T)) (r : Nat) : Prop :=
  ∀ i, i < max v.allocLen (r * sources.length) → ∀ s, sources[i % sources.length]? = some s →
    i / sources.length < s.allocLen

/-- One round of the loop of `merge` for real vectors. -/
def mergeRound (sources : List (DspVec T)) (k i : Nat) (cells : List T) : Option (List T) := do
  let s ← get sources (i % k)
  let x ← get s.data.cells (i / k)
  put cells i x

/-- C10, `merge` of `k` real sources with `r` numbers each, without a condition on the storages: it gives the right
    points **if and only if** the storages of the sources have a cell for each cell of the storage of the result;
    otherwise it panics. -/
theorem C10_merge_exact [Zero T] (v : DspVec T) (h : v.WF) (hki : NotInline v.data.kind) (hc : v.isComplex = false)
    (sources : List (DspVec T)) (hk : sources ≠ []) (r : Nat)
    (hs : ∀ s ∈ sources, s.WF ∧ s.isComplex = false ∧ s.points = r)
    (hcan : CanHold v.data (r * sources.length)) :
    (MergeFits v sources r →
      ∃ v' l, v.merge sources = some (v', .ok ()) ∧ v'.pts = some l ∧ v'.SameMeta v ∧
        l.length = r * sources.length ∧
        ∀ (j : Nat) (s : DspVec T) (ls : List (List T)), sources[j]? = some s → s.pts = some ls →
          ∀ q, q < r → l[q * sources.length + j]? = ls[q]?) ∧
    (¬ MergeFits v sources r → v.merge sources = none) := by
  have hkpos : 0 < sources.length := List.length_pos_iff.mpr hk
  have hsl : ∀ s ∈ sources, s.validLen = r := by
    intro s hm
    obtain ⟨a, b, c⟩ := hs s hm
    rw [← c]; simp [points, b]
  obtain ⟨v1, r1, r2, r3, r4, -, r6⟩ := (C02_resize v h hki (r * sources.length)).2.2 (by simp [hc]) hcan
  have hc1 : v1.isComplex = false := by rw [← hc]; unfold isComplex; rw [r4.2.2.1]
  have hN : v1.data.cells.length = max v.allocLen (r * sources.length) := by
    rw [r6]; unfold allocLen; simp; omega
  obtain ⟨s0, rest, hsrcs⟩ : ∃ s0 rest, sources = s0 :: rest := List.exists_cons_of_ne_nil hk
  have hs0 : s0.len = r := hsl s0 (by rw [hsrcs]; simp)
  have hany : rest.any (fun s => s0.len != s.len) = false := by
    rw [List.any_eq_false]
    intro s hm
    have : s.len = r := hsl s (by rw [hsrcs]; simp [hm])
    simp [hs0, this]
  have hmerge : v.merge sources = (forRange 0 v1.data.cells.length (mergeRound sources sources.length) v1.data.cells).bind
      fun cells => some (v1.withCells cells, .ok ()) := by
    subst hsrcs
    have hres : v.resize (s0.len * (s0 :: rest).length) = (v1, .ok ()) := by rw [hs0, ← r1]
    simp only [merge, hany, Bool.false_eq_true, if_false, hres, hc1]
    rfl
  have hsrc : ∀ i : Nat, ∃ s, sources[i % sources.length]? = some s :=
    fun i => ⟨_, List.getElem?_eq_getElem (Nat.mod_lt _ hkpos)⟩
  refine ⟨fun hfits => ?_, fun hbad => ?_⟩
  · obtain ⟨cells, a1, a2, a3⟩ := forRange_inv (fun i cells => cells.length = v1.data.cells.length ∧
        ∀ i' < i, cells[i']? = cellAt sources (i' % sources.length) (i' / sources.length))
      (mergeRound sources sources.length) 0 v1.data.cells.length v1.data.cells ⟨rfl, by omega⟩ (by
        rintro i cells - hi ⟨hl, hcell⟩
        obtain ⟨s, hsi⟩ := hsrc i
        have hp : i / sources.length < s.data.cells.length := hfits i (by omega) s hsi
        refine ⟨cells.set i s.data.cells[i / sources.length], ?_, by simpa using hl, ?_⟩
        · simp [mergeRound, get, hsi, hp, put_eq (show i < cells.length by omega)]
        · intro i' hi'
          rw [List.getElem?_set]
          by_cases he : i = i'
          · subst he
            rw [if_pos rfl, if_pos (by omega)]
            simp [cellAt, hsi, hp]
          · rw [if_neg he]; exact hcell i' (by omega))
    have hv : (v1.withCells cells).validLen = r * sources.length := r2
    have hcw : (v1.withCells cells).isComplex = false := hc1
    have hle : r * sources.length ≤ cells.length := by rw [a2, hN]; omega
    refine ⟨v1.withCells cells, (cells.take (r * sources.length)).map (fun x => [x]), ?_, ?_, r4, by simp; omega, ?_⟩
    · rw [hmerge, a1, Option.bind_some]
    · apply pts_real (s := cells.drop (r * sources.length)) hcw
      · show cells = _
        rw [List.take_append_drop]
      · rw [hv]; simp; omega
    · intro j s ls hsj hls q hq
      have hm : s ∈ sources := List.mem_of_getElem? hsj
      have hj : j < sources.length := (List.getElem?_eq_some_iff.mp hsj).1
      obtain ⟨w1, w2, w3⟩ := hs s hm
      have hlt : q * sources.length + j < r * sources.length := by
        calc q * sources.length + j < q * sources.length + sources.length := by omega
          _ = (q + 1) * sources.length := by rw [Nat.add_mul]; omega
          _ ≤ r * sources.length := Nat.mul_le_mul_right _ hq
      obtain ⟨e1, e2⟩ := (divmod_iff (i := q * sources.length + j) hj).mpr rfl
      have hcell := a3 (q * sources.length + j) (by rw [Nat.zero_add, hN]; omega)
      rw [← e1, ← e2] at hcell
      have hss := cell_of_pts hls q (by rw [hsl s hm]; exact hq)
      have hst : s.stride = 1 := by simp [stride, w2]
      rw [hst, Nat.div_one, Nat.mod_one] at hss
      rw [List.getElem?_map, List.getElem?_take, if_pos hlt, hcell]
      simp only [cellAt, hsj, Option.bind_some]
      rw [hss]
      obtain ⟨hmem, -, -, hv2, -⟩ := cells_of_pts hls
      have hq' : q < ls.length := by
        rw [hst, Nat.one_mul, hsl s hm] at hv2; omega
      rw [List.getElem?_eq_getElem hq', Option.bind_some]
      have h1 := hmem _ (List.getElem_mem hq')
      rw [hst] at h1
      obtain ⟨x, hx⟩ := List.length_eq_one_iff.mp h1
      rw [hx]; rfl
  · unfold MergeFits at hbad
    push Not at hbad
    obtain ⟨i, hi, s, hsi, hbad⟩ := hbad
    rw [hmerge, forRange_none (fun _ => True) (mergeRound sources sources.length) v1.data.cells.length 0 v1.data.cells
      trivial (fun _ _ _ _ _ => trivial) i (by omega) (by rw [Nat.zero_add, hN]; exact hi) ?_]
    · rfl
    · intro cells _
      have : s.data.cells[i / sources.length]? = none := List.getElem?_eq_none hbad
      simp [mergeRound, get, hsi, this]

/-- Both cases occur: the storage of the first vector has two unused cells; targets with enough room take them,
    empty targets do not. -/
example :
    let v : DspVec Int := ⟨⟨.vec, [1, 2, 3, 4, 9, 9]⟩, some 1, .time, .real, 4⟩
    let t : DspVec Int := ⟨⟨.vec, []⟩, some 1, .time, .real, 0⟩
    let big : DspVec Int := ⟨⟨.vec, [0, 0, 0]⟩, some 1, .time, .real, 0⟩
    let two : DspVec Int := ⟨⟨.vec, [0, 0]⟩, some 1, .time, .real, 1⟩
    v.WF ∧ t.WF ∧ big.WF ∧ SplitFits v [big, big] 2 ∧ ¬ SplitFits v [t, t] 2 ∧
    (v.splitInto [big, big]).map (fun r => r.1.map DspVec.pts) = some [some [[1], [3]], some [[2], [4]]] ∧
    (v.splitInto [t, t]).isNone = true ∧ MergeFits t [v, v] 4 ∧ ¬ MergeFits v [two, two] 1 := by
  refine ⟨by decide, by decide, by decide, ?_, fun h => ?_, by decide, by decide, ?_, fun h => ?_⟩
  · intro i hi s hs
    have : i < 6 := hi
    interval_cases i <;> simp at hs <;> subst hs <;> decide
  · exact absurd (h 4 (by decide) _ rfl) (by decide)
  · intro i hi s hs
    have : i < 8 := hi
    interval_cases i <;> simp at hs <;> subst hs <;> decide
  · exact absurd (h 4 (by decide) _ rfl) (by decide)

end Dsp
