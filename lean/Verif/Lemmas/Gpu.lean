import Verif.Model.Gpu
import Verif.Lemmas.ConvSimd
import Verif.Lemmas.Index
/- Lemmas for the convolution on a GPU. -/
namespace Dsp
variable {T α : Type}

theorem natToF32_small (n : Nat) (h : n ≤ 2 ^ 24) : natToF32 n = n := by
  by_cases h1 : n < 2 ^ 24
  · unfold natToF32; rw [if_pos h1]
  · have : n = 2 ^ 24 := by omega
    subst this
    decide +kernel

/-- The phase compensates the half filter. -/
theorem phase_eq (w m : Nat) (hw : 0 < w) :
    gpuPhase w m + m / 2 = (ceilDiv m w + 1) / 2 * w ∧ gpuPhase w m ≤ w := by
  have hd := Nat.div_add_mod m (2 * w)
  have hm := Nat.mod_lt m (show 0 < 2 * w by omega)
  generalize ha : m / (2 * w) = a at hd
  generalize hx : m % (2 * w) = x at hd hm
  have e : 2 * w * a = 2 * (a * w) := by ring
  have hp : gpuPhase w m = if x = 0 then 0 else w - x / 2 := by
    unfold gpuPhase
    rw [hx]
    cases x with
    | zero => rfl
    | succ n => rw [if_neg (by omega)]; rfl
  have hc : ceilDiv m w = 2 * a + (if x = 0 then 0 else if x ≤ w then 1 else 2) := by
    unfold ceilDiv
    split
    · rename_i h0
      subst h0
      rw [← hd, e]
      rw [show 2 * (a * w) + 0 + w - 1 = w - 1 + 2 * a * w by rw [Nat.mul_assoc]; omega,
        Nat.add_mul_div_right _ _ hw, Nat.div_eq_of_lt (by omega)]
      omega
    · split
      · rw [← hd, e, show 2 * (a * w) + x + w - 1 = (x - 1 + w) + 2 * a * w by rw [Nat.mul_assoc]; omega,
          Nat.add_mul_div_right _ _ hw, Nat.add_div_right _ hw, Nat.div_eq_of_lt (by omega)]
        omega
      · rw [← hd, e, show 2 * (a * w) + x + w - 1 = (x - 1 - w + w + w) + 2 * a * w by rw [Nat.mul_assoc]; omega,
          Nat.add_mul_div_right _ _ hw, Nat.add_div_right _ hw, Nat.add_div_right _ hw, Nat.div_eq_of_lt (by omega)]
        omega
  rw [hp, hc]
  by_cases h0 : x = 0
  · subst h0
    simp only [if_true]
    rw [show (2 * a + 0 + 1) / 2 = a by omega]
    omega
  · simp only [if_neg h0]
    by_cases h1 : x ≤ w
    · rw [if_pos h1, show (2 * a + 1 + 1) / 2 = a + 1 by omega, Nat.succ_mul]; omega
    · rw [if_neg h1, show (2 * a + 2 + 1) / 2 = a + 1 by omega, Nat.succ_mul]; omega

/-! ### The layout of the impulse response -/

/-- The cell with row `q * s + i` and lane `l`. -/
theorem cell_parts (s q i l : Nat) (hi : i < s) (hl : l < s) :
    ((q * s + i) * s + l) / s / s = q ∧ ((q * s + i) * s + l) / s % s = i ∧ ((q * s + i) * s + l) % s = l := by
  have hs : 0 < s := by omega
  have h1 : ((q * s + i) * s + l) / s = q * s + i := by
    rw [Nat.mul_comm, Nat.mul_add_div hs, Nat.div_eq_of_lt hl]; omega
  refine ⟨?_, ?_, ?_⟩
  · rw [h1, Nat.mul_comm, Nat.mul_add_div hs, Nat.div_eq_of_lt hi]; omega
  · rw [h1, Nat.mul_comm, Nat.mul_add_mod, Nat.mod_eq_of_lt hi]
  · rw [Nat.mul_comm, Nat.mul_add_mod, Nat.mod_eq_of_lt hl]

theorem cell_join (s c : Nat) : (c / s / s * s + c / s % s) * s + c % s = c := by
  have h1 := Nat.div_add_mod c s
  have h2 := Nat.div_add_mod (c / s) s
  rw [Nat.mul_comm (c / s / s) s, h2, Nat.mul_comm (c / s) s, h1]

/-- The value of cell `c` after `J` numbers of the reversed response and `I` copies of the next one. -/
def layoutCell [Zero α] (s : Nat) (r : List α) (J I c : Nat) : α :=
  if c / s % s ≤ c / s / s * s + c % s ∧ (c / s / s * s + c % s - c / s % s < J ∨
      (c / s / s * s + c % s - c / s % s = J ∧ c / s % s < I)) then
    r.getD (c / s / s * s + c % s - c / s % s) 0
  else 0

theorem layout_step [Zero α] (s : Nat) (r : List α) (J I c : Nat) (hI : I < s) :
    layoutCell s r J (I + 1) c = if c = ((J + I - (J + I) % s) + I) * s + (J + I) % s then r.getD J 0
      else layoutCell s r J I c := by
  have hs : 0 < s := by omega
  have hdm := Nat.div_add_mod (J + I) s
  have hlt := Nat.mod_lt (J + I) hs
  have hrow : J + I - (J + I) % s = (J + I) / s * s := by rw [Nat.mul_comm]; omega
  rw [hrow]
  by_cases hc : c = ((J + I) / s * s + I) * s + (J + I) % s
  · rw [if_pos hc]
    obtain ⟨p1, p2, p3⟩ := cell_parts s ((J + I) / s) I ((J + I) % s) hI hlt
    unfold layoutCell
    rw [hc, p1, p2, p3]
    have e : (J + I) / s * s + (J + I) % s - I = J := by rw [Nat.mul_comm]; omega
    rw [e, if_pos ⟨by rw [Nat.mul_comm]; omega, Or.inr ⟨rfl, by omega⟩⟩]
  · rw [if_neg hc]
    have hci := Nat.mod_lt (c / s) hs
    have hcl := Nat.mod_lt c hs
    unfold layoutCell
    congr 1
    apply propext
    constructor
    · rintro ⟨h1, h2 | ⟨h2, h3⟩⟩
      · exact ⟨h1, Or.inl h2⟩
      · refine ⟨h1, Or.inr ⟨h2, ?_⟩⟩
        by_contra h4
        have hi : c / s % s = I := by omega
        apply hc
        have hp : c / s / s * s + c % s = J + I := by omega
        have hq : (J + I) / s = c / s / s := by
          rw [← hp, Nat.mul_comm, Nat.mul_add_div hs, Nat.div_eq_of_lt hcl]; omega
        have hl : (J + I) % s = c % s := by
          rw [← hp, Nat.mul_comm, Nat.mul_add_mod, Nat.mod_mod]
        have hj := cell_join s c
        rw [hq, hl]
        rw [hi] at hj
        exact hj.symm
    · rintro ⟨h1, h2 | ⟨h2, h3⟩⟩
      · exact ⟨h1, Or.inl h2⟩
      · exact ⟨h1, Or.inr ⟨h2, by omega⟩⟩

theorem layout_next [Zero α] (s : Nat) (r : List α) (J c : Nat) (hs : 0 < s) :
    layoutCell s r J s c = layoutCell s r (J + 1) 0 c := by
  have hci := Nat.mod_lt (c / s) hs
  unfold layoutCell
  congr 1
  apply propext
  constructor
  · rintro ⟨h1, h2⟩; exact ⟨h1, Or.inl (by omega)⟩
  · rintro ⟨h1, h2⟩; exact ⟨h1, by omega⟩

/-- The write position is inside of the destination. -/
theorem layout_bound (s F J I m : Nat) (hI : I < s) (hJ : J < m) (hF : m + s ≤ F * s) :
    ((J + I - (J + I) % s) + I) * s + (J + I) % s < F * s * s := by
  have hs : 0 < s := by omega
  have hdm := Nat.div_add_mod (J + I) s
  have hlt := Nat.mod_lt (J + I) hs
  have hrow : J + I - (J + I) % s = (J + I) / s * s := by rw [Nat.mul_comm]; omega
  rw [hrow]
  have hq : (J + I) / s < F := by
    rw [Nat.div_lt_iff_lt_mul hs]; omega
  have h1 : ((J + I) / s + 1) * s ≤ F * s := Nat.mul_le_mul_right _ hq
  rw [Nat.succ_mul] at h1
  have h2 : ((J + I) / s * s + I + 1) * s ≤ F * s * s := Nat.mul_le_mul_right _ (by omega)
  rw [Nat.succ_mul] at h2
  omega

theorem getElem?_set_if (d : List α) (i : Nat) (v : α) (hi : i < d.length) (c : Nat) :
    (d.set i v)[c]? = if c = i then some v else d[c]? := by
  by_cases h : c = i
  · subst h; rw [if_pos rfl, List.getElem?_set_self hi]
  · rw [if_neg h, List.getElem?_set_ne (by omega)]

theorem prepare_loop [Zero α] (s F : Nat) (hs : 0 < s) (r : List α) (hF : r.length + s ≤ F * s) :
    ∀ (rest : List α) (J : Nat) (d : List α), rest = r.drop J → d.length = F * s * s →
      (∀ c < F * s * s, d[c]? = some (layoutCell s r J 0 c)) →
      ∃ d', (rest.zipIdx J).foldlM (init := d) (fun dest nj =>
        forRange 0 s (fun i dest => put dest (((nj.2 + i - (nj.2 + i) % s) + i) * s + (nj.2 + i) % s) nj.1) dest)
          = some d' ∧ d'.length = F * s * s ∧
        ∀ c < F * s * s, d'[c]? = some (layoutCell s r r.length 0 c) := by
  intro rest
  induction rest with
  | nil =>
    intro J d hr hd hc
    have hJ : r.length ≤ J := by
      have := congrArg List.length hr
      simp at this; omega
    refine ⟨d, rfl, hd, fun c hcl => ?_⟩
    rw [hc c hcl]
    congr 1
    unfold layoutCell
    split
    · rename_i h1
      by_cases h2 : c / s / s * s + c % s - c / s % s < r.length
      · rw [if_pos ⟨h1.1, Or.inl h2⟩]
      · rw [if_neg (by omega), List.getD_eq_getElem?_getD, List.getElem?_eq_none (by omega)]; rfl
    · rw [if_neg (by omega)]
  | cons n rest ih =>
    intro J d hr hd hc
    have hJ : J < r.length := by
      have := congrArg List.length hr
      simp at this; omega
    have hn : r.getD J 0 = n := by
      have := congrArg (·[0]?) hr
      simp only [List.getElem?_cons_zero, List.getElem?_drop, Nat.add_zero] at this
      rw [List.getD_eq_getElem?_getD, ← this]; rfl
    have hr' : rest = r.drop (J + 1) := by
      rw [← List.drop_drop, ← hr]; rfl
    obtain ⟨d1, e1, e2, e3⟩ := forRange_inv
      (fun I d => d.length = F * s * s ∧ ∀ c < F * s * s, d[c]? = some (layoutCell s r J I c))
      (fun i dest => put dest (((J + i - (J + i) % s) + i) * s + (J + i) % s) n) 0 s d ⟨hd, hc⟩
      (by
        rintro I d' _ hI ⟨hd', hc'⟩
        have hI' : I < s := by omega
        have hb := layout_bound s F J I r.length hI' hJ hF
        refine ⟨d'.set (((J + I - (J + I) % s) + I) * s + (J + I) % s) n, by
          unfold put; rw [if_pos (by omega)], by simp [hd'], fun c hcl => ?_⟩
        rw [getElem?_set_if _ _ _ (by omega), layout_step s r J I c hI', hn]
        split
        · rfl
        · exact hc' c hcl)
    rw [Nat.zero_add] at e3
    obtain ⟨d2, f1, f2, f3⟩ := ih (J + 1) d1 hr' e2 (fun c hcl => by rw [e3 c hcl, layout_next s r J c hs])
    refine ⟨d2, ?_, f2, f3⟩
    rw [List.zipIdx_cons, List.foldlM_cons]
    simp only [e1]
    exact f1

/-- `prepare_impulse_response`: row `q * s + i` of the result holds the numbers `q * s - i ..` of the reversed
    response. -/
theorem prepare_spec [Zero α] (s F : Nat) (hs : 0 < s) (h : List α) (hF : h.length + s ≤ F * s) :
    ∃ d, prepareImpulseResponse h (List.replicate (F * s * s) 0) s = some d ∧ d.length = F * s * s ∧
      ∀ q i l, q < F → i < s → l < s → d[(q * s + i) * s + l]? =
        some ((List.replicate i 0 ++ h.reverse).getD (q * s + l) 0) := by
  obtain ⟨d, e1, e2, e3⟩ := prepare_loop s F hs h.reverse (by simpa using hF) h.reverse 0
    (List.replicate (F * s * s) 0) rfl (by simp) (fun c hc => by
      rw [List.getElem?_replicate, if_pos hc]
      unfold layoutCell
      rw [if_neg (by omega)])
  refine ⟨d, e1, e2, fun q i l hq hi hl => ?_⟩
  obtain ⟨p1, p2, p3⟩ := cell_parts s q i l hi hl
  have hb : (q * s + i) * s + l < F * s * s := by
    have h1 : (q + 1) * s ≤ F * s := Nat.mul_le_mul_right _ hq
    rw [Nat.succ_mul] at h1
    have h2 : (q * s + i + 1) * s ≤ F * s * s := Nat.mul_le_mul_right _ (by omega)
    rw [Nat.succ_mul] at h2
    omega
  rw [e3 _ hb]
  unfold layoutCell
  rw [p1, p2, p3, List.getD_eq_getElem?_getD, List.getD_eq_getElem?_getD]
  congr 1
  by_cases h1 : i ≤ q * s + l
  · rw [List.getElem?_append_right (by simpa using h1), List.length_replicate]
    by_cases h2 : q * s + l - i < h.reverse.length
    · rw [if_pos ⟨h1, Or.inl h2⟩]
    · rw [if_neg (by omega), List.getElem?_eq_none (by omega)]; rfl
  · rw [if_neg (by omega), List.getElem?_append_left (by simp; omega), List.getElem?_replicate, if_pos (by omega)]
    rfl

/-! ### The kernels -/

section
variable [Zero T] [Add T]

/-- The value of one sum of a work item: `A q` is the vector `q` of the source, `C j` vector `j` of the prepared
    response. -/
def kernelSum (w : Nat) (k : GpuKernel T) (A C : Nat → List T) (t n : Nat) : List T :=
  (List.range n).foldl (fun s q => List.zipWith (· + ·) s (k.mul (A q) (C (q * k.sums + t)))) (List.replicate w 0)

omit [Zero T] [Add T] in
theorem mapM_getElem {β γ : Type} (f : β → Option γ) (g : β → γ) : ∀ l : List β, (∀ x ∈ l, f x = some (g x)) →
    l.mapM f = some (l.map g)
  | [], _ => rfl
  | x :: l, h => by
    rw [List.mapM_cons, h x (by simp), mapM_getElem f g l (fun y hy => h y (by simp [hy]))]
    rfl

omit [Zero T] in
theorem kernelRound_eq (k : GpuKernel T) (conv : List (List T)) (current : List T) (j : Nat)
    (sums : List (List T)) (C : Nat → List T) (hC : ∀ t < sums.length, conv[j + t]? = some (C (j + t))) :
    kernelRound k conv current j sums = some (sums.zipIdx.map fun st =>
      List.zipWith (· + ·) st.1 (k.mul current (C (j + st.2)))) := by
  unfold kernelRound
  apply mapM_getElem
  rintro ⟨s, t⟩ hst
  have ht : t < sums.length := by
    have := List.mem_zipIdx hst
    omega
  rw [hC t ht]
  rfl

/-- A work item. -/
theorem convVecs_eq (w : Nat) (k : GpuKernel T) (F : Nat) (src conv : List (List T)) (idx : Nat)
    (A C : Nat → List T) (hidx : F / 2 ≤ idx) (hA : ∀ q < F, src[idx - F / 2 + q]? = some (A q))
    (hC : ∀ j < F * k.sums, conv[j]? = some (C j)) :
    convVecs w k F src conv idx =
      some ((List.range k.sums).map fun t => k.out (kernelSum w k A C t F)).flatten := by
  unfold convVecs
  rw [if_neg (by omega)]
  obtain ⟨s', e1, e2⟩ := forRange_inv
    (fun n (sj : List (List T) × Nat) => sj = ((List.range k.sums).map fun t => kernelSum w k A C t n, n * k.sums))
    (fun i (sj : List (List T) × Nat) =>
      (src[idx - F / 2 + i]?).bind fun current =>
        (kernelRound k conv current sj.2 sj.1).map fun s => (s, sj.2 + k.sums)) 0 F
    (List.replicate k.sums (List.replicate w 0), 0)
    (by
      simp only [kernelSum, List.range_zero, List.foldl_nil, Nat.zero_mul]
      rw [List.map_const', List.length_range])
    (by
      rintro n sj _ hn rfl
      rw [Nat.zero_add] at hn
      refine ⟨_, ?_, rfl⟩
      rw [hA n hn]
      simp only [Option.bind_some]
      rw [kernelRound_eq k conv (A n) (n * k.sums) _ C (by
        intro t ht
        simp only [List.length_map, List.length_range] at ht
        apply hC
        have : (n + 1) * k.sums ≤ F * k.sums := Nat.mul_le_mul_right _ hn
        rw [Nat.succ_mul] at this
        omega)]
      simp only [Option.map_some, Nat.succ_mul]
      congr 2
      apply List.ext_getElem (by simp)
      intro t h1 h2
      simp only [List.length_map, List.length_range] at h2
      simp [kernelSum, List.range_succ])
  simp only []
  rw [e1, e2]
  simp [List.map_map, Function.comp_def]

end

/-! ### Launches -/

theorem launch_step (G c N : Nat) (hc : c < G) :
    List.range' c (min N (G - c)) ++ List.range' (c + N) (G - (c + N)) = List.range' c (G - c) := by
  by_cases h2 : G - c ≤ N
  · rw [Nat.min_eq_right h2, show G - (c + N) = 0 by omega]; simp
  · rw [Nat.min_eq_left (by omega), List.range'_append_1]
    congr 1; omega

theorem gpuLaunches_eq (G : Nat) : ∀ fuel c, G ≤ c + fuel → gpuLaunches G fuel c = List.range' c (G - c)
  | 0, c, h => by
    have : G - c = 0 := by omega
    rw [this]; rfl
  | fuel + 1, c, h => by
    unfold gpuLaunches
    by_cases hc : c < G
    · rw [if_pos hc, gpuLaunches_eq G fuel (c + 100000) (by omega)]
      exact launch_step G c 100000 hc
    · rw [if_neg hc, show G - c = 0 by omega]; rfl

theorem gpuRun_spec (item : Nat → Option (List T)) (y : Nat → List T) : ∀ (order : List Nat) (res : List (List T)),
    (∀ t ∈ order, t < res.length ∧ item t = some (y t)) →
    ∃ r, gpuRun item res order = some r ∧ r.length = res.length ∧
      ∀ t, r[t]? = if t ∈ order then some (y t) else res[t]?
  | [], res, _ => ⟨res, rfl, rfl, fun t => by simp⟩
  | a :: order, res, h => by
    obtain ⟨h1, h2⟩ := h a (by simp)
    obtain ⟨r, e1, e2, e3⟩ := gpuRun_spec item y order (res.set a (y a)) (fun t ht => by
      have := h t (by simp [ht]); simpa using this)
    refine ⟨r, ?_, by simpa using e2, fun t => ?_⟩
    · unfold gpuRun
      rw [List.foldlM_cons, h2]
      simp only [Option.bind_some, put]
      rw [if_pos h1]
      exact e1
    · rw [e3 t, getElem?_set_if _ _ _ h1]
      by_cases ht : t ∈ order
      · rw [if_pos ht, if_pos (by simp [ht])]
      · rw [if_neg ht]
        by_cases hta : t = a
        · subst hta; simp
        · rw [if_neg hta, if_neg (by simp [hta, ht])]

end Dsp
