import Verif.Lemmas.DftLaws
import Verif.Props.Program
/-
C83: the laws of the Fourier transform hold for programs, in all environments and for all schedules.
-/
namespace Dsp
open DspVec
open scoped ComplexConjugate

/-! ### From signals to programs -/

theorem run_shows {w : World ℝ} {c : List (StmtCall ℝ)} {m : Machine ℝ} {p : List (Stmt ℝ)} (hm : m.Shows w)
    (hp : p.map Stmt.call = c) (hs : m.SafeAll p) {o f} (hf : runProgram o 0 m p = .finished f) : f.Shows (w.after c) := by
  obtain ⟨m', h1, -, h3⟩ := C72_program m w p hm hs
  rcases h1 o with h | h <;> rw [hf] at h
  · cases h
  · cases h; rw [← hp]; exact h3

theorem leaves_of {w : World ℝ} {c : List (StmtCall ℝ)} {x : Nat} {N : Numbers ℝ} {d : DataDomain}
    (h1 : ((w.after c).sig x).numbers = N) (h2 : ((w.after c).sig x).dom = d) : Leaves w c x N d := by
  intro m p hm hp hs o f hf
  have := (run_shows hm hp hs hf).1 x
  exact ⟨by rw [this.content, h1], by rw [this.isComplex, h1], by rw [this.dom, h2]⟩

theorem returns_of {w : World ℝ} {c : List (StmtCall ℝ)} {o : List (Out ℝ)} (h : (w.after c).out = w.out ++ o) : Returns w c o := by
  intro m p hm hp hs _ f hf
  rw [(run_shows hm hp hs hf).2, h]

theorem same_of {w : World ℝ} {c1 c2 : List (StmtCall ℝ)} {x : Nat}
    (h1 : ((w.after c1).sig x).numbers = ((w.after c2).sig x).numbers)
    (h2 : ((w.after c1).sig x).dom = ((w.after c2).sig x).dom) : SameResult w c1 c2 x := by
  intro m1 m2 p1 p2 hm1 hm2 hp1 hp2 hs1 hs2 o1 o2 f1 f2 r1 r2
  have a := leaves_of h1 h2 m1 p1 hm1 hp1 hs1 o1 f1 r1
  have b := leaves_of (rfl : ((w.after c2).sig x).numbers = _) rfl m2 p2 hm2 hp2 hs2 o2 f2 r2
  exact ⟨a.1.trans b.1.symm, a.2.1.trans b.2.1.symm, a.2.2.trans b.2.2.symm⟩

theorem sig_put_same (w : World ℝ) (x : Nat) (s : Signal ℝ) (o : List (Out ℝ)) : (w.put x s o).sig x = s := by
  simp [World.put]

theorem sig_put_other (w : World ℝ) {x y : Nat} (h : y ≠ x) (s : Signal ℝ) (o : List (Out ℝ)) : (w.put x s o).sig y = w.sig y := by
  simp [World.put, h]

theorem count_asCx (N : Numbers ℝ) : N.asCx.length = N.count := by
  cases N <;> simp [Numbers.asCx, Numbers.count]

/-- The numbers which `fft` gives. -/
theorem centred_getD {K : FftKernel ℝ} (hK : K.IsDft) (cs : List (Cx ℝ)) (i : Nat) (hi : i < cs.length) :
    ((rotateRight (K.forward cs) (cs.length / 2)).getD i ⟨0, 0⟩).toC = fourierAt cs ((i : ℤ) - (cs.length / 2 : Nat)) := by
  have hl := hK.forward_length cs
  rw [rotateRight_getD _ _ _ _ (by omega) (by omega), hl, hK.forward _ _ (Nat.mod_lt _ (by omega))]
  apply fourierAt_congr
  push_cast [Nat.sub_le]
  rw [Int.emod_emod, Nat.cast_sub (by omega)]
  rw [show (i : ℤ) + (cs.length - (cs.length / 2 : Nat)) = ((i : ℤ) - (cs.length / 2 : Nat)) + cs.length by push_cast; ring,
    Int.add_emod_right]
  push_cast; rfl

theorem centred_length {K : FftKernel ℝ} (hK : K.IsDft) (cs : List (Cx ℝ)) :
    (rotateRight (K.forward cs) (cs.length / 2)).length = cs.length := by rw [rotateRight_length, hK.forward_length]

/-! ### The transforms -/

/-- C83: after `plain_fft` point `k` is `Σ c[m] exp(-2 π j k m / n)`. -/
theorem C83_plain_fft (K : FftKernel ℝ) (hK : K.IsDft) (w : World ℝ) (x : Nat) :
    ∃ S, Leaves w [.single x (.plainFft K)] x (.complex S) .frequency ∧ S.length = (w.sig x).numbers.count ∧
      ∀ k < S.length, (S.getD k ⟨0, 0⟩).toC = fourierAt (w.sig x).numbers.asCx k := by
  have hl := hK.forward_length (w.sig x).numbers.asCx
  refine ⟨K.forward (w.sig x).numbers.asCx, leaves_of ?_ ?_, by rw [hl, count_asCx], fun k hk => ?_⟩
  · show ((w.put x _ _).sig x).numbers = _
    rw [sig_put_same]; rfl
  · show ((w.put x _ _).sig x).dom = _
    rw [sig_put_same]; rfl
  · exact hK.forward _ _ (by rw [hl] at hk; exact hk)

/-- C83: after `fft` the frequencies are ordered: point `i` is frequency `i - n / 2`. -/
theorem C83_fft (K : FftKernel ℝ) (hK : K.IsDft) (w : World ℝ) (x : Nat) :
    ∃ S, Leaves w [.single x (.fft K)] x (.complex S) .frequency ∧ S.length = (w.sig x).numbers.count ∧
      ∀ i < S.length, (S.getD i ⟨0, 0⟩).toC = fourierAt (w.sig x).numbers.asCx ((i : ℤ) - (S.length / 2 : Nat)) := by
  have hl := centred_length hK (w.sig x).numbers.asCx
  refine ⟨rotateRight (K.forward (w.sig x).numbers.asCx) ((w.sig x).numbers.asCx.length / 2), leaves_of ?_ ?_,
    by rw [hl, count_asCx], fun k hk => ?_⟩
  · show ((w.put x _ _).sig x).numbers = _
    rw [sig_put_same]; rfl
  · show ((w.put x _ _).sig x).dom = _
    rw [sig_put_same]; rfl
  · rw [hl] at hk ⊢
    exact centred_getD hK _ _ hk

/-- C83: after `ifft` point `i` is `Σ c[k] exp(2 π j i (k - n / 2) / n) / n`. -/
theorem C83_ifft (K : FftKernel ℝ) (hK : K.IsDft) (w : World ℝ) (x : Nat) :
    ∃ S, Leaves w [.single x (.ifft K)] x (.complex S) .time ∧ S.length = (w.sig x).numbers.count ∧
      ∀ i < S.length, (S.getD i ⟨0, 0⟩).toC = (∑ k ∈ Finset.range S.length,
        ((w.sig x).numbers.asCx.getD k ⟨0, 0⟩).toC * turn (i * ((k : ℝ) - (S.length / 2 : Nat)) / S.length)) / S.length := by
  generalize hcs : (w.sig x).numbers.asCx = cs
  have hl : (K.inverse (rotateLeft (cs.map (Cx.scaleBy (1 / (cs.length : ℝ)))) (cs.length / 2))).length = cs.length := by
    rw [hK.inverse_length, rotateLeft_length, List.length_map]
  refine ⟨K.inverse (rotateLeft (cs.map (Cx.scaleBy (1 / (cs.length : ℝ)))) (cs.length / 2)), leaves_of ?_ ?_,
    by rw [hl, ← hcs, count_asCx], fun i hi => ?_⟩
  · show ((w.put x _ _).sig x).numbers = _
    rw [sig_put_same, ← hcs]; rfl
  · show ((w.put x _ _).sig x).dom = _
    rw [sig_put_same]; rfl
  · rw [hl] at hi ⊢
    rw [hK.inverse _ _ (by rw [rotateLeft_length, List.length_map]; exact hi), fourierAt_rotateLeft _ _ (by rw [List.length_map]; omega)]
    unfold fourierAt
    conv_rhs => rw [div_eq_mul_inv, Finset.sum_mul]
    rw [Finset.mul_sum, List.length_map]
    refine Finset.sum_congr rfl fun k hk => ?_
    rw [getD_map _ _ _ (Finset.mem_range.mp hk)]
    have e : (Cx.scaleBy (1 / (cs.length : ℝ)) (cs.getD k ⟨0, 0⟩)).toC = (cs.getD k ⟨0, 0⟩).toC / cs.length := by
      generalize cs.getD k ⟨0, 0⟩ = c
      have : (Cx.scaleBy (1 / (cs.length : ℝ)) c).toC = ((1 / (cs.length : ℝ) : ℝ) : ℂ) * c.toC := by
        apply Complex.ext <;> simp [Cx.toC, Cx.scaleBy]
      rw [this]; push_cast; ring
    rw [e]
    have e2 : turn (i * ((k : ℝ) - (cs.length / 2 : Nat)) / cs.length) =
        turn (((-(i : ℤ) : ℤ) : ℝ) * (cs.length / 2 : Nat) / cs.length) * turn (-(((-(i : ℤ) : ℤ) : ℝ) * k) / cs.length) := by
      rw [← turn_add]; congr 1; push_cast; ring
    rw [e2]; ring

/-- C83: `ifft` undoes `fft`. -/
theorem C83_round_trip (K : FftKernel ℝ) (hK : K.IsDft) (w : World ℝ) (x : Nat) (ht : (w.sig x).dom = .time) :
    SameResult w [.single x (.fft K), .single x (.ifft K)] [.single x .toComplex] x := by
  apply same_of
  · simp only [World.after, List.foldl_cons, List.foldl_nil, StmtCall.meaning, sig_put_same, Call.meaning, Signal.transform]
    generalize (w.sig x).numbers.asCx = cs
    simp only [Numbers.asCx]
    have hl := centred_length hK cs
    have e : rotateLeft ((rotateRight (K.forward cs) (cs.length / 2)).map (Cx.scaleBy (1 / (cs.length : ℝ)))) (cs.length / 2) =
        (K.forward cs).map (Cx.scaleBy (1 / (cs.length : ℝ))) := by
      rw [rotateRight_map]
      unfold rotateLeft rotateRight
      have h1 : ((K.forward cs).map (Cx.scaleBy (1 / (cs.length : ℝ)))).length = cs.length := by rw [List.length_map, hK.forward_length]
      rw [List.drop_left' (by rw [List.length_drop, h1]; omega), List.take_left' (by rw [List.length_drop, h1]; omega), List.take_append_drop]
    rw [hl, e, hK.inverse_eq, dft_homogeneous, hK.forward_eq, dft_inverts.back, List.map_map]
    congr 1
    conv_rhs => rw [← List.map_id cs]
    refine List.map_congr_left fun c hc => ?_
    have hn : (cs.length : ℝ) ≠ 0 := by exact_mod_cast (List.length_pos_of_mem hc).ne'
    ext <;> simp [Cx.scaleBy] <;> field_simp
  · simp only [World.after, List.foldl_cons, List.foldl_nil, StmtCall.meaning, sig_put_same, Call.meaning, Signal.transform, ht]

theorem fft_injective (K : FftKernel ℝ) (hK : K.IsDft) (w1 w2 : World ℝ) (x : Nat)
    (hc : (w1.sig x).numbers.isComplex = (w2.sig x).numbers.isComplex)
    (h : ((w1.after [.single x (.fft K)]).sig x).numbers = ((w2.after [.single x (.fft K)]).sig x).numbers) :
    (w1.sig x).numbers = (w2.sig x).numbers := by
  have h : ((w1.put x _ _).sig x).numbers = ((w2.put x _ _).sig x).numbers := h
  simp only [sig_put_same, Call.meaning, Signal.transform] at h
  injection h with h
  have hl := congrArg List.length h
  rw [centred_length hK, centred_length hK] at hl
  have key : (w1.sig x).numbers.asCx = (w2.sig x).numbers.asCx := by
    generalize (w1.sig x).numbers.asCx = a at h hl
    generalize (w2.sig x).numbers.asCx = b at h hl
    have hf : K.forward a = K.forward b := by
      refine list_ext_toC (by rw [hK.forward_length, hK.forward_length, hl]) fun k hk => ?_
      rw [hK.forward_length] at hk
      rw [hK.forward _ _ hk, hK.forward _ _ (by omega)]
      have hi : (k + a.length / 2) % a.length < a.length := Nat.mod_lt _ (by omega)
      have e1 := centred_getD hK a _ hi
      have e2 := centred_getD hK b ((k + a.length / 2) % a.length) (by omega)
      rw [← hl] at e2
      rw [hl] at e1 e2 h
      rw [h, e2] at e1
      have hm : ∀ c : List (Cx ℝ), c.length = b.length → fourierAt c ((((k + b.length / 2) % b.length : Nat) : ℤ) - (b.length / 2 : Nat)) = fourierAt c k := by
        intro c hc
        apply fourierAt_congr
        rw [hc]; push_cast
        rw [Int.emod_sub_emod]; congr 1; ring
      rw [hm b rfl, hm a hl] at e1
      exact e1.symm
    have := congrArg K.inverse hf
    rw [hK.inverse_eq, hK.inverse_eq, hK.forward_eq, hK.forward_eq, dft_inverts.back, dft_inverts.back, hl] at this
    refine list_ext_toC hl fun i hi => ?_
    have h3 := congrArg (fun l => (l.getD i ⟨0, 0⟩).toC) this
    beta_reduce at h3
    rw [getD_map _ _ _ hi, getD_map _ _ _ (by omega)] at h3
    have hn : (b.length : ℝ) ≠ 0 := by exact_mod_cast (by omega : b.length ≠ 0)
    have hr := congrArg Complex.re h3
    have hi := congrArg Complex.im h3
    simp only [Cx.toC, Cx.scaleBy] at hr hi
    exact Complex.ext (mul_left_cancel₀ hn hr) (mul_left_cancel₀ hn hi)
  generalize (w1.sig x).numbers = A at hc key
  generalize (w2.sig x).numbers = B at hc key
  cases A <;> cases B <;> simp only [Numbers.isComplex] at hc <;> simp only [Numbers.asCx] at key
  · have := congrArg (List.map Cx.re) key
    simp only [List.map_map] at this
    have e : Cx.re ∘ (Cx.ofReal : ℝ → Cx ℝ) = id := rfl
    rw [e, List.map_id, List.map_id] at this
    rw [this]
  · cases hc
  · cases hc
  · rw [key]

/-- C83: different signals have different spectra. -/
theorem C83_injective (K : FftKernel ℝ) (hK : K.IsDft) (w1 w2 : World ℝ) (x : Nat) (m1 m2 : Machine ℝ) (p1 p2 : List (Stmt ℝ))
    (h1 : m1.Shows w1) (h2 : m2.Shows w2) (hp1 : p1.map Stmt.call = [.single x (.fft K)]) (hp2 : p2.map Stmt.call = [.single x (.fft K)])
    (hs1 : m1.SafeAll p1) (hs2 : m2.SafeAll p2) (hc : (m1.vec x).isComplex = (m2.vec x).isComplex) (o1 o2 f1 f2)
    (r1 : runProgram o1 0 m1 p1 = .finished f1) (r2 : runProgram o2 0 m2 p2 = .finished f2)
    (h : (f1.vec x).content = (f2.vec x).content) : (m1.vec x).content = (m2.vec x).content := by
  have a1 := (run_shows h1 hp1 hs1 r1).1 x
  have a2 := (run_shows h2 hp2 hs2 r2).1 x
  rw [(h1.1 x).isComplex, (h2.1 x).isComplex] at hc
  rw [(h1.1 x).content, (h2.1 x).content, fft_injective K hK w1 w2 x hc]
  rw [a1.content, a2.content] at h
  refine Numbers.flat_inj ?_ (Option.some.inj h)
  simp only [World.after, List.foldl_cons, List.foldl_nil, StmtCall.meaning, sig_put_same, Call.meaning, Signal.transform, Numbers.isComplex]

/-! ### The laws -/

theorem list_sum_getD {M : Type} [AddCommMonoid M] (g : Cx ℝ → M) (l : List (Cx ℝ)) :
    (l.map g).sum = ∑ i ∈ Finset.range l.length, g (l.getD i ⟨0, 0⟩) := by
  induction l with
  | nil => rfl
  | cons a l ih => rw [List.map_cons, List.sum_cons, ih, List.length_cons, Finset.sum_range_succ', add_comm]; rfl

theorem centred_conj_odd {K : FftKernel ℝ} (hK : K.IsDft) (l : List (Cx ℝ)) (ho : l.length % 2 = 1) :
    rotateRight (K.forward (l.map fun c => ⟨c.re, -c.im⟩)) ((l.map fun c => (⟨c.re, -c.im⟩ : Cx ℝ)).length / 2) =
      ((rotateRight (K.forward l) (l.length / 2)).map fun c => ⟨c.re, -c.im⟩).reverse := by
  have h1 := centred_length hK l
  have h2 := centred_length hK (l.map Cx.conj)
  change rotateRight (K.forward (l.map Cx.conj)) ((l.map Cx.conj).length / 2) = ((rotateRight (K.forward l) (l.length / 2)).map Cx.conj).reverse
  refine list_ext_toC (by rw [h2, List.length_map, List.length_reverse, List.length_map, h1]) fun i hi => ?_
  rw [h2, List.length_map] at hi
  rw [centred_getD hK _ _ (by rw [List.length_map]; exact hi), fourierAt_conj, List.length_map]
  have hr : ((rotateRight (K.forward l) (l.length / 2)).map Cx.conj).reverse.getD i ⟨0, 0⟩ =
      ((rotateRight (K.forward l) (l.length / 2)).getD (l.length - 1 - i) ⟨0, 0⟩).conj := by
    rw [getD_lt _ _ (by rw [List.length_reverse, List.length_map, h1]; exact hi), List.getElem_reverse, List.getElem_map,
      getD_lt _ _ (by rw [h1]; omega)]
    simp only [List.length_map, h1]
  rw [hr, Cx.toC_conj, centred_getD hK _ _ (by omega)]
  congr 2
  have : l.length - 1 - i = l.length - (1 + i) := by omega
  omega


theorem fft_agrees (K : FftKernel ℝ) {s o : Signal ℝ} (h : s.Agrees o) (hn : s.numbers.count = o.numbers.count)
    (f g : List (Cx ℝ) → List (Cx ℝ)) (d : DataDomain) : (s.transform K d f).Agrees (o.transform K d g) := by
  refine ⟨rfl, rfl, fun a b ha hb => ?_⟩
  simp only [Signal.transform] at ha hb
  rw [hn] at ha
  split at ha
  · rw [if_pos (by assumption)] at hb
    cases hs : s.delta with
    | none => rw [hs] at ha; cases ha
    | some x =>
      cases ho : o.delta with
      | none => rw [ho] at hb; cases hb
      | some y =>
        rw [hs] at ha; rw [ho] at hb
        cases ha; cases hb
        obtain ⟨h1, h2⟩ := h.2.2 x y hs ho
        have hc : (0 : ℝ) ≤ o.numbers.count := Nat.cast_nonneg _
        constructor <;> nlinarith
  · rw [if_neg (by assumption)] at hb
    exact h.2.2 a b ha hb

theorem asCx_combine (N M : Numbers ℝ) (hc : N.isComplex = M.isComplex) (op : ElemOp) (h : op = .add ∨ op = .sub) :
    (N.combine (List.zipWith op.real) (List.zipWith op.cx) M).asCx = List.zipWith op.cx N.asCx M.asCx := by
  cases N <;> cases M <;> simp only [Numbers.isComplex] at hc
  · simp only [Numbers.combine, Numbers.asCx]
    rw [List.map_zipWith, List.zipWith_map]
    congr 1
    funext a b
    rcases h with rfl | rfl <;> ext <;> simp [ElemOp.real, ElemOp.cx, Cx.ofReal, Cx.add, Cx.sub]
  · cases hc
  · cases hc
  · rfl

theorem flat_length_eq {N M : Numbers ℝ} (hc : N.isComplex = M.isComplex) : N.flat.length = M.flat.length ↔ N.count = M.count := by
  rw [N.length_flat, M.length_flat, Numbers.width, Numbers.width, hc]
  split <;> omega

theorem elem_meaning (op : ElemOp) {s o : Signal ℝ} (hag : s.Agrees o) (hn : s.numbers.count = o.numbers.count) :
    (BinCall.elem op).meaning s o =
      ({ s with numbers := s.numbers.combine (List.zipWith op.real) (List.zipWith op.cx) o.numbers }, [.result (.ok ())]) := by
  simp only [BinCall.meaning]
  rw [if_neg (by rw [not_not]; exact (flat_length_eq hag.1).mpr hn), if_neg (by rw [not_not]; exact hag)]

theorem combine_complex (f : List ℝ → List ℝ → List ℝ) (g : List (Cx ℝ) → List (Cx ℝ) → List (Cx ℝ)) (a b : List (Cx ℝ)) :
    (Numbers.complex a).combine f g (.complex b) = .complex (g a b) := rfl

/-- C83, linearity: the spectrum of a sum (difference) is the sum (difference) of the spectra. -/
theorem C83_linear (K : FftKernel ℝ) (hK : K.IsDft) (op : ElemOp) (hop : op = .add ∨ op = .sub) (w : World ℝ) (x y : Nat) (hxy : x ≠ y)
    (hag : (w.sig x).Agrees (w.sig y)) (hn : (w.sig x).numbers.count = (w.sig y).numbers.count) :
    SameResult w [.binary x y (.elem op), .single x (.fft K)] [.single x (.fft K), .single y (.fft K), .binary x y (.elem op)] x := by
  have hl : (w.sig x).numbers.asCx.length = (w.sig y).numbers.asCx.length := by rw [count_asCx, count_asCx, hn]
  have e1 := elem_meaning op hag hn
  have e2 := elem_meaning op (fft_agrees K hag hn (fun cs => rotateRight (K.forward cs) (cs.length / 2))
    (fun cs => rotateRight (K.forward cs) (cs.length / 2)) .frequency) (by
      simp only [Signal.transform, Numbers.count]
      rw [centred_length hK, centred_length hK, hl])
  apply same_of
  · simp only [World.after, List.foldl_cons, List.foldl_nil, StmtCall.meaning, sig_put_same]
    rw [sig_put_other _ hxy, sig_put_same, sig_put_other _ hxy.symm, e1]
    simp only [Call.meaning]
    rw [e2]
    simp only [Signal.transform]
    rw [asCx_combine _ _ hag.1 op hop, combine_complex]
    generalize (w.sig x).numbers.asCx = a at *
    generalize (w.sig y).numbers.asCx = b at *
    congr 1
    have hz : (List.zipWith op.cx a b).length = a.length := by simp; omega
    have ha := centred_length hK a
    have hb := centred_length hK b
    have hc := centred_length hK (List.zipWith op.cx a b)
    refine list_ext_toC (by rw [hc, List.length_zipWith, List.length_zipWith, ha, hb]) fun i hi => ?_
    rw [hc, hz] at hi
    rw [centred_getD hK _ _ (by omega), getD_zipWith _ _ _ (by omega) _ (by omega), hz]
    have ea := centred_getD hK a i hi
    have eb := centred_getD hK b i (by omega)
    rcases hop with rfl | rfl
    · show fourierAt (List.zipWith (· + ·) a b) _ = Cx.toC (_ + _)
      rw [Cx.toC_add, ea, eb, fourierAt_add a b hl, hl]
    · show fourierAt (List.zipWith (· - ·) a b) _ = Cx.toC (_ - _)
      rw [Cx.toC_sub, ea, eb, fourierAt_sub a b hl, hl]
  · simp only [World.after, List.foldl_cons, List.foldl_nil, StmtCall.meaning, sig_put_same]
    rw [sig_put_other _ hxy, sig_put_same, sig_put_other _ hxy.symm, e1]
    simp only [Call.meaning]
    rw [e2]
    rfl

theorem centred_map_mul {K : FftKernel ℝ} (hK : K.IsDft) (c : Cx ℝ) (a : List (Cx ℝ)) :
    rotateRight (K.forward (a.map (Cx.mul · c))) ((a.map (Cx.mul · c)).length / 2) = (rotateRight (K.forward a) (a.length / 2)).map (Cx.mul · c) := by
  have h1 := centred_length hK a
  have h2 := centred_length hK (a.map (Cx.mul · c))
  refine list_ext_toC (by rw [h2, List.length_map, List.length_map, h1]) fun i hi => ?_
  rw [h2, List.length_map] at hi
  rw [centred_getD hK _ _ (by rw [List.length_map]; exact hi), getD_map _ _ _ (by omega), List.length_map]
  show fourierAt (a.map (· * c)) _ = Cx.toC (_ * c)
  rw [Cx.toC_mul, centred_getD hK _ _ hi, fourierAt_mul]

/-- C83, linearity: the spectrum of a multiple is the multiple of the spectrum (real factors). -/
theorem C83_scale (K : FftKernel ℝ) (hK : K.IsDft) (c : ℝ) (w : World ℝ) (x : Nat) :
    SameResult w [.single x (.scale c), .single x (.fft K)] [.single x (.fft K), .single x (.scale c)] x := by
  have e : ∀ l : List (Cx ℝ), (l.map fun z => (⟨z.re * c, z.im * c⟩ : Cx ℝ)) = l.map (Cx.mul · ⟨c, 0⟩) := by
    intro l
    refine List.map_congr_left fun z _ => ?_
    ext <;> simp [Cx.mul]
  have e' : ((w.sig x).numbers.mapLists (List.map (· * c)) (List.map fun z => ⟨z.re * c, z.im * c⟩)).asCx =
      (w.sig x).numbers.asCx.map (Cx.mul · ⟨c, 0⟩) := by
    cases (w.sig x).numbers with
    | real l =>
      simp only [Numbers.mapLists, Numbers.asCx, List.map_map]
      refine List.map_congr_left fun z _ => ?_
      ext <;> simp [Cx.mul, Cx.ofReal]
    | complex l => exact e l
  apply same_of
  · simp only [World.after, List.foldl_cons, List.foldl_nil, StmtCall.meaning, sig_put_same, Call.meaning, Signal.transform]
    rw [e', centred_map_mul hK]
    simp only [Numbers.mapLists]
    rw [e]
  · simp only [World.after, List.foldl_cons, List.foldl_nil, StmtCall.meaning, sig_put_same, Call.meaning, Signal.transform]

/-- C83, linearity: the spectrum of a multiple is the multiple of the spectrum (complex factors and signals). -/
theorem C83_scale_complex (K : FftKernel ℝ) (hK : K.IsDft) (c : Cx ℝ) (w : World ℝ) (x : Nat) (hx : (w.sig x).numbers.isComplex = true) :
    SameResult w [.single x (.scaleComplex c), .single x (.fft K)] [.single x (.fft K), .single x (.scaleComplex c)] x := by
  apply same_of
  · simp only [World.after, List.foldl_cons, List.foldl_nil, StmtCall.meaning, sig_put_same, Call.meaning, Signal.transform]
    cases hN : (w.sig x).numbers with
    | real l => rw [hN] at hx; cases hx
    | complex l =>
      simp only [Numbers.mapLists, Numbers.asCx]
      rw [centred_map_mul hK]
  · simp only [World.after, List.foldl_cons, List.foldl_nil, StmtCall.meaning, sig_put_same, Call.meaning, Signal.transform]

/-- C83, conjugation: for an odd number of points the spectrum of the conjugated signal is the conjugated spectrum, reversed. -/
theorem C83_conj_odd (K : FftKernel ℝ) (hK : K.IsDft) (w : World ℝ) (x : Nat) (hx : (w.sig x).numbers.isComplex = true)
    (ho : (w.sig x).numbers.count % 2 = 1) :
    SameResult w [.single x .conj, .single x (.fft K)] [.single x (.fft K), .single x .conj, .single x .reverse] x := by
  apply same_of
  · simp only [World.after, List.foldl_cons, List.foldl_nil, StmtCall.meaning, sig_put_same, Call.meaning, Signal.transform]
    cases hN : (w.sig x).numbers with
    | real l => rw [hN] at hx; cases hx
    | complex l =>
      rw [hN] at ho
      simp only [Numbers.mapLists, Numbers.asCx, Numbers.rearrange]
      congr 1
      exact centred_conj_odd hK l ho
  · simp only [World.after, List.foldl_cons, List.foldl_nil, StmtCall.meaning, sig_put_same, Call.meaning, Signal.transform]

/-- C83, symmetry: for an odd number of points the spectrum of a real signal does not change if it is conjugated and reversed. -/
theorem C83_real_odd (K : FftKernel ℝ) (hK : K.IsDft) (w : World ℝ) (x : Nat) (hx : (w.sig x).numbers.isComplex = false)
    (ho : (w.sig x).numbers.count % 2 = 1) :
    SameResult w [.single x (.fft K)] [.single x (.fft K), .single x .conj, .single x .reverse] x := by
  apply same_of
  · simp only [World.after, List.foldl_cons, List.foldl_nil, StmtCall.meaning, sig_put_same, Call.meaning, Signal.transform]
    cases hN : (w.sig x).numbers with
    | complex l => rw [hN] at hx; cases hx
    | real l =>
      rw [hN] at ho
      simp only [Numbers.mapLists, Numbers.asCx, Numbers.rearrange]
      congr 1
      have h := centred_conj_odd hK (l.map Cx.ofReal) (by rw [List.length_map]; exact ho)
      have e : ((l.map Cx.ofReal).map fun c => (⟨c.re, -c.im⟩ : Cx ℝ)) = l.map Cx.ofReal := by
        rw [List.map_map]
        refine List.map_congr_left fun z _ => ?_
        ext <;> simp [Cx.ofReal]
      rw [e] at h
      exact h
  · simp only [World.after, List.foldl_cons, List.foldl_nil, StmtCall.meaning, sig_put_same, Call.meaning, Signal.transform]

/-- C83, symmetry: for all numbers of points, frequency `-k` of a real signal is the conjugate of frequency `k`. -/
theorem C83_real_symmetric (K : FftKernel ℝ) (hK : K.IsDft) (w : World ℝ) (x : Nat) (hx : (w.sig x).numbers.isComplex = false) :
    ∃ S, Leaves w [.single x (.plainFft K)] x (.complex S) .frequency ∧ S.length = (w.sig x).numbers.count ∧
      ∀ k < S.length, S.getD ((S.length - k) % S.length) ⟨0, 0⟩ = (S.getD k ⟨0, 0⟩).conj := by
  obtain ⟨S, h1, h2, h3⟩ := C83_plain_fft K hK w x
  refine ⟨S, h1, h2, fun k hk => Cx.toC_inj ?_⟩
  rw [h3 _ (Nat.mod_lt _ (by omega)), Cx.toC_conj, h3 k hk]
  cases hN : (w.sig x).numbers with
  | complex l => rw [hN] at hx; cases hx
  | real l =>
    rw [hN] at h2
    simp only [Numbers.asCx, Numbers.count] at h2 ⊢
    have e : (l.map Cx.ofReal).map Cx.conj = l.map (Cx.ofReal : ℝ → Cx ℝ) := by
      rw [List.map_map]
      refine List.map_congr_left fun z _ => ?_
      ext <;> simp [Cx.ofReal, Cx.conj]
    have h := fourierAt_conj (l.map (Cx.ofReal : ℝ → Cx ℝ)) (-k)
    rw [e, neg_neg] at h
    rw [← h]
    apply fourierAt_congr
    rw [List.length_map, ← h2]
    push_cast
    rw [Int.emod_emod, Nat.cast_sub hk.le, show (S.length : ℤ) - k = -k + S.length by ring, Int.add_emod_right]

/-- C83, the zero frequency: point 0 after `plain_fft` is the sum of the points, as `sum` of the signal returns it. -/
theorem C83_zero_frequency (K : FftKernel ℝ) (hK : K.IsDft) (w : World ℝ) (x : Nat) (hn : 1 ≤ (w.sig x).numbers.count) :
    ∃ S c, Leaves w [.single x (.plainFft K)] x (.complex S) .frequency ∧ S[0]? = some c ∧
      Returns w [.sum false true x] [.complex (.ok c)] ∧
      ((w.sig x).numbers.isComplex = false → c.im = 0 ∧ Returns w [.sum false false x] [.real (.ok c.re)]) := by
  obtain ⟨S, h1, h2, h3⟩ := C83_plain_fft K hK w x
  have h0 : 0 < S.length := by omega
  have e : S[0] = (w.sig x).numbers.asCx.sum := by
    apply Cx.toC_inj
    have := h3 0 h0
    rw [getD_lt _ _ h0] at this
    rw [this, toC_list_sum, list_sum_getD Cx.toC]
    unfold fourierAt
    refine Finset.sum_congr rfl fun m _ => ?_
    simp [turn_zero]
  refine ⟨S, S[0], h1, List.getElem?_eq_getElem h0, returns_of ?_, fun hx => ?_⟩
  · simp only [World.after, List.foldl_cons, List.foldl_nil, StmtCall.meaning, sumMeaning]
    rw [e]; simp
  · cases hN : (w.sig x).numbers with
    | complex l => rw [hN] at hx; cases hx
    | real l =>
      rw [hN] at e
      have e2 : (l.map (Cx.ofReal : ℝ → Cx ℝ)).sum = Cx.ofReal l.sum := by
        clear hN e
        induction l with
        | nil => rfl
        | cons a l ih => rw [List.map_cons, List.sum_cons, ih, List.sum_cons]; ext <;> simp [Cx.ofReal]
      simp only [Numbers.asCx] at e
      rw [e2] at e
      refine ⟨by rw [e]; rfl, returns_of ?_⟩
      simp only [World.after, List.foldl_cons, List.foldl_nil, StmtCall.meaning, sumMeaning]
      rw [e, hN]; simp [Cx.ofReal, Numbers.flat]

/-- C83, the sum of the spectrum is the first point, times the number of points. -/
theorem C83_sum_of_spectrum (K : FftKernel ℝ) (hK : K.IsDft) (w : World ℝ) (x : Nat) (c : Cx ℝ) (hc : (w.sig x).numbers.asCx[0]? = some c) :
    Returns w [.single x (.plainFft K), .sum false true x] [.complex (.ok (Cx.scaleBy ((w.sig x).numbers.count : ℝ) c))] := by
  apply returns_of
  simp only [World.after, List.foldl_cons, List.foldl_nil, StmtCall.meaning, sig_put_same, Call.meaning, Signal.transform, sumMeaning]
  rw [← count_asCx]
  generalize (w.sig x).numbers.asCx = a at hc
  have hn : 0 < a.length := (List.getElem?_eq_some_iff.mp hc).1
  have h := fourierAt_forward hK a 0 hn
  have e : (K.forward a).sum = Cx.scaleBy (a.length : ℝ) c := by
    apply Cx.toC_inj
    rw [toC_list_sum, list_sum_getD Cx.toC]
    unfold fourierAt at h
    have h2 : ∀ m : Nat, turn (-(((-((0 : Nat) : ℤ) : ℤ) : ℝ) * m) / (K.forward a).length) = 1 := fun m => by simp [turn_zero]
    simp only [h2, mul_one] at h
    rw [h, List.getD_eq_getElem?_getD, hc]
    apply Complex.ext <;> simp [Cx.toC, Cx.scaleBy]
  simp only [World.put, List.append_nil, if_true, Numbers.asCx, Bool.false_eq_true, if_false, List.map_id']
  rw [e]

/-- C83, Parseval: the sum of the squared magnitudes of the spectrum is the sum of the squared magnitudes of the signal, times the
    number of points. For a real signal the latter is what `sum_sq` returns. -/
theorem C83_parseval (K : FftKernel ℝ) (hK : K.IsDft) (w : World ℝ) (x : Nat) :
    ∃ e : ℝ, e = ((w.sig x).numbers.asCx.map Cx.normSq).sum ∧
      ((w.sig x).numbers.isComplex = true → Returns w [.single x (.complexToReal Cx.normSq), .sum false false x] [.real (.ok e)]) ∧
      ((w.sig x).numbers.isComplex = false → Returns w [.sum true false x] [.real (.ok e)]) ∧
      Returns w [.single x (.fft K), .single x (.complexToReal Cx.normSq), .sum false false x]
        [.real (.ok ((w.sig x).numbers.count * e))] := by
  refine ⟨((w.sig x).numbers.asCx.map Cx.normSq).sum, rfl, fun hx => returns_of ?_, fun hx => returns_of ?_, returns_of ?_⟩
  · simp only [World.after, List.foldl_cons, List.foldl_nil, StmtCall.meaning, sig_put_same, Call.meaning, sumMeaning]
    cases hN : (w.sig x).numbers with
    | real l => rw [hN] at hx; cases hx
    | complex l => simp [World.put, Numbers.flat, Numbers.asCx]; rfl
  · simp only [World.after, List.foldl_cons, List.foldl_nil, StmtCall.meaning, sumMeaning]
    cases hN : (w.sig x).numbers with
    | complex l => rw [hN] at hx; cases hx
    | real l =>
      have e : (Cx.normSq ∘ (Cx.ofReal : ℝ → Cx ℝ)) = fun x => x * x := by funext a; simp [Cx.normSq, Cx.ofReal]
      simp [Numbers.flat, Numbers.asCx, e]
  · simp only [World.after, List.foldl_cons, List.foldl_nil, StmtCall.meaning, sig_put_same, Call.meaning, Signal.transform, sumMeaning]
    rw [← count_asCx]
    generalize (w.sig x).numbers.asCx = a
    have h := parseval hK a
    have e : ∀ c : Cx ℝ, Complex.normSq c.toC = c.normSq := fun c => by simp [Complex.normSq_apply, Cx.toC, Cx.normSq]
    simp only [e] at h
    have h2 := list_sum_getD Cx.normSq (K.forward a)
    rw [hK.forward_length] at h2
    have h3 : ((rotateRight (K.forward a) (a.length / 2)).map Cx.normSq).sum = ((K.forward a).map Cx.normSq).sum := by
      simp only [rotateRight, List.map_append, List.sum_append]
      rw [add_comm, ← List.sum_append, ← List.map_append, List.take_append_drop]
    simp only [World.put, List.append_nil, Numbers.flat, Bool.false_eq_true, if_false, List.map_id']
    rw [h3, h2, h, list_sum_getD Cx.normSq a]

theorem conv_agrees {s o : Signal ℝ} (h : s.Agrees o) (N M : Numbers ℝ) (hc : N.isComplex = M.isComplex) :
    ({ s with numbers := N } : Signal ℝ).Agrees { o with numbers := M } := ⟨hc, h.2.1, h.2.2⟩

theorem asCx_rearrange (N : Numbers ℝ) (f : ∀ {α : Type}, α → List α → List α) (hf : Natural fun z l => f z l) :
    (N.rearrange f).asCx = f ⟨0, 0⟩ N.asCx := by
  cases N with
  | real l => exact (hf Cx.ofReal 0 l).symm
  | complex l => rfl

theorem centred_conv {K : FftKernel ℝ} (hK : K.IsDft) (a b : List (Cx ℝ)) (hl : a.length = b.length) (ho : b.length % 2 = 1) :
    rotateRight (K.forward (circularConv a b)) ((circularConv a b).length / 2) =
      List.zipWith Cx.mul (rotateRight (K.forward a) (a.length / 2))
        (rotateRight (K.forward (rotateLeft b (b.length / 2))) ((rotateLeft b (b.length / 2)).length / 2)) := by
  have hz : (circularConv a b).length = a.length := by simp [circularConv]
  have h1 := centred_length hK a
  have h2 := centred_length hK (rotateLeft b (b.length / 2))
  have h3 := centred_length hK (circularConv a b)
  have h4 := rotateLeft_length b (b.length / 2)
  refine list_ext_toC (by rw [h3, hz, List.length_zipWith, h1, h2, h4]; omega) fun i hi => ?_
  rw [h3, hz] at hi
  rw [centred_getD hK _ _ (by omega), getD_zipWith _ _ _ (by omega) _ (by omega)]
  show _ = Cx.toC (_ * _)
  rw [Cx.toC_mul, centred_getD hK _ _ hi, centred_getD hK _ _ (by omega), fourierAt_circularConv a b hl, hz, h4, ← hl,
    show (a.length - 1) / 2 = a.length / 2 by omega]

/-- C83, convolution: for signals with the same odd number of points, the spectrum of the convolution is the product of the
    spectra, where the impulse response is moved so that its centre is the first point. -/
theorem C83_convolution (K : FftKernel ℝ) (hK : K.IsDft) (w : World ℝ) (x y : Nat) (hxy : x ≠ y)
    (hag : (w.sig x).Agrees (w.sig y)) (hx : (w.sig x).numbers.isComplex = true) (ht : (w.sig x).dom = .time)
    (hn : (w.sig x).numbers.count = (w.sig y).numbers.count) (ho : (w.sig y).numbers.count % 2 = 1) :
    SameResult w [.binary x y .convolveSignal, .single x (.fft K)]
      [.single y .swapHalvesBack, .single x (.fft K), .single y (.fft K), .binary x y (.elem .mul)] x := by
  cases hN : (w.sig x).numbers with
  | real l => rw [hN] at hx; cases hx
  | complex a =>
    cases hM : (w.sig y).numbers with
    | real l => have := hag.1; rw [hN, hM] at this; cases this
    | complex b =>
      rw [hN, hM] at hn
      rw [hM] at ho
      have hn : a.length = b.length := hn
      have e1 : (BinCall.convolveSignal).meaning (w.sig x) (w.sig y) =
          ({ w.sig x with numbers := (w.sig x).numbers.combine circularConv circularConv (w.sig y).numbers }, [.result (.ok ())]) := by
        simp only [BinCall.meaning]
        rw [if_neg (by rw [not_not]; exact hag), if_neg (by rw [not_not]; exact ht), if_neg (by rw [hN, hM]; simp only [Numbers.count]; omega)]
      have e2 := elem_meaning .mul (fft_agrees K (conv_agrees hag (.complex a) (.complex (rotateLeft b (b.length / 2))) rfl)
        (by simp only [Numbers.count]; rw [rotateLeft_length, hn]) (fun cs => rotateRight (K.forward cs) (cs.length / 2))
        (fun cs => rotateRight (K.forward cs) (cs.length / 2)) .frequency) (by
          simp only [Signal.transform, Numbers.count, Numbers.asCx]
          rw [centred_length hK, centred_length hK, rotateLeft_length, hn])
      have e3 : w.sig x = { w.sig x with numbers := .complex a } := by rw [← hN]
      apply same_of
      · simp only [World.after, List.foldl_cons, List.foldl_nil, StmtCall.meaning, sig_put_same]
        rw [sig_put_other _ hxy, sig_put_same, sig_put_other _ hxy, sig_put_other _ hxy.symm, sig_put_same, e1]
        simp only [Call.meaning]
        rw [hM, e3]
        simp only [Numbers.rearrange]
        rw [e2]
        simp only [Signal.transform, combine_complex]
        simp only [Numbers.asCx]
        congr 1
        exact centred_conv hK a b hn ho
      · simp only [World.after, List.foldl_cons, List.foldl_nil, StmtCall.meaning, sig_put_same]
        rw [sig_put_other _ hxy, sig_put_same, sig_put_other _ hxy, sig_put_other _ hxy.symm, sig_put_same, e1]
        simp only [Call.meaning]
        rw [hM, e3]
        simp only [Numbers.rearrange]
        rw [e2]
        rfl

/-- C83, modulation: `multiply_complex_exponential` with `s` turns over the length of the signal moves the spectrum by `s`
    frequencies. -/
theorem C83_modulation (K : FftKernel ℝ) (hK : K.IsDft) (w : World ℝ) (x : Nat) (hx : (w.sig x).numbers.isComplex = true) (d : ℝ)
    (hd : (w.sig x).delta = some d) (h0 : d ≠ 0) (s : ℤ) :
    ∃ S, Leaves w [.unary x (.exponential cisReal (2 * Real.pi * s / ((w.sig x).numbers.count * d)) 0), .single x (.plainFft K)] x
        (.complex S) .frequency ∧ S.length = (w.sig x).numbers.count ∧
      ∀ k < S.length, (S.getD k ⟨0, 0⟩).toC = fourierAt (w.sig x).numbers.asCx (k - s) := by
  cases hN : (w.sig x).numbers with
  | real l => rw [hN] at hx; cases hx
  | complex l =>
    generalize hcs : (l.mapIdx fun i c => c * cisReal (2 * Real.pi * s / ((Numbers.complex l).count * d) * i * d + 0 * d)) = m
    have hml : m.length = l.length := by rw [← hcs, List.length_mapIdx]
    have hl := hK.forward_length m
    refine ⟨K.forward m, leaves_of ?_ ?_, by rw [hl, hml]; rfl, fun k hk => ?_⟩
    · simp only [World.after, List.foldl_cons, List.foldl_nil, StmtCall.meaning, sig_put_same, UnCall.meaning, hN, hd, Call.meaning,
        Signal.transform]
      rw [hcs]; rfl
    · simp only [World.after, List.foldl_cons, List.foldl_nil, StmtCall.meaning, sig_put_same, Call.meaning, Signal.transform]
    · rw [hK.forward _ _ (by rw [hl] at hk; exact hk), ← hcs]
      refine fourierAt_modulated l _ s k fun i hi => ?_
      rw [toC_cisReal]
      unfold turn
      congr 1
      have hn : (l.length : ℂ) ≠ 0 := by exact_mod_cast (by omega : l.length ≠ 0)
      have hd0 : (d : ℂ) ≠ 0 := by exact_mod_cast h0
      simp only [Numbers.count]
      push_cast
      field_simp
      ring

/-- C83, convolution in general (all numbers of points): frequency `k` of the convolution is the product of the frequencies,
    times `exp (2 π j k c / n)`, where `c = (n - 1) / 2` is the index of the centre of the impulse response. -/
theorem C83_convolution_spectrum (K : FftKernel ℝ) (hK : K.IsDft) (w : World ℝ) (x y : Nat)
    (hag : (w.sig x).Agrees (w.sig y)) (hx : (w.sig x).numbers.isComplex = true) (ht : (w.sig x).dom = .time)
    (hn : (w.sig x).numbers.count = (w.sig y).numbers.count) :
    ∃ S, Leaves w [.binary x y .convolveSignal, .single x (.plainFft K)] x (.complex S) .frequency ∧
      S.length = (w.sig x).numbers.count ∧ ∀ k < S.length, (S.getD k ⟨0, 0⟩).toC =
        fourierAt (w.sig x).numbers.asCx k * fourierAt (w.sig y).numbers.asCx k * turn (k * ((S.length - 1) / 2 : Nat) / S.length) := by
  cases hN : (w.sig x).numbers with
  | real l => rw [hN] at hx; cases hx
  | complex a =>
    cases hM : (w.sig y).numbers with
    | real l => have := hag.1; rw [hN, hM] at this; cases this
    | complex b =>
      rw [hN, hM] at hn
      have hn : a.length = b.length := hn
      have e1 : (BinCall.convolveSignal).meaning (w.sig x) (w.sig y) =
          ({ w.sig x with numbers := .complex (circularConv a b) }, [.result (.ok ())]) := by
        simp only [BinCall.meaning]
        rw [if_neg (by rw [not_not]; exact hag), if_neg (by rw [not_not]; exact ht), if_neg (by rw [hN, hM]; simp only [Numbers.count]; omega),
          hN, hM]
        rfl
      have hz : (circularConv a b).length = a.length := by simp [circularConv]
      have hl := hK.forward_length (circularConv a b)
      refine ⟨K.forward (circularConv a b), leaves_of ?_ ?_, by rw [hl, hz]; rfl, fun k hk => ?_⟩
      · simp only [World.after, List.foldl_cons, List.foldl_nil, StmtCall.meaning, sig_put_same, e1]
        rfl
      · simp only [World.after, List.foldl_cons, List.foldl_nil, StmtCall.meaning, sig_put_same, e1]
        rfl
      · rw [hK.forward _ _ (by omega), fourierAt_circularConv a b hn, fourierAt_rotateLeft _ _ (by omega), hl, hz, ← hn]
        simp only [Numbers.asCx]
        rw [mul_assoc, mul_comm (fourierAt b k)]
        rfl

/-- C83, zeros between the points: the spectrum is repeated. -/
theorem C83_interleave (K : FftKernel ℝ) (hK : K.IsDft) (w : World ℝ) (x f : Nat) (hf : 1 ≤ f) :
    ∃ S, Leaves w [.single x (.plainFft K)] x (.complex S) .frequency ∧
      Leaves w [.single x (.zeroInterleave f), .single x (.plainFft K)] x (.complex (List.replicate f S).flatten) .frequency := by
  refine ⟨K.forward (w.sig x).numbers.asCx, leaves_of ?_ ?_, leaves_of ?_ ?_⟩ <;>
    simp only [World.after, List.foldl_cons, List.foldl_nil, StmtCall.meaning, sig_put_same, Call.meaning, Signal.transform]
  rw [asCx_rearrange _ _ (natural_interleave f), hK.forward_eq, hK.forward_eq]
  congr 1
  exact dft_repeats f _ hf

/-- C83, zeros after the points: the spectrum becomes finer; every `m`-th of its points is a point of the spectrum of the signal. -/
theorem C83_zero_pad (K : FftKernel ℝ) (hK : K.IsDft) (w : World ℝ) (x m : Nat) (hm : 1 ≤ m) :
    SameResult w [.single x (.zeroPad (m * (w.sig x).numbers.count) .end), .single x (.plainFft K), .single x (.decimate m 0)]
      [.single x (.plainFft K)] x := by
  have e : (Call.meaning (w.sig x) (.zeroPad (m * (w.sig x).numbers.count) .end)).numbers.asCx =
      (w.sig x).numbers.asCx ++ List.replicate ((m - 1) * (w.sig x).numbers.asCx.length) ⟨0, 0⟩ := by
    simp only [Call.meaning]
    split
    · rename_i h
      have : (m - 1) * (w.sig x).numbers.asCx.length = 0 := by
        rw [count_asCx, Nat.sub_mul, Nat.one_mul]; omega
      rw [this]; simp
    · rw [asCx_rearrange _ _ (natural_pad _ .end)]
      simp only [padSpec]
      rw [count_asCx, Nat.sub_mul, Nat.one_mul]
  apply same_of
  · simp only [World.after, List.foldl_cons, List.foldl_nil, StmtCall.meaning, sig_put_same]
    generalize Call.meaning (w.sig x) (.zeroPad (m * (w.sig x).numbers.count) .end) = s at e
    simp only [Call.meaning, Signal.transform, Numbers.rearrange]
    rw [e]
    generalize (w.sig x).numbers.asCx = a
    congr 1
    have hl : (a ++ List.replicate ((m - 1) * a.length) (⟨0, 0⟩ : Cx ℝ)).length = m * a.length := by
      simp only [List.length_append, List.length_replicate]
      obtain ⟨j, rfl⟩ : ∃ j, m = j + 1 := ⟨m - 1, by omega⟩
      rw [Nat.add_sub_cancel, Nat.add_mul, Nat.one_mul, Nat.add_comm]
    have hf := hK.forward_length (a ++ List.replicate ((m - 1) * a.length) ⟨0, 0⟩)
    rw [everyNth_eq ⟨0, 0⟩ m a.length hm _ (by rw [hf, hl])]
    have hfa := hK.forward_length a
    refine list_ext_toC (by rw [List.length_map, List.length_range, hfa]) fun k hk => ?_
    rw [List.length_map, List.length_range] at hk
    rw [getD_lt _ _ (by simpa using hk), List.getElem_map, List.getElem_range,
      hK.forward _ _ (by rw [hl]; exact Nat.mul_lt_mul_of_pos_left hk (by omega)), hK.forward _ _ hk]
    rw [← fourierAt_append_zeros a m hm k]
    congr 1; push_cast; ring
  · simp only [World.after, List.foldl_cons, List.foldl_nil, StmtCall.meaning, sig_put_same]
    simp only [Call.meaning, Signal.transform]

/-- C83, aliasing: `decimatei` folds the spectrum. -/
theorem C83_decimate (K : FftKernel ℝ) (hK : K.IsDft) (w : World ℝ) (x m n : Nat) (hm : 1 ≤ m) (hn : (w.sig x).numbers.count = m * n) :
    ∃ S S', Leaves w [.single x (.plainFft K)] x (.complex S) .frequency ∧ S.length = m * n ∧
      Leaves w [.single x (.decimate m 0), .single x (.plainFft K)] x (.complex S') .frequency ∧ S'.length = n ∧
      ∀ k < n, (m : ℂ) * (S'.getD k ⟨0, 0⟩).toC = ∑ j ∈ Finset.range m, (S.getD (k + j * n) ⟨0, 0⟩).toC := by
  have hl : (w.sig x).numbers.asCx.length = m * n := by rw [count_asCx, hn]
  have he : (everyNth m 0 (w.sig x).numbers.asCx).length = n := by rw [everyNth_eq ⟨0, 0⟩ m n hm _ hl]; simp
  refine ⟨K.forward (w.sig x).numbers.asCx, K.forward (everyNth m 0 (w.sig x).numbers.asCx), leaves_of ?_ ?_,
    by rw [hK.forward_length, hl], leaves_of ?_ ?_, by rw [hK.forward_length, he], fun k hk => ?_⟩
  · simp only [World.after, List.foldl_cons, List.foldl_nil, StmtCall.meaning, sig_put_same, Call.meaning, Signal.transform]
  · simp only [World.after, List.foldl_cons, List.foldl_nil, StmtCall.meaning, sig_put_same, Call.meaning, Signal.transform]
  · simp only [World.after, List.foldl_cons, List.foldl_nil, StmtCall.meaning, sig_put_same, Call.meaning, Signal.transform]
    rw [asCx_rearrange _ _ (natural_everyNth m 0)]
  · simp only [World.after, List.foldl_cons, List.foldl_nil, StmtCall.meaning, sig_put_same, Call.meaning, Signal.transform]
  · rw [hK.forward _ _ (by rw [he]; exact hk), fourierAt_everyNth _ m n hm hl]
    refine Finset.sum_congr rfl fun j hj => ?_
    have hj := Finset.mem_range.mp hj
    have : k + j * n < m * n := by
      have : (j + 1) * n ≤ m * n := Nat.mul_le_mul_right _ (by omega)
      rw [Nat.add_mul, Nat.one_mul] at this; omega
    rw [hK.forward _ _ (by rw [hl]; exact this)]
    push_cast; rfl

/-- C83, shift: the magnitudes of the spectrum do not change if the halves of the signal are swapped. -/
theorem C83_swap_halves (K : FftKernel ℝ) (hK : K.IsDft) (w : World ℝ) (x : Nat) :
    SameResult w [.single x .swapHalves, .single x (.plainFft K), .single x (.complexToReal Cx.normSq)]
      [.single x (.plainFft K), .single x (.complexToReal Cx.normSq)] x := by
  apply same_of <;> simp only [World.after, List.foldl_cons, List.foldl_nil, StmtCall.meaning, sig_put_same, Call.meaning, Signal.transform]
  rw [asCx_rearrange _ _ natural_rotateRight]
  generalize (w.sig x).numbers.asCx = a
  congr 1
  have e : rotateRight a (a.length / 2) = rotateLeft a (a.length - a.length / 2) := rfl
  rw [e]
  have h1 := hK.forward_length a
  have h2 := hK.forward_length (rotateLeft a (a.length - a.length / 2))
  rw [rotateLeft_length] at h2
  apply List.ext_getElem (by rw [List.length_map, List.length_map, h1, h2])
  intro i hi hj
  rw [List.length_map, h1] at hj
  simp only [List.getElem_map]
  have hq : ∀ c : Cx ℝ, c.normSq = Complex.normSq c.toC := fun c => by simp [Complex.normSq_apply, Cx.toC, Cx.normSq]
  rw [hq, hq, ← getD_lt ⟨0, 0⟩ _ (by omega), ← getD_lt ⟨0, 0⟩ _ (by omega), hK.forward _ _ (by rw [rotateLeft_length]; exact hj),
    hK.forward _ _ hj, fourierAt_rotateLeft _ _ (by omega), map_mul]
  have : Complex.normSq (turn ((i : ℤ) * (a.length - a.length / 2 : Nat) / a.length)) = 1 := by
    have h := Complex.normSq_eq_conj_mul_self (z := turn ((i : ℤ) * (a.length - a.length / 2 : Nat) / a.length))
    rw [conj_turn, ← turn_add, neg_add_cancel, turn_zero] at h
    exact_mod_cast h
  rw [this, one_mul]

/-! ### A case in which the hypotheses hold -/

theorem law_next {m : Machine ℝ} {w : World ℝ} {st : Stmt ℝ} {p : List (Stmt ℝ)} (h : m.Shows w) (hs : st.Safe m)
    (hn : ∀ m' : Machine ℝ, m'.Shows (st.call.meaning w) → m'.SafeAll p) : m.SafeAll (st :: p) := by
  refine ⟨hs, fun s1 s2 m' hf => ?_⟩
  obtain ⟨m'', ⟨a1, -⟩, a3⟩ := C72_step m w st h hs
  rcases a1 s1 s2 with e | e <;> beta_reduce at e <;> rw [hf] at e <;> cases e
  exact hn m' a3

/-- Three numbers in every variable. -/
def lawMachine : Machine ℝ := ⟨fun x => ⟨⟨.vec, [1, 2, x]⟩, some 1, .time, .real, 3⟩, []⟩

/-- The signals which the machine shows. -/
def lawWorld : World ℝ := ⟨fun x => ⟨.real [1, 2, x], .time, false, some 1⟩, []⟩

theorem lawMachine_shows : lawMachine.Shows lawWorld := ⟨fun _ => ⟨rfl, rfl, rfl, rfl⟩, rfl⟩

theorem lawWorld_agrees : (lawWorld.sig 0).Agrees (lawWorld.sig 1) := by
  refine ⟨rfl, rfl, fun a b ha hb => ?_⟩
  cases ha; cases hb; norm_num

theorem law_fft_safe {m : Machine ℝ} {w : World ℝ} (h : m.Shows w) (x : Nat) (ht : (w.sig x).dom = .time) (hn : (w.sig x).numbers.count ≠ 0) :
    (Stmt.single x (.fft dftKernel (.single []))).Safe m := by
  refine ⟨(h.1 x).dom.trans ht, dft_inverts.length, fun hc => ⟨?_, trivial⟩, trivial⟩
  rw [(h.1 x).isComplex] at hc
  rw [(h.1 x).len, Numbers.length_flat, Numbers.width, hc]
  simpa using hn

/-- Linearity, with real vectors: both programs are accepted, so they finish with the same content. -/
example : ∃ f1 f2 : Machine ℝ,
    (∃ o, runProgram o 0 lawMachine [.binary 0 1 (.elem .add .sseF64x2 0), .single 0 (.fft dftKernel (.single []))] = .finished f1) ∧
    (∃ o, runProgram o 0 lawMachine [.single 0 (.fft dftKernel (.single [])), .single 1 (.fft dftKernel (.single [])),
      .binary 0 1 (.elem .add .avxF64x4 4)] = .finished f2) ∧
    (f1.vec 0).content = (f2.vec 0).content := by
  have s1 : lawMachine.SafeAll [.binary 0 1 (.elem .add .sseF64x2 0), .single 0 (.fft dftKernel (.single []))] := by
    refine law_next lawMachine_shows ⟨fun e he => by cases he; norm_num, fun _ _ => ⟨.inl rfl, fun hc => by cases hc⟩⟩ fun m' h => ?_
    refine law_next h (law_fft_safe h 0 ?_ ?_) fun _ _ => trivial
    · show ((World.put _ _ _ _).sig 0).dom = _
      rw [sig_put_same]
      exact congrArg (fun z => z.1.dom) (elem_meaning .add lawWorld_agrees rfl)
    · show ((World.put _ _ _ _).sig 0).numbers.count ≠ _
      rw [sig_put_same]
      have := congrArg (fun z => z.1.numbers.count) (elem_meaning .add lawWorld_agrees rfl)
      have : (BinCall.meaning (lawWorld.sig 0) (lawWorld.sig 1) (.elem .add)).1.numbers.count = 3 := this
      exact fun h => by rw [show (BinOp.call (.elem .add .sseF64x2 0) : BinCall ℝ) = .elem .add from rfl, this] at h; cases h
  have s2 : lawMachine.SafeAll [.single 0 (.fft dftKernel (.single [])), .single 1 (.fft dftKernel (.single [])),
      .binary 0 1 (.elem .add .avxF64x4 4)] := by
    refine law_next lawMachine_shows (law_fft_safe lawMachine_shows 0 rfl (by decide)) fun m' h => ?_
    refine law_next h (law_fft_safe h 1 rfl (by show (3 : Nat) ≠ 0; decide)) fun m2 h2 => ?_
    refine law_next h2 ⟨fun e he => ?_, fun _ _ => ⟨.inl rfl, fun _ hop => by rcases hop with h | h <;> cases h⟩⟩ fun _ _ => trivial
    rw [(h2.1 1).delta] at he
    have : (3 : Nat) * (1 : ℝ) = e := Option.some.inj he
    rw [← this]; norm_num
  obtain ⟨f1, -, r1, -⟩ := C72_program _ _ _ lawMachine_shows s1
  obtain ⟨f2, -, r2, -⟩ := C72_program _ _ _ lawMachine_shows s2
  obtain ⟨o1, r1⟩ := r1
  obtain ⟨o2, r2⟩ := r2
  exact ⟨f1, f2, ⟨o1, r1⟩, ⟨o2, r2⟩, (C83_linear dftKernel dft_isDft .add (.inl rfl) lawWorld 0 1 (by decide) lawWorld_agrees rfl
    _ _ _ _ lawMachine_shows lawMachine_shows rfl rfl s1 s2 _ _ _ _ r1 r2).1⟩

/-- Parseval for `[1, 2, 0]`: the sum of squares is 5, the spectrum has the sum 15. -/
example : Returns lawWorld [.single 0 (.fft dftKernel), .single 0 (.complexToReal Cx.normSq), .sum false false 0] [.real (.ok 15)] := by
  obtain ⟨e, he, -, -, h⟩ := C83_parseval dftKernel dft_isDft lawWorld 0
  have : e = 5 := by rw [he]; simp [lawWorld, Numbers.asCx, Cx.normSq, Cx.ofReal]; norm_num
  rw [this] at h
  have e2 : (((lawWorld.sig 0).numbers.count : ℝ) * 5) = 15 := by simp [lawWorld, Numbers.count]; norm_num
  rwa [e2] at h

/-- Three complex numbers in every variable. -/
def lawComplexMachine : Machine ℝ := ⟨fun x => ⟨⟨.vec, [1, 2, x, 0, 5, 6]⟩, some 2, .timeOrFreq .time, .realOrComplex true, 6⟩, []⟩

/-- The signals which the machine shows. -/
def lawComplexWorld : World ℝ := ⟨fun x => ⟨.complex [⟨1, 2⟩, ⟨x, 0⟩, ⟨5, 6⟩], .time, true, some 2⟩, []⟩

theorem lawComplexMachine_shows : lawComplexMachine.Shows lawComplexWorld := ⟨fun _ => ⟨rfl, rfl, rfl, rfl⟩, rfl⟩

theorem lawComplexWorld_agrees : (lawComplexWorld.sig 0).Agrees (lawComplexWorld.sig 1) := by
  refine ⟨rfl, rfl, fun a b ha hb => ?_⟩
  cases ha; cases hb; norm_num

/-- The hypotheses of the laws for complex signals hold for these signals. -/
example : SameResult lawComplexWorld [.binary 0 1 .convolveSignal, .single 0 (.fft dftKernel)]
    [.single 1 .swapHalvesBack, .single 0 (.fft dftKernel), .single 1 (.fft dftKernel), .binary 0 1 (.elem .mul)] 0 :=
  C83_convolution dftKernel dft_isDft lawComplexWorld 0 1 (by decide) lawComplexWorld_agrees rfl rfl rfl rfl

example : SameResult lawComplexWorld [.single 0 .conj, .single 0 (.fft dftKernel)]
    [.single 0 (.fft dftKernel), .single 0 .conj, .single 0 .reverse] 0 :=
  C83_conj_odd dftKernel dft_isDft lawComplexWorld 0 rfl rfl

/-- The environments accept the second program (static or generic vectors, with a buffer which grows). -/
example : lawComplexMachine.SafeAll [.single 0 (.fft dftKernel (.single [])), .single 0 .reverse] := by
  refine law_next lawComplexMachine_shows (law_fft_safe lawComplexMachine_shows 0 rfl (by decide)) fun m' h => ?_
  exact ⟨trivial, fun _ _ _ _ => trivial⟩

example : ∃ S, Leaves lawComplexWorld [.unary 0 (.exponential cisReal (2 * Real.pi * (1 : ℤ) / ((3 : Nat) * 2)) 0), .single 0 (.plainFft dftKernel)] 0
    (.complex S) .frequency ∧ S.length = 3 ∧ ∀ k < S.length, (S.getD k ⟨0, 0⟩).toC = fourierAt (lawComplexWorld.sig 0).numbers.asCx (k - 1) :=
  C83_modulation dftKernel dft_isDft lawComplexWorld 0 rfl 2 rfl (by norm_num) 1

end Dsp
