import Verif.Lemmas.CorrLaws
import Verif.Spec.CorrLaws
import Verif.Props.ConvLaws
/-
C88: the laws of the cross correlation hold for programs, in all environments and for all schedules.
-/
namespace Dsp
open DspVec

/-- Two transforms which compute the same are the same. -/
theorem isDft_forward {K : FftKernel ℝ} (hK : K.IsDft) (cs : List (Cx ℝ)) : K.forward cs = dftKernel.forward cs :=
  list_ext_toC (by rw [hK.forward_length, dft_isDft.forward_length]) fun i h1 => by
    rw [hK.forward_length] at h1
    exact (hK.forward cs i h1).trans (dft_isDft.forward cs i h1).symm

theorem isDft_inverse {K : FftKernel ℝ} (hK : K.IsDft) (cs : List (Cx ℝ)) : K.inverse cs = dftKernel.inverse cs :=
  list_ext_toC (by rw [hK.inverse_length, dft_isDft.inverse_length]) fun i h1 => by
    rw [hK.inverse_length] at h1
    exact (hK.inverse cs i h1).trans (dft_isDft.inverse cs i h1).symm

theorem isDft_correlates {K : FftKernel ℝ} (hK : K.IsDft) : K.Correlates := by
  refine ⟨⟨hK.forward_length, hK.inverse_length⟩, fun a b h => ?_⟩
  rw [isDft_forward hK, isDft_forward hK, isDft_inverse hK]
  exact dft_correlates.2 a b h

/-- The lists. -/
theorem correlated_list {K : FftKernel ℝ} (hK : K.IsDft) (a c : List (Cx ℝ)) (hl : a.length = c.length) (hn : 1 ≤ c.length) :
    rotateRight ((K.inverse (List.zipWith (· * ·)
      (K.forward (padSpec 0 a (2 * c.length - 1) (surroundRightB a.length (2 * c.length - 1)) .surround))
      ((K.forward (padSpec 0 c (2 * c.length - 1) (surroundRightB c.length (2 * c.length - 1)) .surround)).map Cx.conj))).map
        (Cx.scaleBy (1 / ((2 * c.length - 1 : Nat) : ℝ)))) ((2 * c.length - 1) / 2) = crossCorrelation a c := by
  have hR : surroundRightB c.length (2 * c.length - 1) = (c.length - 1) / 2 := by unfold surroundRightB; congr 1; omega
  have hla : (padSpec (0 : Cx ℝ) a (2 * c.length - 1) (surroundRightB c.length (2 * c.length - 1)) .surround).length = 2 * c.length - 1 :=
    padSpec_length _ _ _ _ _ (by omega) (by rw [hR]; omega)
  have hlc : (padSpec (0 : Cx ℝ) c (2 * c.length - 1) (surroundRightB c.length (2 * c.length - 1)) .surround).length = 2 * c.length - 1 :=
    padSpec_length _ _ _ _ _ (by omega) (by rw [hR]; omega)
  rw [hl, (isDft_correlates hK).2 _ _ (hla.trans hlc.symm), hla, List.map_map]
  have hN : ((2 * c.length - 1 : Nat) : ℝ) ≠ 0 := by
    rw [Nat.cast_ne_zero]; omega
  have : (Cx.scaleBy (1 / ((2 * c.length - 1 : Nat) : ℝ)) ∘ Cx.scaleBy ((2 * c.length - 1 : Nat) : ℝ)) = id := by
    funext z
    ext
    · simp only [Function.comp, Cx.scaleBy, id]; field_simp
    · simp only [Function.comp, Cx.scaleBy, id]; field_simp
  rw [this, List.map_id]
  exact rotated_correlation a c c.length hl rfl hn

theorem after_append (w : World ℝ) (c d : List (StmtCall ℝ)) : w.after (c ++ d) = (w.after c).after d := by
  simp only [World.after, List.foldl_append]

theorem after_cons (w : World ℝ) (c : StmtCall ℝ) (d : List (StmtCall ℝ)) : w.after (c :: d) = (c.meaning w).after d := rfl

/-- The signals after correlating. -/
theorem correlating_world {K : FftKernel ℝ} (hK : K.IsDft) {w : World ℝ} {x y : Nat} (hxy : x ≠ y) {a c : List (Cx ℝ)} (h : w.Pair x y a c) :
    ∃ s, w.after (correlating K x y) =
      (w.put y s []).put x { w.sig x with numbers := .complex (crossCorrelation a c) } [.result (.ok ())] := by
  have e1 := h.left
  have e2 := h.right
  have hlc : ((K.forward (padSpec (0 : Cx ℝ) c (2 * c.length - 1) (surroundRightB c.length (2 * c.length - 1)) .surround)).map Cx.conj).length =
      2 * c.length - 1 := by
    rw [List.length_map, hK.forward_length]
    have hR : surroundRightB c.length (2 * c.length - 1) = (c.length - 1) / 2 := by unfold surroundRightB; congr 1; omega
    exact padSpec_length _ _ _ _ _ (by omega) (by rw [hR]; have := h.two; omega)
  have := h.two
  have hs := h.same
  unfold correlating
  conv_run
  have hz : (⟨0, 0⟩ : Cx ℝ) = 0 := rfl
  simp only [sig_put_other _ hxy, UnCall.meaning, BinCall.meaning, Signal.transform, e1, e2, Numbers.count, Numbers.rearrange, Numbers.asCx, hz]
  have hcond : ¬ (2 * c.length - 1 ≤ a.length) := by omega
  rw [hlc, ← correlated_list hK a c h.same (by omega)]
  simp only [if_neg hcond]
  exact ⟨_, rfl⟩

theorem correlating_sig {K : FftKernel ℝ} (hK : K.IsDft) {w : World ℝ} {x y : Nat} (hxy : x ≠ y) {a c : List (Cx ℝ)} (h : w.Pair x y a c) :
    (w.after (correlating K x y)).sig x = { w.sig x with numbers := .complex (crossCorrelation a c) } := by
  obtain ⟨s, e⟩ := correlating_world hK hxy h
  rw [e, sig_put_same]

theorem correlating_numbers {K : FftKernel ℝ} (hK : K.IsDft) {w : World ℝ} {x y : Nat} (hxy : x ≠ y) {a c : List (Cx ℝ)} (h : w.Pair x y a c) :
    Leaves w (correlating K x y) x (.complex (crossCorrelation a c)) .time :=
  leaves_of (by rw [correlating_sig hK hxy h]) (by rw [correlating_sig hK hxy h]; exact h.time)

/-- C88: the program gives the cross correlation: `2 n - 1` points, of which point `r` belongs to the lag `r - (n - 1)`. -/
theorem C88_correlation (K : FftKernel ℝ) (hK : K.IsDft) (w : World ℝ) (x y : Nat) (hxy : x ≠ y) (a c : List (Cx ℝ)) (h : w.Pair x y a c) :
    ∃ R, Leaves w (correlating K x y) x (.complex R) .time ∧ R.length = 2 * c.length - 1 ∧
      ∀ r < R.length, R.getD r 0 = ((List.range c.length).map fun (k : Nat) => atOrZero a ((k : ℤ) + r - (c.length - 1 : Nat)) * (c.getD k 0).conj).sum := by
  refine ⟨_, correlating_numbers hK hxy h, crossCorrelation_length a c, fun r hr => ?_⟩
  rw [crossCorrelation_length] at hr
  unfold crossCorrelation
  rw [List.getD_eq_getElem?_getD, List.getElem?_map, List.getElem?_range hr, Option.map_some, Option.getD_some]

theorem placed_length (n p : Nat) (l : List (Cx ℝ)) (h : p + l.length ≤ n) : (placed n p l).length = n := by
  simp only [placed, List.length_append, List.length_replicate]
  omega

/-- The correlation of two delayed pulses. -/
theorem cross_delay (n p q : Nat) (pulse : List (Cx ℝ)) (gain : Cx ℝ) (hp : p + pulse.length ≤ n) (hq : q + pulse.length ≤ n)
    (hne : ∃ c ∈ pulse, c ≠ 0) (hg : gain ≠ 0) :
    (crossCorrelation (placed n p (pulse.map (· * gain))) (placed n q pulse)).getD (n - 1 + p - q) 0 = gain * Cx.ofReal (energy pulse) ∧
      ∀ r < 2 * n - 1, r ≠ n - 1 + p - q →
        Cx.normSq ((crossCorrelation (placed n p (pulse.map (· * gain))) (placed n q pulse)).getD r 0) <
          Cx.normSq ((crossCorrelation (placed n p (pulse.map (· * gain))) (placed n q pulse)).getD (n - 1 + p - q) 0) := by
  have l2 := placed_length n q pulse hq
  obtain ⟨c0, hc0, hc0'⟩ := hne
  have hpos : 1 ≤ pulse.length := by cases pulse with | nil => simp at hc0 | cons _ _ => simp
  have hf := ext0_finite pulse
  have hval : ∀ l : ℤ, corrAt (ext0 (placed n p (pulse.map (· * gain)))) (ext0 (placed n q pulse)) l =
      corrAt (ext0 pulse) (ext0 pulse) (l - (p - q)) * gain.toC := by
    intro l
    have e1 : ext0 (placed n p (pulse.map (· * gain))) = fun k => (fun k => ext0 pulse k * gain.toC) (k - p) := by
      funext k; rw [placed, ext0_placed, ext0_map_mul]
    have e2 : ext0 (placed n q pulse) = fun k => ext0 pulse (k - q) := by
      funext k; rw [placed, ext0_placed]
    rw [e1, e2, corrAt_shift_right, corrAt_shift (fun k => ext0 pulse k * gain.toC), corrAt_smul_left]
    congr 2
    ring
  have hne : ∃ k, ext0 pulse k ≠ 0 := by
    obtain ⟨i, hi, rfl⟩ := List.getElem_of_mem hc0
    refine ⟨i, fun h => hc0' ?_⟩
    rw [ext0_nat, List.getD_eq_getElem?_getD, List.getElem?_eq_getElem hi] at h
    exact Cx.toC_inj h
  have hget : ∀ r < 2 * n - 1, ((crossCorrelation (placed n p (pulse.map (· * gain))) (placed n q pulse)).getD r 0).toC =
      corrAt (ext0 pulse) (ext0 pulse) ((r : ℤ) - (n - 1 : Nat) - (p - q)) * gain.toC := by
    intro r hr
    rw [crossCorrelation_get _ _ _ (by rw [l2]; exact hr), hval, l2]
  have hpeak : ((crossCorrelation (placed n p (pulse.map (· * gain))) (placed n q pulse)).getD (n - 1 + p - q) 0).toC =
      (energyOf (ext0 pulse) : ℂ) * gain.toC := by
    rw [hget _ (by omega), show (((n - 1 + p - q : Nat) : ℤ) - (n - 1 : Nat) - (p - q)) = 0 by omega, corrAt_zero _ hf]
  refine ⟨?_, fun r hr hne' => ?_⟩
  · apply Cx.toC_inj
    rw [hpeak, energyOf_ext0, Cx.toC_mul, mul_comm]
    congr 1
  · have hs := autocorrelation_peak (ext0 pulse) hf ((r : ℤ) - (n - 1 : Nat) - (p - q)) (by omega) hne
    have hgn : 0 < ‖gain.toC‖ := norm_pos_iff.mpr fun h => hg (Cx.toC_inj h)
    have hE : 0 ≤ energyOf (ext0 pulse) := le_trans (norm_nonneg _) hs.le
    rw [normSq_toC, normSq_toC, hpeak, hget r hr, norm_mul, norm_mul, Complex.norm_of_nonneg hE]
    have := mul_lt_mul_of_pos_right hs hgn
    exact pow_lt_pow_left₀ this (by positivity) (by decide)

/-- C88, the delay: if both signals contain the same pulse, at position `p` in `x` (with some complex gain) and at position `q` in `y`,
    then the magnitude of the correlation has its only maximum at the point which belongs to the lag `p - q`, and the value there is the
    gain times the energy of the pulse. -/
theorem C88_delay (K : FftKernel ℝ) (hK : K.IsDft) (w : World ℝ) (x y : Nat) (hxy : x ≠ y) (n p q : Nat) (pulse : List (Cx ℝ)) (gain : Cx ℝ)
    (hp : p + pulse.length ≤ n) (hq : q + pulse.length ≤ n) (hn : 2 ≤ n) (hne : ∃ c ∈ pulse, c ≠ 0) (hg : gain ≠ 0)
    (hx : (w.sig x).numbers = .complex (placed n p (pulse.map (· * gain)))) (hy : (w.sig y).numbers = .complex (placed n q pulse))
    (ht : (w.sig x).dom = .time) :
    ∃ R, Leaves w (correlating K x y) x (.complex R) .time ∧ R.length = 2 * n - 1 ∧ n - 1 + p - q < R.length ∧
      R.getD (n - 1 + p - q) 0 = gain * Cx.ofReal (energy pulse) ∧
      ∀ r < R.length, r ≠ n - 1 + p - q → Cx.normSq (R.getD r 0) < Cx.normSq (R.getD (n - 1 + p - q) 0) := by
  have l1 := placed_length n p (pulse.map (· * gain)) (by rw [List.length_map]; exact hp)
  have l2 := placed_length n q pulse hq
  have hpair : w.Pair x y (placed n p (pulse.map (· * gain))) (placed n q pulse) := ⟨hx, hy, ht, by rw [l1, l2], by rw [l2]; exact hn⟩
  obtain ⟨h1, h2⟩ := cross_delay n p q pulse gain hp hq hne hg
  have hlen2 := crossCorrelation_length (placed n p (pulse.map (· * gain))) (placed n q pulse)
  rw [l2] at hlen2
  obtain ⟨c, hc, -⟩ := hne
  have hpos : 1 ≤ pulse.length := by cases pulse with | nil => simp at hc | cons _ _ => simp
  exact ⟨_, correlating_numbers hK hxy hpair, hlen2, by omega, h1, fun r hr => h2 r (by omega)⟩

/-- C88, swap: exchanging the signals conjugates and reverses the correlation. -/
theorem C88_swap (K : FftKernel ℝ) (hK : K.IsDft) (w : World ℝ) (x y : Nat) (hxy : x ≠ y) (a c : List (Cx ℝ)) (h : w.Pair x y a c)
    (ht : (w.sig y).dom = .time) :
    ∃ R, Leaves w (correlating K x y) x (.complex R) .time ∧
      Leaves w (correlating K y x ++ [.single y .conj, .single y .reverse]) y (.complex R) .time := by
  have h2 : w.Pair y x c a := ⟨h.right, h.left, ht, h.same.symm, by rw [h.same]; exact h.two⟩
  have e := correlating_sig hK hxy.symm h2
  refine ⟨_, correlating_numbers hK hxy h, leaves_of ?_ ?_⟩
  · rw [after_append]
    generalize w.after (correlating K y x) = w1 at e ⊢
    conv_run
    rw [e]
    simp only [Call.meaning, Numbers.mapLists, Numbers.rearrange]
    rw [cross_swap a c h.same]
  · rw [after_append]
    generalize w.after (correlating K y x) = w1 at e ⊢
    conv_run
    rw [e]
    exact ht

/-- C88, linear: the correlation of a sum (difference) with `y` is the sum (difference) of the correlations. The argument is prepared
    only once. -/
theorem C88_linear (K : FftKernel ℝ) (hK : K.IsDft) (op : ElemOp) (hop : op = .add ∨ op = .sub) (w : World ℝ) (x z y : Nat)
    (hxz : x ≠ z) (hxy : x ≠ y) (hzy : z ≠ y) (a b c : List (Cx ℝ)) (h : w.Pair x y a c) (h' : w.Pair z y b c)
    (hag : (w.sig x).Agrees (w.sig z)) :
    SameResult w (.binary x z (.elem op) :: correlating K x y)
      (correlating K x y ++ [.binary z y (.correlate K), .binary x z (.elem op)]) x := by
  have hl : a.length = b.length := h.same.trans h'.same.symm
  have ee := elem_meaning op hag (by rw [h.left, h'.left]; exact hl)
  rw [h.left, h'.left] at ee
  simp only [Numbers.combine] at ee
  -- the sum first
  have p1 : (w.put x { w.sig x with numbers := .complex (List.zipWith op.cx a b) } [.result (.ok ())]).Pair x y (List.zipWith op.cx a b) c := by
    refine ⟨by rw [sig_put_same], by rw [sig_put_other _ hxy.symm, h.right], by rw [sig_put_same]; exact h.time, ?_, h.two⟩
    rw [List.length_zipWith, ← hl, min_self, h.same]
  have e1 := correlating_sig hK hxy p1
  -- the correlations first
  have e2 := correlating_sig hK hxy h
  have e3 := correlating_sig hK hzy h'
  unfold correlating at e2 e3
  simp only [World.after, List.foldl_cons, List.foldl_nil, StmtCall.meaning, sig_put_same, sig_put_other _ hxy, sig_put_other _ hzy] at e2 e3
  have ag2 : ({ w.sig x with numbers := .complex (crossCorrelation a c) } : Signal ℝ).Agrees
      { w.sig z with numbers := .complex (crossCorrelation b c) } := ⟨rfl, hag.2.1, hag.2.2⟩
  have ee2 := elem_meaning op ag2 (by simp only [Numbers.count, crossCorrelation_length])
  simp only [Numbers.combine] at ee2
  have key1 : (w.after (.binary x z (.elem op) :: correlating K x y)).sig x =
      { w.sig x with numbers := .complex (crossCorrelation (List.zipWith op.cx a b) c) } := by
    rw [after_cons]
    simp only [StmtCall.meaning]
    rw [ee]
    refine e1.trans ?_
    rw [sig_put_same]
  have key2 : (w.after (correlating K x y ++ [.binary z y (.correlate K), .binary x z (.elem op)])).sig x =
      { w.sig x with numbers := .complex (List.zipWith op.cx (crossCorrelation a c) (crossCorrelation b c)) } := by
    unfold correlating
    simp only [List.cons_append, List.nil_append]
    conv_run
    simp only [sig_put_other _ hxy, sig_put_other _ hzy, sig_put_other _ hxz.symm, sig_put_other _ hxz, sig_put_other _ hxy.symm, sig_put_same]
    rw [e2, e3, ee2]
  apply same_of
  · rw [key1, key2, cross_zipWith op hop a b c hl]
  · rw [key1, key2]

/-- C88, a complex factor of the signal is a factor of the result, one of the argument is a factor which is conjugated. -/
theorem C88_scale (K : FftKernel ℝ) (hK : K.IsDft) (w : World ℝ) (x y : Nat) (hxy : x ≠ y) (a c : List (Cx ℝ)) (h : w.Pair x y a c) (z : Cx ℝ) :
    SameResult w (.single x (.scaleComplex z) :: correlating K x y) (correlating K x y ++ [.single x (.scaleComplex z)]) x ∧
    SameResult w (.single y (.scaleComplex z) :: correlating K x y) (correlating K x y ++ [.single x (.scaleComplex z.conj)]) x := by
  have p1 : (w.put x { w.sig x with numbers := .complex (a.map (Cx.mul · z)) } []).Pair x y (a.map (Cx.mul · z)) c :=
    ⟨by rw [sig_put_same], by rw [sig_put_other _ hxy.symm, h.right], by rw [sig_put_same]; exact h.time, by rw [List.length_map, h.same], h.two⟩
  have p2 : (w.put y { w.sig y with numbers := .complex (c.map (Cx.mul · z)) } []).Pair x y a (c.map (Cx.mul · z)) :=
    ⟨by rw [sig_put_other _ hxy, h.left], by rw [sig_put_same], by rw [sig_put_other _ hxy]; exact h.time, by rw [List.length_map, h.same],
      by rw [List.length_map]; exact h.two⟩
  have e1 := correlating_sig hK hxy p1
  have e2 := correlating_sig hK hxy p2
  have e0 := correlating_sig hK hxy h
  have k1 : (w.after (.single x (.scaleComplex z) :: correlating K x y)).sig x =
      { w.sig x with numbers := .complex (crossCorrelation (a.map (Cx.mul · z)) c) } := by
    rw [after_cons]
    simp only [StmtCall.meaning, Call.meaning, h.left, Numbers.mapLists]
    refine e1.trans ?_
    rw [sig_put_same]
  have k2 : (w.after (.single y (.scaleComplex z) :: correlating K x y)).sig x =
      { w.sig x with numbers := .complex (crossCorrelation a (c.map (Cx.mul · z))) } := by
    rw [after_cons]
    simp only [StmtCall.meaning, Call.meaning, h.right, Numbers.mapLists]
    refine e2.trans ?_
    rw [sig_put_other _ hxy]
  have k0 : ∀ z : Cx ℝ, (w.after (correlating K x y ++ [.single x (.scaleComplex z)])).sig x =
      { w.sig x with numbers := .complex ((crossCorrelation a c).map (Cx.mul · z)) } := by
    intro z
    rw [after_append]
    generalize w.after (correlating K x y) = w1 at e0 ⊢
    conv_run
    rw [e0]
    rfl
  constructor <;> apply same_of
  · rw [k1, k0]; exact congrArg Numbers.complex (cross_mul_left a c z)
  · rw [k1, k0]
  · rw [k2, k0]; exact congrArg Numbers.complex (cross_mul_right a c z)
  · rw [k2, k0]

/-- C88: no value of the correlation is larger than the energies allow (Cauchy and Schwarz). -/
theorem C88_bound (K : FftKernel ℝ) (hK : K.IsDft) (w : World ℝ) (x y : Nat) (hxy : x ≠ y) (a c : List (Cx ℝ)) (h : w.Pair x y a c) :
    ∃ R, Leaves w (correlating K x y) x (.complex R) .time ∧ ∀ z ∈ R, Cx.normSq z ≤ energy a * energy c := by
  refine ⟨_, correlating_numbers hK hxy h, fun z hz => ?_⟩
  obtain ⟨r, hr, rfl⟩ := List.getElem_of_mem hz
  have hr' := hr
  rw [crossCorrelation_length] at hr'
  have e : (crossCorrelation a c)[r] = (crossCorrelation a c).getD r 0 := by
    rw [List.getD_eq_getElem?_getD, List.getElem?_eq_getElem hr]; rfl
  rw [e, normSq_toC, crossCorrelation_get a c r hr']
  refine (corrAt_bound _ _ (ext0_finite a) (ext0_finite c) _).trans (le_of_eq ?_)
  rw [energyOf_ext0, energyOf_ext0, energy, energy]

/-- C88: the point of the lag zero, `n - 1`, is the dot product with the conjugated argument. -/
theorem C88_zero_lag (K : FftKernel ℝ) (hK : K.IsDft) (w : World ℝ) (x y : Nat) (hxy : x ≠ y) (a c : List (Cx ℝ)) (h : w.Pair x y a c)
    (ht : (w.sig y).dom = .time) :
    ∃ R, Leaves w (correlating K x y) x (.complex R) .time ∧
      Returns w [.single y .conj, .dot true x y] [.complex (.ok (R.getD (c.length - 1) 0))] := by
  refine ⟨_, correlating_numbers hK hxy h, returns_of ?_⟩
  have := h.two
  conv_run
  simp only [dotMeaning, World.put, Function.update_of_ne hxy, Call.meaning, h.left, h.right, Numbers.mapLists, Numbers.isComplex,
    h.time, ht, Numbers.asCx]
  rw [cross_zero a c h.same (by omega)]
  simp

/-- C88, the total: the sum of the correlation is the sum of the signal times the conjugated sum of the argument. -/
theorem C88_total (K : FftKernel ℝ) (hK : K.IsDft) (w : World ℝ) (x y : Nat) (hxy : x ≠ y) (a c : List (Cx ℝ)) (h : w.Pair x y a c) :
    ∃ s t : Cx ℝ, Returns w [.sum false true x, .sum false true y] [.complex (.ok s), .complex (.ok t)] ∧
      Returns w (correlating K x y ++ [.sum false true x]) [.result (.ok ()), .complex (.ok (s * t.conj))] := by
  refine ⟨a.sum, c.sum, returns_of ?_, returns_of ?_⟩
  · conv_run
    simp [sumMeaning, h.left, h.right, Numbers.asCx]
  · obtain ⟨s, e⟩ := correlating_world hK hxy h
    rw [after_append, e]
    conv_run
    simp only [sumMeaning, Numbers.asCx, World.put, List.append_nil, List.append_assoc, List.singleton_append]
    simp only [if_true, Bool.false_eq_true, if_false, List.map_id']
    rw [cross_total a c h.same]

/-- C88, autocorrelation: the correlation of a signal, which is not zero, with its copy has its only maximum in the middle, where the value
    is the energy. -/
theorem C88_autocorrelation (K : FftKernel ℝ) (hK : K.IsDft) (w : World ℝ) (x y : Nat) (hxy : x ≠ y) (a : List (Cx ℝ))
    (hx : (w.sig x).numbers = .complex a) (ht : (w.sig x).dom = .time) (hn : 2 ≤ a.length) (hne : ∃ c ∈ a, c ≠ 0) :
    ∃ R, Leaves w (.clone x y :: correlating K x y) x (.complex R) .time ∧ R.length = 2 * a.length - 1 ∧
      R.getD (a.length - 1) 0 = Cx.ofReal (energy a) ∧
      ∀ r < R.length, r ≠ a.length - 1 → Cx.normSq (R.getD r 0) < Cx.normSq (R.getD (a.length - 1) 0) := by
  have hpl : placed a.length 0 a = a := by simp [placed]
  have hm : a.map (· * (1 : Cx ℝ)) = a := by simp
  have h1 : (1 : Cx ℝ) ≠ 0 := fun h => one_ne_zero (congrArg Cx.re h : (1 : ℝ) = 0)
  have hd := cross_delay a.length 0 0 a 1 (by omega) (by omega) hne h1
  rw [hm, hpl, Nat.add_zero, Nat.sub_zero, one_mul] at hd
  have hpair : (w.put y (w.sig x) []).Pair x y a a :=
    ⟨by rw [sig_put_other _ hxy, hx], by rw [sig_put_same, hx], by rw [sig_put_other _ hxy]; exact ht, rfl, hn⟩
  have e := correlating_sig hK hxy hpair
  refine ⟨_, leaves_of (N := .complex (crossCorrelation a a)) ?_ ?_, crossCorrelation_length a a, hd.1, fun r hr => hd.2 r ?_⟩
  · rw [after_cons]
    exact congrArg Signal.numbers e
  · rw [after_cons]
    refine (congrArg Signal.dom e).trans ?_
    rw [sig_put_other _ hxy]
    exact ht
  · rw [crossCorrelation_length] at hr
    exact hr

/-! ### A case in which the hypotheses hold -/

theorem lawComplexWorld_pair (x y : Nat) : lawComplexWorld.Pair x y [⟨1, 2⟩, ⟨x, 0⟩, ⟨5, 6⟩] [⟨1, 2⟩, ⟨y, 0⟩, ⟨5, 6⟩] :=
  ⟨rfl, rfl, rfl, rfl, (by decide : 2 ≤ 3)⟩

/-- The program is accepted, and finishes with the cross correlation for all schedules. -/
example (st : MultiCoreSettings) : ∃ f : Machine ℝ,
    (∃ o, runProgram o 0 lawComplexMachine [.unary 1 (.prepareArgumentPadded dftKernel .sseF64x2 0 st (.single [])),
      .binary 0 1 (.correlate dftKernel .avxF64x4 0 st (.single []))] = .finished f) ∧
    (f.vec 0).content = some (fromComplex (crossCorrelation [⟨1, 2⟩, ⟨0, 0⟩, ⟨5, 6⟩] [⟨1, 2⟩, ⟨1, 0⟩, ⟨5, 6⟩])) := by
  have s : lawComplexMachine.SafeAll [.unary 1 (.prepareArgumentPadded dftKernel .sseF64x2 0 st (.single [])),
      .binary 0 1 (.correlate dftKernel .avxF64x4 0 st (.single []))] := by
    refine law_next lawComplexMachine_shows ⟨rfl, rfl, dft_inverts.length, (by decide : 2 ≤ 3), trivial, trivial, .inl (by decide), by decide⟩
      fun m' h => ?_
    refine law_next h ⟨?_, ?_, ?_, ?_, fun _ => ⟨dft_inverts.length, trivial, trivial, .inl (by decide), ?_⟩⟩ fun _ _ => trivial
    · exact (h.1 0).isComplex
    · exact (h.1 0).dom
    · exact (h.1 1).isComplex
    · exact (h.1 1).dom
    · omega
  obtain ⟨f, -, ⟨o, r⟩, -⟩ := C72_program _ _ _ lawComplexMachine_shows s
  have e := correlating_numbers dft_isDft (by decide : 0 ≠ 1) (lawComplexWorld_pair 0 1) _ _ lawComplexMachine_shows rfl s _ _ r
  refine ⟨f, ⟨o, r⟩, e.1.trans ?_⟩
  simp [Numbers.flat]

/-- A pulse of two points, at position 1 of 4 points with the gain `j`, and at position 2: the lag is -1. -/
example : ∃ R, Leaves ⟨fun x => ⟨.complex (if x = 0 then [⟨0, 0⟩, ⟨0, 1⟩, ⟨0, 2⟩, ⟨0, 0⟩] else [⟨0, 0⟩, ⟨0, 0⟩, ⟨1, 0⟩, ⟨2, 0⟩]), .time, false, some 1⟩, []⟩
      (correlating dftKernel 0 1) 0 (.complex R) .time ∧ R.length = 7 ∧ R.getD 2 0 = ⟨0, 5⟩ ∧
      ∀ r < R.length, r ≠ 2 → Cx.normSq (R.getD r 0) < Cx.normSq (R.getD 2 0) := by
  obtain ⟨R, h1, h2, -, h4, h5⟩ := C88_delay dftKernel dft_isDft
    ⟨fun x => ⟨.complex (if x = 0 then [⟨0, 0⟩, ⟨0, 1⟩, ⟨0, 2⟩, ⟨0, 0⟩] else [⟨0, 0⟩, ⟨0, 0⟩, ⟨1, 0⟩, ⟨2, 0⟩]), .time, false, some 1⟩, []⟩
    0 1 (by decide) 4 1 2 [⟨1, 0⟩, ⟨2, 0⟩] ⟨0, 1⟩ (by decide) (by decide) (by decide) ⟨⟨1, 0⟩, by simp, fun h => one_ne_zero (congrArg Cx.re h : (1 : ℝ) = 0)⟩
    (fun h => one_ne_zero (congrArg Cx.im h : (1 : ℝ) = 0))
    (by simp only [placed, if_true]; refine congrArg _ ?_; simp; exact ⟨rfl, by ext <;> simp, by ext <;> simp, rfl⟩) (by simp [placed]; rfl) rfl
  refine ⟨R, h1, h2, h4.trans ?_, h5⟩
  ext <;> simp [energy, Cx.normSq, Cx.ofReal]
  norm_num

/-- The hypotheses of the other laws hold for these signals. -/
example : SameResult lawComplexWorld (.binary 0 1 (.elem .sub) :: correlating dftKernel 0 2)
    (correlating dftKernel 0 2 ++ [.binary 1 2 (.correlate dftKernel), .binary 0 1 (.elem .sub)]) 0 :=
  C88_linear dftKernel dft_isDft .sub (.inr rfl) lawComplexWorld 0 1 2 (by decide) (by decide) (by decide) _ _ _
    (lawComplexWorld_pair 0 2) (lawComplexWorld_pair 1 2) lawComplexWorld_agrees

example : ∃ R, Leaves lawComplexWorld (.clone 0 7 :: correlating dftKernel 0 7) 0 (.complex R) .time ∧ R.length = 5 ∧ R.getD 2 0 = ⟨66, 0⟩ := by
  obtain ⟨R, h1, h2, h3, -⟩ := C88_autocorrelation dftKernel dft_isDft lawComplexWorld 0 7 (by decide) [⟨1, 2⟩, ⟨(0 : Nat), 0⟩, ⟨5, 6⟩] rfl rfl (by decide)
    ⟨⟨1, 2⟩, by simp, fun h => one_ne_zero (congrArg Cx.re h : (1 : ℝ) = 0)⟩
  refine ⟨R, h1, h2, h3.trans ?_⟩
  ext <;> simp [energy, Cx.normSq, Cx.ofReal]
  norm_num

end Dsp
