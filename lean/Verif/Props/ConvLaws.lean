import Verif.Lemmas.ConvLaws
import Verif.Props.FourierLaws
/-
C86: the laws of the convolution hold for programs, in all environments and for all schedules.
-/
namespace Dsp
open DspVec

theorem conv_meaning {s o : Signal ℝ} (h : o.Filters s) : (BinCall.convolveSignal).meaning s o =
    ({ s with numbers := s.numbers.combine circularConv circularConv o.numbers }, [.result (.ok ())]) := by
  simp only [BinCall.meaning]
  rw [if_neg (by rw [not_not]; exact h.1), if_neg (by rw [not_not]; exact h.2.1), if_neg (by have := h.2.2; omega)]

theorem count_conv (N M : Numbers ℝ) : (N.combine circularConv circularConv M).count = N.count := by
  cases N <;> cases M <;> simp [Numbers.combine, Numbers.count, circularConv_length]

theorem isComplex_combine (N M : Numbers ℝ) (f g) : (N.combine f g M).isComplex = N.isComplex := by
  cases N <;> cases M <;> rfl

theorem filters_numbers {o s : Signal ℝ} (h : o.Filters s) (N M : Numbers ℝ) (hN : N.isComplex = s.numbers.isComplex)
    (hM : M.isComplex = o.numbers.isComplex) (hc : M.count ≤ N.count) :
    ({ o with numbers := M } : Signal ℝ).Filters { s with numbers := N } :=
  ⟨⟨by show N.isComplex = M.isComplex; rw [hN, hM, h.1.1], h.1.2.1, h.1.2.2⟩, h.2.1, hc⟩

/-- Unfold programs. -/
macro "conv_run" : tactic => `(tactic| simp only [World.after, List.foldl_cons, List.foldl_nil, StmtCall.meaning, sig_put_same])

/-- C86: the order of two filters does not matter, whatever their lengths. -/
theorem C86_exchange (w : World ℝ) (x y z : Nat) (hxy : x ≠ y) (hxz : x ≠ z) (hy : (w.sig y).Filters (w.sig x))
    (hz : (w.sig z).Filters (w.sig x)) :
    SameResult w [.binary x y .convolveSignal, .binary x z .convolveSignal]
      [.binary x z .convolveSignal, .binary x y .convolveSignal] x := by
  have ey := conv_meaning hy
  have ez := conv_meaning hz
  have ey' := conv_meaning (filters_numbers (N := (w.sig x).numbers.combine circularConv circularConv (w.sig z).numbers)
    (M := (w.sig y).numbers) hy (isComplex_combine _ _ _ _) rfl (by rw [count_conv]; exact hy.2.2))
  have ez' := conv_meaning (filters_numbers (N := (w.sig x).numbers.combine circularConv circularConv (w.sig y).numbers)
    (M := (w.sig z).numbers) hz (isComplex_combine _ _ _ _) rfl (by rw [count_conv]; exact hz.2.2))
  apply same_of <;> conv_run <;>
    rw [sig_put_other _ hxy.symm, sig_put_other _ hxz.symm, ey, ez] <;> simp only at ey' ez' ⊢ <;> rw [ey', ez']
  generalize (w.sig x).numbers = a
  generalize (w.sig y).numbers = b
  generalize (w.sig z).numbers = c
  cases a <;> cases b <;> cases c <;> simp only [Numbers.combine] <;> rw [conv_exchange]

/-- C86: two filters can be combined to one by a convolution of the second with the first, if that has as many points as the signal. -/
theorem C86_combine (w : World ℝ) (x y z : Nat) (hxy : x ≠ y) (hxz : x ≠ z) (hyz : y ≠ z) (hy : (w.sig y).Filters (w.sig x))
    (hn : (w.sig y).numbers.count = (w.sig x).numbers.count) (hzx : (w.sig z).Filters (w.sig x)) (hzy : (w.sig z).Filters (w.sig y)) :
    SameResult w [.binary x y .convolveSignal, .binary x z .convolveSignal]
      [.binary y z .convolveSignal, .binary x y .convolveSignal] x := by
  have ey := conv_meaning hy
  have ez := conv_meaning hzy
  have ey' := conv_meaning (filters_numbers (N := (w.sig x).numbers)
    (M := (w.sig y).numbers.combine circularConv circularConv (w.sig z).numbers) hy rfl (isComplex_combine _ _ _ _) (by rw [count_conv]; exact hy.2.2))
  have ez' := conv_meaning (filters_numbers (N := (w.sig x).numbers.combine circularConv circularConv (w.sig y).numbers)
    (M := (w.sig z).numbers) hzx (isComplex_combine _ _ _ _) rfl (by rw [count_conv]; exact hzx.2.2))
  apply same_of <;> conv_run <;>
    rw [sig_put_other _ hxz.symm, sig_put_other _ hxy, ey, ez] <;> simp only at ey' ez' ⊢ <;> rw [ey', ez']
  have hc := hy.1.1
  generalize (w.sig x).numbers = a at hn hc
  generalize (w.sig y).numbers = b at hn hc
  generalize (w.sig z).numbers = c
  cases a <;> cases b <;> cases c <;> simp only [Numbers.combine, Numbers.count, Numbers.isComplex] at hn hc ⊢ <;>
    first | rfl | exact absurd hc (by decide) | rw [conv_assoc _ _ _ hn.symm]

/-- C86: signal and response can be exchanged if they have the same number of points. -/
theorem C86_commutes (w : World ℝ) (x y : Nat) (hy : (w.sig y).Filters (w.sig x)) (hx : (w.sig x).Filters (w.sig y)) :
    ∃ N, Leaves w [.binary x y .convolveSignal] x N .time ∧ Leaves w [.binary y x .convolveSignal] y N .time := by
  have ey := conv_meaning hy
  have ex := conv_meaning hx
  have hn : (w.sig y).numbers.count = (w.sig x).numbers.count := le_antisymm hy.2.2 hx.2.2
  have hc := hy.1.1
  refine ⟨(w.sig x).numbers.combine circularConv circularConv (w.sig y).numbers, leaves_of ?_ ?_, leaves_of ?_ ?_⟩ <;> conv_run
  · rw [ey]
  · rw [ey]; exact hy.2.1
  · rw [ex]
    generalize (w.sig x).numbers = a at hn hc
    generalize (w.sig y).numbers = b at hn hc
    cases a <;> cases b <;> simp only [Numbers.combine, Numbers.count, Numbers.isComplex] at hn hc ⊢ <;> first | exact absurd hc (by decide) | rw [conv_comm _ _ hn]
  · rw [ex]; exact hx.2.1

theorem zipWith_sub_add {α : Type} [CommRing α] (x y : List α) :
    List.zipWith (· - ·) x y = List.zipWith (· + ·) x (y.map (· * (-1))) := by
  rw [List.zipWith_map_right]
  congr 1
  funext a b
  ring

theorem conv_sub_left {α : Type} [CommRing α] (x y h : List α) (hl : x.length = y.length) :
    circularConv (List.zipWith (· - ·) x y) h = List.zipWith (· - ·) (circularConv x h) (circularConv y h) := by
  rw [zipWith_sub_add, conv_add_left _ _ _ (by simp [hl]), conv_map_left, zipWith_sub_add]

theorem conv_sub_right {α : Type} [CommRing α] (x y h : List α) (hl : x.length = y.length) :
    circularConv h (List.zipWith (· - ·) x y) = List.zipWith (· - ·) (circularConv h x) (circularConv h y) := by
  rw [zipWith_sub_add, conv_add_right _ _ _ (by simp [hl]), conv_map_right, zipWith_sub_add]

/-- C86, linear: the filtered sum (difference) is the sum (difference) of the filtered signals. -/
theorem C86_linear (op : ElemOp) (hop : op = .add ∨ op = .sub) (w : World ℝ) (x y h : Nat) (hxy : x ≠ y) (hxh : x ≠ h) (hyh : y ≠ h)
    (hag : (w.sig x).Agrees (w.sig y)) (hn : (w.sig x).numbers.count = (w.sig y).numbers.count)
    (hx : (w.sig h).Filters (w.sig x)) (hy : (w.sig h).Filters (w.sig y)) :
    SameResult w [.binary x y (.elem op), .binary x h .convolveSignal]
      [.binary x h .convolveSignal, .binary y h .convolveSignal, .binary x y (.elem op)] x := by
  have ex := conv_meaning hx
  have ey := conv_meaning hy
  have ee := elem_meaning op hag hn
  have hcount : ((w.sig x).numbers.combine (List.zipWith op.real) (List.zipWith op.cx) (w.sig y).numbers).count = (w.sig x).numbers.count := by
    have hc := hag.1
    generalize (w.sig x).numbers = a at hn hc
    generalize (w.sig y).numbers = b at hn hc
    cases a <;> cases b <;> simp only [Numbers.combine, Numbers.count, Numbers.isComplex, List.length_zipWith] at hn hc ⊢ <;>
      first | exact absurd hc (by decide) | omega
  have ex' := conv_meaning (filters_numbers (N := (w.sig x).numbers.combine (List.zipWith op.real) (List.zipWith op.cx) (w.sig y).numbers)
    (M := (w.sig h).numbers) hx (isComplex_combine _ _ _ _) rfl (by rw [hcount]; exact hx.2.2))
  have ee' := elem_meaning op (conv_agrees hag ((w.sig x).numbers.combine circularConv circularConv (w.sig h).numbers)
    ((w.sig y).numbers.combine circularConv circularConv (w.sig h).numbers) (by rw [isComplex_combine, isComplex_combine, hag.1]))
    (by simp only [count_conv]; exact hn)
  have hc := hag.1
  have hd := hx.1.1
  apply same_of <;> conv_run <;>
    simp only [sig_put_other _ hxh.symm, sig_put_other _ hxy, sig_put_other _ hxy.symm, sig_put_same] <;> rw [ex, ey, ee] <;>
    simp only at ex' ee' ⊢ <;> rw [ex', ee']
  generalize (w.sig x).numbers = a at hn hc hd
  generalize (w.sig y).numbers = b at hn hc
  generalize (w.sig h).numbers = c at hd
  cases a <;> cases b <;> cases c <;> simp only [Numbers.combine, Numbers.count, Numbers.isComplex] at hn hc hd ⊢ <;>
    first | exact absurd hc (by decide) | exact absurd hd (by decide) | skip
  · rcases hop with rfl | rfl
    · exact congrArg _ (conv_add_left _ _ _ hn)
    · exact congrArg _ (conv_sub_left _ _ _ hn)
  · rcases hop with rfl | rfl
    · exact congrArg _ (conv_add_left _ _ _ hn)
    · exact congrArg _ (conv_sub_left _ _ _ hn)

/-- C86, linear: filtering with a sum (difference) of responses with the same number of points gives the sum (difference). The variable
    `z` holds a copy of the signal. -/
theorem C86_linear_response (op : ElemOp) (hop : op = .add ∨ op = .sub) (w : World ℝ) (x z g h : Nat) (hxz : x ≠ z) (hxg : x ≠ g)
    (hxh : x ≠ h) (hzg : z ≠ g) (hzh : z ≠ h) (hgh : g ≠ h)
    (hag : (w.sig g).Agrees (w.sig h)) (hn : (w.sig g).numbers.count = (w.sig h).numbers.count)
    (hg : (w.sig g).Filters (w.sig x)) (hh : (w.sig h).Filters (w.sig x)) (hself : (w.sig x).Agrees (w.sig x)) :
    SameResult w [.binary g h (.elem op), .binary x g .convolveSignal]
      [.clone x z, .binary x g .convolveSignal, .binary z h .convolveSignal, .binary x z (.elem op)] x := by
  have eg := conv_meaning hg
  have eh := conv_meaning hh
  have ee := elem_meaning op hag hn
  have hcount : ((w.sig g).numbers.combine (List.zipWith op.real) (List.zipWith op.cx) (w.sig h).numbers).count = (w.sig g).numbers.count := by
    have hc := hag.1
    generalize (w.sig g).numbers = a at hn hc
    generalize (w.sig h).numbers = b at hn hc
    cases a <;> cases b <;> simp only [Numbers.combine, Numbers.count, Numbers.isComplex, List.length_zipWith] at hn hc ⊢ <;>
      first | exact absurd hc (by decide) | omega
  have eg' := conv_meaning (filters_numbers (N := (w.sig x).numbers)
    (M := (w.sig g).numbers.combine (List.zipWith op.real) (List.zipWith op.cx) (w.sig h).numbers)
    hg rfl (isComplex_combine _ _ _ _) (by rw [hcount]; exact hg.2.2))
  have ee' := elem_meaning op (conv_agrees hself ((w.sig x).numbers.combine circularConv circularConv (w.sig g).numbers)
    ((w.sig x).numbers.combine circularConv circularConv (w.sig h).numbers) (by rw [isComplex_combine, isComplex_combine]))
    (by simp only [count_conv])
  have hc := hag.1
  have hd := hg.1.1
  apply same_of <;> conv_run <;>
    simp only [sig_put_other _ hxg, sig_put_other _ hxz, sig_put_other _ hxz.symm, sig_put_same,
      sig_put_other _ hzg.symm, sig_put_other _ hxh.symm, sig_put_other _ hzh.symm] <;> rw [eg, eh, ee] <;>
    simp only at eg' ee' ⊢ <;> rw [eg', ee']
  generalize (w.sig g).numbers = a at hn hc hd
  generalize (w.sig h).numbers = b at hn hc
  generalize (w.sig x).numbers = c at hd
  cases a <;> cases b <;> cases c <;> simp only [Numbers.combine, Numbers.count, Numbers.isComplex] at hn hc hd ⊢ <;>
    first | exact absurd hc (by decide) | exact absurd hd (by decide) | skip
  · rcases hop with rfl | rfl
    · exact congrArg _ (conv_add_right _ _ _ hn)
    · exact congrArg _ (conv_sub_right _ _ _ hn)
  · rcases hop with rfl | rfl
    · exact congrArg _ (conv_add_right _ _ _ hn)
    · exact congrArg _ (conv_sub_right _ _ _ hn)

/-- C86: a factor can be applied to the signal, to the response or to the result. -/
theorem C86_scale (w : World ℝ) (x y : Nat) (hxy : x ≠ y) (hy : (w.sig y).Filters (w.sig x)) (c : ℝ) :
    SameResult w [.single x (.scale c), .binary x y .convolveSignal] [.binary x y .convolveSignal, .single x (.scale c)] x ∧
      SameResult w [.single y (.scale c), .binary x y .convolveSignal] [.binary x y .convolveSignal, .single x (.scale c)] x := by
  have e : ∀ l : List (Cx ℝ), (l.map fun z => (⟨z.re * c, z.im * c⟩ : Cx ℝ)) = l.map (· * Cx.ofReal c) := by
    intro l
    refine List.map_congr_left fun z _ => ?_
    ext <;> simp [Cx.ofReal]
  have hco : ∀ N : Numbers ℝ, (N.mapLists (List.map (· * c)) (List.map fun z => ⟨z.re * c, z.im * c⟩)).count = N.count := by
    intro N; cases N <;> simp [Numbers.mapLists, Numbers.count]
  have hcx : ∀ N : Numbers ℝ, (N.mapLists (List.map (· * c)) (List.map fun z => ⟨z.re * c, z.im * c⟩)).isComplex = N.isComplex := by
    intro N; cases N <;> rfl
  have e0 := conv_meaning hy
  have e1 := conv_meaning (filters_numbers (N := (w.sig x).numbers.mapLists (List.map (· * c)) (List.map fun z => ⟨z.re * c, z.im * c⟩))
    (M := (w.sig y).numbers) hy (hcx _) rfl (by rw [hco]; exact hy.2.2))
  have e2 := conv_meaning (filters_numbers (N := (w.sig x).numbers)
    (M := (w.sig y).numbers.mapLists (List.map (· * c)) (List.map fun z => ⟨z.re * c, z.im * c⟩)) hy rfl (hcx _) (by rw [hco]; exact hy.2.2))
  have hc := hy.1.1
  constructor
  · apply same_of <;> conv_run <;> rw [sig_put_other _ hxy.symm, e0] <;> simp only [Call.meaning] at e1 ⊢ <;> rw [e1]
    generalize (w.sig x).numbers = a at hc
    generalize (w.sig y).numbers = b at hc
    cases a <;> cases b <;> simp only [Numbers.combine, Numbers.isComplex, Numbers.mapLists] at hc ⊢ <;> first | exact absurd hc (by decide) | skip
    · rw [conv_map_left]
    · rw [e, e, conv_map_left]
  · apply same_of <;> conv_run <;> rw [sig_put_other _ hxy, e0] <;> simp only [Call.meaning] at e2 ⊢ <;> rw [e2]
    generalize (w.sig x).numbers = a at hc
    generalize (w.sig y).numbers = b at hc
    cases a <;> cases b <;> simp only [Numbers.combine, Numbers.isComplex, Numbers.mapLists] at hc ⊢ <;> first | exact absurd hc (by decide) | skip
    · rw [conv_map_right]
    · rw [e, e, conv_map_right]

theorem count_rearrange_conv (N : Numbers ℝ) (f : ∀ {α : Type}, α → List α → List α)
    (hf : ∀ {α : Type} (z : α) (l : List α), (f z l).length = l.length) :
    (N.rearrange f).count = N.count := by
  cases N <;> simp [Numbers.rearrange, Numbers.count, hf]

theorem isComplex_rearrange_conv (N : Numbers ℝ) (f : ∀ {α : Type}, α → List α → List α) : (N.rearrange f).isComplex = N.isComplex := by
  cases N <;> rfl

/-- C86: a filter commutes with cyclic moves of the signal (`swap_halves`, `fft_shift` and back). -/
theorem C86_shift (w : World ℝ) (x y : Nat) (hxy : x ≠ y) (hy : (w.sig y).Filters (w.sig x)) :
    SameResult w [.single x .swapHalves, .binary x y .convolveSignal] [.binary x y .convolveSignal, .single x .swapHalves] x ∧
      SameResult w [.single x .swapHalvesBack, .binary x y .convolveSignal]
        [.binary x y .convolveSignal, .single x .swapHalvesBack] x := by
  have e0 := conv_meaning hy
  have hc := hy.1.1
  constructor
  · have e1 := conv_meaning (filters_numbers (N := (w.sig x).numbers.rearrange fun _ l => rotateRight l (l.length / 2))
      (M := (w.sig y).numbers) hy (isComplex_rearrange_conv _ _) rfl
      (by rw [count_rearrange_conv _ _ fun _ l => rotateRight_length l _]; exact hy.2.2))
    apply same_of <;> conv_run <;> rw [sig_put_other _ hxy.symm, e0] <;> simp only [Call.meaning] at e1 ⊢ <;> rw [e1]
    generalize (w.sig x).numbers = a at hc
    generalize (w.sig y).numbers = b at hc
    have hr : ∀ {α : Type} (l : List α), rotateRight l (l.length / 2) = rotateLeft l (l.length - l.length / 2) := fun _ => rfl
    cases a <;> cases b <;> simp only [Numbers.combine, Numbers.isComplex, Numbers.rearrange] at hc ⊢ <;> first | exact absurd hc (by decide) | skip
    · rw [hr, hr, conv_rotateLeft _ _ _ (by omega), circularConv_length]
    · rw [hr, hr, conv_rotateLeft _ _ _ (by omega), circularConv_length]
  · have e1 := conv_meaning (filters_numbers (N := (w.sig x).numbers.rearrange fun _ l => rotateLeft l (l.length / 2))
      (M := (w.sig y).numbers) hy (isComplex_rearrange_conv _ _) rfl
      (by rw [count_rearrange_conv _ _ fun _ l => rotateLeft_length l _]; exact hy.2.2))
    apply same_of <;> conv_run <;> rw [sig_put_other _ hxy.symm, e0] <;> simp only [Call.meaning] at e1 ⊢ <;> rw [e1]
    generalize (w.sig x).numbers = a at hc
    generalize (w.sig y).numbers = b at hc
    cases a <;> cases b <;> simp only [Numbers.combine, Numbers.isComplex, Numbers.rearrange] at hc ⊢ <;> first | exact absurd hc (by decide) | skip
    · rw [conv_rotateLeft _ _ _ (by omega), circularConv_length]
    · rw [conv_rotateLeft _ _ _ (by omega), circularConv_length]

/-- C86: for responses with an odd number of points, reversing the signal and the response reverses the result. -/
theorem C86_reverse (w : World ℝ) (x y : Nat) (hxy : x ≠ y) (hy : (w.sig y).Filters (w.sig x)) (ho : (w.sig y).numbers.count % 2 = 1) :
    SameResult w [.single x .reverse, .single y .reverse, .binary x y .convolveSignal]
      [.binary x y .convolveSignal, .single x .reverse] x := by
  have e0 := conv_meaning hy
  have hc := hy.1.1
  have e1 := conv_meaning (filters_numbers (N := (w.sig x).numbers.rearrange fun _ l => l.reverse)
    (M := (w.sig y).numbers.rearrange fun _ l => l.reverse) hy (isComplex_rearrange_conv _ _) (isComplex_rearrange_conv _ _)
    (by rw [count_rearrange_conv _ _ fun _ l => l.length_reverse, count_rearrange_conv _ _ fun _ l => l.length_reverse]; exact hy.2.2))
  apply same_of <;> conv_run <;> rw [sig_put_other _ hxy.symm, sig_put_other _ hxy, sig_put_same, e0] <;>
    simp only [Call.meaning] at e1 ⊢ <;> rw [e1]
  generalize (w.sig x).numbers = a at hc
  generalize (w.sig y).numbers = b at hc ho
  cases a <;> cases b <;> simp only [Numbers.combine, Numbers.isComplex, Numbers.rearrange, Numbers.count] at hc ho ⊢ <;>
    first | exact absurd hc (by decide) | rw [conv_reverse _ _ ho]

/-- The conjugation as a homomorphism. -/
def conjHom : Cx ℝ →+* Cx ℝ where
  toFun c := ⟨c.re, -c.im⟩
  map_one' := by ext <;> simp
  map_mul' a b := by ext <;> simp; ring
  map_zero' := by ext <;> simp
  map_add' a b := by ext <;> simp; ring

/-- The embedding of the real numbers as a homomorphism. -/
def ofRealHom : ℝ →+* Cx ℝ where
  toFun := Cx.ofReal
  map_one' := by ext <;> simp [Cx.ofReal]
  map_mul' a b := by ext <;> simp [Cx.ofReal]
  map_zero' := by ext <;> simp [Cx.ofReal]
  map_add' a b := by ext <;> simp [Cx.ofReal]

/-- C86: conjugating signal and response conjugates the result. -/
theorem C86_conj (w : World ℝ) (x y : Nat) (hxy : x ≠ y) (hy : (w.sig y).Filters (w.sig x)) (hx : (w.sig x).numbers.isComplex = true) :
    SameResult w [.single x .conj, .single y .conj, .binary x y .convolveSignal] [.binary x y .convolveSignal, .single x .conj] x := by
  have e0 := conv_meaning hy
  have hc := hy.1.1
  have hco : ∀ N : Numbers ℝ, (N.mapLists id (List.map fun c => ⟨c.re, -c.im⟩)).count = N.count := by
    intro N; cases N <;> simp [Numbers.mapLists, Numbers.count]
  have hcx : ∀ N : Numbers ℝ, (N.mapLists id (List.map fun c => ⟨c.re, -c.im⟩)).isComplex = N.isComplex := by
    intro N; cases N <;> rfl
  have e1 := conv_meaning (filters_numbers (N := (w.sig x).numbers.mapLists id (List.map fun c => ⟨c.re, -c.im⟩))
    (M := (w.sig y).numbers.mapLists id (List.map fun c => ⟨c.re, -c.im⟩)) hy (hcx _) (hcx _) (by rw [hco, hco]; exact hy.2.2))
  apply same_of <;> conv_run <;> rw [sig_put_other _ hxy.symm, sig_put_other _ hxy, sig_put_same, e0] <;>
    simp only [Call.meaning] at e1 ⊢ <;> rw [e1]
  generalize (w.sig x).numbers = a at hc hx
  generalize (w.sig y).numbers = b at hc
  cases a <;> cases b <;> simp only [Numbers.combine, Numbers.isComplex, Numbers.mapLists] at hc hx ⊢ <;>
    first | exact absurd hc (by decide) | exact absurd hx (by decide) | exact congrArg _ (conv_hom conjHom _ _)

/-- C86: real signals can be filtered as complex signals. -/
theorem C86_to_complex (w : World ℝ) (x y : Nat) (hxy : x ≠ y) (hy : (w.sig y).Filters (w.sig x)) (hx : (w.sig x).numbers.isComplex = false) :
    SameResult w [.single x .toComplex, .single y .toComplex, .binary x y .convolveSignal]
      [.binary x y .convolveSignal, .single x .toComplex] x := by
  have e0 := conv_meaning hy
  have hc := hy.1.1
  have e1 := conv_meaning (s := { w.sig x with numbers := .complex (w.sig x).numbers.asCx })
    (o := { w.sig y with numbers := .complex (w.sig y).numbers.asCx }) ⟨⟨rfl, hy.1.2.1, hy.1.2.2⟩, hy.2.1, by
      simp only [Numbers.count, count_asCx]; exact hy.2.2⟩
  apply same_of <;> conv_run <;> rw [sig_put_other _ hxy.symm, sig_put_other _ hxy, sig_put_same, e0] <;>
    simp only [Call.meaning] at e1 ⊢ <;> rw [e1]
  generalize (w.sig x).numbers = a at hc hx
  generalize (w.sig y).numbers = b at hc
  cases a <;> cases b <;> simp only [Numbers.combine, Numbers.isComplex, Numbers.asCx] at hc hx ⊢ <;>
    first | exact absurd hc (by decide) | exact absurd hx (by decide) | exact congrArg _ (conv_hom ofRealHom _ _)

/-- C86: the impulse is neutral. -/
theorem C86_impulse (w : World ℝ) (x y m : Nat) (hm : 1 ≤ m) (hy : (w.sig y).Filters (w.sig x)) (hi : (w.sig y).IsImpulse m) :
    SameResult w [.binary x y .convolveSignal] [] x := by
  have e0 := conv_meaning hy
  have hc := hy.1.1
  apply same_of <;> conv_run <;> rw [e0]
  generalize (w.sig x).numbers = a at hc
  rcases hi with hi | hi <;> rw [hi] at hc ⊢ <;> cases a <;> simp only [Numbers.combine, Numbers.isComplex] at hc ⊢ <;>
    first | exact absurd hc (by decide) | rw [conv_unit _ _ hm]

/-- C86, the gain: the sum of the filtered signal is the sum of the signal times the sum of the response. -/
theorem C86_gain (w : World ℝ) (x y : Nat) (hy : (w.sig y).Filters (w.sig x)) :
    ∃ a b : Cx ℝ, Returns w [.sum false true x, .sum false true y] [.complex (.ok a), .complex (.ok b)] ∧
      Returns w [.binary x y .convolveSignal, .sum false true x] [.result (.ok ()), .complex (.ok (a * b))] ∧
      ((w.sig x).numbers.isComplex = false →
        Returns w [.sum false false x, .sum false false y] [.real (.ok a.re), .real (.ok b.re)] ∧
        Returns w [.binary x y .convolveSignal, .sum false false x] [.result (.ok ()), .real (.ok (a.re * b.re))]) := by
  have e0 := conv_meaning hy
  have hc := hy.1.1
  have hs : ∀ l : List ℝ, (l.map (Cx.ofReal : ℝ → Cx ℝ)).sum = Cx.ofReal l.sum := fun l => (map_list_sum ofRealHom l).symm
  refine ⟨(w.sig x).numbers.asCx.sum, (w.sig y).numbers.asCx.sum, returns_of ?_, returns_of ?_, fun hr => ⟨returns_of ?_, returns_of ?_⟩⟩
  · conv_run; simp [sumMeaning]
  · conv_run
    rw [e0]
    simp only [sumMeaning, World.put, if_true, Bool.false_eq_true, if_false, List.map_id', List.append_assoc]
    generalize (w.sig x).numbers = a at hc
    generalize (w.sig y).numbers = b at hc
    rcases a with a | a <;> rcases b with b | b <;> simp only [Numbers.combine, Numbers.isComplex, Numbers.asCx] at hc ⊢ <;>
      first | exact absurd hc (by decide) | skip
    · rw [hs, hs, hs, conv_sum]
      have e : Cx.ofReal (a.sum * b.sum) = Cx.ofReal a.sum * (Cx.ofReal b.sum : Cx ℝ) := map_mul ofRealHom _ _
      rw [e]; rfl
    · rw [conv_sum]; rfl
  · conv_run
    simp only [sumMeaning, Bool.false_eq_true, if_false, List.map_id', List.append_assoc]
    generalize (w.sig x).numbers = a at hc hr
    generalize (w.sig y).numbers = b at hc
    cases a <;> cases b <;> simp only [Numbers.isComplex] at hc hr <;> first | exact absurd hc (by decide) | exact absurd hr (by decide) | skip
    simp [Numbers.flat, Numbers.asCx, hs, Cx.ofReal]
  · conv_run
    rw [e0]
    simp only [sumMeaning, World.put, Bool.false_eq_true, if_false, List.map_id', List.append_assoc]
    generalize (w.sig x).numbers = a at hc hr
    generalize (w.sig y).numbers = b at hc
    cases a <;> cases b <;> simp only [Numbers.isComplex] at hc hr <;> first | exact absurd hc (by decide) | exact absurd hr (by decide) | skip
    simp only [Numbers.combine, Numbers.flat, Numbers.asCx, hs, conv_sum, Cx.ofReal]
    rfl

/-- C86, adjoint: for real signals and responses with an odd number of points the dot product of the filtered signal with another signal
    is the dot product of the signal with the other one, filtered with the reversed response. -/
theorem C86_adjoint (w : World ℝ) (x y h : Nat) (hxy : x ≠ y) (hxh : x ≠ h) (hyh : y ≠ h) (hx : (w.sig h).Filters (w.sig x))
    (hy : (w.sig h).Filters (w.sig y)) (hn : (w.sig x).numbers.count = (w.sig y).numbers.count)
    (ho : (w.sig h).numbers.count % 2 = 1) (hr : (w.sig x).numbers.isComplex = false) :
    ∃ d : ℝ, Returns w [.binary x h .convolveSignal, .dot false x y] [.result (.ok ()), .real (.ok d)] ∧
      Returns w [.single h .reverse, .binary y h .convolveSignal, .dot false x y] [.result (.ok ()), .real (.ok d)] := by
  have e0 := conv_meaning hx
  have e1 := conv_meaning (filters_numbers (N := (w.sig y).numbers) (M := (w.sig h).numbers.rearrange fun _ l => l.reverse) hy rfl
    (isComplex_rearrange_conv _ _) (by rw [count_rearrange_conv _ _ fun _ l => l.length_reverse]; exact hy.2.2))
  have hc := hx.1.1
  have hd := hy.1.1
  refine ⟨(List.zipWith (· * ·) (circularConv (w.sig x).numbers.flat (w.sig h).numbers.flat) (w.sig y).numbers.flat).sum,
    returns_of ?_, returns_of ?_⟩
  · conv_run
    rw [e0]
    simp only [dotMeaning, World.put, Function.update_self, Function.update_of_ne hxy.symm, List.append_assoc]
    generalize (w.sig x).numbers = a at hc hr hn
    generalize (w.sig y).numbers = b at hd hn
    generalize (w.sig h).numbers = c at hc hd ho
    cases a <;> cases b <;> cases c <;> simp only [Numbers.isComplex] at hc hd hr <;> first | exact absurd hc (by decide) | exact absurd hr (by decide) | exact absurd hd (by decide) | skip
    rfl
  · conv_run
    rw [sig_put_other _ hyh]
    simp only [Call.meaning] at e1 ⊢
    rw [e1]
    simp only [dotMeaning, World.put, Function.update_self, Function.update_of_ne hxy, Function.update_of_ne hxh, List.append_assoc]
    generalize (w.sig x).numbers = a at hc hr hn
    generalize (w.sig y).numbers = b at hd hn
    generalize (w.sig h).numbers = c at hc hd ho
    cases a <;> cases b <;> cases c <;> simp only [Numbers.isComplex] at hc hd hr <;> first | exact absurd hc (by decide) | exact absurd hr (by decide) | exact absurd hd (by decide) | skip
    simp only [Numbers.combine, Numbers.flat, Numbers.isComplex, Numbers.rearrange, Numbers.count] at hn ho ⊢
    rw [conv_adjoint _ _ _ hn ho]
    rfl

/-! ### A case in which the hypotheses hold -/

theorem lawWorld_filters (x y : Nat) : (lawWorld.sig y).Filters (lawWorld.sig x) :=
  ⟨⟨rfl, rfl, fun a b ha hb => by cases ha; cases hb; norm_num⟩, rfl, le_refl 3⟩

theorem lawComplexWorld_filters (x y : Nat) : (lawComplexWorld.sig y).Filters (lawComplexWorld.sig x) :=
  ⟨⟨rfl, rfl, fun a b ha hb => by cases ha; cases hb; norm_num⟩, rfl, le_refl 3⟩

theorem law_conv_safe {m : Machine ℝ} {w : World ℝ} (h : m.Shows w) (x y : Nat) (hx : (w.sig x).numbers.isComplex = false)
    (hn : (w.sig x).numbers.count = 3) (hy : (w.sig y).numbers.isComplex = false) (hyn : (w.sig y).numbers.count = 3)
    (hd : (w.sig y).delta = some 1) (st : MultiCoreSettings) (k : RegKind) (addr : Nat) :
    (Stmt.binary x y (.convolveSignal dftKernel id k addr st (.single []))).Safe m := by
  have lens : ∀ z : Nat, (w.sig z).numbers.isComplex = false → (w.sig z).numbers.count = 3 → (m.vec z).len = 3 := by
    intro z hz hn
    have hl := (h.1 z).len
    rw [Numbers.length_flat, Numbers.width, hz] at hl
    simp only [Bool.false_eq_true, if_false] at hl
    rw [hl, hn]
  have px : (m.vec x).points = 3 := by
    have hl : (m.vec x).validLen = 3 := lens x hx hn
    have hr := (h.1 x).isComplex
    rw [hx] at hr
    unfold DspVec.points
    rw [if_neg (by rw [hr]; simp), hl]
  have hp : (m.vec x).convPath (m.vec y) = .scalar := by
    unfold DspVec.convPath
    rw [lens x hx hn, lens y hy hyn, if_neg (by omega), if_neg (by omega)]
  refine ⟨fun e he => ?_, fun _ _ _ => ⟨dft_convolves, fun _ => rfl, by rw [px]; decide, trivial, fun c => ?_, fun c => ?_⟩⟩
  · rw [(h.1 y).delta, hd] at he
    cases he; norm_num
  · rw [hp] at c; cases c
  · rw [hp] at c; cases c

/-- Both orders of two filters are accepted, on different machines, and give the same. -/
example (st1 st2 : MultiCoreSettings) : ∃ f1 f2 : Machine ℝ,
    (∃ o, runProgram o 0 lawMachine [.binary 0 1 (.convolveSignal dftKernel id .sseF64x2 0 st1 (.single [])),
      .binary 0 2 (.convolveSignal dftKernel id .sseF64x2 1 st1 (.single []))] = .finished f1) ∧
    (∃ o, runProgram o 0 lawMachine [.binary 0 2 (.convolveSignal dftKernel id .avxF64x4 3 st2 (.single [])),
      .binary 0 1 (.convolveSignal dftKernel id .avxF64x4 0 st2 (.single []))] = .finished f2) ∧
    (f1.vec 0).content = (f2.vec 0).content := by
  have safe : ∀ (y z : Nat) (st : MultiCoreSettings) (k : RegKind) (a b : Nat), y ≠ 0 → z ≠ 0 →
      lawMachine.SafeAll [.binary 0 y (.convolveSignal dftKernel id k a st (.single [])),
        .binary 0 z (.convolveSignal dftKernel id k b st (.single []))] := by
    intro y z st k a b hy hz
    refine law_next lawMachine_shows (law_conv_safe lawMachine_shows 0 y rfl rfl rfl rfl rfl st k a) fun m' h => ?_
    have e := conv_meaning (lawWorld_filters 0 y)
    refine law_next h (law_conv_safe h 0 z ?_ ?_ ?_ ?_ ?_ st k b) fun _ _ => trivial
    · show ((World.put _ _ _ _).sig 0).numbers.isComplex = _
      rw [sig_put_same]
      exact congrArg (fun z => z.1.numbers.isComplex) e
    · show ((World.put _ _ _ _).sig 0).numbers.count = _
      rw [sig_put_same]
      exact (congrArg (fun z => z.1.numbers.count) e).trans ((count_conv (lawWorld.sig 0).numbers (lawWorld.sig y).numbers).trans rfl)
    · show ((World.put _ _ _ _).sig z).numbers.isComplex = _
      rw [sig_put_other _ hz]; rfl
    · show ((World.put _ _ _ _).sig z).numbers.count = _
      rw [sig_put_other _ hz]; rfl
    · show ((World.put _ _ _ _).sig z).delta = _
      rw [sig_put_other _ hz]; rfl
  have s1 := safe 1 2 st1 .sseF64x2 0 1 (by decide) (by decide)
  have s2 := safe 2 1 st2 .avxF64x4 3 0 (by decide) (by decide)
  obtain ⟨f1, -, ⟨o1, r1⟩, -⟩ := C72_program _ _ _ lawMachine_shows s1
  obtain ⟨f2, -, ⟨o2, r2⟩, -⟩ := C72_program _ _ _ lawMachine_shows s2
  exact ⟨f1, f2, ⟨o1, r1⟩, ⟨o2, r2⟩, (C86_exchange lawWorld 0 1 2 (by decide) (by decide) (lawWorld_filters 0 1) (lawWorld_filters 0 2)
    _ _ _ _ lawMachine_shows lawMachine_shows rfl rfl s1 s2 _ _ _ _ r1 r2).1⟩

/-- The gain for `[1, 2, 0]` and the response `[1, 2, 1]`: 3 times 4. -/
example : Returns lawWorld [.binary 0 1 .convolveSignal, .sum false false 0] [.result (.ok ()), .real (.ok 12)] := by
  obtain ⟨a, b, -, -, h⟩ := C86_gain lawWorld 0 1 (lawWorld_filters 0 1)
  obtain ⟨h1, h2⟩ := h rfl
  have s1 : lawMachine.SafeAll [.sum 0 (.sumPrec ⟨1, 0, 0, 0, 0⟩), .sum 1 (.sumPrec ⟨1, 0, 0, 0, 0⟩)] := by
    refine law_next lawMachine_shows trivial fun m' h => law_next h trivial fun _ _ => trivial
  obtain ⟨f1, -, ⟨o1, r1⟩, sh⟩ := C72_program _ _ _ lawMachine_shows s1
  have e1 := h1 _ _ lawMachine_shows rfl s1 _ _ r1
  have e2 := sh.2
  rw [e1] at e2
  have e3 : (lawWorld.after [.sum false false 0, .sum false false 1]).out = [.real (.ok 3), .real (.ok 4)] := by
    conv_run
    simp [sumMeaning, lawWorld, Numbers.flat]
    norm_num
  have e4 : [Out.real (.ok a.re), Out.real (.ok b.re)] = ([.real (.ok 3), .real (.ok 4)] : List (Out ℝ)) := by
    rw [← e3]
    exact e2
  simp only [List.cons.injEq, Out.real.injEq, Except.ok.injEq, and_true] at e4
  rw [e4.1, e4.2] at h2
  norm_num at h2
  exact h2

/-- The hypotheses of the other laws hold for these signals. -/
example : SameResult lawComplexWorld [.single 0 .conj, .single 1 .conj, .binary 0 1 .convolveSignal]
    [.binary 0 1 .convolveSignal, .single 0 .conj] 0 :=
  C86_conj lawComplexWorld 0 1 (by decide) (lawComplexWorld_filters 0 1) rfl

example : SameResult lawComplexWorld [.single 0 .reverse, .single 1 .reverse, .binary 0 1 .convolveSignal]
    [.binary 0 1 .convolveSignal, .single 0 .reverse] 0 :=
  C86_reverse lawComplexWorld 0 1 (by decide) (lawComplexWorld_filters 0 1) rfl

example : ∃ d : ℝ, Returns lawWorld [.binary 0 2 .convolveSignal, .dot false 0 1] [.result (.ok ()), .real (.ok d)] ∧
    Returns lawWorld [.single 2 .reverse, .binary 1 2 .convolveSignal, .dot false 0 1] [.result (.ok ()), .real (.ok d)] :=
  C86_adjoint lawWorld 0 1 2 (by decide) (by decide) (by decide) (lawWorld_filters 0 2) (lawWorld_filters 1 2) rfl rfl rfl

/-- A world with the impulse in variable 1. -/
example : SameResult ⟨fun x => ⟨.real (if x = 1 then centredImpulse 3 else [1, 2, 4]), .time, false, some 1⟩, []⟩
    [.binary 0 1 .convolveSignal] [] 0 :=
  C86_impulse _ 0 1 3 (by decide) ⟨⟨rfl, rfl, fun a b ha hb => by cases ha; cases hb; norm_num⟩, rfl, le_refl 3⟩ (.inl rfl)

end Dsp
