import Verif.Props.Facade
import Verif.Props.ConvFunctions
import Verif.Props.Windows
/-
C81: what the numbers for windows and convolution functions mean which a C program passes to the facade.
-/
namespace Dsp
variable {T : Type}

/-- The library works with the real sine, cosine and pi and with the windows of `window_functions.rs`. -/
structure LibConsts.Real (c : LibConsts ℝ) : Prop where
  pi : c.pi = Real.pi
  sin : c.sin = Real.sin
  cos : c.cos = Real.cos
  triangular : c.triangular = Dsp.triangular
  hamming : c.hamming = Dsp.hamming 0.54
  blackmanHarris : c.blackmanHarris = Dsp.blackmanHarris

/-- C81: the function which a number for a convolution function stands for: 0 is the sinc function, all other numbers are the raised cosine
    with the given roll-off. As impulse response (at the time `x`) and as frequency response (at the frequency `x`). -/
theorem C81_responses (c : LibConsts ℝ) (hc : c.Real) (n : Int) (rolloff : ℝ) (hβ : 0 < rolloff) (x : ℝ) :
    (translateToRealFunction n rolloff).impulse c x =
      (if n = 0 then Real.sinc (Real.pi * x) else rcClosed rolloff x) ∧
    ((translateToRealFunction n rolloff).frequency c).value x =
      (if n = 0 then (if |x| ≤ 1 then 1 else 0) else rcBandClosed rolloff x) ∧
    ((translateToRealFunction n rolloff).frequency c).isSymmetric = true := by
  unfold translateToRealFunction
  by_cases hn : n = 0
  · simp only [if_pos hn]
    refine ⟨?_, rfl, rfl⟩
    rw [← C67_sinc]
    unfold ResponseArg.impulse
    rw [hc.pi, hc.sin]; rfl
  · simp only [if_neg hn]
    refine ⟨?_, ?_, rfl⟩
    · rw [← C67_rc_closed rolloff hβ]
      unfold ResponseArg.impulse
      rw [hc.pi, hc.sin, hc.cos]; rfl
    · rw [← rcBand_closed rolloff hβ]
      unfold ResponseArg.frequency
      rw [hc.pi, hc.cos]; rfl

/-- C81: the window which a number for a window stands for: 0 triangular, 1 Hamming (0.54), 2 Blackman-Harris, everything else
    rectangular. -/
theorem C81_windows (c : LibConsts ℝ) (hc : c.Real) (n : Int) (i length : Nat) :
    ((translateToWindowFunction n).function c).window i length =
      (if n = 0 then 1 - |((i : ℝ) - ((length : ℝ) - 1) / 2) / ((length : ℝ) / 2)|
       else if n = 1 then 0.54 - 0.46 * Real.cos (2 * Real.pi * i / ((length : ℝ) - 1))
       else if n = 2 then 0.35875 - 0.48829 * Real.cos (2 * Real.pi * i / ((length : ℝ) - 1)) +
         0.14128 * Real.cos (4 * Real.pi * i / ((length : ℝ) - 1)) - 0.01168 * Real.cos (6 * Real.pi * i / ((length : ℝ) - 1))
       else 1) ∧
    ((translateToWindowFunction n).function c).isSymmetric = true := by
  unfold translateToWindowFunction
  split
  · simp only [WindowArg.function, hc.triangular, if_true]; exact ⟨rfl, rfl⟩
  · simp only [WindowArg.function, hc.hamming, one_ne_zero, if_false, if_true]
    refine ⟨?_, rfl⟩
    show (0.54 : ℝ) - (1 - 0.54) * _ = _
    norm_num
  · simp only [WindowArg.function, hc.blackmanHarris]
    refine ⟨?_, rfl⟩
    rw [if_neg (by decide), if_neg (by decide), if_pos trivial]; rfl
  · refine ⟨?_, rfl⟩
    rw [if_neg (by decide), if_neg (by decide), if_neg (by decide)]; rfl
  · rename_i h0 h1 h2 h3
    refine ⟨?_, rfl⟩
    rw [if_neg h0, if_neg h1, if_neg h2]; rfl

/-- C81: functions of the C program are called as they are. -/
theorem C81_foreign [Field T] [LinearOrder T] (c : LibConsts T) (window : Nat → Nat → Nat → T) (f : Nat → T → T) (data : Nat) (sym : Bool) (i length : Nat)
    (x : T) :
    ((foreignWindow window data sym).function c).window i length = window data i length ∧
    ((foreignWindow window data sym).function c).isSymmetric = sym ∧
    (foreignResponse f data sym).impulse c x = f data x ∧
    ((foreignResponse f data sym).frequency c).value x = f data x ∧
    ((foreignResponse f data sym).frequency c).isSymmetric = sym := ⟨rfl, rfl, rfl, rfl, rfl⟩

/-- Real constants. -/
noncomputable example : ∃ c : LibConsts ℝ, c.Real :=
  ⟨{ math := ⟨fun _ x => x, fun _ x => x, id, id, abs⟩, kernel := ⟨id, id, fun _ => 0, fun _ => true⟩, cis := fun x => ⟨x, 0⟩,
     pi := Real.pi, sin := Real.sin, cos := Real.cos, cart := Cx.mk, polar := fun z => (z.re, z.im), magnitude := Cx.re,
     magnitudeSquared := Cx.re, phase := Cx.im, triangular := triangular, hamming := hamming 0.54, blackmanHarris := blackmanHarris },
   ⟨rfl, rfl, rfl, rfl, rfl, rfl⟩⟩

end Dsp
