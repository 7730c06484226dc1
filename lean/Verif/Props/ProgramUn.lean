import Verif.Spec.ProgramSafe
import Verif.Props.Refinement
import Verif.Props.Correlation
import Verif.Props.WindowedFft
import Verif.Props.InterpLin
import Verif.Props.InterpHermite
import Verif.Props.Interpolatei
import Verif.Props.Wrap
/-
C72, operations on one vector: every call means what the specification of programs says.
-/
namespace Dsp
open DspVec
variable {T : Type}

theorem Always.twice {α : Type} {f : List Nat → Outcome α} {r : α} (h : Always f r) : Always2 (fun a _ => f a) r := by
  obtain ⟨h1, s, h2⟩ := h
  exact ⟨fun a _ => h1 a, s, [], h2⟩

/-- The result of a call in another form. -/
theorem Always.give {α β : Type} {f : List Nat → Outcome α} {r : α} (h : Always f r) (g : α → β) :
    Always2 (fun a _ => (f a).andThen fun x => .finished (g x)) (g r) :=
  (h.andThen (f := fun x => .finished (g x)) rfl).twice

theorem Always2.give {α β : Type} {f : List Nat → List Nat → Outcome α} {r : α} (h : Always2 f r) (g : α → β) :
    Always2 (fun a b => (f a b).andThen fun x => .finished (g x)) (g r) :=
  h.andThen (f := fun x => .finished (g x)) rfl

/-- A call without workers. -/
theorem always2_some {α β : Type} {o : Option α} {x : α} {f : α → Outcome β} {r : β} (h : o = some x) (hf : f x = .finished r) :
    Always2 (fun _ _ => (Outcome.ofOption o).andThen f) r :=
  (Always2.const r).congr fun _ _ => by rw [h, ← hf]; rfl

section
variable [Field T] [LinearOrder T] [IsStrictOrderedRing T] [FloorRing T]

/-- The linear interpolation is unique. -/
theorem eq_linInterpolated {data l : List T} {f delay : T} (h : LinInterpolation data f delay l) (hn : data ≠ []) :
    l = linInterpolated data f delay := by
  obtain ⟨R, ⟨r1, r2⟩, h1, h2, h3⟩ := h
  have hR : ⌊((data.length - 1 : Nat) : T) * f + 1 / 2⌋ = (R : Int) := floor_nat r2 (by linarith)
  unfold linInterpolated
  simp only [hR, Int.toNat_natCast]
  apply List.ext_getElem?
  intro i
  rcases lt_trichotomy i R with hi | hi | hi
  · rw [List.getElem?_append_left (by simpa using hi), List.getElem?_map, List.getElem?_range hi]
    obtain ⟨y, hy, k, y0, y1, k1, k2, k3, k4, rfl⟩ := h2 i hi
    rw [hy]
    simp only [Option.map_some, floor_nat k3 k4, Int.toNat_natCast, List.getD_eq_getElem?_getD, k1, k2, Option.getD_some]
  · subst hi
    rw [h3, List.getElem?_append_right (by simp)]
    have hl : data.length - 1 < data.length := by
      have := List.length_pos_iff.2 hn; omega
    simp [List.getElem?_eq_getElem hl, List.getD_eq_getElem?_getD]
  · rw [List.getElem?_eq_none (by omega), List.getElem?_eq_none (by simp; omega)]

variable {v : DspVec T} {s : Signal T}

theorem step_interpolateLin (h : v.Shows s) (buf : Buffer T) (f d : T) (hs : (UnOp.interpolateLin buf f d).Safe v) :
    ∃ w, Always2 (fun s1 s2 => (UnOp.interpolateLin buf f d).run v s1 s2) (w, ((UnCall.interpolateLin f d).meaning s).2) ∧
      w.Shows ((UnCall.interpolateLin f d).meaning s).1 := by
  obtain ⟨hc, hl, hf, hd, hd2, hb⟩ := hs
  obtain ⟨xs, hN⟩ := shows_real h hc
  have hlen := h.len
  rw [hN] at hlen
  have hne : xs ≠ [] := by rintro rfl; exact hl hlen
  have hcont := h.content
  rw [hN] at hcont
  obtain ⟨w, b', l, e1, e2, e3, e4⟩ := C42_interpolate_lin v hc xs hcont hne f d hf hd hd2 buf
    (by rw [show xs.length = v.len from hlen.symm]; exact hb)
  refine ⟨w, always2_some e1 rfl, ?_⟩
  rw [eq_linInterpolated e3 hne] at e2
  simp only [UnCall.meaning, hN, Numbers.mapLists]
  exact h.of_content e4 (by rw [hN]; rfl) e2

theorem step_interpolateHermite (h : v.Shows s) (buf : Buffer T) (f d : T) (hs : (UnOp.interpolateHermite buf f d).Safe v) :
    ∃ w, Always2 (fun s1 s2 => (UnOp.interpolateHermite buf f d).run v s1 s2) (w, ((UnCall.interpolateHermite f d).meaning s).2) ∧
      w.Shows ((UnCall.interpolateHermite f d).meaning s).1 := by
  obtain ⟨hc, hl, hd0, hd, m, hm, rfl, hb⟩ := hs
  obtain ⟨xs, hN⟩ := shows_real h hc
  have hlen := h.len
  rw [hN] at hlen
  have hlen : v.len = xs.length := hlen
  have hcont := h.content
  rw [hN] at hcont
  obtain ⟨w, b', l, e1, e2, e3, e4, e6⟩ := C50_interpolate_hermite_delay v hc xs hcont (by omega) m hm d hd0 hd buf
    (by rw [← hlen]; exact hb)
  refine ⟨w, always2_some e1 rfl, ?_⟩
  have hl : l = hermiteInterpolated xs m d := by
    unfold hermiteInterpolated
    apply List.ext_getElem?
    intro i
    by_cases hi : i < (xs.length - 1) * m + 1
    · rw [List.getElem?_map, List.getElem?_range hi]
      have hdm : i / m * m + i % m = i := by rw [Nat.mul_comm]; exact Nat.div_add_mod i m
      have := e4 (i / m) (i % m) (Nat.mod_lt _ (by omega)) (by rw [hdm]; exact hi)
      rw [hdm] at this
      rw [this]
      rfl
    · rw [List.getElem?_eq_none (by omega), List.getElem?_eq_none (by simp; omega)]
  rw [hl] at e2
  simp only [UnCall.meaning, hN, Numbers.mapLists, Int.floor_natCast, Int.toNat_natCast]
  exact h.of_content e6 (by rw [hN]; rfl) e2

omit [IsStrictOrderedRing T] in
theorem step_exponential (h : v.Shows s) (cis : T → Cx T) (a b : T) (hs : (UnOp.exponential cis a b).Safe v) :
    ∃ w, Always2 (fun s1 s2 => (UnOp.exponential cis a b).run v s1 s2) (w, ((UnCall.exponential cis a b).meaning s).2) ∧
      w.Shows ((UnCall.exponential cis a b).meaning s).1 := by
  obtain ⟨hcis, hc, hd⟩ := hs
  obtain ⟨cs, hN⟩ := shows_complex h hc
  obtain ⟨x, hx⟩ := Option.ne_none_iff_exists'.1 hd
  have hcont := h.content
  rw [hN] at hcont
  obtain ⟨w, e1, e2⟩ := C31_exponential_partial cis hcis.1 hcis.2 a b x v h.wf hc cs hcont hx
  have hsx : s.delta = some x := by rw [← h.delta]; exact hx
  have hm : (UnCall.exponential cis a b).meaning s =
      ({ s with numbers := .complex (cs.mapIdx fun i c => c * cis (a * i * x + b * x)) }, []) := by
    simp only [UnCall.meaning, hN, hsx]
  rw [hm]
  exact ⟨w, always2_some e1 rfl, h.of_replaced (by rw [hN]; rfl) e2 rfl⟩

omit [LinearOrder T] [IsStrictOrderedRing T] [FloorRing T] in
theorem shows_prepareArgument (h : v.Shows s) (K : FftKernel T) (k : RegKind) (addr : Nat) (st : MultiCoreSettings) (b : Buffer T)
    (hd : v.dom = .time) (hf : FftSafe K b v) (hal : ComplexAlignmentAccepted addr k.len (2 * v.points)) :
    ∃ w b', Always (v.prepareArgument K k addr st b) (w, b') ∧
      w.Shows (s.transform K .frequency fun a => (K.forward a).map Cx.conj) := by
  obtain ⟨w, b', cs, e1, e2, e3, e4, e5, e6, e7, e8, -, -, -, e9⟩ := C34_plain_fft K hf.1 v h.wf h.typed hd b hf.2
  rw [cpoints_shows h] at e2; cases e2
  have hw : w.Shows (s.transform K .frequency K.forward) := shows_transform h e3 e5 e6 e7 e8 e9
  have hl : w.len = 2 * v.points := by
    have hcount : s.numbers.asCx.length = s.numbers.count := by cases s.numbers <;> simp [Numbers.asCx, Numbers.count]
    rw [hw.len]; show (fromComplex (K.forward s.numbers.asCx)).length = _
    rw [length_fromComplex, hf.1.1, hcount, h.points]
  obtain ⟨u, hu, hus⟩ := step_conj hw k addr st e5 (by unfold AddrSafe; rw [if_pos e5, hl]; exact hal)
  refine ⟨u, b', ?_, hus⟩
  refine (hu.andThen (f := fun u => .finished (u, b')) rfl).congr fun sched => ?_
  simp only [prepareArgument, e1]

omit [IsStrictOrderedRing T] in
theorem step_prepareArgumentPadded (h : v.Shows s) (K : FftKernel T) (k : RegKind) (addr : Nat) (st : MultiCoreSettings) (b : Buffer T)
    (hs : (UnOp.prepareArgumentPadded K k addr st b).Safe v) :
    ∃ w, Always2 (fun s1 s2 => (UnOp.prepareArgumentPadded K k addr st b).run v s1 s2) (w, ((UnCall.prepareArgumentPadded K).meaning s).2) ∧
      w.Shows ((UnCall.prepareArgumentPadded K).meaning s).1 := by
  obtain ⟨hc, hd, hK, h2, hb, hsc, hal⟩ := hs
  obtain ⟨cs, hN⟩ := shows_complex h hc
  obtain ⟨N, dom, g, x⟩ := s
  simp only at hN
  subst hN
  have hdom : dom = .time := by rw [← hd]; exact h.dom.symm
  subst hdom
  have hp : v.points = cs.length := h.points
  rw [hp] at h2 hb hsc hal
  obtain ⟨u, b1, e1, e2, e3⟩ := shows_padB h b (2 * cs.length - 1) (by omega) hb
  have hl := padSpec_length (0 : Cx T) cs (2 * cs.length - 1) (surroundRightB cs.length (2 * cs.length - 1)) .surround
    (by omega) (by unfold surroundRightB; omega)
  have hup : u.points = 2 * cs.length - 1 := by rw [e3.points]; exact hl
  obtain ⟨w, b', f1, f2⟩ := shows_prepareArgument e3 K k addr st b1 e3.dom
    ⟨hK, (fun hr => by rw [e3.isComplex] at hr; cases hr), by rw [hup]; exact e2.2 _ _ hsc⟩ (by rw [hup]; exact hal)
  refine ⟨w, ((f1.andThen (f := fun r => .finished (r.1, ([] : List (Out T)))) rfl).twice).congr fun a _ => ?_, f2⟩
  simp only [UnOp.run, prepareArgumentPadded, hp]
  rw [if_neg (by omega), e1]

omit [Field T] [LinearOrder T] [IsStrictOrderedRing T] [FloorRing T] in
theorem windowSafe_of_points {v w : DspVec T} {st : MultiCoreSettings} {win : WindowFunction T} (h : WindowSafe v st win)
    (hp : w.points = v.points) : WindowSafe w st win := by
  unfold WindowSafe at *
  rw [hp]; exact h

/-- C72, operations on one vector. -/
theorem unary_step (h : v.Shows s) (op : UnOp T) (hs : op.Safe v) :
    ∃ w, Always2 (fun s1 s2 => op.run v s1 s2) (w, (op.call.meaning s).2) ∧ w.Shows (op.call.meaning s).1 := by
  have hcount : v.points = s.numbers.count := h.points
  have hcx : v.isComplex = s.numbers.isComplex := h.isComplex
  cases op with
  | exponential cis a b => exact step_exponential h cis a b hs
  | interpolateLin buf f d => exact step_interpolateLin h buf f d hs
  | interpolateHermite buf f d => exact step_interpolateHermite h buf f d hs
  | prepareArgument K k addr st buf =>
    obtain ⟨w, b', e1, e2⟩ := shows_prepareArgument h K k addr st buf hs.1 hs.2.1 hs.2.2
    exact ⟨w, e1.give fun r => (r.1, []), e2⟩
  | prepareArgumentPadded K k addr st buf => exact step_prepareArgumentPadded h K k addr st buf hs
  | wrap d st =>
    obtain ⟨xs, hN⟩ := shows_real h hs
    have hc := h.content
    rw [hN] at hc
    obtain ⟨w, e1, e2⟩ := C33_wrap d st v h.wf hs xs hc
    refine ⟨w, e1.give fun r => (r, []), h.of_replaced (isComplex_mapLists _ _ _) e2 (by rw [hN]; rfl)⟩
  | unwrap d =>
    obtain ⟨xs, hN⟩ := shows_real h hs
    have hc := h.content
    rw [hN] at hc
    obtain ⟨w, e1, e2⟩ := C33_unwrap d v hs xs hc
    refine ⟨w, always2_some e1 rfl, h.of_replaced (isComplex_mapLists _ _ _) e2 (by rw [hN]; rfl)⟩
  | convolveReal K junk k addr st buf fn ratio len =>
    obtain ⟨hd, hb, hs⟩ := hs
    obtain ⟨N, dom, g, x⟩ := s
    have hdom : dom = .time := by rw [← hd]; exact h.dom.symm
    subst hdom
    cases N with
    | real xs =>
      rw [if_neg (by rw [hcx]; simp [Numbers.isComplex])] at hs
      obtain ⟨w, b', e1, e2⟩ := C55_convolve_real_partial K junk k addr st v xs g x h buf hb fn ratio len hs
      exact ⟨w, e1.give fun r => (r.1, []), e2⟩
    | complex cs =>
      rw [if_pos (by rw [hcx]; rfl)] at hs
      obtain ⟨hK, hj, hp, hal, hgap⟩ := hs
      have hcount : v.points = cs.length := hcount
      rw [hcount] at hgap
      obtain ⟨w, b', e1, e2⟩ := C55_convolve_complex_partial K hK junk hj k addr st v cs g x h buf hb fn ratio len hp hal hgap
      exact ⟨w, e1.give fun r => (r.1, []), e2⟩
  | convolveComplex K junk k addr st buf fn ratio len =>
    obtain ⟨hd, hc, hb, hs⟩ := hs
    obtain ⟨cs, hN⟩ := shows_complex h hc
    obtain ⟨N, dom, g, x⟩ := s
    simp only at hN
    subst hN
    have hdom : dom = .time := by rw [← hd]; exact h.dom.symm
    subst hdom
    obtain ⟨w, b', e1, e2⟩ := C55_complex_response_partial K junk k addr st v cs g x h buf hb fn ratio len hs
    exact ⟨w, e1.give fun r => (r.1, []), e2⟩
  | realResponse st f ratio =>
    obtain ⟨hd, h2, hs⟩ := hs
    rw [hcount] at h2 hs
    obtain ⟨w, e1, e2, -⟩ := C56_real_response_partial st f ratio v s h (by rw [← hd]; exact h.dom.symm) h2 hs
    exact ⟨w, e1.give fun w => (w, []), e2⟩
  | complexResponse st f ratio =>
    obtain ⟨hd, hc, h2, hs⟩ := hs
    obtain ⟨cs, hN⟩ := shows_complex h hc
    rw [hcount, hN] at h2 hs
    obtain ⟨w, e1, e2, -⟩ := C56_complex_response_partial st f ratio v s cs h hN (by rw [← hd]; exact h.dom.symm) h2 hs
    refine ⟨w, e1.give fun w => (w, []), ?_⟩
    simp only [UnOp.call, UnCall.meaning, hN, Numbers.mapLists]
    exact e2
  | interpft K k addr cis pi st buf N =>
    obtain ⟨hK, hcis, h1, hN, he⟩ := hs
    rw [hcount] at h1 he
    obtain ⟨w, b', e1, e2, -⟩ := C57_interpft K hK k addr cis hcis.1 hcis.2 pi st N v s h h1 hN buf he
    exact ⟨w, e1.give fun r => (r.1, []), e2⟩
  | interpolate K k addr cis pi st buf function N delay =>
    obtain ⟨hK, hcis, h1, hN, hd, hsym, hF, he⟩ := hs
    rw [hcount] at h1 he hd hF
    rw [hcx] at hsym
    have hdd : ∃ d, d = (if delay = 0 then 0 else s.delta.elim 0 (delay / ·)) ∧
        ((delay = 0 ∧ d = 0) ∨ ∃ x, s.delta = some x ∧ d = delay / x) ∧ DelayFits cis pi d s.numbers.count := by
      by_cases h0 : delay = 0
      · exact ⟨0, by rw [if_pos h0], .inl ⟨h0, rfl⟩, .inl rfl⟩
      · obtain ⟨x, hx, hfit⟩ := hd.resolve_left h0
        rw [h.delta] at hx
        exact ⟨delay / x, by rw [if_neg h0, hx]; rfl, .inr ⟨x, hx, rfl⟩, hfit⟩
    obtain ⟨d, hd1, hd2, hd3⟩ := hdd
    obtain ⟨w, b', e1, e2, -⟩ := C57_interpolate_partial K hK k addr cis hcis.1 hcis.2 pi st function N delay d v s h h1 hN hd2 hd3
      hsym hF buf he.storage (he.room.imp_right fun h => ⟨by rw [← hcx]; exact h.1, h.2⟩) he.before he.after he.address
    refine ⟨w, e1.give fun r => (r.1, [Out.result r.2.2]), ?_⟩
    simp only [UnOp.call, UnCall.meaning]
    rw [← hd1]
    exact e2
  | interpolatei K k addr st buf F m =>
    obtain ⟨hK, hm, h1, hsym, hF, hb, hsc, hal⟩ := hs
    rw [hcount] at h1 hF hb hsc hal
    rw [hcx] at hsym
    obtain ⟨w, b', e1, e2, -⟩ := C58_interpolatei_partial K hK k addr st F m hm v s h h1 hsym hF buf hb hsc hal
    exact ⟨w, e1.give fun r => (r.1, [Out.result r.2.2]), e2⟩
  | interpolatef k addr st buf fn factor delay L =>
    obtain ⟨heven, hd, hf, h1, hn, hp, hb⟩ := hs
    obtain ⟨x, hx⟩ := Option.ne_none_iff_exists'.1 hd
    rw [h.delta] at hx
    have hst : v.stride = if s.numbers.isComplex then 2 else 1 := h.stride
    rw [hcount, hcx] at hn
    rw [hcount, hcx, hst] at hp hb
    rw [hcount] at h1
    obtain ⟨w, b', e1, -, e2⟩ := C59_interpolatef_partial k addr st fn heven factor delay L v s x h hx hf h1 hn hp buf hb
    refine ⟨w, e1.give fun r => (r.1, []), ?_⟩
    have hm : (UnCall.interpolatef fn factor delay L).meaning s = ({ s with
        numbers := s.numbers.interpolateWith fn factor (delay / x) (min L (s.numbers.count / 2)) <|
          interpolatedPoints s.numbers.isComplex s.numbers.count factor }, []) := by
      simp only [UnCall.meaning]
      rw [hx]
      rfl
    show w.Shows ((UnCall.interpolatef fn factor delay L).meaning s).1
    rw [hm]
    exact e2
  | windowedFft K st buf win =>
    obtain ⟨hd, hf, hw⟩ := hs
    obtain ⟨u, u1, u2⟩ := windowed_of_safe h.wf st win hw
    have hus : u.Shows ((Call.applyWindow win).meaning s) := by
      simp only [Call.meaning]; rw [← h.points]; exact shows_windowed h u2
    have hft := bufferOk_of_windowed h.wf u2 hf.2
    obtain ⟨w, b', cs, e1, e2, e3, e4, e5, e6, e7, e8, -, -, e9⟩ := C34_fft K hf.1 u hus.wf hus.typed (by
      rw [hus.dom]; show s.dom = _; rw [← h.dom]; exact hd) buf hft
    rw [cpoints_shows hus] at e2; cases e2
    refine ⟨w, ?_, shows_transform (f := fun cs => rotateRight (K.forward cs) (cs.length / 2)) hus e3 e5 e6 e7 e8 e9⟩
    have : Always (v.windowedFft K st win buf) (w, b') := u1.andThen (by rw [e1]; rfl)
    exact this.give fun r => (r.1, [])
  | windowedIfft K k addr st buf win =>
    obtain ⟨hc, hd, hg, h2, hK, hsc, hal, hw⟩ := hs
    obtain ⟨u, b', cs, e1, e2, e3, e4, e5, ⟨e7, e8⟩, -, e6, -, e9⟩ :=
      C34_ifft K hK k addr st v h.wf h.typed hc hd buf hsc (by omega) hal
    rw [cpoints_shows h] at e2; cases e2
    have hl : v.points = s.numbers.asCx.length := by
      rw [h.points]; cases s.numbers <;> simp [Numbers.count, Numbers.asCx]
    rw [hl] at e3
    have hus : u.Shows ((Call.ifft K).meaning s) := shows_transform
      (f := fun cs => K.inverse (rotateLeft (cs.map (Cx.scaleBy (1 / (cs.length : T)))) (cs.length / 2)))
      h e3 e5 (e6 (not_generic_of_space hg)) e7 e8 e9
    obtain ⟨w, w1, w2⟩ := step_unapplyWindow hus win st (windowSafe_of_points hw e4)
    refine ⟨w, ?_, w2⟩
    have w3 := w1.andThen (f := fun u => .finished (u, b')) rfl
    have : Always2 (v.windowedIfft K k addr st win buf) (w, b') :=
      Always2.of_andThen (g := fun (r : DspVec T × Buffer T) s2 => (r.1.unapplyWindow st win s2).andThen fun u => .finished (u, r.2)) e1 w3
    exact this.give fun r => (r.1, [])

end
end Dsp
