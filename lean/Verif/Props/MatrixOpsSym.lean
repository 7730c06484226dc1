import Verif.Props.MatrixOpsBin
import Verif.Props.MatrixRes
import Verif.Props.WindowedFft
/-
C77: interpolation with responses which are not symmetric and the remaining symmetric transforms of matrices.
-/
namespace Dsp
open DspVec
variable {T : Type}

section
variable [Field T] [LinearOrder T] [IsStrictOrderedRing T] [FloorRing T]

omit [Field T] [LinearOrder T] [IsStrictOrderedRing T] [FloorRing T] in
theorem inEnv_asymmetric {op : UnOp T} (h : op.Asymmetric) (e : RowEnv) : (op.inEnv e).Asymmetric := by
  cases op <;> exact h

omit [IsStrictOrderedRing T] in
/-- A real row is rejected. -/
theorem onRow_rejects (op : UnOp T) (ha : op.Asymmetric) (env : Nat → RowEnv2) (v : DspVec T) (i : Nat) (hv : v.isComplex = false) :
    UnOp.onRow env op v i = .finished (v, op.inEnv (env i).toRowEnv, .error .argumentFunctionMustBeSymmetric) := by
  cases op with
  | interpolate K k addr cis pi st b f N d =>
    obtain ⟨f, rfl, hf⟩ := ha
    simp only [UnOp.onRow, UnOp.inEnv, UnOp.runNext, C57_rejects _ _ _ _ _ _ f hf _ _ v hv, Outcome.andThen]
  | interpolatei K k addr st b F m =>
    simp only [UnOp.onRow, UnOp.inEnv, UnOp.runNext, (C58_unchanged _ _ _ _ F m v _ _ _).2 ha.2 ha.1 hv, Outcome.andThen]
  | _ => exact absurd ha id

omit [IsStrictOrderedRing T] in
theorem runNext_asymmetric {op op' : UnOp T} {v w : DspVec T} {s1 s2 : List Nat} {r : VoidResult} (ha : op.Asymmetric)
    (e : op.runNext v s1 s2 = .finished (w, op', r)) : op'.Asymmetric := by
  cases op with
  | interpolate K k addr cis pi st b f N d => obtain ⟨x, -, e⟩ := andThen_finished e; cases e; exact ha
  | interpolatei K k addr st b F m => obtain ⟨x, -, e⟩ := andThen_finished e; cases e; exact ha
  | _ => exact absurd ha id

/-- C77: with a response which is not symmetric, the method stops at the first row with real numbers and returns an error: this row and the
    rows behind it stay as they are, the complex rows before it have been interpolated. -/
theorem C77_asymmetric (m : Mat T) (ss : List (Signal T)) (op : UnOp T) (ha : op.Asymmetric) (env : Nat → RowEnv2) (h : m.Shows ss)
    (hs : ∀ (i : Nat) (v : DspVec T), m.rows[i]? = some v → v.isComplex = true → (op.inEnv (env i).toRowEnv).Safe v) :
    m.execUn op env = .running ∨
      ∃ m', m.execUn op env = .finished (m', (untilError op.call.rejectReal (ss.map fun s => (s, ()))).2) ∧ m'.kind = m.kind ∧
        m'.Shows (untilError op.call.rejectReal (ss.map fun s => (s, ()))).1 := by
  have hm : op.matrixMethod = (.tryEach, op) := by
    cases op with
    | interpolate K k addr cis pi st b f N d => rfl
    | interpolatei K k addr st b F m => rfl
    | _ => exact absurd ha id
  have hsz : ∀ r ∈ m.rows.zipIdx, r.1.isComplex = true → (op.inEnv (env r.2).toRowEnv).Safe r.1 :=
    fun r hr => hs r.2 r.1 (List.mem_zipIdx_iff_getElem?.1 hr)
  have hz : List.Forall₂ (fun r (s : Signal T × Unit) => DspVec.Shows r.1 s.1 ∧ ∀ st, (ServesUn op st ∧ st.Asymmetric) →
      UnOp.onRow env st r.1 r.2 = .running ∨ ∃ w st', UnOp.onRow env st r.1 r.2 = .finished (w, st', (op.call.rejectReal s.1 s.2).2) ∧
        (ServesUn op st' ∧ st'.Asymmetric) ∧ w.Shows (op.call.rejectReal s.1 s.2).1) m.rows.zipIdx (ss.map fun s => (s, ())) := by
    rw [List.forall₂_map_right_iff]
    have hz := zipIdx_shows h 0
    clear h hs
    generalize m.rows.zipIdx = rows at hsz hz
    revert hsz
    induction hz with
    | nil => intro _; exact .nil
    | @cons r s _ _ h1 _ ih =>
      intro hsz
      refine .cons ⟨h1, fun st hst => ?_⟩ (ih fun r hr => hsz r (List.mem_cons_of_mem _ hr))
      cases hc : s.numbers.isComplex with
      | true =>
        have hr : op.call.rejectReal s () = ((op.call.meaning s).1, .ok ()) := by simp [UnCall.rejectReal, hc]
        rw [hr]
        rcases (onRow_shows op env _ _ _ h1 (hsz _ (by simp) (by rw [h1.isComplex]; exact hc)) st hst.1).1 with e | ⟨w, op', e, h2, h3⟩
        · exact .inl e
        · exact .inr ⟨w, op', e, ⟨h2, runNext_asymmetric (inEnv_asymmetric hst.2 _) e⟩, h3⟩
      | false =>
        have hr : op.call.rejectReal s () = (s, .error .argumentFunctionMustBeSymmetric) := by simp [UnCall.rejectReal, hc]
        rw [hr]
        exact .inr ⟨_, _, onRow_rejects st hst.2 env _ _ (by rw [h1.isComplex]; exact hc),
          ⟨hst.1.trans (ServesUn.inEnv _ _), inEnv_asymmetric hst.2 _⟩, h1⟩
  rcases tryRows_shows (UnOp.onRow env) (fun o => ServesUn op o ∧ o.Asymmetric) op.call.rejectReal m.rows.zipIdx _ op ⟨.refl _, ha⟩ hz with
    e | ⟨ws, st', e, _, hw⟩
  · exact .inl (by simp only [Mat.execUn, hm, e, Outcome.andThen])
  · exact .inr ⟨⟨m.kind, ws⟩, by simp only [Mat.execUn, hm, e, Outcome.andThen], rfl, hw⟩
end

/-! ### Symmetric transforms -/

theorem forRowsRes_running {σ α β : Type} (Inv : σ → Prop) (P : α → β → Prop) (f : σ → α → Outcome (β × σ × VoidResult))
    (rows : List α) : ∀ (s : σ), Inv s →
      (∀ s v, Inv s → v ∈ rows → f s v = .running ∨ ∃ w s', f s v = .finished (w, s', .ok ()) ∧ P v w ∧ Inv s') →
      forRowsRes f s none rows = .running ∨
        ∃ ws s', forRowsRes f s none rows = .finished (ws, s', none) ∧ List.Forall₂ P rows ws := by
  induction rows with
  | nil => intro s hs _; exact .inr ⟨[], s, rfl, .nil⟩
  | cons v rest ih =>
    intro s hs h
    rcases h s v hs (by simp) with e | ⟨w, s1, e, hp, hs1⟩
    · exact .inl (by simp [forRowsRes, e, Outcome.andThen])
    · rcases ih s1 hs1 (fun s u hi hu => h s u hi (List.mem_cons_of_mem _ hu)) with e2 | ⟨ws, s2, e2, hps⟩
      · exact .inl (by simp [forRowsRes, e, e2, Outcome.andThen, rememberError])
      · exact .inr ⟨w :: ws, s2, by simp [forRowsRes, e, e2, Outcome.andThen, rememberError], .cons hp hps⟩

theorem transformRowsRes_running {σ : Type} (Inv : σ → Prop) (P : DspVec T → DspVec T → Prop)
    (f : σ → DspVec T × Nat → Outcome (DspVec T × σ × VoidResult)) (m : Mat T) (s : σ) (hs : Inv s)
    (h : ∀ s v i, Inv s → m.rows[i]? = some v → f s (v, i) = .running ∨ ∃ w s', f s (v, i) = .finished (w, s', .ok ()) ∧ P v w ∧ Inv s') :
    transformRowsRes m.kind f s m.rows.zipIdx = .running ∨
      ∃ ws s', transformRowsRes m.kind f s m.rows.zipIdx = .finished (ws, s', .ok ()) ∧
        RowsChanged m ⟨m.kind, ws⟩ m.rows.length (fun _ v w => P v w) := by
  have fin : ∀ ws : List (DspVec T), List.Forall₂ (fun (r : DspVec T × Nat) w => P r.1 w) m.rows.zipIdx ws →
      RowsChanged m ⟨m.kind, ws⟩ m.rows.length (fun _ v w => P v w) := by
    intro ws hf
    obtain ⟨hl, hi⟩ := forall2_index hf
    simp at hl
    refine ⟨rfl, hl.symm, fun i v _ hv => hi i (v, i) (by rw [List.getElem?_zipIdx, hv]; simp), fun i hi => ?_⟩
    rw [List.getElem?_eq_none (by simpa [hl] using hi), List.getElem?_eq_none hi]
  have hz : ∀ s (r : DspVec T × Nat), Inv s → r ∈ m.rows.zipIdx →
      f s r = .running ∨ ∃ w s', f s r = .finished (w, s', .ok ()) ∧ P r.1 w ∧ Inv s' :=
    fun s r hi hr => h s r.1 r.2 hi (List.mem_zipIdx_iff_getElem?.1 hr)
  cases hk : m.kind with
  | fixed n =>
    rcases forRowsRes_running Inv (fun (r : DspVec T × Nat) w => P r.1 w) f m.rows.zipIdx s hs hz with e | ⟨ws, s', e, hf⟩
    · exact .inl (by simp [transformRowsRes, e, Outcome.andThen])
    · exact .inr ⟨ws, s', by simp [transformRowsRes, e, Outcome.andThen, errorResult], hk ▸ fin ws hf⟩
  | mxn =>
    rcases forRowsRes_running Inv (fun (r : DspVec T × Nat) w => P r.1 w) f m.rows.zipIdx.reverse s hs
      (fun s v hi hv => hz s v hi (List.mem_reverse.1 hv)) with e | ⟨ws, s', e, hf⟩
    · exact .inl (by simp only [transformRowsRes, popRowsRes_eq, e, Outcome.andThen])
    · refine .inr ⟨ws.reverse, s', by simp only [transformRowsRes, popRowsRes_eq, e, Outcome.andThen, errorResult, List.nil_append], ?_⟩
      have := fin ws.reverse (by simpa using forall2_reverse hf)
      rwa [hk] at this

/-- A row whose operation can not succeed. -/
theorem forRowsRes_none {σ α β : Type} (f : σ → α → Outcome (β × σ × VoidResult)) (rows : List α) :
    ∀ (s : σ) (err : Option ErrorReason) (ws : List β) (s' : σ), forRowsRes f s err rows = .finished (ws, s', none) →
      err = none ∧ ∀ v ∈ rows, ∃ s w s', f s v = .finished (w, s', .ok ()) := by
  induction rows with
  | nil => intro s err ws s' e; cases e; exact ⟨rfl, fun v h => by cases h⟩
  | cons v rest ih =>
    intro s err ws s' e
    obtain ⟨r, e1, e⟩ := andThen_finished e
    obtain ⟨⟨q1, q2, q3⟩, e2, e⟩ := andThen_finished e
    cases e
    obtain ⟨h1, h2⟩ := ih _ _ _ _ e2
    obtain ⟨w, s1, r⟩ := r
    cases r with
    | error x => cases h1
    | ok x =>
      refine ⟨h1, fun u hu => ?_⟩
      rcases List.mem_cons.1 hu with rfl | hu
      · exact ⟨_, _, _, e1⟩
      · exact h2 u hu

theorem transformRowsRes_fails {σ α β : Type} (k : MatKind) (f : σ → α → Outcome (β × σ × VoidResult)) (rows : List α) (v : α) (hv : v ∈ rows)
    (h : ∀ s w s', f s v ≠ .finished (w, s', .ok ())) (s : σ) (ws : List β) (s' : σ) :
    transformRowsRes k f s rows ≠ .finished (ws, s', .ok ()) := by
  intro e
  cases k with
  | fixed n =>
    obtain ⟨⟨ws, s1, r⟩, e1, e⟩ := andThen_finished e
    cases r with
    | some x => cases e
    | none =>
      obtain ⟨s, w, s', e'⟩ := (forRowsRes_none f rows _ _ _ _ e1).2 v hv
      exact h _ _ _ e'
  | mxn =>
    rw [transformRowsRes, popRowsRes_eq] at e
    obtain ⟨⟨ws, s1, r⟩, e1, e⟩ := andThen_finished e
    obtain ⟨⟨ws2, s2, r2⟩, e2, e1⟩ := andThen_finished e1
    cases e1
    cases r with
    | some x => cases e
    | none =>
      obtain ⟨s, w, s', e'⟩ := (forRowsRes_none f _ _ _ _ _ e2).2 v (List.mem_reverse.2 hv)
      exact h _ _ _ e'

/-- C77 (partial, see C49): `plain_sifft` of a matrix whose rows are the first halves of conjugate symmetric spectra with odd lengths:
    every row becomes the real parts of the inverse transform of its spectrum. Missing: rows of the generic type, see
    `C49_sifft_generic_violated`. -/
theorem C77_plain_sifft_partial [Zero T] [Mul T] [NatCast T] [Neg T] (tiny : T → Bool) (K : FftKernel T) (hK : K.KeepsLength)
    (env : Nat → RowEnv3) (m : Mat T) (b : Buffer T)
    (h : ∀ v ∈ m.rows, v.numberSpace = .complex ∧ v.domain = .freq ∧ ∃ X, ConjSymmetric X ∧ X.length % 2 = 1 ∧
      v.cpoints = some (X.take (X.length / 2 + 1)) ∧ (∀ c0, X[0]? = some c0 → tiny c0.im = true) ∧
      BufferOk b v.data (2 * X.length) ∧ ScratchOk K b X.length) :
    m.plainSifft tiny K env b = .running ∨
      ∃ m' b', m.plainSifft tiny K env b = .finished (m', b', .ok ()) ∧ RowsChanged m m' m.rows.length (fun _ v w =>
        ∃ X, ConjSymmetric X ∧ X.length % 2 = 1 ∧ v.cpoints = some (X.take (X.length / 2 + 1)) ∧
          w.content = some ((K.inverse X).map Cx.re) ∧ w.numberSpace = .real ∧ w.domain = .time) := by
  rcases transformRowsRes_running (AsGood b) (fun v w => ∃ X, ConjSymmetric X ∧ X.length % 2 = 1 ∧ v.cpoints = some (X.take (X.length / 2 + 1)) ∧
          w.content = some ((K.inverse X).map Cx.re) ∧ w.numberSpace = .real ∧ w.domain = .time)
      (fun (b : Buffer T) (r : DspVec T × Nat) => r.1.plainSifft tiny K (env r.2).st b (env r.2).sched) m b (.refl b) (fun s v i hs hv => by
        obtain ⟨h1, h2, X, h3, h4, h5, h6, h7, h8⟩ := h v (List.mem_of_getElem? hv)
        obtain ⟨w, b', hA, g1, g2, g3⟩ :=
          C49_plain_sifft_static_partial tiny K hK (env i).st X h3 h4 v h1 h2 h5 h6 s (hs.1 _ _ h7) (hs.2.1 _ _ h8)
        rcases hA.1 (env i).sched with e | e
        · exact .inl e
        · exact .inr ⟨w, b', e, ⟨X, h3, h4, h5, g1, g2, g3⟩, hs.trans (plainSifft_good e)⟩) with e | ⟨ws, s', e, hr⟩
  · exact .inl (by simp only [Mat.plainSifft, e, Outcome.andThen])
  · exact .inr ⟨_, s', by simp only [Mat.plainSifft, e, Outcome.andThen], hr⟩

/-- C77 is violated by `windowed_sfft` of matrices as by that of vectors (C49): number `i` of a row with `n` numbers is multiplied by the value
    of the window for the point `2 i` of `2 n` points. -/
theorem C77_windowed_sfft_violated [Field T] [LinearOrder T] [IsStrictOrderedRing T] (K : FftKernel T) (hK : K.KeepsLength) (hper : K.Periodic) (win : WindowFunction T)
    (env : Nat → RowEnv3) (m : Mat T) (b : Buffer T)
    (h : ∀ (i : Nat) (v : DspVec T), m.rows[i]? = some v → v.WF ∧ v.numberSpace = .real ∧ v.domain = .time ∧ v.len % 2 = 1 ∧
      BufferOk b v.data (4 * v.len) ∧ ScratchOk K b (2 * v.len) ∧
      (win.isSymmetric = false ∨ win.isSymmetric = true ∧ SymmetricAt win (2 * v.len) ∧ (env i).st.coreLimit = 1)) :
    m.windowedSfft K win env b = .running ∨
      ∃ m' b', m.windowedSfft K win env b = .finished (m', b', .ok ()) ∧ RowsChanged m m' m.rows.length (fun _ v w =>
        ∃ c, v.content = some c ∧ w.cpoints =
            some ((K.forward ((c.mapIdx fun i x => x * win.window (2 * i) (2 * c.length)).map Cx.ofReal)).take (c.length / 2 + 1)) ∧
          w.numberSpace = .complex ∧ w.domain = .freq ∧ w.WF) := by
  rcases transformRowsRes_running (AsGood b) (fun v w => ∃ c, v.content = some c ∧ w.cpoints =
            some ((K.forward ((c.mapIdx fun i x => x * win.window (2 * i) (2 * c.length)).map Cx.ofReal)).take (c.length / 2 + 1)) ∧
          w.numberSpace = .complex ∧ w.domain = .freq ∧ w.WF)
      (fun (b : Buffer T) (r : DspVec T × Nat) => r.1.windowedSfft K (env r.2).st win b (env r.2).sched) m b (.refl b) (fun s v i hs hv => by
        obtain ⟨h1, h2, h3, h4, h5, h6, h7⟩ := h i v hv
        obtain ⟨w, b', c, hA, hc, g⟩ :=
          C49_windowed_sfft_violated K hK hper (env i).st win v h1 h2 h3 h4 s (hs.1 _ _ h5) (hs.2.1 _ _ h6) h7
        rcases hA.1 (env i).sched with e | e
        · exact .inl e
        · exact .inr ⟨w, b', e, ⟨c, hc, g⟩, hs.trans (windowedSfft_good e)⟩) with e | ⟨ws, s', e, hr⟩
  · exact .inl (by simp only [Mat.windowedSfft, e, Outcome.andThen])
  · exact .inr ⟨_, s', by simp only [Mat.windowedSfft, e, Outcome.andThen], hr⟩

/-- C77 is violated by `sifft` and `windowed_sifft` as by those of vectors (C49): one row whose middle point has an imaginary part is enough,
    and the method does not succeed. -/
theorem C77_sifft_violated [Field T] [LinearOrder T] [IsStrictOrderedRing T] (tiny : T → Bool) (K : FftKernel T) (k : RegKind) (win : WindowFunction T) (env : Nat → RowEnv3) (m : Mat T)
    (b : Buffer T) (i : Nat) (v : DspVec T) (hi : m.rows[i]? = some v) (hv : v.WF) (hc : v.isComplex = true) (hd : v.dom = .frequency)
    (cs : List (Cx T)) (h : v.cpoints = some cs) (c : Cx T) (hmid : cs[cs.length / 2]? = some c) (h2 : 2 ≤ cs.length)
    (hbad : tiny (c.im * (1 / (cs.length : T))) = false) (hal : ComplexAlignmentAccepted (env i).addr k.len v.len) :
    (∀ m' b', m.sifft tiny K k env b ≠ .finished (m', b', .ok ())) ∧
      ∀ m' b', m.windowedSifft tiny K k win env b ≠ .finished (m', b', .ok ()) := by
  have hmem : (v, i) ∈ m.rows.zipIdx := List.mem_zipIdx_iff_getElem?.2 hi
  constructor
  · intro m' b' e
    obtain ⟨⟨ws, s', r⟩, e1, e⟩ := andThen_finished e
    cases e
    exact transformRowsRes_fails _ _ _ (v, i) hmem (fun s w s' =>
      (C49_sifft_violated tiny K k (env i).addr (env i).st v hv hc hd cs h c hmid h2 hbad s hal).2 _ _ w s') _ _ _ e1
  · intro m' b' e
    obtain ⟨⟨ws, s', r⟩, e1, e⟩ := andThen_finished e
    cases e
    exact transformRowsRes_fails _ _ _ (v, i) hmem (fun s w s' =>
      (C49_windowed_sifft_violated tiny K k (env i).addr win (env i).st v hv hc hd cs h c hmid h2 hbad s hal).2 _ _ _ w s') _ _ _ e1

/-! ### Examples -/

/-- One worker, rows at different addresses. -/
def exampleEnv2 : Nat → RowEnv2 := fun i => ⟨exampleEnv i, []⟩

/-- A transform which does nothing. -/
def idleKernel : FftKernel ℚ := ⟨id, id, fun _ => 0, fun _ => true⟩

/-- The hypotheses of `C77_unary` and `C77_unary_terminates`: a method in place with a buffer and a method with `?`. -/
example : exampleMat.SafeUn (.interpolateLin (.single []) 2 0) exampleEnv2 ∧
    exampleMat.SafeUn (.interpolatei idleKernel .sseF32x4 0 ⟨1, 0, 0, 0, 0⟩ (.single []) ⟨true, fun _ => 1⟩ 2) exampleEnv2 := by
  constructor
  all_goals
    intro i v hv
    match i, hv with
    | 0, hv => cases hv; first
      | exact ⟨rfl, by decide, by norm_num, le_rfl, by norm_num, fun R _ => trivial⟩
      | exact ⟨⟨fun _ => rfl, fun _ => rfl⟩, by decide, by decide, fun _ => rfl,
          fun f hf => by cases hf; exact ⟨fun _ => ⟨fun _ => rfl, by decide⟩, fun h => by cases h⟩, trivial, trivial, .inl (by decide)⟩
    | 1, hv => cases hv; first
      | exact ⟨rfl, by decide, by norm_num, le_rfl, by norm_num, fun R _ => trivial⟩
      | exact ⟨⟨fun _ => rfl, fun _ => rfl⟩, by decide, by decide, fun _ => rfl,
          fun f hf => by cases hf; exact ⟨fun _ => ⟨fun _ => rfl, by decide⟩, fun h => by cases h⟩, trivial, trivial, .inl (by decide)⟩
    | i + 2, hv => cases hv

/-- The second operand has the wrong length. -/
def exampleOperands : Mat ℚ := ⟨.mxn, [histVec, histVec]⟩

/-- The hypotheses of `C77_binary` and `C77_binary_vector` are met by operands of which the second is rejected: the first row is changed,
    the second one is not, and an error is returned. -/
example : exampleMat.SafeBin exampleOperands (.elem .add .sseF32x4 0) exampleEnv2 ∧
    exampleMat.SafeBinVec histVec (.elem .add .sseF32x4 0) exampleEnv2 ∧
    untilError (BinOp.elem .add .sseF32x4 0 : BinOp ℚ).call.effect (exampleSignals.zip [histSignal, histSignal]) =
      ([⟨.real [2, 4, 6], .time, false, some 1⟩, ⟨.real [5, 7], .time, false, some 1⟩], .error .inputMustHaveTheSameSize) := by
  have key : ∀ (i : Nat) (v x : DspVec ℚ), exampleMat.rows[i]? = some v → x = histVec →
      ((BinOp.elem .add .sseF32x4 0 : BinOp ℚ).inEnv (exampleEnv2 i).toRowEnv).Safe v x := by
    intro i v x hv hx
    subst hx
    match i, hv with
    | 0, hv => cases hv; exact ⟨fun d hd => by cases hd; norm_num, fun _ _ => ⟨.inl (by decide), fun h => by cases h⟩⟩
    | 1, hv => cases hv; exact ⟨fun d hd => by cases hd; norm_num, fun h => by cases h⟩
    | i + 2, hv => cases hv
  refine ⟨fun i v x hv hx => key i v x hv ?_, fun i v hv => key i v _ hv rfl, ?_⟩
  · match i, hx with
    | 0, hx => cases hx; rfl
    | 1, hx => cases hx; rfl
    | i + 2, hx => cases hx
  · have e1 : (BinOp.elem .add .sseF32x4 0 : BinOp ℚ).call.effect histSignal histSignal =
        (⟨.real [2, 4, 6], .time, false, some 1⟩, .ok ()) := by
      have ha : histSignal.Agrees histSignal := ⟨rfl, rfl, fun d e hd he => by cases hd; cases he; norm_num⟩
      simp only [BinCall.effect, BinOp.call, BinCall.meaning]
      rw [if_neg (by simp), if_neg (by simpa using ha)]
      simp only [resultOf, histSignal, Numbers.combine, List.zipWith, ElemOp.real]
      norm_num
    have e2 : (BinOp.elem .add .sseF32x4 0 : BinOp ℚ).call.effect ⟨.real [5, 7], .time, false, some 1⟩ histSignal =
        (⟨.real [5, 7], .time, false, some 1⟩, .error .inputMustHaveTheSameSize) := by
      simp only [BinCall.effect, BinOp.call, BinCall.meaning]
      rw [if_pos (by decide)]
      rfl
    simp only [exampleSignals, List.zip_cons_cons, List.zip_nil_right, untilError, e1, e2, List.map_nil]

/-- The hypotheses of `C77_asymmetric`: the first row is complex, the second real. -/
example : (UnOp.interpolatei idleKernel .sseF32x4 0 ⟨1, 0, 0, 0, 0⟩ (.single []) ⟨false, fun _ => 1⟩ 3).Asymmetric ∧
    ∀ (i : Nat) (v : DspVec ℚ), [(⟨⟨.vec, [1, 2]⟩, some 1, .time, .complex, 2⟩ : DspVec ℚ), histVec][i]? = some v → v.isComplex = true →
      ((UnOp.interpolatei idleKernel .sseF32x4 0 ⟨1, 0, 0, 0, 0⟩ (.single []) ⟨false, fun _ => 1⟩ 3).inEnv (exampleEnv2 i).toRowEnv).Safe v := by
  refine ⟨⟨rfl, by decide⟩, fun i v hv hc => ?_⟩
  match i, hv with
  | 0, hv =>
    cases hv
    exact ⟨⟨fun _ => rfl, fun _ => rfl⟩, by decide, by decide, (fun h => by cases h),
      (fun f hf => by cases hf; exact ⟨(fun h => by cases h), fun _ => by decide⟩), trivial, trivial, .inl (by decide)⟩
  | 1, hv => cases hv; cases hc
  | i + 2, hv => cases hv

/-- The hypotheses of `C77_plain_sifft_partial`: a row with the first half of the spectrum `1, 2 + 3j, 2 - 3j`. -/
example : ∀ v ∈ [(⟨⟨.vec, [1, 0, 2, 3]⟩, some 1, .freq, .complex, 4⟩ : DspVec ℚ)], v.numberSpace = .complex ∧ v.domain = .freq ∧
    ∃ X, ConjSymmetric X ∧ X.length % 2 = 1 ∧ v.cpoints = some (X.take (X.length / 2 + 1)) ∧
      (∀ c0, X[0]? = some c0 → decide (c0.im = 0) = true) ∧ BufferOk (.single []) v.data (2 * X.length) ∧
      ScratchOk idleKernel (.single []) X.length := by
  intro v hv
  rw [List.mem_singleton] at hv
  subst hv
  refine ⟨rfl, rfl, [⟨1, 0⟩, ⟨2, 3⟩, ⟨2, -3⟩], ?_, rfl, rfl, ?_, trivial, trivial⟩
  · intro i h0 hi
    match i with
    | 0 => omega
    | 1 => simp [Cx.conj]
    | 2 => simp [Cx.conj]
    | i + 3 => simp at hi
  · intro c h
    cases h
    rfl

/-- Those of `C77_windowed_sfft_violated` and `C77_sifft_violated` are met by matrices of the vectors in Props/WindowedFft.lean. -/
example : (∀ (i : Nat) (v : DspVec ℝ), [(⟨⟨.vec, [1, 2, 3, 4]⟩, none, .time, .real, 3⟩ : DspVec ℝ)][i]? = some v → v.WF ∧ v.numberSpace = .real ∧
      v.domain = .time ∧ v.len % 2 = 1 ∧ BufferOk (.single []) v.data (4 * v.len) ∧ ScratchOk dftKernel (.single []) (2 * v.len) ∧
      ((triangular : WindowFunction ℝ).isSymmetric = false ∨ (triangular : WindowFunction ℝ).isSymmetric = true ∧
        SymmetricAt (triangular : WindowFunction ℝ) (2 * v.len) ∧ (exampleEnv i).st.coreLimit = 1)) ∧
    [(⟨⟨.vec, [1, 0, 2, 5, 3, 1]⟩, none, .freq, .complex, 6⟩ : DspVec ℚ)][0]?.bind DspVec.cpoints = some [⟨1, 0⟩, ⟨2, 5⟩, ⟨3, 1⟩] := by
  refine ⟨fun i v hv => ?_, rfl⟩
  match i, hv with
  | 0, hv =>
    cases hv
    exact ⟨by decide, rfl, rfl, rfl, trivial, trivial, .inr ⟨rfl, (C16_shipped_windows_symmetric 6 (by omega) 1).1, rfl⟩⟩
  | i + 1, hv => cases hv

end Dsp
