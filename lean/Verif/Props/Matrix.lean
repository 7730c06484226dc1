import Verif.Spec.Matrix
import Verif.Props.Refinement
import Verif.Props.ConvVec
/-
C60: operations on matrices.
-/
namespace Dsp
variable {T : Type}
open DspVec

/-! ### Buffers -/

/-- The buffer `b'` serves whatever `b` serves. -/
def AsGood (b b' : Buffer T) : Prop :=
  (∀ s k, BufferOk b s k → BufferOk b' s k) ∧ (∀ K n, ScratchOk K b n → ScratchOk K b' n) ∧
    ∀ K n m, FreqBufferOk K b n m → FreqBufferOk K b' n m

theorem AsGood.refl (b : Buffer T) : AsGood b b := ⟨fun _ _ h => h, fun _ _ h => h, fun _ _ _ h => h⟩

theorem AsGood.trans {a b c : Buffer T} (h : AsGood a b) (h' : AsGood b c) : AsGood a c :=
  ⟨fun s k e => h'.1 s k (h.1 s k e), fun K n e => h'.2.1 K n (h.2.1 K n e), fun K n m e => h'.2.2 K n m (h.2.2 K n m e)⟩

theorem AsGood.trade [Zero T] (b : Buffer T) (res : List T) (s : Storage T) : AsGood b (b.trade res s).1 := by
  cases b with
  | single temp => exact ⟨fun _ _ _ => trivial, fun _ _ _ => trivial, fun _ _ _ _ _ h => by cases h⟩
  | noBuffer => exact ⟨fun _ _ _ => trivial, fun _ _ _ => trivial, fun _ _ _ _ _ h => by cases h⟩
  | fixedLen mem =>
    refine ⟨fun s k h => ?_, fun K n h => ?_, fun K n m h mem' e => ?_⟩
    · simp only [BufferOk, Buffer.trade, splice] at h ⊢
      simp; omega
    · simp only [ScratchOk, Buffer.trade, splice] at h ⊢
      simp; omega
    · have := h mem rfl
      simp only [Buffer.trade, Buffer.fixedLen.injEq] at e
      subst e
      simp [splice]; omega

theorem zeroInterleaveB_good [Zero T] {b b' : Buffer T} {f : Nat} {v v' : DspVec T}
    (e : v.zeroInterleaveB b f = some (v', b')) : AsGood b b' := by
  unfold zeroInterleaveB at e
  dsimp only at e
  split at e
  · cases e; exact .refl _
  · simp only [Option.bind_eq_bind, Option.bind_eq_some_iff, Option.some.injEq, Prod.mk.injEq] at e
    obtain ⟨_, _, _, _, _, _, _, _, _, _, rfl, rfl⟩ := e
    exact .trade _ _ _

theorem toComplexVecB_good [Zero T] {b b' : Buffer T} {v v' : DspVec T}
    (e : v.toComplexVecB b = some (v', b')) : AsGood b b' := by
  unfold toComplexVecB at e
  split at e
  · cases e; exact .refl _
  · simp only [Option.bind_eq_bind, Option.bind_eq_some_iff, Option.some.injEq, Prod.mk.injEq, Prod.exists] at e
    obtain ⟨_, _, h, _, rfl⟩ := e
    exact zeroInterleaveB_good h

theorem toRealBWith_good [Zero T] {b b' : Buffer T} {v v' : DspVec T} {op : Cx T → T} {st : MultiCoreSettings}
    {sched : List Nat} (e : v.toRealBWith op st b sched = .finished (v', b')) : AsGood b b' := by
  unfold toRealBWith at e
  split at e
  · cases e; exact .refl _
  · split at e
    · split at e
      · cases e
      · split at e
        · cases e
        · cases e
        · cases e; exact .trade _ _ _
    · cases e

theorem magnitudeBWith_good [Zero T] {b b' : Buffer T} {v v' : DspVec T} {k : RegKind} {addr : Nat}
    {simdOp : List T → List T} {op : Cx T → T} (e : v.magnitudeBWith k addr simdOp op b = some (v', b')) :
    AsGood b b' := by
  unfold magnitudeBWith at e
  split at e
  · cases e; exact .refl _
  · simp only [Option.bind_eq_bind, Option.bind_eq_some_iff, Option.some.injEq, Prod.mk.injEq] at e
    obtain ⟨_, _, _, _, _, _, _, rfl⟩ := e
    exact .trade _ _ _

theorem mirror_good [Zero T] [Neg T] {b b' : Buffer T} {v v' : DspVec T} (e : v.mirror b = some (v', b')) :
    AsGood b b' := by
  unfold mirror at e
  split at e
  · cases e; exact .refl _
  · split at e
    · cases e
    · simp only [Option.bind_eq_bind, Option.bind_eq_some_iff, Option.some.injEq, Prod.mk.injEq] at e
      obtain ⟨_, _, _, _, _, _, _, _, _, _, _, _, _, _, _, rfl⟩ := e
      exact .trade _ _ _

theorem ensureComplex_good [Zero T] {b b' : Buffer T} {v v' : DspVec T} (e : v.ensureComplex b = some (v', b')) :
    AsGood b b' := by
  unfold ensureComplex at e
  split at e
  · cases e; exact .refl _
  · simp only [Option.bind_eq_bind, Option.bind_eq_some_iff, Option.some.injEq, Prod.mk.injEq, Prod.exists] at e
    obtain ⟨_, _, h, _, rfl⟩ := e
    exact zeroInterleaveB_good h

theorem plainFft_good [Zero T] [Mul T] [NatCast T] {K : FftKernel T} {b b' : Buffer T} {v v' : DspVec T}
    (e : v.plainFft K b = some (v', b')) : AsGood b b' := by
  unfold plainFft at e
  split at e
  · cases e; exact .refl _
  · simp only [Option.bind_eq_bind, Option.bind_eq_some_iff, Option.some.injEq, Prod.mk.injEq, Prod.exists] at e
    obtain ⟨_, _, h, _, _, _, rfl⟩ := e
    exact ensureComplex_good h

theorem plainIfft_good [Zero T] [Mul T] [NatCast T] {K : FftKernel T} {b b' : Buffer T} {v v' : DspVec T}
    (e : v.plainIfft K b = some (v', b')) : AsGood b b' := by
  unfold plainIfft at e
  split at e
  · cases e; exact .refl _
  · simp only [Option.bind_eq_bind, Option.bind_eq_some_iff, Option.some.injEq, Prod.mk.injEq, Prod.exists] at e
    obtain ⟨_, _, h, _, _, _, rfl⟩ := e
    exact ensureComplex_good h

theorem fft_good [Zero T] [Mul T] [NatCast T] {K : FftKernel T} {b b' : Buffer T} {v v' : DspVec T}
    (e : v.fft K b = some (v', b')) : AsGood b b' := by
  unfold fft at e
  simp only [Option.bind_eq_bind, Option.bind_eq_some_iff, Option.some.injEq, Prod.mk.injEq, Prod.exists] at e
  obtain ⟨_, _, h, _, _, _, rfl⟩ := e
  exact plainFft_good h

theorem andThen_finished {α β : Type} {o : Outcome α} {f : α → Outcome β} {r : β}
    (h : o.andThen f = .finished r) : ∃ a, o = .finished a ∧ f a = .finished r := by
  cases o with
  | panic => cases h
  | running => cases h
  | finished a => exact ⟨a, rfl, h⟩

theorem ofOption_finished {α : Type} {o : Option α} {r : α} (h : Outcome.ofOption o = .finished r) : o = some r := by
  cases o with
  | none => cases h
  | some a => cases h; rfl

theorem ifft_good [Field T] {K : FftKernel T} {k : RegKind} {addr : Nat} {st : MultiCoreSettings} {sched : List Nat}
    {b b' : Buffer T} {v v' : DspVec T} (e : v.ifft K k addr st b sched = .finished (v', b')) : AsGood b b' := by
  unfold ifft at e
  obtain ⟨w, _, e⟩ := andThen_finished e
  have e := ofOption_finished e
  simp only [Option.bind_eq_bind, Option.bind_eq_some_iff] at e
  obtain ⟨u, _, e⟩ := e
  exact plainIfft_good e

theorem FftSafe.good [Field T] {K : FftKernel T} {b b' : Buffer T} {v : DspVec T} (h : FftSafe K b v)
    (g : AsGood b b') : FftSafe K b' v :=
  ⟨h.1, fun e => ⟨(h.2.1 e).1, g.1 _ _ (h.2.1 e).2⟩, g.2.1 _ _ h.2.2⟩

/-! ### One row -/

/-- An operation and the same operation with the buffer which the first left. -/
def Serves [Field T] (op op' : VecOp T) : Prop :=
  op'.call = op.call ∧ ∀ (u : DspVec T) (e : RowEnv), u.Safe (op.inEnv e) → u.Safe (op'.inEnv e)

theorem Serves.refl [Field T] (op : VecOp T) : Serves op op := ⟨rfl, fun _ _ h => h⟩

theorem Serves.trans [Field T] {a b c : VecOp T} (h : Serves a b) (h' : Serves b c) : Serves a c :=
  ⟨h'.1.trans h.1, fun u e x => h'.2 u e (h.2 u e x)⟩

theorem execNext_spec [Field T] (v : DspVec T) (op : VecOp T) :
    (v.exec op = .panic ∧ v.execNext op = .panic) ∨ (v.exec op = .running ∧ v.execNext op = .running) ∨
      ∃ w op', v.exec op = .finished w ∧ v.execNext op = .finished (w, op') ∧ Serves op op' := by
  cases op <;>
    first
    | (simp only [DspVec.execNext]
       generalize ho : v.exec _ = o
       cases o with
       | panic => exact .inl ⟨rfl, rfl⟩
       | running => exact .inr (.inl ⟨rfl, rfl⟩)
       | finished w => exact .inr (.inr ⟨w, _, rfl, rfl, .refl _⟩))
    | skip
  case toComplexB b =>
    simp only [DspVec.execNext, DspVec.exec, DspVec.apply]
    generalize ho : v.toComplexVecB b = o
    cases o with
    | none => exact .inl ⟨rfl, rfl⟩
    | some r =>
      have g := toComplexVecB_good ho
      exact .inr (.inr ⟨r.1, _, rfl, rfl, rfl, fun u e h => ⟨h.1, h.2.1, g.1 _ _ h.2.2⟩⟩)
  case complexToRealB f b st sched =>
    simp only [DspVec.execNext, DspVec.exec]
    generalize ho : v.toRealBWith f st b sched = o
    cases o with
    | panic => exact .inl ⟨rfl, rfl⟩
    | running => exact .inr (.inl ⟨rfl, rfl⟩)
    | finished r =>
      have g := toRealBWith_good ho
      exact .inr (.inr ⟨r.1, _, rfl, rfl, rfl, fun u e h => ⟨h.1, g.1 _ _ h.2⟩⟩)
  case magnitudeB k addr simdOp f b =>
    simp only [DspVec.execNext, DspVec.exec, DspVec.apply]
    generalize ho : v.magnitudeBWith k addr simdOp f b = o
    cases o with
    | none => exact .inl ⟨rfl, rfl⟩
    | some r =>
      have g := magnitudeBWith_good ho
      exact .inr (.inr ⟨r.1, _, rfl, rfl, rfl, fun u e h => ⟨h.1, g.1 _ _ h.2.1, h.2.2⟩⟩)
  case plainFft K b =>
    simp only [DspVec.execNext, DspVec.exec, DspVec.apply]
    generalize ho : v.plainFft K b = o
    cases o with
    | none => exact .inl ⟨rfl, rfl⟩
    | some r =>
      have g := plainFft_good ho
      exact .inr (.inr ⟨r.1, _, rfl, rfl, rfl, fun u e h => ⟨h.1, h.2.good g⟩⟩)
  case fft K b =>
    simp only [DspVec.execNext, DspVec.exec, DspVec.apply]
    generalize ho : v.fft K b = o
    cases o with
    | none => exact .inl ⟨rfl, rfl⟩
    | some r =>
      have g := fft_good ho
      exact .inr (.inr ⟨r.1, _, rfl, rfl, rfl, fun u e h => ⟨h.1, h.2.good g⟩⟩)
  case plainIfft K b =>
    simp only [DspVec.execNext, DspVec.exec, DspVec.apply]
    generalize ho : v.plainIfft K b = o
    cases o with
    | none => exact .inl ⟨rfl, rfl⟩
    | some r =>
      have g := plainIfft_good ho
      exact .inr (.inr ⟨r.1, _, rfl, rfl, rfl, fun u e h => ⟨h.1, h.2.1, h.2.2.good g⟩⟩)
  case ifft K k addr st b sched =>
    simp only [DspVec.execNext, DspVec.exec]
    generalize ho : v.ifft K k addr st b sched = o
    cases o with
    | panic => exact .inl ⟨rfl, rfl⟩
    | running => exact .inr (.inl ⟨rfl, rfl⟩)
    | finished r =>
      have g := ifft_good ho
      exact .inr (.inr ⟨r.1, _, rfl, rfl, rfl, fun u e h =>
        ⟨h.1, h.2.1, h.2.2.1, h.2.2.2.1, h.2.2.2.2.1.good g, h.2.2.2.2.2⟩⟩)
  case mirror b =>
    simp only [DspVec.execNext, DspVec.exec, DspVec.apply]
    generalize ho : v.mirror b = o
    cases o with
    | none => exact .inl ⟨rfl, rfl⟩
    | some r =>
      have g := mirror_good ho
      exact .inr (.inr ⟨r.1, _, rfl, rfl, rfl, fun u e h => ⟨h.1, h.2.1, g.1 _ _ h.2.2⟩⟩)

theorem inEnv_inEnv (op : VecOp T) (e e' : RowEnv) : (op.inEnv e).inEnv e' = op.inEnv e' := by
  cases op <;> rfl

theorem inEnv_call [Field T] (op : VecOp T) (e : RowEnv) : (op.inEnv e).call = op.call := by
  cases op <;> rfl

theorem inEnv_sched (op : VecOp T) (e : RowEnv) (s : List Nat) :
    op.inEnv { e with sched := s } = (op.inEnv e).withSchedule s := by
  cases op <;> rfl

theorem Safe.sched [Field T] {v : DspVec T} {op : VecOp T} {e : RowEnv} (s : List Nat) (h : v.Safe (op.inEnv e)) :
    v.Safe (op.inEnv { e with sched := s }) := by
  cases op <;> exact h

theorem Serves.inEnv [Field T] (op : VecOp T) (e : RowEnv) : Serves op (op.inEnv e) :=
  ⟨inEnv_call op e, fun u e' h => by rw [inEnv_inEnv]; exact h⟩

/-! ### The loops -/

theorem popRows_eq {σ α β : Type} (f : σ → α → Outcome (β × σ)) (rows : List α) : ∀ (s : σ) (out : List β),
    popRows f rows.length s rows out =
      (forRows f s rows.reverse).andThen fun r => .finished (out ++ r.1, r.2) := by
  induction rows using List.reverseRecOn with
  | nil => intro s out; simp [popRows, forRows, Outcome.andThen]
  | append_singleton l v ih =>
    intro s out
    rw [List.length_append, List.length_singleton]
    simp only [popRows, List.getLast?_append, List.getLast?_singleton, Option.some_or, List.dropLast_concat,
      List.reverse_append, List.reverse_singleton, List.singleton_append, forRows, ih]
    cases f s v with
    | panic => rfl
    | running => rfl
    | finished r =>
      simp only [Outcome.andThen]
      cases forRows f r.2 l.reverse <;> simp

/-- `transform` of a `Vec` visits the rows from the last to the first, `transform` of an array from the first to
    the last; the results are in the order of the rows. -/
theorem transformRows_eq {σ α β : Type} (k : MatKind) (f : σ → α → Outcome (β × σ)) (s : σ) (rows : List α) :
    transformRows k f s rows =
      match k with
      | .mxn => (forRows f s rows.reverse).andThen fun r => .finished (r.1.reverse, r.2)
      | .fixed _ => forRows f s rows := by
  cases k with
  | fixed n => rfl
  | mxn =>
    simp only [transformRows, popRows_eq]
    cases forRows f s rows.reverse <;> simp [Outcome.andThen]

section
variable [Field T]

theorem forRows_shows (env : Nat → RowEnv) (op0 : VecOp T) (rows : List (DspVec T × Nat)) :
    ∀ (ss : List (Signal T)) (op : VecOp T), List.Forall₂ (fun r s => DspVec.Shows r.1 s) rows ss →
      (∀ r ∈ rows, r.1.Safe (op0.inEnv (env r.2))) → Serves op0 op →
      forRows (execRow env) op rows = .running ∨
        ∃ ws op', forRows (execRow env) op rows = .finished (ws, op') ∧
          List.Forall₂ DspVec.Shows ws (ss.map op0.call.meaning) := by
  induction rows with
  | nil =>
    intro ss op h _ _
    cases h
    exact .inr ⟨[], op, rfl, .nil⟩
  | cons r rest ih =>
    intro ss op h hs hop
    cases h with
    | cons h1 h2 =>
    rename_i s ss
    have sf : r.1.Safe (op.inEnv (env r.2)) := hop.2 _ _ (hs r (by simp))
    obtain ⟨w, ⟨hw, _⟩, hsh⟩ := C53_step r.1 s _ h1 sf
    have hw := hw (env r.2).sched
    beta_reduce at hw
    rw [← inEnv_sched] at hw
    change r.1.exec (op.inEnv (env r.2)) = _ ∨ r.1.exec (op.inEnv (env r.2)) = _ at hw
    simp only [forRows, execRow]
    rcases execNext_spec r.1 (op.inEnv (env r.2)) with ⟨e, e'⟩ | ⟨e, e'⟩ | ⟨w', op', e, e', sv⟩
    · rw [e] at hw; rcases hw with hw | hw <;> cases hw
    · rw [e']; exact .inl rfl
    · rw [e] at hw
      rcases hw with hw | hw
      · cases hw
      · cases hw
        rw [e']
        rcases ih ss op' h2 (fun q hq => hs q (List.mem_cons_of_mem _ hq))
          ((hop.trans (Serves.inEnv _ _)).trans sv) with h3 | ⟨ws, op'', h3, h4⟩
        · exact .inl (by simp [Outcome.andThen, h3])
        · refine .inr ⟨w :: ws, op'', by simp [Outcome.andThen, h3], ?_⟩
          rw [List.map_cons]
          refine .cons ?_ h4
          rw [inEnv_call, hop.1] at hsh
          exact hsh

theorem forRows_congr (env env' : Nat → RowEnv) (rows : List (DspVec T × Nat)) :
    ∀ (op : VecOp T), (∀ r ∈ rows, env r.2 = env' r.2) →
      forRows (execRow env) op rows = forRows (execRow env') op rows := by
  induction rows with
  | nil => intro op _; rfl
  | cons r rest ih =>
    intro op h
    simp only [forRows, execRow, h r (by simp)]
    congr 1
    funext q
    rw [ih q.2 (fun x hx => h x (List.mem_cons_of_mem _ hx))]

theorem forRows_terminates (env : Nat → RowEnv) (op0 : VecOp T) (rows : List (DspVec T × Nat))
    (hn : (rows.map Prod.snd).Nodup) :
    ∀ (ss : List (Signal T)) (op : VecOp T), List.Forall₂ (fun r s => DspVec.Shows r.1 s) rows ss →
      (∀ r ∈ rows, r.1.Safe (op0.inEnv (env r.2))) → Serves op0 op →
      ∃ scheds res, forRows (execRow (withSchedules env scheds)) op rows = .finished res := by
  induction rows with
  | nil => intro ss op _ _ _; exact ⟨fun _ => [], ([], op), rfl⟩
  | cons r rest ih =>
    intro ss op h hs hop
    cases h with
    | cons h1 h2 =>
    rename_i s ss
    rw [List.map_cons, List.nodup_cons] at hn
    have sf : r.1.Safe (op.inEnv (env r.2)) := hop.2 _ _ (hs r (by simp))
    obtain ⟨w, ⟨_, s0, hw⟩, _⟩ := C53_step r.1 s _ h1 sf
    beta_reduce at hw
    rw [← inEnv_sched] at hw
    rcases execNext_spec r.1 (op.inEnv { env r.2 with sched := s0 }) with ⟨e, e'⟩ | ⟨e, e'⟩ | ⟨w', op', e, e', sv⟩
    · rw [e] at hw; cases hw
    · rw [e] at hw; cases hw
    · obtain ⟨scheds, res, h3⟩ := ih hn.2 ss op' h2 (fun q hq => hs q (List.mem_cons_of_mem _ hq))
        ((hop.trans (Serves.inEnv _ _)).trans sv)
      refine ⟨fun i => if i = r.2 then s0 else scheds i, (w' :: res.1, res.2), ?_⟩
      simp only [forRows, execRow, withSchedules, if_true, e', Outcome.andThen]
      rw [forRows_congr _ (withSchedules env scheds) rest op', h3]
      intro q hq
      have : q.2 ≠ r.2 := by
        intro e; apply hn.1; rw [← e]; exact List.mem_map_of_mem hq
      simp [withSchedules, this]

omit [Field T] in
theorem zipIdx_shows {rows : List (DspVec T)} {ss : List (Signal T)} (h : List.Forall₂ DspVec.Shows rows ss) :
    ∀ k, List.Forall₂ (fun r s => DspVec.Shows r.1 s) (rows.zipIdx k) ss := by
  induction h with
  | nil => intro k; exact .nil
  | cons h1 _ ih => intro k; rw [List.zipIdx_cons]; exact .cons h1 (ih (k + 1))

theorem forall2_reverse {α β : Type} {R : α → β → Prop} {l : List α} {m : List β} (h : List.Forall₂ R l m) :
    List.Forall₂ R l.reverse m.reverse := List.forall₂_reverse_iff.2 h

omit [Field T] in
theorem call_of_method {op : VecOp T} {lp : RowLoop} {rowOp : VecOp T} (h : MatrixCall op = true)
    (e : op.matrixMethod = some (lp, rowOp)) : rowOp = op := by
  cases op <;> simp_all [MatrixCall, VecOp.matrixMethod]

/-- C60: a matrix whose rows show the signals `ss`, in a safe environment: the operation does not panic, and when
    all workers have terminated row `i` shows the signal which the operation makes of signal `i`. -/
theorem C60_step (m : Mat T) (ss : List (Signal T)) (op : VecOp T) (env : Nat → RowEnv) (h : m.Shows ss)
    (hc : MatrixCall op = true) (hs : m.Safe op env) :
    m.exec op env = .running ∨
      ∃ m', m.exec op env = .finished m' ∧ m'.kind = m.kind ∧ m'.Shows (ss.map op.call.meaning) := by
  have hm : ∃ lp, op.matrixMethod = some (lp, op) := by
    have : op.matrixMethod.isSome = true := by cases op <;> simp_all [MatrixCall]
    obtain ⟨⟨lp, rowOp⟩, e⟩ := Option.isSome_iff_exists.1 this
    exact ⟨lp, by rw [e, call_of_method hc e]⟩
  obtain ⟨lp, hm⟩ := hm
  have hsz : ∀ r ∈ m.rows.zipIdx, r.1.Safe (op.inEnv (env r.2)) := by
    intro r hr
    exact hs r.2 r.1 (List.mem_zipIdx_iff_getElem?.1 hr)
  have hz := zipIdx_shows h 0
  simp only [Mat.exec, hm]
  cases lp with
  | inPlace =>
    rcases forRows_shows env op m.rows.zipIdx ss op hz hsz (.refl _) with e | ⟨ws, op', e, h'⟩
    · exact .inl (by simp [e, Outcome.andThen])
    · exact .inr ⟨⟨m.kind, ws⟩, by simp [e, Outcome.andThen], rfl, h'⟩
  | transform =>
    simp only [transformRows_eq]
    cases hk : m.kind with
    | fixed n =>
      rcases forRows_shows env op m.rows.zipIdx ss op hz hsz (.refl _) with e | ⟨ws, op', e, h'⟩
      · exact .inl (by simp [e, Outcome.andThen])
      · exact .inr ⟨⟨.fixed n, ws⟩, by simp [e, Outcome.andThen], rfl, h'⟩
    | mxn =>
      rcases forRows_shows env op m.rows.zipIdx.reverse ss.reverse op (forall2_reverse hz)
        (fun r hr => hsz r (List.mem_reverse.1 hr)) (.refl _) with e | ⟨ws, op', e, h'⟩
      · exact .inl (by simp [e, Outcome.andThen])
      · refine .inr ⟨⟨.mxn, ws.reverse⟩, by simp [e, Outcome.andThen], rfl, ?_⟩
        have := forall2_reverse h'
        rw [List.map_reverse, List.reverse_reverse] at this
        exact this

/-- C60: with suitable schedules a matrix operation terminates. -/
theorem C60_terminates (m : Mat T) (ss : List (Signal T)) (op : VecOp T) (env : Nat → RowEnv) (h : m.Shows ss)
    (hc : MatrixCall op = true) (hs : m.Safe op env) :
    ∃ scheds m', m.exec op (withSchedules env scheds) = .finished m' ∧ m'.Shows (ss.map op.call.meaning) := by
  have key : ∃ scheds m', m.exec op (withSchedules env scheds) = .finished m' := by
    have hm : ∃ lp, op.matrixMethod = some (lp, op) := by
      have : op.matrixMethod.isSome = true := by cases op <;> simp_all [MatrixCall]
      obtain ⟨⟨lp, rowOp⟩, e⟩ := Option.isSome_iff_exists.1 this
      exact ⟨lp, by rw [e, call_of_method hc e]⟩
    obtain ⟨lp, hm⟩ := hm
    have hsz : ∀ r ∈ m.rows.zipIdx, r.1.Safe (op.inEnv (env r.2)) := by
      intro r hr
      exact hs r.2 r.1 (List.mem_zipIdx_iff_getElem?.1 hr)
    have hz := zipIdx_shows h 0
    have hn : (m.rows.zipIdx.map Prod.snd).Nodup := by
      rw [List.zipIdx_map_snd]; exact List.nodup_range'
    have fwd := forRows_terminates env op m.rows.zipIdx hn ss op hz hsz (.refl _)
    simp only [Mat.exec, hm]
    cases lp with
    | inPlace =>
      obtain ⟨scheds, res, e⟩ := fwd
      exact ⟨scheds, _, by simp only [e, Outcome.andThen]; rfl⟩
    | transform =>
      simp only [transformRows_eq]
      cases hk : m.kind with
      | fixed n =>
        obtain ⟨scheds, res, e⟩ := fwd
        exact ⟨scheds, _, by simp only [e, Outcome.andThen]; rfl⟩
      | mxn =>
        obtain ⟨scheds, res, e⟩ := forRows_terminates env op m.rows.zipIdx.reverse
          (by rw [List.map_reverse]; exact List.nodup_reverse.2 hn) ss.reverse op (forall2_reverse hz)
          (fun r hr => hsz r (List.mem_reverse.1 hr)) (.refl _)
        exact ⟨scheds, _, by simp only [e, Outcome.andThen]; rfl⟩
  obtain ⟨scheds, m', e⟩ := key
  refine ⟨scheds, m', e, ?_⟩
  have hs' : m.Safe op (withSchedules env scheds) := fun i v hv => Safe.sched (scheds i) (hs i v hv)
  rcases C60_step m ss op _ h hc hs' with e' | ⟨m'', e', _, h'⟩
  · rw [e] at e'; cases e'
  · rw [e] at e'; cases e'; exact h'

/-- C60: a history of calls of methods of a matrix. -/
theorem C60_history (m : Mat T) (ss : List (Signal T)) (calls : List (VecOp T × (Nat → RowEnv))) (h : m.Shows ss)
    (hs : m.SafeAll calls) :
    m.execAll calls = .running ∨
      ∃ m', m.execAll calls = .finished m' ∧ m'.kind = m.kind ∧
        m'.Shows (ss.map fun s => s.after (calls.map fun c => c.1.call)) := by
  induction calls generalizing m ss with
  | nil =>
    refine .inr ⟨m, rfl, rfl, ?_⟩
    simp only [List.map_nil, Signal.after, List.foldl_nil, List.map_id']
    exact h
  | cons c cs ih =>
    obtain ⟨h1, h2, h3⟩ := hs
    simp only [Mat.execAll]
    rcases C60_step m ss c.1 c.2 h h1 h2 with e | ⟨m1, e, hk, h'⟩
    · exact .inl (by simp [e, Outcome.andThen])
    · rcases ih m1 _ h' (h3 m1 e) with e2 | ⟨m2, e2, hk2, h2'⟩
      · exact .inl (by simp [e, e2, Outcome.andThen])
      · refine .inr ⟨m2, by simp [e, e2, Outcome.andThen], hk2.trans hk, ?_⟩
        simpa [Signal.after, List.map_map, Function.comp_def] using h2'

/-- C60 does not hold for `diff_with_start` and `cum_sum`: on a matrix both do what `diff` does. -/
theorem C60_diff_with_start_violated (m : Mat T) (env : Nat → RowEnv) :
    m.exec .diffWithStart env = m.exec .diff env ∧ m.exec .cumSum env = m.exec .diff env := ⟨rfl, rfl⟩
end

/-! ### Examples -/

/-- A matrix with two rows of different lengths. -/
def exampleMat : Mat ℚ := ⟨.mxn, [histVec, ⟨⟨.vec, [5, 7]⟩, some 1, .time, .real, 2⟩]⟩
/-- Its signals. -/
def exampleSignals : List (Signal ℚ) := [histSignal, ⟨.real [5, 7], .time, false, some 1⟩]
/-- One worker, rows at different addresses. -/
def exampleEnv : Nat → RowEnv := fun i => ⟨2 * i, ⟨1, 0, 0, 0, 0⟩, []⟩

theorem exampleMat_shows : exampleMat.Shows exampleSignals :=
  .cons ⟨rfl, rfl, rfl, rfl⟩ (.cons ⟨rfl, rfl, rfl, rfl⟩ .nil)

theorem exampleMat_safe (op : VecOp ℚ) (h0 : histVec.Safe (op.inEnv (exampleEnv 0)))
    (h1 : (⟨⟨.vec, [5, 7]⟩, some 1, .time, .real, 2⟩ : DspVec ℚ).Safe (op.inEnv (exampleEnv 1))) :
    exampleMat.Safe op exampleEnv := by
  intro i v hv
  match i, hv with
  | 0, hv => cases hv; exact h0
  | 1, hv => cases hv; exact h1
  | i + 2, hv => cases hv

example : exampleMat.Safe (.toComplexB (.single [])) exampleEnv :=
  exampleMat_safe _ ⟨rfl, by decide, trivial⟩ ⟨rfl, by decide, trivial⟩

theorem exampleMat_safeAll : exampleMat.SafeAll
    [(.offset .sseF32x4 0 ⟨1, 0, 0, 0, 0⟩ 5 [], exampleEnv), (.reverse, exampleEnv)] := by
  refine ⟨rfl, exampleMat_safe _ ?_ ?_, fun m' _ => ⟨rfl, ?_, fun _ _ => trivial⟩⟩
  · show AlignmentAccepted _ _ _
    left; decide
  · show AlignmentAccepted _ _ _
    left; decide
  · intro i v _
    trivial

example : ∃ m', exampleMat.execAll [(.offset .sseF32x4 0 ⟨1, 0, 0, 0, 0⟩ 5 [], exampleEnv), (.reverse, exampleEnv)] =
    .finished m' := ⟨_, rfl⟩

/-- C60 does not hold for `cum_sum`: the rows `1, 2, 3` and `5, 7` become `1, 1` and `2`. -/
theorem C60_cum_sum_violated : ∃ (m : Mat ℚ) (ss : List (Signal ℚ)) (env : Nat → RowEnv) (m' : Mat ℚ),
    m.Shows ss ∧ m.Safe .cumSum env ∧ m.exec .cumSum env = .finished m' ∧
      m'.rows.map DspVec.content = [some [1, 1], some [2]] ∧ ¬ m'.Shows (ss.map (VecOp.cumSum (T := ℚ)).call.meaning) := by
  refine ⟨exampleMat, exampleSignals, exampleEnv, _, exampleMat_shows, exampleMat_safe _ trivial trivial, rfl, ?_, ?_⟩
  · decide +kernel
  · intro h
    cases h with
    | cons h1 _ =>
      have := h1.content
      revert this
      decide +kernel
end Dsp
