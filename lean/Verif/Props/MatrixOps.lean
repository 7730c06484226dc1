import Verif.Lemmas.MatrixBuffers
import Verif.Props.ProgramUn
import Verif.Props.ProgramBin
/-
C77: the remaining methods of matrices do with every row what the method of vectors does.
-/
namespace Dsp
open DspVec
variable {T : Type}

/-! ### Loops -/

theorem tryRows_shows {σ ι α : Type} (f : σ → DspVec T → ι → Outcome (DspVec T × σ × VoidResult)) (Inv : σ → Prop)
    (g : Signal T → α → Signal T × VoidResult) (rows : List (DspVec T × ι)) :
    ∀ (ss : List (Signal T × α)) (st : σ), Inv st →
      List.Forall₂ (fun r s => r.1.Shows s.1 ∧ ∀ st, Inv st → f st r.1 r.2 = .running ∨
        ∃ w st', f st r.1 r.2 = .finished (w, st', (g s.1 s.2).2) ∧ Inv st' ∧ w.Shows (g s.1 s.2).1) rows ss →
      tryRows f st rows = .running ∨ ∃ ws st', tryRows f st rows = .finished (ws, st', (untilError g ss).2) ∧ Inv st' ∧
        List.Forall₂ DspVec.Shows ws (untilError g ss).1 := by
  induction rows with
  | nil =>
    intro ss st hst h
    cases h
    exact .inr ⟨[], st, rfl, hst, .nil⟩
  | cons r rest ih =>
    intro ss st hst h
    cases h with
    | cons h1 h2 =>
    rename_i s ss
    rcases h1.2 st hst with e | ⟨w, st', e, hst', hw⟩
    · exact .inl (by simp [tryRows, e, Outcome.andThen])
    · simp only [tryRows, e, Outcome.andThen, untilError]
      cases hr : (g s.1 s.2).2 with
      | error x =>
        refine .inr ⟨_, _, rfl, hst', .cons hw ?_⟩
        have : List.Forall₂ (fun r s => DspVec.Shows r.1 s.1) rest ss := h2.imp fun _ _ h => h.1
        clear ih h2
        induction this with
        | nil => exact .nil
        | cons a _ ih => exact .cons a ih
      | ok x =>
        rcases ih ss st' hst' h2 with e2 | ⟨ws, st2, e2, hst2, hws⟩
        · exact .inl (by simp only [e2])
        · exact .inr ⟨w :: ws, st2, by simp only [e2], hst2, .cons hw hws⟩

theorem tryRows_congr {σ ρ ι : Type} (f f' : σ → ρ → ι → Outcome (ρ × σ × VoidResult)) (rows : List (ρ × ι)) :
    ∀ st : σ, (∀ r ∈ rows, ∀ st, f st r.1 r.2 = f' st r.1 r.2) → tryRows f st rows = tryRows f' st rows := by
  induction rows with
  | nil => intro st _; rfl
  | cons r rest ih =>
    intro st h
    simp only [tryRows, h r (by simp)]
    congr 1
    funext q
    cases q.2.2 with
    | error e => rfl
    | ok x =>
      dsimp only
      rw [ih q.2.1 (fun x hx => h x (List.mem_cons_of_mem _ hx))]

/-- Workers of all rows which terminate. -/
theorem tryRows_terminates {S σ ρ ι : Type} [Inhabited S] (F : (Nat → S) → σ → ρ → ι → Outcome (ρ × σ × VoidResult)) (idx : ι → Nat)
    (Inv : σ → Prop) (hloc : ∀ sc sc' st v i, sc (idx i) = sc' (idx i) → F sc st v i = F sc' st v i) (rows : List (ρ × ι)) :
    ∀ st, Inv st → (rows.map fun r => idx r.2).Nodup →
      (∀ r ∈ rows, ∀ st, Inv st → ∃ x, ∀ sc, sc (idx r.2) = x → ∃ q, F sc st r.1 r.2 = .finished q ∧ Inv q.2.1) →
      ∃ sc q, tryRows (F sc) st rows = .finished q := by
  induction rows with
  | nil => intro st _ _ _; exact ⟨fun _ => default, _, rfl⟩
  | cons r rest ih =>
    intro st hst hn h
    rw [List.map_cons, List.nodup_cons] at hn
    obtain ⟨x, hx⟩ := h r (by simp) st hst
    obtain ⟨q0, e0, hi0⟩ := hx (fun _ => x) rfl
    obtain ⟨sc, q, e⟩ := ih q0.2.1 hi0 hn.2 (fun r hr => h r (List.mem_cons_of_mem _ hr))
    refine ⟨fun i => if i = idx r.2 then x else sc i, ?_⟩
    have e1 : F (fun i => if i = idx r.2 then x else sc i) st r.1 r.2 = .finished q0 := by
      rw [← e0]; exact hloc _ _ _ _ _ (by simp)
    have e2 : tryRows (F fun i => if i = idx r.2 then x else sc i) q0.2.1 rest = .finished q := by
      rw [← e]
      refine tryRows_congr _ _ rest _ fun u hu st => hloc _ _ _ _ _ ?_
      have : idx u.2 ≠ idx r.2 := by
        intro he; apply hn.1; rw [← he]; exact List.mem_map_of_mem (f := fun r : ρ × ι => idx r.2) hu
      simp [this]
    simp only [tryRows, e1, e2, Outcome.andThen]
    cases q0.2.2 with
    | error e => exact ⟨_, rfl⟩
    | ok x => exact ⟨_, rfl⟩

/-- A loop without `?` whose calls can not fail. -/
theorem forRows_ignore {σ ρ ι : Type} (f : σ → ρ → ι → Outcome (ρ × σ × VoidResult)) (Inv : σ → Prop)
    (hok : ∀ st v i q, Inv st → f st v i = .finished q → q.2.2 = .ok () ∧ Inv q.2.1) (rows : List (ρ × ι)) :
    ∀ st, Inv st → forRows (ignoreResult f) st rows = (tryRows f st rows).andThen fun q => .finished (q.1, q.2.1) := by
  induction rows with
  | nil => intro st _; rfl
  | cons r rest ih =>
    intro st hst
    simp only [forRows, tryRows, ignoreResult]
    cases e : f st r.1 r.2 with
    | panic => rfl
    | running => rfl
    | finished q =>
      obtain ⟨h1, h2⟩ := hok _ _ _ _ hst e
      simp only [Outcome.andThen, h1, ih q.2.1 h2]
      cases tryRows f q.2.1 rest <;> rfl

/-! ### One row -/

section
variable [Field T] [LinearOrder T] [FloorRing T]

/-- An operation and the same operation with a buffer which serves as well. -/
def ServesUn (op op' : UnOp T) : Prop :=
  op'.call = op.call ∧ op'.matrixMethod.1 = op.matrixMethod.1 ∧
    ∀ (u : DspVec T) (e : RowEnv), (op.inEnv e).Safe u → (op'.inEnv e).Safe u

theorem ServesUn.refl (op : UnOp T) : ServesUn op op := ⟨rfl, rfl, fun _ _ h => h⟩

theorem ServesUn.trans {a b c : UnOp T} (h : ServesUn a b) (h' : ServesUn b c) : ServesUn a c :=
  ⟨h'.1.trans h.1, h'.2.1.trans h.2.1, fun u e x => h'.2.2 u e (h.2.2 u e x)⟩

theorem ServesUn.inEnv (op : UnOp T) (e : RowEnv) : ServesUn op (op.inEnv e) := by
  cases op <;> exact ⟨rfl, rfl, fun _ _ h => h⟩

/-- Both forms of a call agree. -/
def SameRun (op : UnOp T) (a : Outcome (DspVec T × List (Out T))) (b : Outcome (DspVec T × UnOp T × VoidResult)) : Prop :=
  (a = .panic ∧ b = .panic) ∨ (a = .running ∧ b = .running) ∨
    ∃ w o op' r, a = .finished (w, o) ∧ b = .finished (w, op', r) ∧ resultOf o = r ∧ ServesUn op op'

theorem sameRun_of {α : Type} {op : UnOp T} (o : Outcome α) (w : α → DspVec T) (out : α → List (Out T)) (next : α → UnOp T)
    (res : α → VoidResult) (h : ∀ x, o = .finished x → resultOf (out x) = res x ∧ ServesUn op (next x)) :
    SameRun op (o.andThen fun r => .finished (w r, out r)) (o.andThen fun r => .finished (w r, next r, res r)) := by
  cases o with
  | panic => exact .inl ⟨rfl, rfl⟩
  | running => exact .inr (.inl ⟨rfl, rfl⟩)
  | finished x => exact .inr (.inr ⟨_, _, _, _, rfl, rfl, (h x rfl).1, (h x rfl).2⟩)

omit [Field T] [LinearOrder T] [FloorRing T] in
theorem InterpolationEnv.good {K : FftKernel T} {k : RegKind} {addr : Nat} {v : DspVec T} {b b' : Buffer T} {n N : Nat}
    (h : InterpolationEnv K k addr v b n N) (g : AsGood b b') : InterpolationEnv K k addr v b' n N :=
  ⟨h.storage, h.room.imp (g.1 _ _) id, g.2.1 _ _ h.before, g.2.1 _ _ h.after, h.address⟩

theorem runNext_spec (v : DspVec T) (s1 s2 : List Nat) (op : UnOp T) : SameRun op (op.run v s1 s2) (op.runNext v s1 s2) := by
  cases op with
  | exponential cis a b => exact sameRun_of _ id (fun _ => []) (fun _ => _) (fun _ => .ok ()) fun x _ => ⟨rfl, .refl _⟩
  | interpolateLin b f d =>
    refine sameRun_of _ Prod.fst (fun _ => []) (fun _ => _) (fun _ => .ok ()) fun x hx => ⟨rfl, rfl, rfl, fun u e h => ?_⟩
    have g := interpolateLin_good (ofOption_finished hx)
    obtain ⟨h1, h2, h3, h4, h5, h6⟩ := h
    exact ⟨h1, h2, h3, h4, h5, fun R hR => g.1 _ _ (h6 R hR)⟩
  | interpolateHermite b f d =>
    refine sameRun_of _ Prod.fst (fun _ => []) (fun _ => _) (fun _ => .ok ()) fun x hx => ⟨rfl, rfl, rfl, fun u e h => ?_⟩
    have g := interpolateHermite_good (ofOption_finished hx)
    obtain ⟨h1, h2, h3, h3d, m, h4, h5, h6⟩ := h
    exact ⟨h1, h2, h3, h3d, m, h4, h5, g.1 _ _ h6⟩
  | prepareArgument K k addr st b =>
    refine sameRun_of _ Prod.fst (fun _ => []) (fun _ => _) (fun _ => .ok ()) fun x hx => ⟨rfl, rfl, rfl, fun u e h => ?_⟩
    have g := prepareArgument_good hx
    exact ⟨h.1, h.2.1.good g, h.2.2⟩
  | prepareArgumentPadded K k addr st b =>
    refine sameRun_of _ Prod.fst (fun _ => []) (fun _ => _) (fun _ => .ok ()) fun x hx => ⟨rfl, rfl, rfl, fun u e h => ?_⟩
    have g := prepareArgumentPadded_good hx
    obtain ⟨h1, h2, h3, h4, h5, h6, h7⟩ := h
    exact ⟨h1, h2, h3, h4, g.1 _ _ h5, g.2.1 _ _ h6, h7⟩
  | convolveReal K junk k addr st b fn ratio len =>
    refine sameRun_of _ Prod.fst (fun _ => []) (fun _ => _) (fun _ => .ok ()) fun x hx => ⟨rfl, rfl, rfl, fun u e h => ?_⟩
    have g := convolveReal_good hx
    obtain ⟨h1, h2, h3⟩ := h
    refine ⟨h1, g.1 _ _ h2, ?_⟩
    split at h3
    · rename_i hc
      rw [if_pos hc]
      obtain ⟨h4, h5, h6, h7, h8⟩ := h3
      exact ⟨h4, h5, h6, h7, fun a b c => ⟨(h8 a b c).1, g.2.2 _ _ _ (h8 a b c).2⟩⟩
    · rename_i hc
      rw [if_neg hc]
      exact h3
  | convolveComplex K junk k addr st b fn ratio len =>
    refine sameRun_of _ Prod.fst (fun _ => []) (fun _ => _) (fun _ => .ok ()) fun x hx => ⟨rfl, rfl, rfl, fun u e h => ?_⟩
    have g := convolveComplex_good hx
    exact ⟨h.1, h.2.1, g.1 _ _ h.2.2.1, h.2.2.2⟩
  | wrap d st => exact sameRun_of _ id (fun _ => []) (fun _ => _) (fun _ => .ok ()) fun x _ => ⟨rfl, .refl _⟩
  | unwrap d => exact sameRun_of _ id (fun _ => []) (fun _ => _) (fun _ => .ok ()) fun x _ => ⟨rfl, .refl _⟩
  | realResponse st f ratio => exact sameRun_of _ id (fun _ => []) (fun _ => _) (fun _ => .ok ()) fun x _ => ⟨rfl, .refl _⟩
  | complexResponse st f ratio => exact sameRun_of _ id (fun _ => []) (fun _ => _) (fun _ => .ok ()) fun x _ => ⟨rfl, .refl _⟩
  | interpft K k addr cis pi st b N =>
    refine sameRun_of _ Prod.fst (fun _ => []) (fun _ => _) (fun _ => .ok ()) fun x hx => ⟨rfl, rfl, rfl, fun u e h => ?_⟩
    have g := interpft_good hx
    obtain ⟨h1, h2, h3, h4, h5⟩ := h
    exact ⟨h1, h2, h3, h4, h5.good g⟩
  | interpolate K k addr cis pi st b f N d =>
    refine sameRun_of _ Prod.fst (fun r : DspVec T × Buffer T × VoidResult => [.result r.2.2]) (fun _ => _) (fun r => r.2.2) fun x hx => ⟨rfl, rfl, rfl, fun u e h => ?_⟩
    have g := interpolate_good hx
    obtain ⟨h1, h2, h3, h4, h5, h6, h7, h8⟩ := h
    exact ⟨h1, h2, h3, h4, h5, h6, h7, h8.good g⟩
  | interpolatei K k addr st b F m =>
    refine sameRun_of _ Prod.fst (fun r : DspVec T × Buffer T × VoidResult => [.result r.2.2]) (fun _ => _) (fun r => r.2.2) fun x hx => ⟨rfl, rfl, rfl, fun u e h => ?_⟩
    have g := interpolatei_good hx
    obtain ⟨h1, h2, h3, h4, h5, h6, h7, h8⟩ := h
    exact ⟨h1, h2, h3, h4, h5, g.1 _ _ h6, g.2.1 _ _ h7, h8⟩
  | interpolatef k addr st b fn factor delay L =>
    refine sameRun_of _ Prod.fst (fun _ => []) (fun _ => _) (fun _ => .ok ()) fun x hx => ⟨rfl, rfl, rfl, fun u e h => ?_⟩
    have g := interpolatef_good hx
    obtain ⟨h1, h2, h3, h4, h5, h6, h7⟩ := h
    exact ⟨h1, h2, h3, h4, h5, h6, g.1 _ _ h7⟩
  | windowedFft K st b win =>
    refine sameRun_of _ Prod.fst (fun _ => []) (fun _ => _) (fun _ => .ok ()) fun x hx => ⟨rfl, rfl, rfl, fun u e h => ?_⟩
    have g := windowedFft_good hx
    exact ⟨h.1, h.2.1.good g, h.2.2⟩
  | windowedIfft K k addr st b win =>
    refine sameRun_of _ Prod.fst (fun _ => []) (fun _ => _) (fun _ => .ok ()) fun x hx => ⟨rfl, rfl, rfl, fun u e h => ?_⟩
    have g := windowedIfft_good hx
    obtain ⟨h1, h2, h3, h4, h5, h6, h7⟩ := h
    exact ⟨h1, h2, h3, h4, h5, g.2.1 _ _ h6, h7⟩

omit [Field T] [LinearOrder T] [FloorRing T] in
/-- The operation of a matrix is the operation of the vectors with the same name. -/
theorem matrixMethod_same (op : UnOp T) : op.matrixMethod.2 = op := by cases op <;> rfl

/-- Only the loops with `?` call operations which return results. -/
theorem runNext_ok (op : UnOp T) (h : op.matrixMethod.1 ≠ .tryEach) (v : DspVec T) (s1 s2 : List Nat)
    (q : DspVec T × UnOp T × VoidResult) (e : op.runNext v s1 s2 = .finished q) : q.2.2 = .ok () := by
  cases op with
  | interpolate K k addr cis pi st b f N d => exact absurd rfl h
  | interpolatei K k addr st b F m => exact absurd rfl h
  | _ =>
    obtain ⟨x, -, e⟩ := andThen_finished e
    cases e
    rfl
end

section
variable [Field T] [LinearOrder T] [IsStrictOrderedRing T] [FloorRing T]

omit [IsStrictOrderedRing T] in
theorem resultOf_meaning (op : UnCall T) (s : Signal T) : resultOf (op.meaning s).2 = .ok () := by
  cases op with
  | exponential cis a b => simp only [UnCall.meaning]; split <;> rfl
  | _ => rfl

/-- What happens to one row. -/
theorem onRow_shows (op0 : UnOp T) (env : Nat → RowEnv2) (v : DspVec T) (i : Nat) (s : Signal T) (h : v.Shows s)
    (hs : (op0.inEnv (env i).toRowEnv).Safe v) (op : UnOp T) (hop : ServesUn op0 op) :
    (UnOp.onRow env op v i = .running ∨ ∃ w op', UnOp.onRow env op v i = .finished (w, op', .ok ()) ∧ ServesUn op0 op' ∧
      w.Shows (op0.call.meaning s).1) ∧
    ∃ x : List Nat × List Nat, ∀ sc, sc i = x → ∃ q, UnOp.onRow (withSchedules2 env sc) op v i = .finished q ∧ ServesUn op0 q.2.1 := by
  have sf := hop.2.2 v _ hs
  obtain ⟨w, hA, hw⟩ := unary_step h _ sf
  have hcall : (op.inEnv (env i).toRowEnv).call = op0.call := (ServesUn.inEnv op _).1.trans hop.1
  rw [hcall] at hw hA
  have serves : ∀ op', ServesUn (op.inEnv (env i).toRowEnv) op' → ServesUn op0 op' := fun op' h' =>
    (hop.trans (ServesUn.inEnv op _)).trans h'
  refine ⟨?_, ?_⟩
  · have := hA.1 (env i).sched (env i).sched2
    beta_reduce at this
    rcases runNext_spec v (env i).sched (env i).sched2 (op.inEnv (env i).toRowEnv) with ⟨e, e'⟩ | ⟨e, e'⟩ | ⟨w', o, op', r, e, e', hr, hsv⟩
    · rw [e] at this; rcases this with h' | h' <;> cases h'
    · exact .inl e'
    · rw [e] at this
      rcases this with h' | h'
      · cases h'
      · cases h'
        rw [resultOf_meaning] at hr
        subst hr
        exact .inr ⟨w, op', e', serves _ hsv, hw⟩
  · obtain ⟨s1, s2, hfin⟩ := hA.2
    beta_reduce at hfin
    refine ⟨(s1, s2), fun sc hsc => ?_⟩
    have hin : op.inEnv (withSchedules2 env sc i).toRowEnv = op.inEnv (env i).toRowEnv := by cases op <;> rfl
    unfold UnOp.onRow
    rw [hin]
    simp only [withSchedules2, hsc]
    rcases runNext_spec v s1 s2 (op.inEnv (env i).toRowEnv) with ⟨e, e'⟩ | ⟨e, e'⟩ | ⟨w', o, op', r, e, e', hr, hsv⟩
    · rw [e] at hfin; cases hfin
    · rw [e] at hfin; cases hfin
    · exact ⟨_, e', serves _ hsv⟩

omit [Field T] [LinearOrder T] [IsStrictOrderedRing T] [FloorRing T] in
/-- All results are fine. -/
theorem untilError_ok {α : Type} (g : Signal T → Signal T) (l : List (Signal T × α)) :
    untilError (fun s (_ : α) => (g s, .ok ())) l = (l.map fun s => g s.1, .ok ()) := by
  induction l with
  | nil => rfl
  | cons s rest ih => simp [untilError, ih]

theorem tryRows_unary (env : Nat → RowEnv2) (op : UnOp T) (rows : List (DspVec T × Nat)) (ss : List (Signal T))
    (h : List.Forall₂ (fun r s => DspVec.Shows r.1 s) rows ss) (hs : ∀ r ∈ rows, (op.inEnv (env r.2).toRowEnv).Safe r.1) :
    tryRows (UnOp.onRow env) op rows = .running ∨ ∃ ws op', tryRows (UnOp.onRow env) op rows = .finished (ws, op', .ok ()) ∧
      List.Forall₂ DspVec.Shows ws (ss.map fun s => (op.call.meaning s).1) := by
  have hz : List.Forall₂ (fun r (s : Signal T × Unit) => DspVec.Shows r.1 s.1 ∧ ∀ st, ServesUn op st →
      UnOp.onRow env st r.1 r.2 = .running ∨ ∃ w st', UnOp.onRow env st r.1 r.2 = .finished (w, st', .ok ()) ∧ ServesUn op st' ∧
        w.Shows (op.call.meaning s.1).1) rows (ss.map fun s => (s, ())) := by
    rw [List.forall₂_map_right_iff]
    induction h with
    | nil => exact .nil
    | cons h1 h2 ih =>
      exact .cons ⟨h1, fun st hst => (onRow_shows op env _ _ _ h1 (hs _ (by simp)) st hst).1⟩
        (ih fun r hr => hs r (List.mem_cons_of_mem _ hr))
  rcases tryRows_shows (UnOp.onRow env) (ServesUn op) (fun s (_ : Unit) => ((op.call.meaning s).1, .ok ())) rows _ op (.refl _) hz with
    e | ⟨ws, st', e, _, hw⟩
  · exact .inl e
  · rw [untilError_ok] at e hw
    refine .inr ⟨ws, st', e, ?_⟩
    simpa [List.map_map, Function.comp_def] using hw

omit [IsStrictOrderedRing T] in
theorem onRow_ok (env : Nat → RowEnv2) (st : UnOp T) (v : DspVec T) (i : Nat) (q : DspVec T × UnOp T × VoidResult)
    (hst : st.matrixMethod.1 ≠ .tryEach) (e : UnOp.onRow env st v i = .finished q) :
    q.2.2 = .ok () ∧ q.2.1.matrixMethod.1 ≠ .tryEach := by
  have h1 : (st.inEnv (env i).toRowEnv).matrixMethod.1 ≠ .tryEach := by rw [(ServesUn.inEnv st _).2.1]; exact hst
  refine ⟨runNext_ok _ h1 _ _ _ _ e, ?_⟩
  rcases runNext_spec v (env i).sched (env i).sched2 (st.inEnv (env i).toRowEnv) with ⟨_, e'⟩ | ⟨_, e'⟩ | ⟨w', o, op', r, _, e', hr, hsv⟩
  · rw [UnOp.onRow, e'] at e; cases e
  · rw [UnOp.onRow, e'] at e; cases e
  · rw [UnOp.onRow, e'] at e; cases e
    rw [hsv.2.1]; exact h1

/-- The same for loops without `?`. -/
theorem forRows_unary (env : Nat → RowEnv2) (op : UnOp T) (hop : op.matrixMethod.1 ≠ .tryEach) (rows : List (DspVec T × Nat))
    (ss : List (Signal T)) (h : List.Forall₂ (fun r s => DspVec.Shows r.1 s) rows ss)
    (hs : ∀ r ∈ rows, (op.inEnv (env r.2).toRowEnv).Safe r.1) :
    forRows (ignoreResult (UnOp.onRow env)) op rows = .running ∨
      ∃ ws op', forRows (ignoreResult (UnOp.onRow env)) op rows = .finished (ws, op') ∧
        List.Forall₂ DspVec.Shows ws (ss.map fun s => (op.call.meaning s).1) := by
  rw [forRows_ignore (UnOp.onRow env) (fun o : UnOp T => o.matrixMethod.1 ≠ .tryEach)
    (fun st v i q hst e => onRow_ok env st v i q hst e) rows op hop]
  rcases tryRows_unary env op rows ss h hs with e | ⟨ws, op', e, hw⟩
  · exact .inl (by rw [e]; rfl)
  · exact .inr ⟨ws, op', by rw [e]; rfl, hw⟩

/-- C77, methods without an operand: the method does not panic, and when all workers have terminated it succeeded and row `i` shows what
    the operation makes of signal `i`. -/
theorem C77_unary (m : Mat T) (ss : List (Signal T)) (op : UnOp T) (env : Nat → RowEnv2) (h : m.Shows ss) (hs : m.SafeUn op env) :
    m.execUn op env = .running ∨
      ∃ m', m.execUn op env = .finished (m', .ok ()) ∧ m'.kind = m.kind ∧ m'.Shows (ss.map fun s => (op.call.meaning s).1) := by
  have hz := zipIdx_shows h 0
  have hsz : ∀ r ∈ m.rows.zipIdx, (op.inEnv (env r.2).toRowEnv).Safe r.1 := fun r hr => hs r.2 r.1 (List.mem_zipIdx_iff_getElem?.1 hr)
  obtain ⟨lp, hm⟩ : ∃ lp, op.matrixMethod = (lp, op) := ⟨op.matrixMethod.1, Prod.ext rfl (matrixMethod_same op)⟩
  simp only [Mat.execUn, hm]
  cases lp with
  | tryEach =>
    rcases tryRows_unary env op _ ss hz hsz with e | ⟨ws, op', e, hw⟩
    · exact .inl (by simp only [e, Outcome.andThen])
    · exact .inr ⟨⟨m.kind, ws⟩, by simp only [e, Outcome.andThen], rfl, hw⟩
  | inPlace =>
    rcases forRows_unary env op (by rw [hm]; simp) _ ss hz hsz with e | ⟨ws, op', e, hw⟩
    · exact .inl (by simp only [e, Outcome.andThen])
    · exact .inr ⟨⟨m.kind, ws⟩, by simp only [e, Outcome.andThen], rfl, hw⟩
  | transform =>
    simp only [transformRows_eq]
    cases hk : m.kind with
    | fixed n =>
      rcases forRows_unary env op (by rw [hm]; simp) _ ss hz hsz with e | ⟨ws, op', e, hw⟩
      · exact .inl (by simp only [e, Outcome.andThen])
      · exact .inr ⟨⟨.fixed n, ws⟩, by simp only [e, Outcome.andThen], rfl, hw⟩
    | mxn =>
      rcases forRows_unary env op (by rw [hm]; simp) m.rows.zipIdx.reverse ss.reverse (forall2_reverse hz)
        (fun r hr => hsz r (List.mem_reverse.1 hr)) with e | ⟨ws, op', e, hw⟩
      · exact .inl (by simp only [e, Outcome.andThen])
      · refine .inr ⟨⟨.mxn, ws.reverse⟩, by simp only [e, Outcome.andThen], rfl, ?_⟩
        have := forall2_reverse hw
        rw [List.map_reverse, List.reverse_reverse] at this
        exact this

/-- The loop of a method terminates with some schedules of the workers. -/
theorem tryRows_unary_terminates (env : Nat → RowEnv2) (op : UnOp T) (rows : List (DspVec T × Nat)) (ss : List (Signal T))
    (h : List.Forall₂ (fun r s => DspVec.Shows r.1 s) rows ss) (hn : (rows.map Prod.snd).Nodup)
    (hs : ∀ r ∈ rows, (op.inEnv (env r.2).toRowEnv).Safe r.1) :
    ∃ sc q, tryRows (UnOp.onRow (withSchedules2 env sc)) op rows = .finished q := by
  refine tryRows_terminates (fun sc => UnOp.onRow (withSchedules2 env sc)) id (ServesUn op) ?_ rows op (.refl _) hn ?_
  · intro sc sc' st v i e
    have : withSchedules2 env sc i = withSchedules2 env sc' i := by
      have e : sc i = sc' i := e
      simp [withSchedules2, e]
    simp only [UnOp.onRow, this]
  · intro r hr st hst
    obtain ⟨s, hrs⟩ : ∃ s, r.1.Shows s := by
      clear hn hs
      induction h with
      | nil => cases hr
      | cons h1 _ ih =>
        rcases List.mem_cons.1 hr with rfl | hr
        · exact ⟨_, h1⟩
        · exact ih hr
    exact (onRow_shows op env _ _ s hrs (hs r hr) st hst).2

omit [Field T] [LinearOrder T] [IsStrictOrderedRing T] [FloorRing T] in
theorem inEnv_withSchedules2 (op : UnOp T) (env : Nat → RowEnv2) (sc : Nat → List Nat × List Nat) (i : Nat) :
    op.inEnv (withSchedules2 env sc i).toRowEnv = op.inEnv (env i).toRowEnv := by cases op <;> rfl

/-- C77, methods without an operand: the workers can terminate, and then every row shows what the operation makes of its signal. -/
theorem C77_unary_terminates (m : Mat T) (ss : List (Signal T)) (op : UnOp T) (env : Nat → RowEnv2) (h : m.Shows ss) (hs : m.SafeUn op env) :
    ∃ scheds m', m.execUn op (withSchedules2 env scheds) = .finished (m', .ok ()) ∧ m'.kind = m.kind ∧
      m'.Shows (ss.map fun s => (op.call.meaning s).1) := by
  have hz := zipIdx_shows h 0
  have hsz : ∀ r ∈ m.rows.zipIdx, (op.inEnv (env r.2).toRowEnv).Safe r.1 := fun r hr => hs r.2 r.1 (List.mem_zipIdx_iff_getElem?.1 hr)
  have hn : (m.rows.zipIdx.map Prod.snd).Nodup := by
    rw [List.zipIdx_map_snd]; exact List.nodup_range' (step := 1)
  obtain ⟨lp, hm⟩ : ∃ lp, op.matrixMethod = (lp, op) := ⟨op.matrixMethod.1, Prod.ext rfl (matrixMethod_same op)⟩
  have hf : ∀ sc (rows : List (DspVec T × Nat)), op.matrixMethod.1 ≠ .tryEach → _ := fun sc rows hop =>
    forRows_ignore (UnOp.onRow (withSchedules2 env sc)) (fun o : UnOp T => o.matrixMethod.1 ≠ .tryEach)
      (fun st v i q hst e => onRow_ok _ st v i q hst e) rows op hop
  have key : ∃ scheds q, m.execUn op (withSchedules2 env scheds) = .finished q := by
    simp only [Mat.execUn, hm]
    cases lp with
    | tryEach =>
      obtain ⟨sc, q, e⟩ := tryRows_unary_terminates env op _ ss hz hn hsz
      exact ⟨sc, _, by simp only [e, Outcome.andThen]; rfl⟩
    | inPlace =>
      obtain ⟨sc, q, e⟩ := tryRows_unary_terminates env op _ ss hz hn hsz
      exact ⟨sc, _, by simp only [hf sc _ (by rw [hm]; simp), e, Outcome.andThen]; rfl⟩
    | transform =>
      simp only [transformRows_eq]
      cases m.kind with
      | fixed n =>
        obtain ⟨sc, q, e⟩ := tryRows_unary_terminates env op _ ss hz hn hsz
        exact ⟨sc, _, by simp only [hf sc _ (by rw [hm]; simp), e, Outcome.andThen]; rfl⟩
      | mxn =>
        obtain ⟨sc, q, e⟩ := tryRows_unary_terminates env op m.rows.zipIdx.reverse ss.reverse (forall2_reverse hz)
          (by rw [List.map_reverse]; exact List.nodup_reverse.2 hn) (fun r hr => hsz r (List.mem_reverse.1 hr))
        exact ⟨sc, _, by simp only [hf sc _ (by rw [hm]; simp), e, Outcome.andThen]; rfl⟩
  obtain ⟨sc, q, e⟩ := key
  have hs' : m.SafeUn op (withSchedules2 env sc) := fun i v hv => by rw [inEnv_withSchedules2]; exact hs i v hv
  rcases C77_unary m ss op _ h hs' with e' | ⟨m', e', hk, hsh⟩
  · rw [e] at e'; cases e'
  · exact ⟨sc, m', e', hk, hsh⟩

end
end Dsp
