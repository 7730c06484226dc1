import Verif.Props.MatrixOps
/-
C77, methods of matrices with an operand.
-/
namespace Dsp
open DspVec
variable {T : Type}

section
variable [Field T] [LinearOrder T]

/-- An operation and the same operation with a buffer which serves as well. -/
def ServesBin (op op' : BinOp T) : Prop :=
  op'.call = op.call ∧ ∀ (u o : DspVec T) (e : RowEnv), (op.inEnv e).Safe u o → (op'.inEnv e).Safe u o

theorem ServesBin.refl (op : BinOp T) : ServesBin op op := ⟨rfl, fun _ _ _ h => h⟩

theorem ServesBin.trans {a b c : BinOp T} (h : ServesBin a b) (h' : ServesBin b c) : ServesBin a c :=
  ⟨h'.1.trans h.1, fun u o e x => h'.2 u o e (h.2 u o e x)⟩

theorem ServesBin.inEnv (op : BinOp T) (e : RowEnv) : ServesBin op (op.inEnv e) := by
  cases op <;> exact ⟨rfl, fun _ _ _ h => h⟩

/-- Both forms of a call agree. -/
def SameRunBin (op : BinOp T) (a : Outcome (DspVec T × List (Out T))) (b : Outcome (DspVec T × BinOp T × VoidResult)) : Prop :=
  (a = .panic ∧ b = .panic) ∨ (a = .running ∧ b = .running) ∨
    ∃ w o op' r, a = .finished (w, o) ∧ b = .finished (w, op', r) ∧ resultOf o = r ∧ ServesBin op op'

theorem sameRunBin_of {α : Type} {op : BinOp T} (o : Outcome α) (w : α → DspVec T) (out : α → List (Out T)) (next : α → BinOp T)
    (res : α → VoidResult) (h : ∀ x, o = .finished x → resultOf (out x) = res x ∧ ServesBin op (next x)) :
    SameRunBin op (o.andThen fun r => .finished (w r, out r)) (o.andThen fun r => .finished (w r, next r, res r)) := by
  cases o with
  | panic => exact .inl ⟨rfl, rfl⟩
  | running => exact .inr (.inl ⟨rfl, rfl⟩)
  | finished x => exact .inr (.inr ⟨_, _, _, _, rfl, rfl, (h x rfl).1, (h x rfl).2⟩)

theorem binRunNext_spec (v o : DspVec T) (s1 : List Nat) (op : BinOp T) : SameRunBin op (op.run v o s1) (op.runNext v o s1) := by
  cases op with
  | elem op k addr => exact sameRunBin_of _ Prod.fst (fun r : DspVec T × VoidResult => [.result r.2]) (fun _ => _) (fun r => r.2) fun x _ => ⟨rfl, .refl _⟩
  | elemSmaller op => exact sameRunBin_of _ Prod.fst (fun r : DspVec T × VoidResult => [.result r.2]) (fun _ => _) (fun r => r.2) fun x _ => ⟨rfl, .refl _⟩
  | convolveSignal K junk k addr st b =>
    refine sameRunBin_of _ Prod.fst (fun r : DspVec T × Buffer T × VoidResult => [.result r.2.2]) (fun _ => _) (fun r => r.2.2) fun x hx => ⟨rfl, rfl, fun u o e h => ?_⟩
    have g := convolveSignal_good hx
    refine ⟨h.1, fun a b c => ?_⟩
    obtain ⟨h1, h2, h3, h4, h5, h6⟩ := h.2 a b c
    exact ⟨h1, h2, h3, g.1 _ _ h4, h5, fun x => ⟨(h6 x).1, (h6 x).2.1, g.2.2 _ _ _ (h6 x).2.2⟩⟩
  | correlate K k addr st b =>
    refine sameRunBin_of _ Prod.fst (fun r : DspVec T × Buffer T × VoidResult => [.result r.2.2]) (fun _ => _) (fun r => r.2.2) fun x hx => ⟨rfl, rfl, fun u o e h => ?_⟩
    have g := correlate_good hx
    obtain ⟨h1, h2, h3, h4, h5⟩ := h
    exact ⟨h1, h2, h3, h4, fun x => ⟨(h5 x).1, g.1 _ _ (h5 x).2.1, g.2.1 _ _ (h5 x).2.2.1, (h5 x).2.2.2⟩⟩

omit [Field T] [LinearOrder T] in
/-- The operation of a matrix is the operation of the vectors with the same name. -/
theorem binMatrixMethod_same {kind : OperandKind} {op rowOp : BinOp T} (h : op.matrixMethod kind = some rowOp) : rowOp = op := by
  cases kind <;> cases op <;> simp [BinOp.matrixMethod] at h <;> exact h.symm
end

section
variable [Field T] [LinearOrder T] [IsStrictOrderedRing T] [FloorRing T]

/-- What happens to one row. -/
theorem binOnRow_shows (op0 : BinOp T) (env : Nat → RowEnv2) (v o : DspVec T) (i : Nat) (s t : Signal T) (h : v.Shows s) (ho : o.Shows t)
    (hs : (op0.inEnv (env i).toRowEnv).Safe v o) (op : BinOp T) (hop : ServesBin op0 op) :
    (BinOp.onRow env op v (o, i) = .running ∨ ∃ w op', BinOp.onRow env op v (o, i) = .finished (w, op', (op0.call.effect s t).2) ∧
      ServesBin op0 op' ∧ w.Shows (op0.call.effect s t).1) ∧
    ∃ x : List Nat × List Nat, ∀ sc, sc i = x → ∃ q, BinOp.onRow (withSchedules2 env sc) op v (o, i) = .finished q ∧ ServesBin op0 q.2.1 := by
  have sf := hop.2 v o _ hs
  obtain ⟨w, hA, hw⟩ := binary_step h ho _ sf
  have hcall : (op.inEnv (env i).toRowEnv).call = op0.call := (ServesBin.inEnv op _).1.trans hop.1
  rw [hcall] at hw hA
  have serves : ∀ op', ServesBin (op.inEnv (env i).toRowEnv) op' → ServesBin op0 op' := fun op' h' =>
    (hop.trans (ServesBin.inEnv op _)).trans h'
  refine ⟨?_, ?_⟩
  · have := hA.1 (env i).sched []
    beta_reduce at this
    rcases binRunNext_spec v o (env i).sched (op.inEnv (env i).toRowEnv) with ⟨e, e'⟩ | ⟨e, e'⟩ | ⟨w', out, op', r, e, e', hr, hsv⟩
    · rw [e] at this; rcases this with h' | h' <;> cases h'
    · exact .inl e'
    · rw [e] at this
      rcases this with h' | h'
      · cases h'
      · cases h'
        refine .inr ⟨w, op', ?_, serves _ hsv, hw⟩
        rw [BinOp.onRow, e', ← hr]
        rfl
  · obtain ⟨s1, s2, hfin⟩ := hA.2
    beta_reduce at hfin
    refine ⟨(s1, s2), fun sc hsc => ?_⟩
    have hin : op.inEnv (withSchedules2 env sc i).toRowEnv = op.inEnv (env i).toRowEnv := by cases op <;> rfl
    unfold BinOp.onRow
    rw [hin]
    simp only [withSchedules2, hsc]
    rcases binRunNext_spec v o s1 (op.inEnv (env i).toRowEnv) with ⟨e, e'⟩ | ⟨e, e'⟩ | ⟨w', out, op', r, e, e', hr, hsv⟩
    · rw [e] at hfin; cases hfin
    · rw [e] at hfin; cases hfin
    · exact ⟨_, e', serves _ hsv⟩

/-- The loop of a method with operands. -/
theorem tryRows_binary (env : Nat → RowEnv2) (op : BinOp T) (rows : List (DspVec T × DspVec T × Nat)) (ss : List (Signal T × Signal T))
    (h : List.Forall₂ (fun r s => DspVec.Shows r.1 s.1 ∧ DspVec.Shows r.2.1 s.2) rows ss)
    (hs : ∀ r ∈ rows, (op.inEnv (env r.2.2).toRowEnv).Safe r.1 r.2.1) :
    tryRows (BinOp.onRow env) op rows = .running ∨ ∃ ws op',
      tryRows (BinOp.onRow env) op rows = .finished (ws, op', (untilError op.call.effect ss).2) ∧
      List.Forall₂ DspVec.Shows ws (untilError op.call.effect ss).1 := by
  rcases tryRows_shows (BinOp.onRow env) (ServesBin op) op.call.effect rows ss op (.refl _) (by
    induction h with
    | nil => exact .nil
    | cons h1 h2 ih =>
      exact .cons ⟨h1.1, fun st hst => (binOnRow_shows op env _ _ _ _ _ h1.1 h1.2 (hs _ (by simp)) st hst).1⟩
        (ih fun r hr => hs r (List.mem_cons_of_mem _ hr))) with e | ⟨ws, st', e, _, hw⟩
  · exact .inl e
  · exact .inr ⟨ws, st', e, hw⟩

/-- The loop of a method with operands terminates with some schedules. -/
theorem tryRows_binary_terminates (env : Nat → RowEnv2) (op : BinOp T) (rows : List (DspVec T × DspVec T × Nat)) (ss : List (Signal T × Signal T))
    (h : List.Forall₂ (fun r s => DspVec.Shows r.1 s.1 ∧ DspVec.Shows r.2.1 s.2) rows ss) (hn : (rows.map fun r => r.2.2).Nodup)
    (hs : ∀ r ∈ rows, (op.inEnv (env r.2.2).toRowEnv).Safe r.1 r.2.1) :
    ∃ sc q, tryRows (BinOp.onRow (withSchedules2 env sc)) op rows = .finished q := by
  refine tryRows_terminates (fun sc => BinOp.onRow (withSchedules2 env sc)) Prod.snd (ServesBin op) ?_ rows op (.refl _) hn ?_
  · intro sc sc' st v i e
    have : withSchedules2 env sc i.2 = withSchedules2 env sc' i.2 := by simp [withSchedules2, e]
    simp only [BinOp.onRow, this]
  · intro r hr st hst
    obtain ⟨s, hrs⟩ : ∃ s : Signal T × Signal T, r.1.Shows s.1 ∧ r.2.1.Shows s.2 := by
      clear hn hs
      induction h with
      | nil => cases hr
      | cons h1 _ ih =>
        rcases List.mem_cons.1 hr with rfl | hr
        · exact ⟨_, h1⟩
        · exact ih hr
    exact (binOnRow_shows op env _ _ _ s.1 s.2 hrs.1 hrs.2 (hs r hr) st hst).2

omit [Field T] [LinearOrder T] [IsStrictOrderedRing T] [FloorRing T] in
theorem zip_zipIdx_shows {vs os : List (DspVec T)} {ss ts : List (Signal T)} (h : List.Forall₂ DspVec.Shows vs ss)
    (ho : List.Forall₂ DspVec.Shows os ts) (k : Nat) :
    List.Forall₂ (fun (r : DspVec T × DspVec T × Nat) s => DspVec.Shows r.1 s.1 ∧ DspVec.Shows r.2.1 s.2) (vs.zip (os.zipIdx k)) (ss.zip ts) := by
  induction h generalizing os ts k with
  | nil => simp
  | cons h1 _ ih =>
    cases ho with
    | nil => simp
    | cons h2 h3 => exact .cons ⟨h1, h2⟩ (ih h3 (k + 1))

omit [Field T] [LinearOrder T] [IsStrictOrderedRing T] [FloorRing T] in
theorem mem_zip_zipIdx {vs os : List (DspVec T)} {r : DspVec T × DspVec T × Nat} {k : Nat} (h : r ∈ vs.zip (os.zipIdx k)) :
    ∃ i, r.2.2 = k + i ∧ vs[i]? = some r.1 ∧ os[i]? = some r.2.1 := by
  induction vs generalizing os k with
  | nil => simp at h
  | cons v vs ih =>
    cases os with
    | nil => simp at h
    | cons o os =>
      rcases List.mem_cons.1 h with rfl | h
      · exact ⟨0, rfl, rfl, rfl⟩
      · obtain ⟨i, h1, h2, h3⟩ := ih h
        exact ⟨i + 1, by omega, h2, h3⟩

omit [Field T] [LinearOrder T] [IsStrictOrderedRing T] [FloorRing T] in
theorem zip_zipIdx_nodup (vs os : List (DspVec T)) (k : Nat) : ((vs.zip (os.zipIdx k)).map fun r => r.2.2).Nodup := by
  have : ∀ (l : List (DspVec T)) (l' : List (DspVec T × Nat)), ((l.zip l').map fun r => r.2.2).Sublist (l'.map Prod.snd) := by
    intro l
    induction l with
    | nil => intro l'; simp
    | cons a l ih =>
      intro l'
      cases l' with
      | nil => simp
      | cons b l' => simpa using ih l'
  refine (this _ _).nodup ?_
  rw [List.zipIdx_map_snd]; exact List.nodup_range' (step := 1)

theorem forall2_drop {α β : Type} {R : α → β → Prop} {l : List α} {l' : List β} (h : List.Forall₂ R l l') (n : Nat) :
    List.Forall₂ R (l.drop n) (l'.drop n) := by
  induction h generalizing n with
  | nil => simp
  | cons h1 h2 ih =>
    cases n with
    | zero => exact .cons h1 h2
    | succ n => exact ih n

/-- C77, methods whose operand is a matrix: the method does not panic, and when all workers have terminated, row `i` shows what the
    operation makes of signal `i` and signal `i` of the operand, up to the first error, which is the result; rows without an operand stay
    as they are. -/
theorem C77_binary (m o : Mat T) (ss ts : List (Signal T)) (op : BinOp T) (env : Nat → RowEnv2) (h : m.Shows ss) (ho : o.Shows ts)
    (hm : (op.matrixMethod .matrix).isSome = true) (hs : m.SafeBin o op env) :
    m.execBin o op env = .running ∨
      ∃ m', m.execBin o op env = .finished (m', (untilError op.call.effect (ss.zip ts)).2) ∧ m'.kind = m.kind ∧
        m'.Shows ((untilError op.call.effect (ss.zip ts)).1 ++ ss.drop ts.length) := by
  obtain ⟨rowOp, hm⟩ := Option.isSome_iff_exists.1 hm
  obtain rfl := binMatrixMethod_same hm
  simp only [Mat.execBin, hm]
  rcases tryRows_binary env rowOp _ _ (zip_zipIdx_shows h ho 0) (fun r hr => by
    obtain ⟨i, h1, h2, h3⟩ := mem_zip_zipIdx hr
    rw [show r.2.2 = i by omega]
    exact hs i _ _ h2 h3) with e | ⟨ws, op', e, hw⟩
  · exact .inl (by simp only [e, Outcome.andThen])
  · refine .inr ⟨⟨m.kind, ws ++ m.rows.drop o.rows.length⟩, by simp only [e, Outcome.andThen], rfl, ?_⟩
    rw [← ho.length_eq]
    exact List.rel_append hw (forall2_drop h _)

/-- C77, methods whose operand is a matrix: the workers can terminate. -/
theorem C77_binary_terminates (m o : Mat T) (ss ts : List (Signal T)) (op : BinOp T) (env : Nat → RowEnv2) (h : m.Shows ss) (ho : o.Shows ts)
    (hm : (op.matrixMethod .matrix).isSome = true) (hs : m.SafeBin o op env) :
    ∃ scheds m', m.execBin o op (withSchedules2 env scheds) = .finished (m', (untilError op.call.effect (ss.zip ts)).2) ∧
      m'.kind = m.kind ∧ m'.Shows ((untilError op.call.effect (ss.zip ts)).1 ++ ss.drop ts.length) := by
  have key : ∃ scheds q, m.execBin o op (withSchedules2 env scheds) = .finished q := by
    obtain ⟨rowOp, hm⟩ := Option.isSome_iff_exists.1 hm
    obtain rfl := binMatrixMethod_same hm
    simp only [Mat.execBin, hm]
    obtain ⟨sc, q, e⟩ := tryRows_binary_terminates env rowOp _ _ (zip_zipIdx_shows h ho 0) (zip_zipIdx_nodup _ _ 0) (fun r hr => by
      obtain ⟨i, h1, h2, h3⟩ := mem_zip_zipIdx hr
      rw [show r.2.2 = i by omega]
      exact hs i _ _ h2 h3)
    exact ⟨sc, _, by simp only [e, Outcome.andThen]; rfl⟩
  obtain ⟨sc, q, e⟩ := key
  have hs' : m.SafeBin o op (withSchedules2 env sc) := fun i v x hv hx => by
    have : op.inEnv (withSchedules2 env sc i).toRowEnv = op.inEnv (env i).toRowEnv := by cases op <;> rfl
    rw [this]; exact hs i v x hv hx
  rcases C77_binary m o ss ts op _ h ho hm hs' with e' | h'
  · rw [e] at e'; cases e'
  · exact ⟨sc, h'⟩

omit [Field T] [LinearOrder T] [IsStrictOrderedRing T] [FloorRing T] in
theorem zipIdx_vec_shows {vs : List (DspVec T)} {ss : List (Signal T)} {o : DspVec T} {t : Signal T} (h : List.Forall₂ DspVec.Shows vs ss)
    (ho : o.Shows t) (k : Nat) :
    List.Forall₂ (fun (r : DspVec T × DspVec T × Nat) s => DspVec.Shows r.1 s.1 ∧ DspVec.Shows r.2.1 s.2)
      ((vs.zipIdx k).map fun r => (r.1, o, r.2)) (ss.map fun s => (s, t)) := by
  induction h generalizing k with
  | nil => exact .nil
  | cons h1 _ ih => exact .cons ⟨h1, ho⟩ (ih (k + 1))

/-- C77, methods whose operand is a vector: every row gets the same operand. -/
theorem C77_binary_vector (m : Mat T) (o : DspVec T) (ss : List (Signal T)) (t : Signal T) (op : BinOp T) (env : Nat → RowEnv2)
    (h : m.Shows ss) (ho : o.Shows t) (hm : (op.matrixMethod .vector).isSome = true) (hs : m.SafeBinVec o op env) :
    m.execBinVec o op env = .running ∨
      ∃ m', m.execBinVec o op env = .finished (m', (untilError op.call.effect (ss.map fun s => (s, t))).2) ∧ m'.kind = m.kind ∧
        m'.Shows (untilError op.call.effect (ss.map fun s => (s, t))).1 := by
  obtain ⟨rowOp, hm⟩ := Option.isSome_iff_exists.1 hm
  obtain rfl := binMatrixMethod_same hm
  simp only [Mat.execBinVec, hm]
  rcases tryRows_binary env rowOp _ _ (zipIdx_vec_shows h ho 0) (fun r hr => by
    obtain ⟨p, hp, rfl⟩ := List.mem_map.1 hr
    exact hs _ _ (List.mem_zipIdx_iff_getElem?.1 hp)) with e | ⟨ws, op', e, hw⟩
  · exact .inl (by simp only [e, Outcome.andThen])
  · exact .inr ⟨⟨m.kind, ws⟩, by simp only [e, Outcome.andThen], rfl, hw⟩

/-- C77, methods whose operand is a vector: the workers can terminate. -/
theorem C77_binary_vector_terminates (m : Mat T) (o : DspVec T) (ss : List (Signal T)) (t : Signal T) (op : BinOp T) (env : Nat → RowEnv2)
    (h : m.Shows ss) (ho : o.Shows t) (hm : (op.matrixMethod .vector).isSome = true) (hs : m.SafeBinVec o op env) :
    ∃ scheds m', m.execBinVec o op (withSchedules2 env scheds) = .finished (m', (untilError op.call.effect (ss.map fun s => (s, t))).2) ∧
      m'.kind = m.kind ∧ m'.Shows (untilError op.call.effect (ss.map fun s => (s, t))).1 := by
  have key : ∃ scheds q, m.execBinVec o op (withSchedules2 env scheds) = .finished q := by
    obtain ⟨rowOp, hm⟩ := Option.isSome_iff_exists.1 hm
    obtain rfl := binMatrixMethod_same hm
    simp only [Mat.execBinVec, hm]
    obtain ⟨sc, q, e⟩ := tryRows_binary_terminates env rowOp _ _ (zipIdx_vec_shows h ho 0) (by
      rw [List.map_map, show ((fun r : DspVec T × DspVec T × Nat => r.2.2) ∘ fun r : DspVec T × Nat => (r.1, o, r.2)) = Prod.snd from rfl,
        List.zipIdx_map_snd]
      exact List.nodup_range' (step := 1)) (fun r hr => by
      obtain ⟨p, hp, rfl⟩ := List.mem_map.1 hr
      exact hs _ _ (List.mem_zipIdx_iff_getElem?.1 hp))
    exact ⟨sc, _, by simp only [e, Outcome.andThen]; rfl⟩
  obtain ⟨sc, q, e⟩ := key
  have hs' : m.SafeBinVec o op (withSchedules2 env sc) := fun i v hv => by
    have : op.inEnv (withSchedules2 env sc i).toRowEnv = op.inEnv (env i).toRowEnv := by cases op <;> rfl
    rw [this]; exact hs i v hv
  rcases C77_binary_vector m o ss t op _ h ho hm hs' with e' | h'
  · rw [e] at e'; cases e'
  · exact ⟨sc, h'⟩

end
end Dsp
