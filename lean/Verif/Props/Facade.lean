import Verif.Spec.Facade
import Verif.Props.InteropHeap
import Verif.Props.InteropAccess
import Verif.Props.Program
import Verif.Props.Extract
/-
C81: a C program computes with signals: the library behind the facade, the facade and the memory together.
-/
namespace Dsp
open DspVec
variable {T : Type}

/-! ### Small facts -/

theorem translateError_codeOf (s : Signal T) (e : ErrorReason) : translateError e = codeOf s (.error e) := by
  cases e <;> simp [translateError, codeOf, documentedErrors]

theorem marker_codeOf {iv : InteropVec T} {s : Signal T} (h : iv.vec.Shows s) : getErrorMarker iv = codeOf s (.ok ()) := by
  have hl := h.len
  have hz : iv.vec.validLen = 0 ↔ s.numbers.count = 0 := by
    have : iv.vec.validLen = iv.vec.len := rfl
    rw [this, hl, Numbers.length_flat]
    cases s.numbers <;> simp [Numbers.width, Numbers.isComplex]
  simp only [getErrorMarker, codeOf, isErroneous, h.delta, Bool.and_eq_true, beq_iff_eq, hz, Option.isNone_iff_eq_none]

theorem resultCode_codeOf {iv : InteropVec T} {s : Signal T} (h : iv.vec.Shows s) (r : VoidResult) : resultCode iv r = codeOf s r := by
  cases r with
  | ok u => exact marker_codeOf h
  | error e => exact translateError_codeOf s e

theorem returned_world (l : List (Out T)) : returnedResult l = worldResult l := by
  unfold returnedResult worldResult
  rfl

section
variable [Field T] [LinearOrder T] [FloorRing T]

omit [FloorRing T] in
theorem method_call (c : LibConsts T) (e : CallEnv T) (st : MultiCoreSettings) (b : Buffer T) (n : Nat) (m : LibMethod T) :
    (m.stmt c e st b n).map Stmt.call = m.call c n := by
  cases m <;> rfl

omit [Field T] [LinearOrder T] [FloorRing T] in
theorem fill_call (c : LibConsts T) (e : CallEnv T) (st : MultiCoreSettings) (f : FillFun) : (f.stmt c e st).call = f.call c := by
  cases f <;> rfl

theorem modelLib_method (c : LibConsts T) (e : CallEnv T) (other : Lib T) (s1 s2 : List Nat) {m : LibMethod T} {st : MultiCoreSettings}
    {v : DspVec T} {b : Buffer T} {ops : List (DspVec T)} {s : Stmt T} (hs : m.stmt c e st b ops.length = some s) :
    (modelLib c e other s1 s2).method m st v b ops =
      (s.exec s1 s2 (localMachine v ops)).andThen fun r => .finished (r.vec 0, .single e.leftover, returnedResult r.out) := by
  cases m <;> first | (cases hs; done) | (cases hs; rfl)

theorem meaning_method (c : LibConsts T) {m : LibMethod T} {s : Signal T} {ops : List (Signal T)} {call : StmtCall T}
    (hc : m.call c ops.length = some call) :
    m.meaning c s ops = ⟨(call.meaning (localWorld s ops)).sig 0, ops,
      ⟨some (codeOf ((call.meaning (localWorld s ops)).sig 0) (worldResult (call.meaning (localWorld s ops)).out)), []⟩⟩ := by
  cases m <;> first | (cases hc; done) | (cases hc; rfl)

end

theorem localMachine_shows {v : DspVec T} {s : Signal T} {vs : List (DspVec T)} {ss : List (Signal T)} (h : v.Shows s)
    (ho : List.Forall₂ DspVec.Shows vs ss) : (localMachine v vs).Shows (localWorld s ss) := by
  refine ⟨fun x => ?_, rfl⟩
  cases x with
  | zero => exact h
  | succ x =>
    simp only [localMachine, localWorld, List.getElem?_cons_succ]
    induction ho generalizing x with
    | nil => exact h
    | cons h1 _ ih =>
      cases x with
      | zero => exact h1
      | succ x => exact ih x

/-- The operands of a call show the signals. -/
abbrev OpsShow (ops : List (InteropVec T)) (ss : List (Signal T)) : Prop := List.Forall₂ (fun o s => o.vec.Shows s) ops ss

theorem ops_vecs {ops : List (InteropVec T)} {ss : List (Signal T)} (h : OpsShow ops ss) :
    List.Forall₂ DspVec.Shows (ops.map (·.vec)) ss := by
  rw [List.forall₂_map_left_iff]; exact h

theorem putVecs_show {ops : List (InteropVec T)} {g : Nat → DspVec T} {w : Nat → Signal T} (h : ∀ x, (g x).Shows (w x)) (i n : Nat)
    (hn : n = ops.length) :
    OpsShow (putVecs ops ((List.range' i n).map g)) ((List.range' i n).map w) := by
  subst hn
  induction ops generalizing i with
  | nil => exact .nil
  | cons o ops ih =>
    simp only [List.length_cons, List.range'_succ, List.map_cons, putVecs, List.zipWith_cons_cons]
    exact .cons (h i) (ih (i + 1))

section
variable [Field T] [LinearOrder T] [IsStrictOrderedRing T] [FloorRing T]

/-- What a call leaves behind is what the specification says about signals. -/
structure Reply.Shows (r : Reply T) (m : SReply T) : Prop where
  self : r.self.vec.Shows m.self
  operands : OpsShow r.operands m.operands
  out : r.out = m.out


omit [IsStrictOrderedRing T] in
theorem safe_cases {c : LibConsts T} {e : CallEnv T} {st : MultiCoreSettings} {b : Buffer T} {v : DspVec T} {ops : List (DspVec T)}
    {m : LibMethod T} (h : m.Safe c e st b v ops) : (∃ p o, m = .zeroPadB p o ∧ v.Safe (.zeroPadB b p o)) ∨
      ∃ s, m.stmt c e st b ops.length = some s ∧ s.Safe (localMachine v ops) := by
  cases m <;> first | exact .inr h | exact .inl ⟨_, _, rfl, h⟩

omit [LinearOrder T] [IsStrictOrderedRing T] [FloorRing T] in
theorem zeroPadB_reply {v : DspVec T} {s : Signal T} (h : v.Shows s) (b : Buffer T) (p : Nat) (o : PaddingOption)
    (hs : v.Safe (.zeroPadB b p o)) :
    ∃ w b' r, v.zeroPadB b p o = some (w, b', r) ∧ w.Shows ((Call.zeroPad p o : Call T).meaning s) ∧
      r = if p ≤ s.numbers.count then .error .invalidArgumentLength else .ok () := by
  obtain ⟨w, e, hw⟩ := step_zeroPadB h b p o hs
  simp only [apply, Option.map_eq_some_iff] at e
  obtain ⟨⟨w', b', r⟩, e, rfl⟩ := e
  refine ⟨w', b', r, e, hw, ?_⟩
  rw [← h.points]
  by_cases hle : p ≤ v.points
  · rw [C08_zero_pad_b_error v h.wf b p o hle] at e
    cases e; rw [if_pos hle]
  · rw [if_neg hle]
    obtain ⟨hb, ho⟩ := hs.resolve_left hle
    obtain ⟨_, _, _, e1, _⟩ := zero_pad_b_spec v h.wf b p hb o (by rcases ho with rfl | ⟨rfl, -⟩ <;> simp) (by omega)
    rw [e1] at e; cases e; rfl

/-- The methods: what they do with the vector and the code which they report. -/
theorem method_reply (c : LibConsts T) (e : CallEnv T) (other : Lib T) (m : LibMethod T) (iv : InteropVec T) (ops : List (InteropVec T))
    (s : Signal T) (ss : List (Signal T)) (h : iv.vec.Shows s) (ho : OpsShow ops ss)
    (hs : m.Safe c e iv.settings iv.buffer iv.vec (ops.map (·.vec))) :
    ∃ r, Always2 (fun s1 s2 => convertVec (modelLib c e other s1 s2) m iv ops) r ∧ r.Shows (m.meaning c s ss) := by
  have hl : ops.length = ss.length := ho.length_eq
  rcases safe_cases hs with ⟨p, o, rfl, hz⟩ | ⟨st, hst, hsafe⟩
  · obtain ⟨w, b', r, e1, e2, hr⟩ := zeroPadB_reply h iv.buffer p o hz
    refine ⟨⟨⟨b', w, iv.settings⟩, ops, ⟨some (resultCode ⟨b', w, iv.settings⟩ r), []⟩⟩, (Always2.const _).congr fun _ _ => ?_, ?_⟩
    · simp only [convertVec, modelLib, e1]; rfl
    · rw [resultCode_codeOf (iv := ⟨b', w, iv.settings⟩) e2]
      simp only [LibMethod.meaning]
      simp only [Call.meaning] at e2 ⊢
      by_cases hle : p ≤ s.numbers.count
      · simp only [hle, if_true] at e2 hr ⊢
        subst hr
        exact ⟨e2, ho, by simp [codeOf, documentedErrors]⟩
      · simp only [hle, if_false] at e2 hr ⊢
        subst hr
        exact ⟨e2, ho, rfl⟩
  · have hc : m.call c ss.length = some st.call := by
      rw [← method_call c e iv.settings iv.buffer, ← hl]
      rw [List.length_map] at hst
      rw [hst]; rfl
    obtain ⟨m', a1, a2, a3⟩ := C72_step _ _ st (localMachine_shows h (ops_vecs ho)) hsafe
    rw [meaning_method c hc]
    refine ⟨_, ((a1.give fun r => (r.vec 0, Buffer.single e.leftover, returnedResult r.out)).give fun r =>
      ⟨⟨r.2.1, r.1, iv.settings⟩, ops, ⟨some (resultCode ⟨r.2.1, r.1, iv.settings⟩ r.2.2), []⟩⟩).congr fun s1 s2 => ?_, ?_⟩
    · simp only [convertVec]; rw [modelLib_method c e other s1 s2 hst]
    · exact ⟨a2 0, ho, by rw [resultCode_codeOf (iv := ⟨_, _, _⟩) (a2 0), returned_world, a3]⟩


/-! ### The other functions -/

omit [Field T] [LinearOrder T] [IsStrictOrderedRing T] [FloorRing T] in
theorem flat_completePairs {l : List T} (h : l.length % 2 = 0) : (Numbers.complex (completePairs l)).flat = l := by
  obtain ⟨p, hp⟩ := exists_fromComplex h
  subst hp
  simp only [Numbers.flat, completePairs_fromComplex]

omit [Field T] [LinearOrder T] [IsStrictOrderedRing T] [FloorRing T] in
theorem flat_overwrite (xs : List T) (N : Numbers T) (h : xs.length ≤ N.flat.length) :
    (N.overwrite xs).flat = xs ++ N.flat.drop xs.length ∧ (N.overwrite xs).isComplex = N.isComplex := by
  cases N with
  | real l => exact ⟨rfl, rfl⟩
  | complex l =>
    refine ⟨flat_completePairs ?_, rfl⟩
    simp only [Numbers.flat] at h
    rw [List.length_append, List.length_drop, Nat.add_sub_cancel' h]
    simp [length_fromComplex]

omit [Field T] [LinearOrder T] [IsStrictOrderedRing T] [FloorRing T] in
theorem flat_setFlat (i : Nat) (x : T) (N : Numbers T) :
    (N.setFlat i x).flat = N.flat.set i x ∧ (N.setFlat i x).isComplex = N.isComplex := by
  cases N with
  | real l => exact ⟨rfl, rfl⟩
  | complex l =>
    refine ⟨flat_completePairs ?_, rfl⟩
    simp [length_fromComplex]

omit [IsStrictOrderedRing T] in
theorem scalar_answer {s o : Signal T} {f : ScalarFun T} {e : CallEnv T} {st : MultiCoreSettings} {call : Stmt T}
    (hc : f.stmt e st = some call) (iv : InteropVec T) (ops : List (InteropVec T)) (h : iv.vec.Shows s) (w : World T)
    (hw : w.sig 0 = s) (ho : w.sig 1 = o) (hn : w.out = []) :
    convertScalar iv ops f.default (returnedNumber (call.call.meaning w).out) = ⟨iv, ops, f.answer s o⟩ := by
  have herr := translateError_codeOf s
  have hmark := marker_codeOf h
  have hptr : ∀ r : Except ErrorReason Nat,
      convertScalar iv ops (.ptr 0) (returnedNumber [Out.pointer r]) = ⟨iv, ops, pointerAnswer s r⟩ := by
    rintro (x | x) <;> simp [returnedNumber, convertScalar, pointerAnswer, herr, hmark]
  cases f with
  | mapAggregateReal map agg =>
    cases hc
    simp only [Stmt.call, StmtCall.meaning, hn, List.nil_append, hw, StatOp.call, StatCall.meaning]
    exact hptr _
  | mapAggregateComplex map agg =>
    cases hc
    simp only [Stmt.call, StmtCall.meaning, hn, List.nil_append, hw, StatOp.call, StatCall.meaning]
    exact hptr _
  | _ =>
    cases hc
    simp only [Stmt.call, StmtCall.meaning, hn, List.nil_append, hw, ho, DotOp.isComplex, ScalarFun.answer, dotMeaning, Bool.false_eq_true, if_false,
      if_true]
    split <;> first
      | (split <;> simp [returnedNumber, convertScalar, herr, hmark, ScalarFun.default] <;> rfl)
      | (simp [returnedNumber, convertScalar, hmark]; done)
      | (simp [returnedNumber, convertScalar, herr, ScalarFun.default]; try rfl)

omit [IsStrictOrderedRing T] in
theorem value_answer {s : Signal T} {f : ValueFun} {c : LibConsts T} {e : CallEnv T} {st : MultiCoreSettings} {call : Stmt T}
    (hc : f.stmt c e st = some call) (w : World T) (hw : w.sig 0 = s) (hn : w.out = []) :
    ∃ x, returnedNumber (call.call.meaning w).out = .ok x ∧ f.answer c s = [x] := by
  cases f <;> cases hc <;>
    simp only [hn, hw, Stmt.call, StmtCall.meaning, SumOp.square, SumOp.complex, ValueFun.answer, sumMeaning, StatOp.call, StatCall.meaning, List.nil_append,
      Bool.false_eq_true, if_false, if_true] <;>
    exact ⟨_, rfl, by simp⟩

omit [IsStrictOrderedRing T] in
theorem split_answer {s : Signal T} (f : SplitFun) (c : LibConsts T) (st : MultiCoreSettings) (k : Nat) (w : World T)
    (hw : w.sig 0 = s) (hn : w.out = []) :
    returnedStatistics ((f.stmt c st k).call.meaning w).out = f.answer c s k := by
  cases f <;>
    simp only [hn, hw, SplitFun.stmt, Stmt.call, StmtCall.meaning, StatOp.call, StatCall.meaning, List.nil_append, returnedStatistics,
      SplitFun.answer, splitInParts] <;>
    split <;> simp [Except.map, Function.comp_def]

omit [IsStrictOrderedRing T] [FloorRing T] in
theorem split_answer_length (f : SplitFun) (c : LibConsts T) (s : Signal T) (k : Nat) (l : List (Value T))
    (h : f.answer c s k = .ok l) : l.length = k := by
  cases f <;> simp only [SplitFun.answer, splitInParts] at h <;> split at h <;> cases h <;> simp

/-- C81, one call: in an environment which it accepts an exported function never panics, gives the same for all schedules, can
    finish, does with the vectors what the specification says about signals, and gives the C program the codes and values of the
    specification. -/
theorem C81_call (c : LibConsts T) (e : CallEnv T) (other : Lib T) (f : CFun T) (iv : InteropVec T) (ops : List (InteropVec T))
    (s : Signal T) (ss : List (Signal T)) (h : iv.vec.Shows s) (ho : OpsShow ops ss) (hs : f.Safe c e iv ops) :
    ∃ r, Always2 (fun s1 s2 => f.call (modelLib c e other s1 s2) iv ops) r ∧ r.Shows (f.meaning c s ss) := by
  have hl : ops.length = ss.length := ho.length_eq
  have hL := localMachine_shows h (ops_vecs ho)
  have const : ∀ {r : Reply T} {m : SReply T}, (∀ lib : Lib T, f.call lib iv ops = .finished r) → r.Shows m →
      ∃ r, Always2 (fun s1 s2 => f.call (modelLib c e other s1 s2) iv ops) r ∧ r.Shows m :=
    fun h1 h2 => ⟨_, (Always2.const _).congr fun _ _ => h1 _, h2⟩
  have hflat := h.len
  cases f with
  | vec f => exact method_reply c e other f.method iv ops s ss h ho hs
  | overwriteData xs =>
    by_cases hd : xs.length < s.numbers.flat.length
    · obtain ⟨iv', e1, e2, -, e4, -⟩ := C71_overwrite (T := T) ⟨fun _ _ _ _ _ => .panic, fun _ _ _ _ => .panic, fun _ _ => .panic,
        fun _ _ _ _ => .panic, fun _ _ _ => .panic, fun _ _ _ _ => .panic⟩ iv h.wf _ h.content xs hd
      obtain ⟨f1, f2⟩ := flat_overwrite xs s.numbers hd.le
      refine const (r := ⟨iv', [], ⟨some 0, []⟩⟩) (fun lib => e1) ?_
      simp only [CFun.meaning, if_pos hd]
      exact ⟨h.of_content e4 f2 (by rw [e2, f1]), .nil, rfl⟩
    · refine const (r := ⟨iv, [], ⟨some 7, []⟩⟩) (fun lib => C71_overwrite_violated lib iv _ h.content h.wf xs (by omega)) ?_
      simp only [CFun.meaning, if_neg hd]
      exact ⟨h, .nil, rfl⟩
  | clone => exact const (fun _ => rfl) ⟨h, ho, rfl⟩
  | fill f =>
    obtain ⟨m', a1, a2, a3⟩ := C72_step _ _ _ hL hs.2
    rw [fill_call] at a2
    refine ⟨_, ((a1.give fun r => (List.range' 1 ops.length).map r.vec).give fun r =>
      (⟨iv, putVecs ops r, ⟨some (convertVoid (.ok ())), []⟩⟩ : Reply T)).congr fun _ _ => ?_, ?_⟩
    · simp only [CFun.call, modelLib, List.length_map]
    refine ⟨h, ?_, rfl⟩
    simp only [CFun.meaning]
    rw [← hl]
    exact putVecs_show a2 1 _ rfl
  | splitInto =>
    obtain ⟨m', a1, a2, a3⟩ := C72_step _ _ (Stmt.split 0 (List.range' 1 ops.length)) hL hs
    have hdv : (ops ≠ [] ↔ List.range' 1 ops.length ≠ []) := by cases ops <;> simp
    refine ⟨_, ((a1.give fun r => ((List.range' 1 ops.length).map r.vec, returnedResult r.out)).give fun r =>
      ⟨iv, putVecs ops r.1, ⟨some (convertVoid r.2), []⟩⟩).congr fun _ _ => ?_, ?_⟩
    · simp only [CFun.call, modelLib, List.length_map]
    · refine ⟨h, ?_, ?_⟩
      · simp only [CFun.meaning]
        rw [← hl]
        exact putVecs_show a2 1 _ rfl
      · rw [a3]
        simp only [CFun.meaning, Stmt.call, StmtCall.meaning, List.length_range', ne_eq, localWorld, List.getElem?_cons_zero,
          Option.getD_some, List.nil_append]
        have hne : (ss = [] ↔ ops = []) := by
          rw [← List.length_eq_zero_iff, ← List.length_eq_zero_iff, hl]
        by_cases hd : ¬ ops = [] ∧ ops.length ∣ s.numbers.flat.length
        · rw [if_pos ⟨hdv.1 hd.1, hd.2⟩, if_pos ⟨fun h' => hd.1 (hne.1 h'), by rw [← hl]; exact hd.2⟩]; rfl
        · rw [if_neg (fun h' => hd ⟨hdv.2 h'.1, h'.2⟩), if_neg (fun h' => hd ⟨fun h2 => h'.1 (hne.2 h2), by rw [hl]; exact h'.2⟩)]; rfl
  | scalar f =>
    obtain ⟨st, hst, hsafe⟩ := hs
    obtain ⟨m', a1, a2, a3⟩ := C72_step _ _ st hL hsafe
    refine ⟨_, ((a1.give fun r => returnedNumber r.out).give fun r => convertScalar iv ops f.default r).congr fun _ _ => ?_, ?_⟩
    · simp only [CFun.call, modelLib, hst]
    · rw [a3, scalar_answer hst iv ops h (localWorld s ss) rfl rfl rfl]
      exact ⟨h, ho, rfl⟩
  | value f =>
    obtain ⟨st, hst, hsafe⟩ := hs
    obtain ⟨m', a1, a2, a3⟩ := C72_step _ _ st (localMachine_shows h .nil) hsafe
    obtain ⟨x, x1, x2⟩ := value_answer (s := s) hst (localWorld s []) rfl rfl
    refine ⟨⟨iv, ops, ⟨none, [x]⟩⟩, ((a1.andThen (f := fun r => sumNumber (returnedNumber r.out)) (r' := x) ?_).give fun x =>
      (⟨iv, ops, ⟨none, [x]⟩⟩ : Reply T)).congr fun _ _ => ?_, ?_⟩
    · simp only [a3, x1, sumNumber]
    · simp only [CFun.call, modelLib, hst]
    · exact ⟨h, ho, by simp only [CFun.meaning, x2]⟩
  | statisticsSplit f d =>
    obtain ⟨m', a1, a2, a3⟩ := C72_step _ _ (f.stmt c iv.settings d.length) (localMachine_shows h .nil) hs
    have x1 := split_answer (s := s) f c iv.settings d.length (localWorld s []) rfl rfl
    refine ⟨⟨iv, [], filledArray s d (f.answer c s d.length)⟩, ((a1.give fun r => returnedStatistics r.out).andThen
      (f := writeStatistics iv d) (r' := ⟨iv, [], filledArray s d (f.answer c s d.length)⟩) ?_).congr fun _ _ => ?_, ?_⟩
    · simp only [a3, x1]
      have hlen := split_answer_length f c s d.length
      cases hr : f.answer c s d.length with
      | error e => simp only [writeStatistics, filledArray, translateError_codeOf s]
      | ok l =>
        have := hlen l hr
        simp only [writeStatistics, filledArray]
        rw [if_pos (by omega)]
        simp [splice, this]
    · simp only [CFun.call, modelLib]
    · exact ⟨h, .nil, rfl⟩
  | getValue i =>
    have hi : i < s.numbers.flat.length := by rw [← hflat]; exact hs
    refine const (r := ⟨iv, ops, ⟨none, [.real s.numbers.flat[i]]⟩⟩) (fun lib => ?_) ⟨h, ho, ?_⟩
    · simp [CFun.call, h.content, get_eq hi, Outcome.ofOption]
    · simp [CFun.meaning, hi]
  | setValue i x =>
    have hi : i < s.numbers.flat.length := by rw [← hflat]; exact hs
    obtain ⟨f1, f2⟩ := flat_setFlat i x s.numbers
    have hr := replaced_splice h.wf (s.numbers.flat.set i x) (by rw [List.length_set]; exact h.wf.content_length h.content)
    refine const (r := ⟨{ iv with vec := iv.vec.withCells (splice iv.vec.data.cells 0 (s.numbers.flat.set i x)) }, ops, ⟨none, []⟩⟩)
      (fun lib => ?_) ⟨?_, ho, rfl⟩
    · simp [CFun.call, h.content, put_eq hi, Outcome.ofOption]
    · exact h.of_content hr.2.2.1 f2 (by rw [f1]; exact hr.1)
  | isComplex => exact const (fun _ => rfl) ⟨h, ho, by simp only [CFun.meaning, h.isComplex]⟩
  | getDomain =>
    refine const (fun _ => rfl) ⟨h, ho, ?_⟩
    simp only [CFun.meaning, h.dom]
    cases s.dom <;> rfl
  | getLen => exact const (fun _ => rfl) ⟨h, ho, by simp only [CFun.meaning, h.len]⟩
  | setLen n => exact const (fun _ => rfl) ⟨step_resize h n hs, ho, rfl⟩
  | getPoints => exact const (fun _ => rfl) ⟨h, ho, by simp only [CFun.meaning, h.points]⟩
  | getDelta =>
    refine const (fun _ => rfl) ⟨h, ho, ?_⟩
    simp only [CFun.meaning, h.delta]
    cases s.delta <;> rfl
  | data => exact const (fun lib => by simp [CFun.call, h.content, Outcome.ofOption]; rfl) ⟨h, ho, rfl⟩
  | complexData =>
    have hc : s.numbers.isComplex = true := by rw [← h.isComplex]; exact hs
    cases hN : s.numbers with
    | real l => rw [hN] at hc; cases hc
    | complex l =>
      refine const (r := ⟨iv, ops, ⟨none, [.complexNumbers l]⟩⟩) (fun lib => ?_) ⟨h, ho, by simp only [CFun.meaning, hN, Numbers.asCx]⟩
      simp [CFun.call, h.content, hN, Numbers.flat, toComplex?_fromComplex, Outcome.ofOption]
  | getAllocatedLen => exact absurd hs id


/-! ### Statements -/

omit [Field T] [LinearOrder T] [IsStrictOrderedRing T] [FloorRing T] in
theorem store_shows_assign {s : Store T} {w : CWorld T} (h : s.Shows w) (x : Nat) {iv : InteropVec T} {sg : Signal T}
    (hv : iv.vec.Shows sg) : Store.Shows (assign s x (some iv)) (assign w x (some sg)) := by
  intro y
  by_cases hy : y = x
  · simp only [assign, if_pos hy]; exact hv
  · simp only [assign, if_neg hy]; exact h y

omit [Field T] [LinearOrder T] [IsStrictOrderedRing T] [FloorRing T] in
theorem store_shows_empty {s : Store T} {w : CWorld T} (h : s.Shows w) (x : Nat) : Store.Shows (assign s x none) (assign w x none) := by
  intro y
  by_cases hy : y = x
  · simp only [assign, if_pos hy]
  · simp only [assign, if_neg hy]; exact h y

omit [Field T] [LinearOrder T] [IsStrictOrderedRing T] [FloorRing T] in
theorem store_shows_writeAll {ops : List (InteropVec T)} {ss : List (Signal T)} (ho : OpsShow ops ss) :
    ∀ (xs : List Nat) {s : Store T} {w : CWorld T}, s.Shows w → (Store.writeAll s (xs.zip ops)).Shows (CWorld.writeAll w (xs.zip ss)) := by
  induction ho with
  | nil => intro xs s w h; cases xs <;> exact h
  | cons h1 _ ih =>
    intro xs s w h
    cases xs with
    | nil => exact h
    | cons x xs => exact ih xs (store_shows_assign h x h1)

omit [Field T] [LinearOrder T] [IsStrictOrderedRing T] [FloorRing T] in
theorem store_shows_after {s : Store T} {w : CWorld T} (h : s.Shows w) (f : CFun T) (y x : Nat) (xs : List Nat) {r : Reply T} {m : SReply T}
    (hr : r.Shows m) : (s.after f y x xs r).Shows (w.after f y x xs m) := by
  have h' : (if f.operands.mutable then s.writeAll (xs.zip r.operands) else s : Store T).Shows
      (if f.operands.mutable then w.writeAll (xs.zip m.operands) else w) := by
    split
    · exact store_shows_writeAll hr.operands xs h
    · exact h
  unfold Store.after CWorld.after
  generalize hs : (if f.operands.mutable then s.writeAll (xs.zip r.operands) else s : Store T) = s' at h' ⊢
  generalize hw : (if f.operands.mutable then w.writeAll (xs.zip m.operands) else w : CWorld T) = w' at h' ⊢
  dsimp only
  cases f.gives <;> cases f.takes <;> first
    | exact h'
    | exact store_shows_empty h' x
    | exact store_shows_assign h' x hr.self
    | exact store_shows_assign (store_shows_empty h' x) y hr.self

omit [Field T] [LinearOrder T] [IsStrictOrderedRing T] [FloorRing T] in
theorem store_shows_some {s : Store T} {w : CWorld T} (h : s.Shows w) {x : Nat} {iv : InteropVec T} (hx : s x = some iv) :
    ∃ sg, w x = some sg ∧ iv.vec.Shows sg := by
  have := h x
  rw [hx] at this
  cases hw : w x with
  | none => rw [hw] at this; exact absurd this id
  | some sg => rw [hw] at this; exact ⟨sg, rfl, this⟩

omit [Field T] [LinearOrder T] [IsStrictOrderedRing T] [FloorRing T] in
theorem store_shows_mapM {s : Store T} {w : CWorld T} (h : s.Shows w) : ∀ (xs : List Nat) (ops : List (InteropVec T)),
    xs.mapM s = some ops → ∃ ss, xs.mapM w = some ss ∧ OpsShow ops ss
  | [], ops, e => by
    simp at e; subst e; exact ⟨[], rfl, .nil⟩
  | x :: xs, ops, e => by
    rw [List.mapM_cons] at e
    simp only [Option.bind_eq_bind, Option.bind_eq_some_iff] at e
    obtain ⟨iv, h1, ops', h2, h3⟩ := e
    cases h3
    obtain ⟨sg, g1, g2⟩ := store_shows_some h h1
    obtain ⟨ss, g3, g4⟩ := store_shows_mapM h xs ops' h2
    refine ⟨sg :: ss, ?_, .cons g2 g4⟩
    rw [List.mapM_cons]
    simp [g1, g3]

omit [LinearOrder T] [IsStrictOrderedRing T] [FloorRing T] in
theorem newVector_shows (cal : Calibration) (c d : Int) (x : T) (n : Nat) (δ : T) (p : Performance) :
    (newVector cal c d x n δ p).vec.Shows (newSignal c d x n δ) := by
  have hc : (newSignal c d x n δ).numbers.isComplex = (c != 0) := by
    unfold newSignal
    by_cases h : c = 0 <;> simp [h, Numbers.isComplex]
  refine ⟨?_, ?_, ?_, rfl⟩
  · by_cases h : c = 0
    · rw [(C71_new cal c d x n δ p (.inl h)).2.1]
      simp [newSignal, h, Numbers.flat]
    · by_cases hn : n % 2 = 0
      · rw [(C71_new cal c d x n δ p (.inr hn)).2.1]
        have : List.replicate n x = fromComplex (List.replicate (n / 2) ⟨x, x⟩) := by
          obtain ⟨k, rfl⟩ : ∃ k, n = 2 * k := ⟨n / 2, by omega⟩
          rw [Nat.mul_div_cancel_left _ (by omega)]
          clear hn hc
          induction k with
          | zero => rfl
          | succ k ih =>
            rw [show 2 * (k + 1) = 2 * k + 1 + 1 by omega, List.replicate_succ, List.replicate_succ, ih, List.replicate_succ]; rfl
        simp [newSignal, h, Numbers.flat, hn, this]
      · rw [(C71_new_odd cal c d x n δ p h (by omega)).1]
        simp [newSignal, h, Numbers.flat, hn, fromComplex]
  · rw [if_pos (show (newSignal c d x n δ).generic = true from rfl), hc]; rfl
  · rfl

/-- C81, one statement with vectors instead of handles. -/
theorem store_step (c : LibConsts T) (e : CallEnv T) (other : Lib T) (cal : Calibration) (s : Store T) (w : CWorld T) (st : CStmt T)
    (h : s.Shows w) (hl : Legal s st) (hs : st.Safe c e s) :
    ∃ s', Always2 (fun s1 s2 => s.step (modelLib c e other s1 s2) cal st) (s', (w.step c st).2) ∧ s'.Shows (w.step c st).1 := by
  cases st with
  | create x ic d v n δ p => exact ⟨_, Always2.const _, store_shows_assign h x (newVector_shows cal ic d v n δ p)⟩
  | delete x => exact ⟨_, Always2.const _, store_shows_empty h x⟩
  | call y x f args =>
    obtain ⟨hfit, hx, hargs, -⟩ := hl
    cases e1 : s x with
    | none => exact absurd e1 hx
    | some iv =>
      obtain ⟨ops, e2⟩ : ∃ ops, (args.map CArg.var).mapM s = some ops := by
        clear hfit hs
        induction args with
        | nil => exact ⟨[], rfl⟩
        | cons a args ih =>
          obtain ⟨ops, ho⟩ := ih fun c hc => hargs c (List.mem_cons_of_mem _ hc)
          cases ha : s a.var with
          | none => exact absurd ha (hargs a (List.mem_cons_self ..))
          | some i => exact ⟨i :: ops, by rw [List.map_cons, List.mapM_cons]; simp [ha, ho]⟩
      obtain ⟨sg, g1, g2⟩ := store_shows_some h e1
      obtain ⟨ss, g3, g4⟩ := store_shows_mapM h _ _ e2
      obtain ⟨r, a1, a2⟩ := C81_call c e other f iv ops sg ss g2 g4 (hs iv ops e1 e2)
      have hstep : w.step c (.call y x f args) =
          (w.after f y x (args.map CArg.var) (f.meaning c sg ss), (f.meaning c sg ss).out) := by
        simp only [CWorld.step, g1, g3]
      rw [hstep]
      refine ⟨s.after f y x (args.map CArg.var) r, ?_, store_shows_after h f y x _ a2⟩
      have := a1.give fun r => (s.after f y x (args.map CArg.var) r, r.out)
      rw [a2.out] at this
      exact this.congr fun _ _ => by simp only [Store.step, e1, e2]

/-! ### Programs -/

/-- C81, one statement on the real memory: for every allocator a statement which obeys the rules for handles and finds an environment which it
    accepts has no undefined behaviour and no panic under any schedule, can finish, gives back the codes and values which the specification
    computes from the signals, and leaves memory which represents variables which show the signals of the specification. -/
theorem C81_step (c : LibConsts T) (e : CallEnv T) (other : Lib T) (cal : Calibration) {alloc : Allocator T} (hal : alloc.Sound)
    {s : Store T} {σ : CState T} (hr : Represents s σ) (w : CWorld T) (h : s.Shows w) (st : CStmt T) (hl : Legal s st)
    (hs : st.Safe c e s) :
    ∃ s', s'.Shows (w.step c st).1 ∧
      (∀ s1 s2, σ.step (modelLib c e other s1 s2) cal alloc st = some .running ∨
        ∃ σ', σ.step (modelLib c e other s1 s2) cal alloc st = some (.finished (σ', (w.step c st).2)) ∧ Represents s' σ') ∧
      ∃ s1 s2 σ', σ.step (modelLib c e other s1 s2) cal alloc st = some (.finished (σ', (w.step c st).2)) := by
  obtain ⟨s', ⟨a1, b1, b2, a2⟩, a3⟩ := store_step c e other cal s w st h hl hs
  beta_reduce at a1 a2
  refine ⟨s', a3, fun s1 s2 => ?_, b1, b2, ?_⟩
  · have := C70_step (modelLib c e other s1 s2) cal hal hr st hl
    rcases a1 s1 s2 with h1 | h1
    · rw [h1] at this; exact .inl this
    · rw [h1] at this; exact .inr this
  · have := C70_step (modelLib c e other b1 b2) cal hal hr st hl
    rw [a2] at this
    obtain ⟨σ', h1, -⟩ := this
    exact ⟨σ', h1⟩

omit [LinearOrder T] [IsStrictOrderedRing T] [FloorRing T] in
/-- A program looks only at the libraries of its statements. -/
theorem runEach_congr (l1 l2 : Nat → Lib T) (cal : Calibration) (alloc : Allocator T) : ∀ (p : List (CStmt T)) (i : Nat) (σ : CState T),
    (∀ j, i ≤ j → l1 j = l2 j) → CState.runEach l1 cal alloc i σ p = CState.runEach l2 cal alloc i σ p
  | [], _, _, _ => rfl
  | s :: p, i, σ, h => by
    have ih := fun σ' => runEach_congr l1 l2 cal alloc p (i + 1) σ' fun j hj => h j (by omega)
    simp only [CState.runEach, h i (Nat.le_refl _), ih]

/-- C81 for programs, from any statement on. -/
theorem program_each (c : LibConsts T) (env : Nat → CallEnv T) (other : Lib T) (cal : Calibration) {alloc : Allocator T}
    (hal : alloc.Sound) (p : List (CStmt T)) : ∀ (i : Nat) (s : Store T) (w : CWorld T), s.Shows w →
    SafeProgram c env other cal i s p →
    ∃ s', s'.Shows (w.run c p).1 ∧ ∀ σ, Represents s σ →
      (∀ oracle : Nat → List Nat × List Nat,
        CState.runEach (fun j => modelLib c (env j) other (oracle j).1 (oracle j).2) cal alloc i σ p = some .running ∨
        ∃ σ', CState.runEach (fun j => modelLib c (env j) other (oracle j).1 (oracle j).2) cal alloc i σ p =
          some (.finished (σ', (w.run c p).2)) ∧ Represents s' σ') ∧
      ∃ (oracle : Nat → List Nat × List Nat) (σ' : CState T),
        CState.runEach (fun j => modelLib c (env j) other (oracle j).1 (oracle j).2) cal alloc i σ p =
          some (.finished (σ', (w.run c p).2)) ∧ Represents s' σ' := by
  induction p with
  | nil => exact fun i s w h _ => ⟨s, h, fun σ hr => ⟨fun _ => .inr ⟨σ, rfl, hr⟩, fun _ => ([], []), σ, rfl, hr⟩⟩
  | cons st p ih =>
    intro i s w h hs
    obtain ⟨hl, hsafe, hrest⟩ := hs
    obtain ⟨s1, ⟨a1, b1, b2, a2⟩, a3⟩ := store_step c (env i) other cal s w st h hl hsafe
    beta_reduce at a1 a2
    obtain ⟨s', h1, h2⟩ := ih (i + 1) s1 _ a3 (hrest b1 b2 _ _ a2)
    refine ⟨s', h1, fun σ hr => ⟨fun o => ?_, ?_⟩⟩
    · have hh := C70_step (modelLib c (env i) other (o i).1 (o i).2) cal hal hr st hl
      rcases a1 (o i).1 (o i).2 with g | g <;> rw [g] at hh
      · left; simp only [CState.runEach]; rw [hh]
      · obtain ⟨σ1, e1, r1⟩ := hh
        simp only [CState.runEach]
        rw [e1]
        dsimp only
        rcases (h2 σ1 r1).1 o with e2 | ⟨σ', e2, r2⟩ <;> rw [e2]
        · exact .inl rfl
        · exact .inr ⟨σ', rfl, r2⟩
    · have hh := C70_step (modelLib c (env i) other b1 b2) cal hal hr st hl
      rw [a2] at hh
      obtain ⟨σ1, e1, r1⟩ := hh
      obtain ⟨o, σ', e2, r2⟩ := (h2 σ1 r1).2
      refine ⟨fun j => if j = i then (b1, b2) else o j, σ', ?_, r2⟩
      simp only [CState.runEach, if_true]
      rw [e1]
      dsimp only
      rw [runEach_congr _ (fun j => modelLib c (env j) other (o j).1 (o j).2) cal alloc p (i + 1) σ1 fun j hj => by
        rw [if_neg (by omega)], e2]
      rfl

/-- C81: a C program which obeys the rules for handles, in environments which its statements accept. For every allocator it has no undefined
    behaviour and no panic under any schedules; it can finish; whenever it finishes it has got the codes and the values which the
    specification computes from signals alone; and at the end the memory contains exactly the vectors of its variables, which show the signals
    of the specification. -/
theorem C81_program (c : LibConsts T) (env : Nat → CallEnv T) (other : Lib T) (cal : Calibration) {alloc : Allocator T}
    (hal : alloc.Sound) (p : List (CStmt T)) (hs : SafeProgram c env other cal 0 (fun _ => none) p) :
    ∃ s' : Store T, s'.Shows (CWorld.run c (fun _ => none) p).1 ∧
      (∀ oracle : Nat → List Nat × List Nat,
        CState.runEach (fun j => modelLib c (env j) other (oracle j).1 (oracle j).2) cal alloc 0 (CState.start T) p = some .running ∨
        ∃ σ', CState.runEach (fun j => modelLib c (env j) other (oracle j).1 (oracle j).2) cal alloc 0 (CState.start T) p =
          some (.finished (σ', (CWorld.run c (fun _ => none) p).2)) ∧ Represents s' σ') ∧
      ∃ (oracle : Nat → List Nat × List Nat) (σ' : CState T),
        CState.runEach (fun j => modelLib c (env j) other (oracle j).1 (oracle j).2) cal alloc 0 (CState.start T) p =
          some (.finished (σ', (CWorld.run c (fun _ => none) p).2)) ∧ Represents s' σ' := by
  obtain ⟨s', h1, h2⟩ := program_each c env other cal hal p 0 (fun _ => none) (fun _ => none) (fun _ => trivial) hs
  exact ⟨s', h1, h2 _ represents_start⟩

omit [IsStrictOrderedRing T] in
theorem run_plain (c : LibConsts T) : ∀ (p : List (CStmt T)) (w : CWorld T), w.run c (p.map CStmt.plain) = w.run c p
  | [], _ => rfl
  | s :: p, w => by
    have h : w.step c s.plain = w.step c s := by cases s <;> rfl
    simp only [List.map_cons, CWorld.run, h, run_plain c p]

/-- C81: what a C program gets back and the signals which it holds at the end do not depend on the machine: registers, addresses, contents of
    scratch memory, the calibration, the allocator, the options for the performance, the schedules of the workers and the methods which are
    not described make no difference. -/
theorem C81_environment (c : LibConsts T) (e1 e2 : Nat → CallEnv T) (l1 l2 : Lib T) (cal1 cal2 : Calibration) {al1 al2 : Allocator T}
    (h1 : al1.Sound) (h2 : al2.Sound) (p1 p2 : List (CStmt T)) (hp : p1.map CStmt.plain = p2.map CStmt.plain)
    (s1 : SafeProgram c e1 l1 cal1 0 (fun _ => none) p1) (s2 : SafeProgram c e2 l2 cal2 0 (fun _ => none) p2)
    (o1 o2 : Nat → List Nat × List Nat) (σ1 σ2 : CState T) (out1 out2 : List (COut T))
    (r1 : CState.runEach (fun j => modelLib c (e1 j) l1 (o1 j).1 (o1 j).2) cal1 al1 0 (CState.start T) p1 = some (.finished (σ1, out1)))
    (r2 : CState.runEach (fun j => modelLib c (e2 j) l2 (o2 j).1 (o2 j).2) cal2 al2 0 (CState.start T) p2 = some (.finished (σ2, out2))) :
    out1 = out2 ∧ ∃ a b, Represents a σ1 ∧ Represents b σ2 ∧ a.SameSignals b := by
  obtain ⟨a, a0, a1, -⟩ := C81_program c e1 l1 cal1 h1 p1 s1
  obtain ⟨b, b0, b1, -⟩ := C81_program c e2 l2 cal2 h2 p2 s2
  rcases a1 o1 with e | ⟨_, e, ra⟩ <;> rw [r1] at e <;> cases e
  rcases b1 o2 with e | ⟨_, e, rb⟩ <;> rw [r2] at e <;> cases e
  have hw : CWorld.run c (fun _ => none) p1 = CWorld.run c (fun _ => none) p2 := by rw [← run_plain, hp, run_plain]
  rw [hw] at a0 ⊢
  refine ⟨rfl, a, b, ra, rb, fun x => ?_⟩
  have ha := a0 x
  have hb := b0 x
  cases e3 : (CWorld.run c (fun _ => none) p2).1 x <;> cases e1 : a x <;> cases e2 : b x <;> rw [e1, e3] at ha <;> rw [e2, e3] at hb <;>
    first
      | exact ha.elim
      | exact hb.elim
      | trivial
      | exact ⟨ha.content.trans hb.content.symm, ha.isComplex.trans hb.isComplex.symm, ha.dom.trans hb.dom.symm, ha.delta.trans hb.delta.symm⟩

/-- C81: a C program which has given away all of its signals leaves no memory behind. -/
theorem C81_no_leak (c : LibConsts T) (env : Nat → CallEnv T) (other : Lib T) (cal : Calibration) {alloc : Allocator T}
    (hal : alloc.Sound) (p : List (CStmt T)) (hs : SafeProgram c env other cal 0 (fun _ => none) p)
    (he : ∀ x, (CWorld.run c (fun _ => none) p).1 x = none) (oracle : Nat → List Nat × List Nat) (σ : CState T) (out : List (COut T))
    (hr : CState.runEach (fun j => modelLib c (env j) other (oracle j).1 (oracle j).2) cal alloc 0 (CState.start T) p =
      some (.finished (σ, out))) : σ.heap = [] := by
  obtain ⟨a, a0, a1, -⟩ := C81_program c env other cal hal p hs
  rcases a1 oracle with e | ⟨_, e, ra⟩ <;> rw [hr] at e <;> cases e
  cases e : σ.heap with
  | nil => rfl
  | cons q l =>
    obtain ⟨d, iv⟩ := q
    obtain ⟨x, h3, _⟩ := ra.owned d iv (by rw [e]; simp [CHeap.find])
    have := a0 x
    rw [he x] at this
    cases e4 : a x with
    | none => exact absurd e4 h3
    | some iv' => rw [e4] at this; exact this.elim

omit [IsStrictOrderedRing T] in
/-- C81 is violated by the inverse transforms: `plain_ifft` of a vector in frequency domain reports success but the C program still has a
    vector in frequency domain, and the next `plain_ifft` transforms it once more. -/
theorem C81_ifft_violated (c : LibConsts T) (hK : c.kernel.KeepsLength) (e : CallEnv T) (other : Lib T) (iv : InteropVec T)
    (hv : iv.vec.WF) (hg : iv.vec.Generic) (hd : iv.vec.dom = .frequency) (hp : iv.vec.points ≠ 0) (m : List T) (hb : iv.buffer = .single m)
    (s1 s2 : List Nat) :
    ∃ r, (CFun.vec .plainIfft).call (modelLib c e other s1 s2) iv [] = .finished r ∧ r.out.code = some 0 ∧
      (CFun.getDomain).call (modelLib c e other s1 s2) r.self [] = .finished ⟨r.self, [], ⟨none, [.int 1]⟩⟩ := by
  obtain ⟨w, b', cs, h1, -, -, h4, -, -, h7, -⟩ := C34_plain_ifft c.kernel hK iv.vec hv (.inl hg) hd iv.buffer
    ⟨fun hc => ⟨fun h0 => hp (by have : iv.vec.validLen = 0 := h0; simp [DspVec.points, this]), by rw [hb]; trivial⟩, by rw [hb]; trivial⟩
  have hm : (modelLib c e other s1 s2).method .plainIfft iv.settings iv.vec iv.buffer [] = .finished (w, .single e.leftover, .ok ()) := by
    rw [modelLib_method c e other s1 s2 (s := .single 0 (.plainIfft c.kernel iv.buffer)) rfl]
    have : iv.vec.exec (.plainIfft c.kernel iv.buffer) = .finished w := by simp [DspVec.exec, DspVec.apply, h1, Outcome.ofOption]
    simp only [Stmt.exec, VecOp.withSchedule, localMachine, List.getElem?_cons_zero, Option.getD_some, this]; rfl
  have hw : w.dom = .frequency := h7 hg
  have he : w.isErroneous = false := by
    have : w.validLen ≠ 0 := fun h0 => hp (by rw [← h4]; simp [DspVec.points, h0])
    simp [DspVec.isErroneous, this]
  refine ⟨⟨⟨.single e.leftover, w, iv.settings⟩, [], ⟨some 0, []⟩⟩, ?_, rfl, ?_⟩
  · show convertVec _ _ _ _ = _
    unfold convertVec
    rw [show VecFun.plainIfft.method = LibMethod.plainIfft (T := T) from rfl, List.map_nil, hm]
    simp only [Outcome.andThen, resultCode, getErrorMarker, he]; rfl
  · simp only [CFun.call, hw]

end

/-! ### The hypotheses can be met -/

/-- For the example: the functions of the standard library are not called. -/
def facadeConsts : LibConsts ℚ where
  math := ⟨fun _ x => x, fun _ x => x, id, id, abs⟩
  kernel := ⟨id, id, fun _ => 0, fun _ => true⟩
  cis := fun x => ⟨x, 0⟩
  pi := 3
  sin := id
  cos := id
  cart := Cx.mk
  polar := fun z => (z.re, z.im)
  magnitude := Cx.re
  magnitudeSquared := Cx.re
  phase := Cx.im
  triangular := ⟨true, fun _ _ => 1⟩
  hamming := ⟨true, fun _ _ => 1⟩
  blackmanHarris := ⟨true, fun _ _ => 1⟩

/-- For the example: registers with four lanes, aligned storage. -/
def facadeEnv : CallEnv ℚ := ⟨.fallbackF32x4, 0, id, id, id, [7, 8]⟩

/-- `a = new(0, 0, 5, 3, 1); b = new(0, 0, 7, 3, 1); c = add(a, b); get_value(c, 1); delete(c); delete(b)` -/
def sumProgram : List (CStmt ℚ) :=
  [.create 0 0 0 5 3 1 .standard, .create 1 0 0 7 3 1 (.cores 2), .call 2 0 (.vec .add) [.handle 1], .call 2 2 (.getValue 1) [],
   .delete 2, .delete 1]

theorem safe_next {c : LibConsts ℚ} {env : Nat → CallEnv ℚ} {other : Lib ℚ} {cal : Calibration} {i : Nat} {s : Store ℚ} {w : CWorld ℚ}
    {st : CStmt ℚ} {p : List (CStmt ℚ)} (h : s.Shows w) (hl : Legal s st) (hs : st.Safe c (env i) s)
    (hn : ∀ s' : Store ℚ, s'.Shows (w.step c st).1 → SafeProgram c env other cal (i + 1) s' p) : SafeProgram c env other cal i s (st :: p) := by
  refine ⟨hl, hs, fun s1 s2 s' o hf => ?_⟩
  obtain ⟨s'', ⟨a1, -⟩, a3⟩ := store_step c (env i) other cal s w st h hl hs
  rcases a1 s1 s2 with e | e <;> beta_reduce at e <;> rw [hf] at e <;> cases e
  exact hn s' a3

theorem shows_empty {s : Store ℚ} {w : CWorld ℚ} (h : s.Shows w) {x : Nat} (hx : w x = none) : s x = none := by
  have := h x
  rw [hx] at this
  cases e : s x with
  | none => rfl
  | some iv => rw [e] at this; exact this.elim

theorem shows_full {s : Store ℚ} {w : CWorld ℚ} (h : s.Shows w) {x : Nat} {sg : Signal ℚ} (hx : w x = some sg) :
    ∃ iv, s x = some iv ∧ iv.vec.Shows sg := by
  have := h x
  rw [hx] at this
  cases e : s x with
  | none => rw [e] at this; exact this.elim
  | some iv => rw [e] at this; exact ⟨iv, rfl, this⟩

/-- The worlds of the example. -/
theorem sumProgram_worlds : let w0 : CWorld ℚ := fun _ => none
    let sg := fun x : ℚ => (⟨.real [x, x, x], .time, true, some 1⟩ : Signal ℚ)
    let w1 := assign w0 0 (some (sg 5))
    let w2 := assign w1 1 (some (sg 7))
    let w3 := assign (assign w2 0 none) 2 (some (sg 12))
    CWorld.step facadeConsts w0 (.create 0 0 0 5 3 1 .standard) = (w1, ⟨none, []⟩) ∧
    CWorld.step facadeConsts w1 (.create 1 0 0 7 3 1 (.cores 2)) = (w2, ⟨none, []⟩) ∧
    CWorld.step facadeConsts w2 (.call 2 0 (.vec .add) [.handle 1]) = (w3, ⟨some 0, []⟩) ∧
    CWorld.step facadeConsts w3 (.call 2 2 (.getValue 1) []) = (w3, ⟨none, [.real 12]⟩) := by
  refine ⟨rfl, rfl, ?_, rfl⟩
  have hm : LibMethod.meaning facadeConsts (⟨.real [5, 5, 5], .time, true, some 1⟩ : Signal ℚ) [⟨.real [7, 7, 7], .time, true, some 1⟩] .add =
      ⟨⟨.real [12, 12, 12], .time, true, some 1⟩, [⟨.real [7, 7, 7], .time, true, some 1⟩], ⟨some 0, []⟩⟩ := by
    rw [meaning_method facadeConsts (call := .binary 0 1 (.elem .add)) rfl]
    have hw : (StmtCall.binary 0 1 (.elem .add)).meaning
        (localWorld (⟨.real [5, 5, 5], .time, true, some 1⟩ : Signal ℚ) [⟨.real [7, 7, 7], .time, true, some 1⟩]) =
        (localWorld (⟨.real [5, 5, 5], .time, true, some 1⟩ : Signal ℚ) [⟨.real [7, 7, 7], .time, true, some 1⟩]).put 0
          ⟨.real [12, 12, 12], .time, true, some 1⟩ [.result (.ok ())] := by
      simp [StmtCall.meaning, BinCall.meaning, localWorld, Numbers.flat, Signal.Agrees, Numbers.combine, ElemOp.real]
      norm_num [Numbers.isComplex]
    rw [hw]
    simp [localWorld, World.put, worldResult, codeOf, Numbers.count]
  show (CWorld.after _ _ _ _ _ (LibMethod.meaning facadeConsts (⟨.real [5, 5, 5], .time, true, some 1⟩ : Signal ℚ)
    [⟨.real [7, 7, 7], .time, true, some 1⟩] .add), (LibMethod.meaning facadeConsts (⟨.real [5, 5, 5], .time, true, some 1⟩ : Signal ℚ)
    [⟨.real [7, 7, 7], .time, true, some 1⟩] .add).out) = _
  rw [hm]
  rfl

theorem sumProgram_safe (cal : Calibration) : SafeProgram facadeConsts (fun _ => facadeEnv) idleLib cal 0 (fun _ => none) sumProgram := by
  obtain ⟨w1, w2, w3, w4⟩ := sumProgram_worlds
  refine safe_next (w := fun _ => none) (fun _ => trivial) rfl trivial fun s1 h1 => ?_
  rw [w1] at h1
  refine safe_next h1 (shows_empty h1 rfl) trivial fun s2 h2 => ?_
  rw [w2] at h2
  obtain ⟨u, u1, u2⟩ := shows_full h2 (x := 0) rfl
  obtain ⟨v, v1, v2⟩ := shows_full h2 (x := 1) rfl
  have huv : u.vec.len = 3 ∧ v.vec.len = 3 := ⟨u2.len, v2.len⟩
  refine safe_next h2 ⟨rfl, by rw [u1]; simp, by simp [CArg.var, v1], fun _ => by simp [CArg.var], fun h => absurd h (by decide),
    fun _ => .inr (shows_empty h2 rfl)⟩ ?_ fun s3 h3 => ?_
  · intro iv ops e1 e2
    rw [u1] at e1
    cases e1
    simp [CArg.var, v1] at e2
    subst e2
    refine ⟨_, rfl, ?_, fun _ _ => ⟨.inl (by decide), fun hc => ?_⟩⟩
    · intro d hd
      have : v.vec.delta = some d := hd
      rw [v2.delta] at this
      cases this
      norm_num
    · have : u.vec.isComplex = true := hc
      rw [u2.isComplex] at this
      cases this
  · rw [w3] at h3
    obtain ⟨x, x1, x2⟩ := shows_full h3 (x := 2) rfl
    obtain ⟨y, y1, y2⟩ := shows_full h3 (x := 1) rfl
    refine safe_next h3 ⟨rfl, by rw [x1]; simp, by simp, fun _ => by simp, fun _ => by simp, fun h => absurd rfl h⟩ ?_ fun s4 h4 => ?_
    · intro iv ops e1 e2
      rw [x1] at e1
      cases e1
      show 1 < _
      rw [x2.len]; decide
    · rw [w4] at h4
      obtain ⟨x, x1, x2⟩ := shows_full h4 (x := 2) rfl
      refine safe_next h4 (by show _ ≠ none; rw [x1]; simp) trivial fun s5 h5 => ?_
      obtain ⟨y, y1, y2⟩ := shows_full h5 (x := 1) rfl
      exact safe_next h5 (by show _ ≠ none; rw [y1]; simp) trivial fun _ _ => trivial

/-- The program gets the code 0 and the value 12 and leaves no memory behind. -/
example (cal : Calibration) (oracle : Nat → List Nat × List Nat) (σ : CState ℚ) (out : List (COut ℚ))
    (hr : CState.runEach (fun j => modelLib facadeConsts facadeEnv idleLib (oracle j).1 (oracle j).2) cal firstFree 0 (CState.start ℚ)
      sumProgram = some (.finished (σ, out))) :
    σ.heap = [] ∧ out = [⟨none, []⟩, ⟨none, []⟩, ⟨some 0, []⟩, ⟨none, [.real 12]⟩, ⟨none, []⟩, ⟨none, []⟩] := by
  obtain ⟨w1, w2, w3, w4⟩ := sumProgram_worlds
  have hw : CWorld.run facadeConsts (fun _ => none) sumProgram = (fun _ => none,
      [⟨none, []⟩, ⟨none, []⟩, ⟨some 0, []⟩, ⟨none, [.real 12]⟩, ⟨none, []⟩, ⟨none, []⟩]) := by
    simp only [sumProgram, CWorld.run, w1, w2, w3, w4]
    simp only [CWorld.step, Prod.mk.injEq, and_true]
    funext x
    simp only [assign]
    split_ifs <;> rfl
  refine ⟨C81_no_leak facadeConsts (fun _ => facadeEnv) idleLib cal firstFree_sound sumProgram (sumProgram_safe cal) (fun x => by rw [hw]) oracle σ out hr, ?_⟩
  obtain ⟨a, a0, a1, -⟩ := C81_program facadeConsts (fun _ => facadeEnv) idleLib cal firstFree_sound sumProgram (sumProgram_safe cal)
  rcases a1 oracle with e | ⟨_, e, ra⟩ <;> rw [hr] at e
  · cases e
  · rw [hw] at e; cases e; rfl

/-- Non-vacuity of `C81_environment`: other registers, another calibration and other options. -/
example (cal1 cal2 : Calibration) (o1 o2 : Nat → List Nat × List Nat) (σ1 σ2 : CState ℚ) (out1 out2 : List (COut ℚ))
    (r1 : CState.runEach (fun j => modelLib facadeConsts facadeEnv idleLib (o1 j).1 (o1 j).2) cal1 firstFree 0 (CState.start ℚ)
      sumProgram = some (.finished (σ1, out1)))
    (r2 : CState.runEach (fun j => modelLib facadeConsts facadeEnv idleLib (o2 j).1 (o2 j).2) cal2 firstFree 0 (CState.start ℚ)
      sumProgram = some (.finished (σ2, out2))) : out1 = out2 :=
  (C81_environment facadeConsts (fun _ => facadeEnv) (fun _ => facadeEnv) idleLib idleLib cal1 cal2 firstFree_sound firstFree_sound
    sumProgram sumProgram rfl (sumProgram_safe cal1) (sumProgram_safe cal2) o1 o2 σ1 σ2 out1 out2 r1 r2).1

/-- Non-vacuity of `C81_ifft_violated`: a new vector with two complex numbers. -/
example (cal : Calibration) : ∃ r, (CFun.vec .plainIfft).call (modelLib facadeConsts facadeEnv idleLib [] []) (newVector cal 1 1 5 4 1 .standard)
      [] = .finished r ∧ r.out.code = some 0 ∧
      (CFun.getDomain).call (modelLib facadeConsts facadeEnv idleLib [] []) r.self [] = .finished ⟨r.self, [], ⟨none, [.int 1]⟩⟩ :=
  C81_ifft_violated facadeConsts ⟨fun _ => rfl, fun _ => rfl⟩ facadeEnv idleLib _
    (newVector_shows (T := ℚ) cal 1 1 5 4 1 .standard).wf ⟨true, .frequency, rfl, rfl⟩ rfl (by rw [(newVector_shows (T := ℚ) cal 1 1 5 4 1 .standard).points]; decide) [] rfl [] []

end Dsp
