import Verif.Spec.Interop
import Verif.Lemmas.Complex
import Verif.Props.InteropHeap
import Mathlib.Tactic.FieldSimp
import Mathlib.Tactic.LinearCombination
/-
C68: the codes which the C facade reports. C69: the exported functions call the methods which their names promise with the arguments which
they were given.
-/
namespace Dsp
variable {T : Type}

/-! ### C68: codes -/

theorem translateError_documented (e : ErrorReason) (h1 : e ≠ .inputMustHaveAnEvenLength) (h2 : e ≠ .typeCanNotResize) :
    (translateError e, e) ∈ documentedErrors := by
  cases e <;> first | exact absurd rfl h1 | exact absurd rfl h2 | decide

theorem resultCode_reports (iv : InteropVec T) (res : VoidResult)
    (h : ∀ e, res = .error e → e ≠ .inputMustHaveAnEvenLength ∧ e ≠ .typeCanNotResize) : Reports (resultCode iv res) iv.vec res := by
  cases res with
  | ok u =>
    cases u
    show (_ ∧ _) ∨ _
    unfold resultCode getErrorMarker
    cases e : iv.vec.isErroneous
    · exact .inl ⟨rfl, rfl⟩
    · exact .inr ⟨rfl, rfl⟩
  | error e => exact translateError_documented e (h e rfl).1 (h e rfl).2

section
variable [Zero T] [One T] [Add T] [Sub T] [Mul T] [Div T] (lib : Lib T)

/-- C68: an exported function which gives back a vector calls one method of the library, with the vector, its buffer, its settings and
    the other vectors in their order, and terminates as that does. It gives back the vector and the buffer which the method has
    left, does not change the other vectors, and its code tells how the method ended (if the error has a documented number). -/
theorem C68_vectors (f : VecFun T) (iv : InteropVec T) (ops : List (InteropVec T)) :
    match lib.method f.method iv.settings iv.vec iv.buffer (ops.map (·.vec)) with
    | .panic => (CFun.vec f).call lib iv ops = .panic
    | .running => (CFun.vec f).call lib iv ops = .running
    | .finished (w, b, res) => ∃ c, (CFun.vec f).call lib iv ops = .finished ⟨⟨b, w, iv.settings⟩, ops, ⟨some c, []⟩⟩ ∧
        ((∀ e, res = .error e → e ≠ .inputMustHaveAnEvenLength ∧ e ≠ .typeCanNotResize) → Reports c w res) := by
  simp only [CFun.call, convertVec]
  cases lib.method f.method iv.settings iv.vec iv.buffer (ops.map (·.vec)) with
  | panic => rfl
  | running => rfl
  | finished r =>
    obtain ⟨w, b, res⟩ := r
    exact ⟨_, rfl, resultCode_reports ⟨b, w, iv.settings⟩ res⟩

/-- C68: a scalar which the library computes is given back with the code 0, or -1 if the vector was marked as invalid; if the library
    reports an error then the value is zero and the code is the documented one. -/
theorem C68_scalars (f : ScalarFun T) (iv : InteropVec T) (ops : List (InteropVec T)) :
    match lib.scalar f iv.settings iv.vec (ops.map (·.vec)) with
    | .panic => (CFun.scalar f).call lib iv ops = .panic
    | .running => (CFun.scalar f).call lib iv ops = .running
    | .finished (.ok x) => ∃ c, (CFun.scalar f).call lib iv ops = .finished ⟨iv, ops, ⟨some c, [x]⟩⟩ ∧ Reports c iv.vec (.ok ())
    | .finished (.error e) => ∃ c z, (CFun.scalar f).call lib iv ops = .finished ⟨iv, ops, ⟨some c, [z]⟩⟩ ∧ IsZeroOf f z ∧
        (e ≠ .inputMustHaveAnEvenLength → e ≠ .typeCanNotResize → Reports c iv.vec (.error e)) := by
  simp only [CFun.call]
  cases lib.scalar f iv.settings iv.vec (ops.map (·.vec)) with
  | panic => rfl
  | running => rfl
  | finished r =>
    cases r with
    | ok x => exact ⟨_, rfl, resultCode_reports iv (.ok ()) (fun e h => by cases h)⟩
    | error e => exact ⟨_, f.default, rfl, by cases f <;> rfl, translateError_documented e⟩

/-- C68: the functions which split statistics fill the array of the C program from its start and report 0, or they leave the array as it
    was and report the documented code. They panic only if the library computes more statistics than it was asked for. -/
theorem C68_statistics (f : SplitFun) (iv : InteropVec T) (data : List (Value T)) :
    match lib.statistics f iv.settings iv.vec data.length with
    | .panic => (CFun.statisticsSplit f data).call lib iv [] = .panic
    | .running => (CFun.statisticsSplit f data).call lib iv [] = .running
    | .finished (.ok s) => s.length ≤ data.length →
        (CFun.statisticsSplit f data).call lib iv [] = .finished ⟨iv, [], ⟨some 0, s ++ data.drop s.length⟩⟩
    | .finished (.error e) => ∃ c, (CFun.statisticsSplit f data).call lib iv [] = .finished ⟨iv, [], ⟨some c, data⟩⟩ ∧
        (e ≠ .inputMustHaveAnEvenLength → e ≠ .typeCanNotResize → (c, e) ∈ documentedErrors) := by
  simp only [CFun.call]
  cases lib.statistics f iv.settings iv.vec data.length with
  | panic => rfl
  | running => rfl
  | finished r =>
    cases r with
    | ok s =>
      intro h
      simp only [Outcome.andThen, writeStatistics, if_pos h]
      simp [splice]
    | error e => exact ⟨_, rfl, translateError_documented e⟩

/-- C68: the functions which give back a plain value give back what the library computes. -/
theorem C68_values (f : ValueFun) (iv : InteropVec T) :
    (CFun.value f).call lib iv [] = (lib.value f iv.settings iv.vec).andThen fun x => .finished ⟨iv, [], ⟨none, [x]⟩⟩ := rfl

omit [Zero T] [One T] [Add T] [Sub T] [Mul T] [Div T] in
/-- C68: a code is never ambiguous, two different results of the same operation are reported with different codes. -/
theorem C68_unambiguous (c : Int) (w : DspVec T) (res res' : VoidResult) (h : Reports c w res) (h' : Reports c w res') : res = res' := by
  have key : ∀ (c : Int) (e e' : ErrorReason), (c, e) ∈ documentedErrors → (c, e') ∈ documentedErrors → e = e' ∧ c ≠ 0 ∧ c ≠ -1 := by
    intro c e e' h1 h2
    simp only [documentedErrors, List.mem_cons, Prod.mk.injEq, List.not_mem_nil, or_false] at h1 h2
    rcases h1 with ⟨rfl, rfl⟩ | ⟨rfl, rfl⟩ | ⟨rfl, rfl⟩ | ⟨rfl, rfl⟩ | ⟨rfl, rfl⟩ | ⟨rfl, rfl⟩ | ⟨rfl, rfl⟩ | ⟨rfl, rfl⟩ | ⟨rfl, rfl⟩ |
      ⟨rfl, rfl⟩ | ⟨rfl, rfl⟩ | ⟨rfl, rfl⟩ <;> exact ⟨by simpa [eq_comm] using h2, by decide, by decide⟩
  cases res with
  | ok u =>
    cases u
    cases res' with
    | ok u' => cases u'; rfl
    | error e' =>
      have := key c e' e' h' h'
      rcases h with h | h
      · exact absurd h.2 this.2.1
      · exact absurd h.2 this.2.2
  | error e =>
    cases res' with
    | ok u' =>
      cases u'
      have := key c e e h h
      rcases h' with h' | h'
      · exact absurd h'.2 this.2.1
      · exact absurd h'.2 this.2.2
    | error e' => rw [(key c e e' h h').1]

/-- C68: different errors have different codes, and no error has the code of a success. -/
theorem C68_distinct (e e' : ErrorReason) : (translateError e = translateError e' → e = e') ∧ translateError e ≠ 0 ∧ translateError e ≠ -1 := by
  cases e <;> cases e' <;> decide

/-- C68 is violated by the documentation: two errors are reported with codes which it does not list ("If you see a value which isn't
    listed here then please report a bug"). -/
theorem C68_undocumented_violated (f : VecFun T) (iv : InteropVec T) (ops : List (InteropVec T)) (w : DspVec T) (b : Buffer T)
    (e : ErrorReason) (he : e = .inputMustHaveAnEvenLength ∨ e = .typeCanNotResize)
    (h : lib.method f.method iv.settings iv.vec iv.buffer (ops.map (·.vec)) = .finished (w, b, .error e)) :
    ∃ c, (CFun.vec f).call lib iv ops = .finished ⟨⟨b, w, iv.settings⟩, ops, ⟨some c, []⟩⟩ ∧ c ≠ 0 ∧ c ≠ -1 ∧
      ∀ e', (c, e') ∉ documentedErrors := by
  refine ⟨translateError e, ?_, ?_⟩
  · simp only [CFun.call, convertVec, h, Outcome.andThen, resultCode]
  · rcases he with rfl | rfl
    · exact ⟨by decide, by decide, fun e' => by cases e' <;> decide⟩
    · exact ⟨by decide, by decide, fun e' => by cases e' <;> decide⟩

/-- C68 is violated by the functions which write to other vectors: whenever they succeed they report 9, which is the code of
    `VectorMustHaveAnOddLength`. There is no call of them which reports success. -/
theorem C68_getters_violated (f : FillFun) (iv : InteropVec T) (ops : List (InteropVec T)) (r : Reply T)
    (h : (CFun.fill f).call lib iv ops = .finished r) :
    r.out.code = some 9 ∧ (9, ErrorReason.inputMustHaveAnOddLength) ∈ documentedErrors := by
  simp only [CFun.call] at h
  cases e : lib.fill f iv.settings iv.vec (ops.map (·.vec)) with
  | panic => rw [e] at h; cases h
  | running => rw [e] at h; cases h
  | finished x => rw [e] at h; cases h; exact ⟨rfl, by decide⟩

/-- C68 is violated by `split_into` in the same way; its errors are reported with their documented codes. -/
theorem C68_split_into_violated (iv : InteropVec T) (ops : List (InteropVec T)) (vs : List (DspVec T)) (res : VoidResult)
    (h : lib.split iv.vec (ops.map (·.vec)) = .finished (vs, res)) :
    ∃ c, CFun.splitInto.call lib iv ops = .finished ⟨iv, putVecs ops vs, ⟨some c, []⟩⟩ ∧ (res = .ok () → c = 9) ∧
      ∀ e, res = .error e → c = translateError e := by
  refine ⟨convertVoid res, ?_, ?_, ?_⟩
  · simp only [CFun.call, h, Outcome.andThen]
  · rintro rfl; rfl
  · rintro e rfl; rfl

/-! ### C69: names and arguments -/

/-- C69: every exported function which gives back a vector calls the method whose name it has, except `atan` and `complex_divide`. -/
theorem C69_names (f : VecFun T) (h1 : f ≠ .atan) (h2 : ∀ re im, f ≠ .complexDivide re im) : NameOf f.words f.method.words := by
  cases f <;> first
    | exact absurd rfl h1
    | exact absurd rfl (h2 _ _)
    | (simp only [VecFun.words, VecFun.method, LibMethod.words]
       repeat' first | exact .done | exact .buffered | apply NameOf.same | exact .qualifier _ (by decide) (by
         repeat' first | exact .done | exact .buffered | apply NameOf.same))

/-- C69: where the arguments have a documented meaning, the method gets the arguments which were passed, in their order, with codes
    translated as documented and every function of the C program applied to the data pointer which came with it. -/
theorem C69_args (f : VecFun T) (hd : f.Documented) (h2 : ∀ re im, f ≠ .complexDivide re im) : ArgsMatch f.args f.method.args := by
  have hw : ∀ c : Int, (translateToWindowFunction c : WindowArg T) = documentedWindow c := by
    intro c
    unfold translateToWindowFunction documentedWindow
    split <;> first | rfl | (rename_i h0 h1 h2 h3; simp only [if_neg h0, if_neg h1, if_neg h2])
  have hf : ∀ c : Int, 0 ≤ c → c < 2 ^ 31 → ∃ n : Nat, c = (n : Int) ∧ asU32 c = n := by
    intro c h0 h1
    obtain ⟨n, rfl⟩ := Int.eq_ofNat_of_zero_le h0
    refine ⟨n, rfl, ?_⟩
    unfold asU32
    omega
  have hp : ∀ c : Int, 0 ≤ c → c ≤ 2 → (c, translateToPaddingOption c) ∈ documentedPaddings := by
    intro c h0 h1
    have : c = 0 ∨ c = 1 ∨ c = 2 := by omega
    rcases this with rfl | rfl | rfl <;> decide
  cases f <;> simp only [VecFun.args, VecFun.method, LibMethod.args]
  case zeroPad n o => exact .usize _ (.padding _ _ (hp o hd.1 hd.2) .nil)
  case zeroInterleave c =>
    obtain ⟨n, rfl, e⟩ := hf c hd.1 hd.2
    rw [e]; exact .factor _ .nil
  case interpolateiCustom g a b c =>
    obtain ⟨n, rfl, e⟩ := hf c hd.1 hd.2
    rw [e]; exact .foreignResponse _ _ _ (.factor _ .nil)
  case interpolatei k r c =>
    obtain ⟨n, rfl, e⟩ := hf c hd.2.1 hd.2.2
    rw [e]
    rcases hd.1 with rfl | rfl
    · exact .sinc _ (.factor _ .nil)
    · exact .raisedCosine _ (.factor _ .nil)
  case convolve k r a n =>
    rcases hd with rfl | rfl
    · exact .sinc _ (.real _ (.usize _ .nil))
    · exact .raisedCosine _ (.real _ (.usize _ .nil))
  case multiplyFrequencyResponse k r a =>
    rcases hd with rfl | rfl
    · exact .sinc _ (.real _ .nil)
    · exact .raisedCosine _ (.real _ .nil)
  case interpolatef k r a b n =>
    rcases hd with rfl | rfl
    · exact .sinc _ (.real _ (.real _ (.usize _ .nil)))
    · exact .raisedCosine _ (.real _ (.real _ (.usize _ .nil)))
  case interpolate k r n a =>
    rcases hd with rfl | rfl
    · exact .sinc _ (.usize _ (.real _ .nil))
    · exact .raisedCosine _ (.usize _ (.real _ .nil))
  case complexDivide re im => exact absurd rfl (h2 re im)
  all_goals
    try rw [hw]
    repeat' first
      | exact .nil
      | exact .window _ .nil
      | apply ArgsMatch.foreignWindow
      | apply ArgsMatch.foreignResponse
      | apply ArgsMatch.foreignComplex
      | apply ArgsMatch.complex
      | apply ArgsMatch.real
      | apply ArgsMatch.usize
      | apply ArgsMatch.u32
      | apply ArgsMatch.mapReal
      | apply ArgsMatch.mapComplex

/-- C69: an exported function takes as many other vectors as the method which it calls; the vectors are handles (for `sub`: the address
    of one). -/
theorem C69_vectors (f : VecFun T) (args : List CArg) :
    f.operands.fits args = true ↔ f.method.TakesVectors args.length ∧
      ∀ c ∈ args, (f ≠ .sub → c = .handle c.var) ∧ (f = .sub → c = .addressOf c.var) := by
  have h1 : ∀ p : Passed, p ≠ .refBox → ∀ c : CArg, c.fits p = true ↔ c = .handle c.var := by
    intro p hp c
    cases c <;> cases p <;> simp_all [CArg.fits, CArg.var]
  have h2 : ∀ c : CArg, c.fits .refBox = true ↔ c = .addressOf c.var := by
    intro c
    cases c <;> simp [CArg.fits, CArg.var]
  have e0 : (OperandSig.params []).fits args = true ↔ args.length = 0 := by
    cases args <;> simp [OperandSig.fits]
  have e1 : ∀ p, (OperandSig.params [p]).fits args = true ↔ args.length = 1 ∧ ∀ c ∈ args, c.fits p = true := by
    intro p
    match args with
    | [] => simp [OperandSig.fits]
    | [a] => simp [OperandSig.fits]
    | a :: b :: l => simp [OperandSig.fits]
  have e2 : (OperandSig.params [.ref, .ref]).fits args = true ↔ args.length = 2 ∧ ∀ c ∈ args, c.fits .ref = true := by
    match args with
    | [] => simp [OperandSig.fits]
    | [a] => simp [OperandSig.fits]
    | [a, b] => simp [OperandSig.fits]
    | a :: b :: c :: l => simp [OperandSig.fits]
  have e3 : OperandSig.array.fits args = true ↔ ∀ c ∈ args, c.fits .ref = true := by
    simp [OperandSig.fits]
  have nil : ∀ {P : CArg → Prop}, (args.length = 0 ↔ args.length = 0 ∧ ∀ c ∈ args, P c) := by
    intro P
    constructor
    · intro h
      rw [List.length_eq_zero_iff] at h
      subst h
      exact ⟨rfl, fun _ h => absurd h List.not_mem_nil⟩
    · exact fun h => h.1
  cases f <;> simp only [VecFun.operands, VecFun.method, LibMethod.TakesVectors, e0, e1, e2, e3, true_and, and_true, ne_eq, reduceCtorEq, not_false_eq_true, not_true, forall_true_left, IsEmpty.forall_iff, h2,
      h1 .ref (by decide)] <;>
    exact nil

omit [Zero T] [One T] [Add T] [Sub T] [Mul T] [Div T] in
/-- C69: a function which writes to other vectors takes the handle of each of its targets; the products take the handle of the other
    factor. -/
theorem C69_targets (f : FillFun) (g : ScalarFun T) (args : List CArg) :
    ((CFun.fill (T := T) f).operands.fits args = true ↔ args.length = f.targets ∧ ∀ c ∈ args, c = .handle c.var) ∧
    ((∀ m a, g ≠ .mapAggregateReal m a) → (∀ m a, g ≠ .mapAggregateComplex m a) →
      ((CFun.scalar g).operands.fits args = true ↔ args.length = 1 ∧ ∀ c ∈ args, c = .handle c.var)) := by
  have h1 : ∀ p : Passed, p ≠ .refBox → ∀ c : CArg, c.fits p = true ↔ c = .handle c.var := by
    intro p hp c
    cases c <;> cases p <;> simp_all [CArg.fits, CArg.var]
  have e1 : ∀ p, p ≠ .refBox → ((OperandSig.params [p]).fits args = true ↔ args.length = 1 ∧ ∀ c ∈ args, c = .handle c.var) := by
    intro p hp
    match args with
    | [] => simp [OperandSig.fits]
    | [a] => simp [OperandSig.fits, h1 p hp]
    | a :: b :: l => simp [OperandSig.fits]
  have e2 : ((OperandSig.params [.refMut, .refMut]).fits args = true ↔ args.length = 2 ∧ ∀ c ∈ args, c = .handle c.var) := by
    match args with
    | [] => simp [OperandSig.fits]
    | [a] => simp [OperandSig.fits]
    | [a, b] => simp [OperandSig.fits, h1 .refMut (fun h => by cases h)]
    | a :: b :: c :: l => simp [OperandSig.fits]
  constructor
  · cases f
    case getRealImag => exact e2
    case getMagPhase => exact e2
    all_goals exact e1 .refMut (fun h => by cases h)
  · intro h2 h3
    cases g
    case mapAggregateReal m a => exact absurd rfl (h2 m a)
    case mapAggregateComplex m a => exact absurd rfl (h3 m a)
    all_goals exact e1 .ref (fun h => by cases h)

omit [Zero T] [One T] [Add T] [Sub T] [Mul T] [Div T] in
/-- C69, exact description of undocumented codes: every other padding code centres, every other response code is the raised cosine. -/
theorem C69_other_codes (c : Int) (r : T) : ((c ≠ 0 → c ≠ 1 → translateToPaddingOption c = .center)) ∧
    (c ≠ 0 → translateToRealFunction c r = .raisedCosine r) := by
  refine ⟨fun h0 h1 => ?_, fun h => if_neg h⟩
  unfold translateToPaddingOption
  split
  · exact absurd rfl h0
  · exact absurd rfl h1
  · rfl

/-- C69 is violated by `atan`: it calls `tan`, for every vector. Whatever the library does for `tan`, that is what the C program gets. -/
theorem C69_atan_violated (iv : InteropVec T) (ops : List (InteropVec T)) :
    (CFun.vec .atan).call lib iv ops = (CFun.vec .tan).call lib iv ops ∧ ¬ NameOf (VecFun.atan (T := T)).words (VecFun.atan (T := T)).method.words := by
  refine ⟨rfl, fun h => ?_⟩
  have key : ∀ xs ys, NameOf xs ys → xs = ["atan"] → ys = ["tan"] → False := by
    intro xs ys h hx hy
    cases h with
    | done => cases hx
    | buffered => cases hx
    | same w h =>
      injection hx with hx _
      injection hy with hy _
      exact absurd (hx.symm.trans hy) (by decide)
    | qualifier w hq h =>
      injection hx with hx _
      subst hx
      exact absurd hq (by decide)
  exact key _ _ h rfl rfl

/-- C69 is violated for negative factors: `zero_interleave` and `interpolatei` take a signed factor but do not reject negative ones, they
    ask the library for a factor of at least `2^31`. -/
theorem C69_negative_factor_violated (n : Nat) (h0 : 0 < n) (h : n ≤ 2 ^ 31) :
    (VecFun.zeroInterleave (T := T) (-(n : Int))).method = .zeroInterleaveB (2 ^ 32 - n) ∧
    (∀ r : T, (VecFun.interpolatei 0 r (-(n : Int))).method = .interpolatei .sinc (2 ^ 32 - n)) ∧ 2 ^ 31 ≤ 2 ^ 32 - n := by
  have e : asU32 (-(n : Int)) = 2 ^ 32 - n := by unfold asU32; omega
  refine ⟨?_, fun r => ?_, by omega⟩
  · simp only [VecFun.method, e]
  · simp only [VecFun.method, e]; rfl

omit [Zero T] [One T] [Add T] [Sub T] [Mul T] [Div T] in
/-- C69 is violated by `fft_shift` and `ifft_shift`: a C program can not call them, since their symbols are not exported. All other
    functions can be linked. -/
theorem C69_link_violated (f : VecFun T) : f.linkable = false ↔ f = .fftShift ∨ f = .ifftShift := by
  cases f <;> simp [VecFun.linkable]

end

/-- C69: `complex_divide` scales with the number whose product with the given one is one, that is, it divides. -/
theorem C69_divide [Field T] (re im : T) (h : re * re + im * im ≠ 0) :
    ∃ z : Cx T, (VecFun.complexDivide re im).method = .scaleComplex z ∧ z * ⟨re, im⟩ = ⟨1, 0⟩ ∧
      ∀ x y : Cx T, x * z = y ↔ x = y * ⟨re, im⟩ := by
  have hz : ((⟨1, 0⟩ : Cx T) / ⟨re, im⟩) * ⟨re, im⟩ = ⟨1, 0⟩ := (Cx.div_mul (⟨1, 0⟩ : Cx T) ⟨re, im⟩ h).2
  refine ⟨_, rfl, hz, fun x y => ?_⟩
  have h1 : (⟨1, 0⟩ : Cx T) = 1 := rfl
  rw [h1] at hz ⊢
  constructor
  · rintro rfl
    rw [mul_assoc, hz, mul_one]
  · rintro rfl
    rw [mul_assoc, mul_comm (⟨re, im⟩ : Cx T), hz, mul_one]

/-! ### The hypotheses can be met -/

/-- A library in which every vector which has a length is rejected. -/
def rejectingLib (e : ErrorReason) : Lib ℚ :=
  { idleLib with
    method := fun _ _ v b _ => .finished (v, b, .error e)
    statistics := fun _ _ _ n => if n = 0 then .finished (.error e) else .finished (.ok [.real 1, .real 2]) }

/-- C68: an error, a success and a vector which was marked as invalid. -/
example : ∃ r1 r2 r3,
    (CFun.vec (.realScale 2)).call (rejectingLib .inputMustBeReal) ⟨.single [], toGenDspVec (.vec [1, 2] 0) true .time, ⟨1, 0, 0, 0, 0⟩⟩ []
      = .finished r1 ∧ r1.out.code = some 4 ∧
    (CFun.vec (.realScale 2)).call idleLib ⟨.single [], toGenDspVec (.vec [1, 2] 0) true .time, ⟨1, 0, 0, 0, 0⟩⟩ [] = .finished r2 ∧
      r2.out.code = some 0 ∧
    (CFun.vec (.realScale 2)).call idleLib ⟨.single [], (toGenDspVec (.vec [1, 2] 0) true .time).markInvalid, ⟨1, 0, 0, 0, 0⟩⟩ [] = .finished r3 ∧
      r3.out.code = some (-1) := ⟨_, _, _, rfl, rfl, rfl, rfl, rfl, rfl⟩

/-- C68: an array which is longer than the result is filled from its start. -/
example : (CFun.statisticsSplit .real [.real 7, .real 8, .real 9]).call (rejectingLib .inputMustBeReal)
    ⟨.single [], toGenDspVec (.vec [1, 2] 0) false .time, ⟨1, 0, 0, 0, 0⟩⟩ [] =
    .finished ⟨⟨.single [], toGenDspVec (.vec [1, 2] 0) false .time, ⟨1, 0, 0, 0, 0⟩⟩, [], ⟨some 0, [.real 1, .real 2, .real 9]⟩⟩ := rfl

/-- C69: calls with documented arguments. -/
example : (VecFun.zeroPad (T := ℚ) 8 1).Documented ∧ (VecFun.interpolatei 1 (3 : ℚ) 5).Documented ∧
    ArgsMatch (VecFun.interpolatei 1 (3 : ℚ) 5).args [.response (.raisedCosine 3), .nat 5] := by
  refine ⟨⟨by decide, by decide⟩, ?_, .raisedCosine _ (.factor 5 .nil)⟩
  exact ⟨.inr rfl, by decide, by decide⟩

end Dsp
