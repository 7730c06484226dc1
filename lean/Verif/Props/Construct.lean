import Verif.Spec.Storage
import Verif.Lemmas.Points
/-
C02 (`resize`) and C03 (constructors).
-/
namespace Dsp
open DspVec
variable {T : Type}

/-- C02: complete description of `resize` for every storage a user can supply: when it fails, with
    which error, and that nothing changes then; otherwise the length is as requested, the common
    prefix and the meta data are unchanged and the vector is well formed. Cells which did not exist
    before hold zeros. -/
theorem C02_resize [Zero T] (v : DspVec T) (h : v.WF) (hk : NotInline v.data.kind) (n : Nat) :
    (v.isComplex = true ∧ n % 2 = 1 → v.resize n = (v, .error .inputMustHaveAnEvenLength)) ∧
    (¬ (v.isComplex = true ∧ n % 2 = 1) → ¬ CanHold v.data n →
        v.resize n = (v, .error .typeCanNotResize)) ∧
    (¬ (v.isComplex = true ∧ n % 2 = 1) → CanHold v.data n →
        ∃ v', v.resize n = (v', .ok ()) ∧ v'.len = n ∧ v'.WF ∧ v'.SameMeta v ∧
          v'.data.cells.take (min v.len n) = v.data.cells.take (min v.len n) ∧
          v'.data.cells = v.data.cells ++ List.replicate (n - v.data.cells.length) 0) := by
  refine ⟨?_, ?_, ?_⟩
  · rintro ⟨h1, h2⟩
    simp [resize, h1, h2]
  · intro h1 h2
    have hb : (v.isComplex && n % 2 != 0) = false := by
      cases hc : v.isComplex <;> simp [hc] at h1 ⊢; exact h1
    simp only [CanHold, not_or] at h2
    obtain ⟨h3, h4⟩ := h2
    have h5 : v.data.cells.length < n := by omega
    have hres : v.data.tryResize n = .error .typeCanNotResize := by
      rcases hkind : v.data.kind with _ | _ | cap | cap | cap <;> rw [hkind] at h4 <;>
        simp only [Storage.tryResize, hkind]
      · exact absurd trivial h4
      · rw [if_pos h5]
      · rw [if_pos (by simpa using h4)]
      · rw [if_neg h4]
      · rw [if_neg h4]
    simp only [resize, hb, Bool.false_eq_true, if_false]
    rw [if_pos (by exact h5), hres]
  · intro h1 h2
    have hb : (v.isComplex && n % 2 != 0) = false := by
      cases hc : v.isComplex <;> simp [hc] at h1 ⊢; exact h1
    have hwf : ∀ d : Storage T, n ≤ d.cells.length → ({ v with data := d, validLen := n } : DspVec T).WF := by
      intro d hd
      refine ⟨hd, fun hc => ?_⟩
      have : v.isComplex = true := hc
      show n % 2 = 0
      by_contra hh; exact h1 ⟨this, by omega⟩
    by_cases h3 : n ≤ v.data.cells.length
    · refine ⟨{ v with validLen := n }, ?_, rfl, hwf v.data h3, ⟨rfl, rfl, rfl, rfl⟩, rfl, ?_⟩
      · have : ¬ v.allocLen < n := by simp [allocLen]; omega
        simp only [resize, hb, Bool.false_eq_true, if_false, if_neg (show ¬ n > v.allocLen by simpa using this)]
      · have : n - v.data.cells.length = 0 := by omega
        simp [this]
    · have h5 : v.data.cells.length < n := by omega
      have h6 : resizeCells v.data.cells n = v.data.cells ++ List.replicate (n - v.data.cells.length) 0 :=
        resizeCells_of_le _ _ (by omega)
      simp only [CanHold, h3, false_or] at h2
      have hm : min v.len n ≤ v.data.cells.length := by
        have := h.1; simp only [len]; omega
      have hres : v.data.tryResize n = .ok { v.data with cells := resizeCells v.data.cells n } := by
        rcases hkind : v.data.kind with _ | _ | cap | cap | cap
        · simp [Storage.tryResize, hkind]
        · rw [hkind] at h2; exact absurd h2 id
        · rw [hkind] at h2; simp [Storage.tryResize, hkind]; exact h2
        · exact absurd hkind (hk cap)
        · rw [hkind] at h2; simp only [Storage.tryResize, hkind]; simp at h2; simp [h2]
      refine ⟨{ v with data := { v.data with cells := resizeCells v.data.cells n }, validLen := n },
        ?_, rfl, hwf _ (by simp), ⟨rfl, rfl, rfl, rfl⟩, ?_, h6⟩
      · simp only [resize, hb, Bool.false_eq_true, if_false]
        rw [if_pos (by exact h5), hres]
      · show (resizeCells v.data.cells n).take _ = _
        rw [h6, List.take_append_of_le_length hm]

/-- Non-vacuity: growing a `Vec` storage, failing on a fixed one, failing on an odd length. -/
example : (exampleVec.resize 10).2 = .ok () ∧ (exampleVec.resize 10).1.pts =
    some [[1, 2], [3, 4], [5, 6], [70, 80], [0, 0]] := by decide
example : (({ exampleVec with data := ⟨.fixed, exampleVec.data.cells⟩ } : DspVec Int).resize 10).2 =
    .error .typeCanNotResize := by decide
example : (exampleVec.resize 5).2 = .error .inputMustHaveAnEvenLength := by decide
example : NotInline exampleVec.data.kind ∧ exampleVec.WF := by decide

/-- C02: `resize_b` with every buffer. It behaves like `resize` and leaves the buffer alone if the storage can
    hold the new length; otherwise the buffers which can provide a larger storage exchange it: the numbers
    are kept, and nothing else of the vector changes. (A `FixedLenBuffer` can not: `C01_fixed_buffer_violated`.) -/
theorem C02_resize_b [Zero T] (v : DspVec T) (h : v.WF) (hk : NotInline v.data.kind) (b : Buffer T) (n : Nat) :
    (v.isComplex = true ∧ n % 2 = 1 → v.resizeB b n = some (v, b, .error .inputMustHaveAnEvenLength)) ∧
    (¬ (v.isComplex = true ∧ n % 2 = 1) → CanHold v.data n →
        ∃ v', v.resizeB b n = some (v', b, .ok ()) ∧ v'.len = n ∧ v'.WF ∧ v'.SameMeta v ∧
          v'.data.cells.take (min v.len n) = v.data.cells.take (min v.len n)) ∧
    (¬ (v.isComplex = true ∧ n % 2 = 1) → ¬ CanHold v.data n → (∀ mem, b ≠ .fixedLen mem) →
        ∃ v' b', v.resizeB b n = some (v', b', .ok ()) ∧ v'.len = n ∧ v'.WF ∧ v'.SameMeta v ∧
          v'.data.cells.take v.len = v.data.cells.take v.len) := by
  obtain ⟨h1, h2, h3⟩ := C02_resize v h hk n
  refine ⟨?_, ?_, ?_⟩
  · rintro ⟨hc, hn⟩
    simp [resizeB, hc, hn]
  · intro hp hcan
    obtain ⟨v', e, hl, hw, hm, ht, -⟩ := h3 hp hcan
    have hb : (v.isComplex && n % 2 != 0) = false := by
      cases hc : v.isComplex <;> simp [hc] at hp ⊢; exact hp
    refine ⟨v', ?_, hl, hw, hm, ht⟩
    simp only [resizeB, hb, Bool.false_eq_true, if_false, e]
  · intro hp hcan hfix
    have e := h2 hp hcan
    have hb : (v.isComplex && n % 2 != 0) = false := by
      cases hc : v.isComplex <;> simp [hc] at hp ⊢; exact hp
    have hgt : v.len ≤ n := by
      have : ¬ n ≤ v.data.cells.length := fun hh => hcan (.inl hh)
      have := h.1
      simp only [len]; omega
    obtain ⟨t, ht, htl⟩ : ∃ t, b.borrow n = some t ∧ t.length = n := by
      cases b with
      | single temp => exact ⟨_, rfl, by simp⟩
      | noBuffer => exact ⟨_, rfl, by simp⟩
      | fixedLen mem => exact absurd rfl (hfix mem)
    have hsl : v.content = some (v.data.cells.take v.len) := by
      have := h.1
      simp [DspVec.content, slice, DspVec.len, this]
    have hll : (v.data.cells.take v.len).length = v.len := by
      have := h.1
      simp only [List.length_take, len]; omega
    have hcp : copyFromSlice t 0 v.len (v.data.cells.take v.len) = some (splice t 0 (v.data.cells.take v.len)) := by
      simp only [copyFromSlice, hll, htl, Nat.zero_le, hgt, Nat.sub_zero, and_self, if_true]
    have htr : (b.trade (splice t 0 (v.data.cells.take v.len)) v.data).2.cells = splice t 0 (v.data.cells.take v.len) := by
      cases b with
      | single temp => rfl
      | noBuffer => rfl
      | fixedLen mem => exact absurd rfl (hfix mem)
    have hkept : splice t 0 (v.data.cells.take v.len) = v.data.cells.take v.len ++ t.drop v.len := by
      simp [splice, hll, htl, hgt]
    refine ⟨{ v with data := (b.trade (splice t 0 (v.data.cells.take v.len)) v.data).2, validLen := n },
      (b.trade (splice t 0 (v.data.cells.take v.len)) v.data).1, ?_, rfl, ⟨?_, fun hc => ?_⟩, ⟨rfl, rfl, rfl, ?_⟩, ?_⟩
    · simp only [resizeB, hb, Bool.false_eq_true, if_false, e, ht, hsl, hcp, Option.bind_eq_bind, Option.bind_some]
    · show n ≤ _
      rw [htr, hkept, List.length_append, hll, List.length_drop, htl]
      omega
    · show n % 2 = 0
      have : v.isComplex = true := hc
      by_contra hh; exact hp ⟨this, by omega⟩
    · cases b with
      | single temp => rfl
      | noBuffer => rfl
      | fixedLen mem => exact absurd rfl (hfix mem)
    · show List.take _ (b.trade _ v.data).2.cells = _
      rw [htr, hkept, List.take_left' hll]

example : (exampleVec.resizeB (.single [7]) 10).map (fun r => r.1.pts) =
    some (some [[1, 2], [3, 4], [5, 6], [70, 80], [0, 0]]) := by decide
example : (({ exampleVec with data := ⟨.fixed, exampleVec.data.cells⟩ } : DspVec Int).resizeB (.single [7]) 10).map
    (fun r => r.1.pts) = some (some [[1, 2], [3, 4], [5, 6], [0, 0], [0, 0]]) := by decide

/-- C02/C01 are violated by the crate internal inline storage: `try_resize` reports success without
    growing, so the length exceeds the allocated length afterwards. -/
theorem C02_inline_violated : ∃ v v' : DspVec Int, v.WF ∧ v.resize 3 = (v', .ok ()) ∧ ¬ v'.WF :=
  ⟨⟨⟨.inlineStack 8, [1, 2]⟩, some 1, .time, .real, 2⟩,
   ⟨⟨.inlineStack 8, [1, 2]⟩, some 1, .time, .real, 3⟩, by decide, by
     simp [resize, isComplex, NumberSpace.isComplex, allocLen, Storage.tryResize], by decide⟩

/-- Specification of construction: the numbers a user expects to find. -/
def expectedContent (isComplex : Bool) (cells : List T) : List T :=
  if isComplex = true ∧ cells.length % 2 = 1 then [] else cells

/-- C03: `to_{real,complex}_{time,freq}_vec` on every container. -/
theorem C03_static_constructors [Zero T] [One T] (c : Container T) (isComplex isFreq : Bool) :
    let v := toStaticVec c isComplex isFreq
    v.content = some (expectedContent isComplex c.cells) ∧ v.WF ∧
      v.isComplex = isComplex ∧ v.dom = (if isFreq then .frequency else .time) ∧
      v.delta = some 1 := by
  have hpar : ∀ n, validLenFor isComplex n ≤ n := by
    intro n; unfold validLenFor; split <;> omega
  have hlen : validLenFor isComplex c.cells.length = (expectedContent isComplex c.cells).length := by
    unfold validLenFor expectedContent
    cases isComplex <;> simp
    split <;> rfl
  have hcells : ∃ s, (toStaticVec c isComplex isFreq).data.cells = c.cells ++ s := by
    rcases c with _ | _ | _ | _ | _ | ⟨_ | _, _, _⟩ <;> simp [toStaticVec, Container.cells, Container.storage, expandToFullCapacity]
  obtain ⟨s, hs⟩ := hcells
  have hvl : (toStaticVec c isComplex isFreq).validLen = (expectedContent isComplex c.cells).length := hlen
  have hce : ∃ s', (toStaticVec c isComplex isFreq).data.cells = expectedContent isComplex c.cells ++ s' := by
    unfold expectedContent; split
    · exact ⟨_, rfl⟩
    · exact ⟨s, hs⟩
  obtain ⟨s', hs'⟩ := hce
  refine ⟨?_, ⟨?_, ?_⟩, ?_, ?_, rfl⟩
  · rw [content, hvl, hs', slice_append_left]
  · rw [hvl, hs']; simp
  · intro _
    rw [hvl]
    have hcc : isComplex = true := by
      rename_i hh; revert hh; cases isComplex <;> simp [toStaticVec, DspVec.isComplex, NumberSpace.isComplex]
    unfold expectedContent; split
    · rfl
    · rename_i hh; simp [hcc] at hh; exact hh
  · cases isComplex <;> rfl
  · cases isFreq <;> rfl

/-- C03 (partial): `to_gen_dsp_vec` on every container except `&[T]`, see
    `C03_gen_slice_violated`. -/
theorem C03_gen_constructor_partial [One T] (c : Container T) (isComplex : Bool) (d : DataDomain)
    (hc : ∀ cells, c ≠ .slice cells) :
    let v := toGenDspVec c isComplex d
    v.content = some (expectedContent isComplex c.cells) ∧ v.WF ∧
      v.isComplex = isComplex ∧ v.dom = d ∧ v.delta = some 1 := by
  have hvl : (toGenDspVec c isComplex d).validLen = (expectedContent isComplex c.cells).length := by
    have : (toGenDspVec c isComplex d).validLen = validLenFor isComplex c.cells.length := by
      cases c <;> first | rfl | exact absurd rfl (hc _)
    rw [this]
    unfold validLenFor expectedContent
    cases isComplex <;> simp
    split <;> rfl
  have hs : (toGenDspVec c isComplex d).data.cells = c.cells := by
    rcases c with _ | _ | _ | _ | _ | ⟨_ | _, _, _⟩ <;> rfl
  have hce : ∃ s', (toGenDspVec c isComplex d).data.cells = expectedContent isComplex c.cells ++ s' := by
    unfold expectedContent; split
    · exact ⟨_, rfl⟩
    · exact ⟨[], by simp [hs]⟩
  obtain ⟨s', hs'⟩ := hce
  refine ⟨?_, ⟨?_, ?_⟩, rfl, rfl, rfl⟩
  · rw [content, hvl, hs', slice_append_left]
  · rw [hvl, hs']; simp
  · intro hcc
    have hcc : isComplex = true := hcc
    rw [hvl]
    unfold expectedContent; split
    · rfl
    · rename_i hh; simp [hcc] at hh; exact hh

/-- C03 is violated by `to_gen_dsp_vec` on `&[T]`: the parity check is missing. -/
theorem C03_gen_slice_violated :
    let v := toGenDspVec (.slice [(1 : Int), 2, 3]) true .time
    v.content = some [1, 2, 3] ∧ expectedContent true [(1 : Int), 2, 3] = [] ∧ ¬ v.WF := by decide

/-- C03 (partial): `From<S>`/`into()` for the statically typed vectors exposes exactly the given
    numbers for real vectors and for even lengths. Missing: odd lengths with complex vectors, see
    `C03_from_violated`. -/
theorem C03_from_partial [Zero T] [One T] (c : Container T) (isComplex isFreq : Bool)
    (heven : isComplex = true → c.cells.length % 2 = 0) :
    let v := fromStorage c isComplex isFreq
    v.content = some c.cells ∧ v.WF ∧ v.isComplex = isComplex ∧
      v.dom = (if isFreq then .frequency else .time) ∧ v.delta = some 1 := by
  have hcells : ∃ s, (fromStorage c isComplex isFreq).data.cells = c.cells ++ s := by
    rcases c with _ | _ | _ | _ | _ | ⟨_ | _, _, _⟩ <;> simp [fromStorage, Container.cells, Container.storage, expandToFullCapacity]
  obtain ⟨s, hs⟩ := hcells
  have hvl : (fromStorage c isComplex isFreq).validLen = c.cells.length := rfl
  have hic : (fromStorage c isComplex isFreq).isComplex = isComplex := by cases isComplex <;> rfl
  refine ⟨?_, ⟨?_, ?_⟩, hic, ?_, rfl⟩
  · rw [content, hvl, hs, slice_append_left]
  · rw [hvl, hs]; simp
  · intro hcc; rw [hvl]; exact heven (hic ▸ hcc)
  · cases isFreq <;> rfl

/-- C03 is violated by `From<S>` for complex vectors: an odd number of values gives a complex
    vector with odd length. -/
theorem C03_from_violated :
    let v := fromStorage (.vec [(1 : Int), 2, 3] 0) true false
    v.isComplex = true ∧ v.len = 3 ∧ ¬ v.WF := by decide

example : (toStaticVec (.vec [(1 : Int), 2, 3, 4] 3) true false).pts = some [[1, 2], [3, 4]] := by decide
example : (toGenDspVec (.boxed [(1 : Int), 2, 3]) true .time).len = 0 := by decide
example : (fromStorage (.arrayVec 4 [(1 : Int), 2]) true false).pts = some [[1, 2]] := by decide

end Dsp
