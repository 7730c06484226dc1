import Verif.Lemmas.Reorg
/- Helper lemmas about operations on the points of a vector. -/
namespace Dsp
open DspVec
variable {T : Type}

/-- Lift of a length preserving, natural list operation to the points of a vector. -/
theorem onPoints_spec (v : DspVec T) (h : v.WF)
    (f : List T → Option (List T)) (g : List (Cx T) → Option (List (Cx T)))
    (F : (α : Type) → List α → List α)
    (hf : ∀ l, l.length = v.points → f l = some (F T l))
    (hg : ∀ l, l.length = v.points → g l = some (F (Cx T) l))
    (hlen : ∀ α l, (F α l).length = l.length)
    (hmap : ∀ (α β : Type) (m : α → β) l, (F α l).map m = F β (l.map m)) :
    ∃ v', v.onPoints f g = some v' ∧ PermutesPoints (F (List T)) v v' := by
  cases hc : v.isComplex with
  | false =>
    obtain ⟨c, s, h1, h2⟩ := h.real
    have hp : c.length = v.points := by simp [points, hc, h2]
    refine ⟨_, onPoints_real hc h1 h2 (hf c hp) (hlen _ _), ⟨_, pts_real hc h1 h2, ?_⟩, rfl,
      ⟨rfl, rfl, rfl, rfl⟩, ?_, ?_⟩
    · rw [pts_real (c := F T c) (s := s) (by exact hc) rfl (by simp [withCells, hlen, h2]), hmap]
    · simp [withCells, h1, hlen]
    · simp [withCells, h1, ← h2, hlen]
  | true =>
    obtain ⟨p, s, h1, h2⟩ := h.complex hc
    have hp : p.length = v.points := by simp [points, hc, ← h2]
    refine ⟨_, onPoints_complex hc h1 h2 (hg p hp) (hlen _ _), ⟨_, pts_complex hc h1 h2, ?_⟩, rfl,
      ⟨rfl, rfl, rfl, rfl⟩, ?_, ?_⟩
    · rw [pts_complex (p := F (Cx T) p) (s := s) (by exact hc) rfl (by simp [withCells, hlen, h2]), hmap]
    · simp [withCells, h1, hlen]
    · simp [withCells, h1, ← h2, hlen]

/-- The observable state determines the vector. -/
theorem eq_of_permutes_id (v v' : DspVec T) (hp : PermutesPoints (fun l => l) v v') : v' = v := by
  obtain ⟨⟨l, h1, h2⟩, h3, ⟨m1, m2, m3, m4⟩, h5, h6⟩ := hp
  obtain ⟨⟨k, c⟩, d, dm, ns, n⟩ := v
  obtain ⟨⟨k', c'⟩, d', dm', ns', n'⟩ := v'
  dsimp only at *
  subst h3 m1 m2 m3 m4
  simp only [pts, isComplex] at h1 h2
  rw [h5, ← h1] at h2
  have hle : n' ≤ c.length := by
    by_contra hh; rw [if_neg hh] at h1; cases h1
  simp only [hle, if_true] at h2
  have ht : c'.take n' = c.take n' := by
    cases hns : ns'.isComplex with
    | false =>
      simp only [hns] at h2
      have h2 := Option.some.inj h2
      exact List.map_inj_right (fun a b hab => by simpa using hab) |>.mp h2
    | true =>
      simp only [hns, hle, if_true] at h1 h2
      cases ha : toComplex? (c.take n') with
      | none => simp [ha] at h1
      | some p =>
        cases hb : toComplex? (c'.take n') with
        | none => rw [ha, hb] at h2; simp at h2
        | some q =>
          rw [ha, hb] at h2
          have h2 : q = p := by
            have h2 := Option.some.inj h2
            refine (List.map_inj_right ?_).mp h2
            rintro ⟨a, b⟩ ⟨a', b'⟩ hab
            simpa using hab
          rw [fromComplex_of_toComplex? ha, fromComplex_of_toComplex? hb, h2]
  have : c' = c := by
    rw [← List.take_append_drop n' c', ht, h6, List.take_append_drop]
  rw [this]

theorem PermutesPoints.wf {f : List (List T) → List (List T)} {v v' : DspVec T} (h : v.WF)
    (hp : PermutesPoints f v v') : v'.WF := by
  obtain ⟨_, h3, ⟨_, _, m3, _⟩, h5, _⟩ := hp
  unfold WF isComplex at *
  rw [m3, h3, h5]
  exact h

theorem PermutesPoints.comp {f g : List (List T) → List (List T)} {v v' v'' : DspVec T}
    (h1 : PermutesPoints f v v') (h2 : PermutesPoints g v' v'') :
    PermutesPoints (fun l => g (f l)) v v'' := by
  obtain ⟨⟨l, a1, a2⟩, a3, ⟨m1, m2, m3, m4⟩, a5, a6⟩ := h1
  obtain ⟨⟨l', b1, b2⟩, b3, ⟨n1, n2, n3, n4⟩, b5, b6⟩ := h2
  have : l' = f l := by rw [a2] at b1; exact (Option.some.inj b1).symm
  subst this
  exact ⟨⟨l, a1, b2⟩, b3.trans a3, ⟨n1.trans m1, n2.trans m2, n3.trans m3, n4.trans m4⟩,
    b5.trans a5, by rw [← a6, ← a3, b6]⟩

theorem rotate_cancel {α : Type} (l : List α) :
    rotateLeft (rotateRight l (l.length / 2)) ((rotateRight l (l.length / 2)).length / 2) = l := by
  have h1 : (rotateRight l (l.length / 2)).length = l.length := by simp [rotateRight]
  rw [h1]
  unfold rotateLeft rotateRight
  have h2 : (l.drop (l.length - l.length / 2)).length = l.length / 2 := by simp; omega
  rw [List.drop_append, List.take_append, h2]
  have h3 : l.length - l.length / 2 + l.length / 2 = l.length := by omega
  have h4 : (l.drop (l.length - l.length / 2)).take (l.length / 2) = l.drop (l.length - l.length / 2) :=
    List.take_of_length_le (by omega)
  simp [h3, h4]

end Dsp
