import Verif.Props.Pad

/-! C08: what `zero_pad_b` computes for every option and every stale content of the buffer, and exactly when this
    is what `zero_pad` computes. -/

namespace Dsp
open DspVec
variable {T : Type}

/-- The `Center` variant of `zero_pad_b` on cells: it panics if fewer cells are added than the first half has;
    otherwise as many cells as the first half has are left as they were in the buffer. -/
theorem zeroPadTarget_center [Zero T] (k : Nat) (hk : 0 < k) (L : List (List T))
    (hL : ∀ p ∈ L, p.length = k) (s t : List T) (points : Nat) (hp : L.length < points)
    (ht : t.length = k * points) :
    zeroPadTarget t (L.flatten ++ s) (k * L.length) (k * points) k .center =
      if L.length - L.length / 2 ≤ points - L.length then
        some ((L.take (L.length - L.length / 2)).flatten ++
          List.replicate (k * (points - L.length - (L.length - L.length / 2))) 0 ++
          (t.drop (k * (points - L.length))).take (k * (L.length - L.length / 2)) ++
          (L.drop (L.length - L.length / 2)).flatten)
      else none := by
  have hlf := length_flatten_of hL
  have hd2 : k * L.length / k = L.length := Nat.mul_div_cancel_left _ hk
  generalize hR : L.length / 2 = right
  generalize hLe : L.length - right = left
  have hn : L.length = left + right := by omega
  have hkn : k * L.length = k * left + k * right := by rw [hn, Nat.mul_add]
  have hle : k * L.length ≤ k * points := Nat.mul_le_mul_left k (by omega)
  have hdiff : k * points - k * L.length = k * (points - L.length) := by rw [Nat.mul_sub]
  have hlen : L.flatten.length = k * left + k * right := by rw [hlf, hkn]
  simp only [zeroPadTarget, hd2, hR, hLe, Nat.mul_comm right k, Nat.mul_comm left k]
  have e1 : slice (L.flatten ++ s) (k * L.length - k * right) (k * L.length) = some (L.drop left).flatten := by
    rw [slice_ok _ _ _ (by omega) (by rw [List.length_append]; omega)]
    have a : k * L.length - k * right = k * left := by omega
    have b : k * L.length - k * left = k * right := by omega
    rw [a, b, List.drop_append_of_le_length (by omega), List.take_left' (by rw [List.length_drop]; omega), drop_flatten_of hL]
  have e2 : slice (L.flatten ++ s) 0 (k * left) = some (L.take left).flatten := by
    rw [slice_ok _ _ _ (by omega) (by rw [List.length_append]; omega), List.drop_zero, Nat.sub_zero,
      List.take_append_of_le_length (by omega), take_flatten_of hL]
  have l1 : (L.drop left).flatten.length = k * right := by
    rw [length_flatten_of (fun p hp => hL p (List.mem_of_mem_drop hp)), List.length_drop]; congr 1; omega
  have l2 : (L.take left).flatten.length = k * left := by
    rw [length_flatten_of (fun p hp => hL p (List.mem_of_mem_take hp)), List.length_take]; congr 1; omega
  rw [e1]
  simp only [Option.bind_eq_bind, Option.bind_some]
  rw [copyFromSlice_ok _ _ _ _ (by omega) (by omega) (by omega), Option.bind_some, e2, Option.bind_some]
  obtain ⟨a, b, s', e, ea, eb, es⟩ := split3 t (k * points - k * right) (k * right) (by omega)
  have hs' : s' = [] := List.length_eq_zero_iff.mp (by omega)
  subst hs'
  rw [splice_eq' e ea.symm (by omega), List.append_nil]
  obtain ⟨c, d, s2, f, fc, fd, fs⟩ := split3 a 0 (k * left) (by omega)
  have hc : c = [] := List.length_eq_zero_iff.mp fc
  subst hc
  rw [copyFromSlice_ok _ _ _ _ (by omega) (by simp only [List.length_append]; omega) (by omega), Option.bind_some,
    splice_eq' (n := 0) (a := []) (b := d) (s := s2 ++ (L.drop left).flatten) (by simp [f]) rfl (by omega),
    List.nil_append]
  by_cases hcase : left ≤ points - L.length
  · rw [if_pos hcase]
    have hck : k * left ≤ k * (points - L.length) := Nat.mul_le_mul_left k hcase
    have hs2 : s2.length = k * points - k * right - k * left := by omega
    rw [memzero_ok _ _ _ (by omega) (by simp only [List.length_append]; omega)]
    obtain ⟨g, h', s3, q, qg, qh, qs⟩ := split3 s2 0 (k * (points - L.length) - k * left) (by omega)
    have hg : g = [] := List.length_eq_zero_iff.mp qg
    subst hg
    rw [splice_eq' (a := (L.take left).flatten) (b := h') (s := s3 ++ (L.drop left).flatten)
      (by rw [q]; simp) (by omega) (by simp; omega)]
    have hz : k * points - k * L.length - k * left = k * (points - L.length - left) := by
      rw [hdiff, Nat.mul_sub k (points - L.length) left]
    have hs3 : s3 = (t.drop (k * (points - L.length))).take (k * left) := by
      have : t = (d ++ h') ++ (s3 ++ b) := by rw [e, f, q]; simp
      rw [this, List.drop_left' (by simp only [List.length_append]; omega), List.take_left' (by omega)]
    rw [hz, hs3]
    simp
  · rw [if_neg hcase]
    have hck : k * (points - L.length) < k * left := Nat.mul_lt_mul_of_pos_left (by omega) hk
    unfold memzero
    rw [if_neg (by omega)]

/-- Points in the cells `t`, from point `from` on, `n` of them. -/
theorem exists_points (k : Nat) (t : List T) (n : Nat) (h : t.length = k * n) :
    ∃ S : List (List T), S.flatten = t ∧ S.length = n ∧ ∀ p ∈ S, p.length = k := by
  induction n generalizing t with
  | zero => exact ⟨[], (List.length_eq_zero_iff.mp (by simpa using h)).symm, rfl, by simp⟩
  | succ n ih =>
    rw [Nat.mul_add, Nat.mul_one] at h
    obtain ⟨S, a, b, c⟩ := ih (t.drop k) (by rw [List.length_drop]; omega)
    refine ⟨t.take k :: S, by rw [List.flatten_cons, a, List.take_append_drop], by simp [b], ?_⟩
    intro p hp
    rcases List.mem_cons.mp hp with rfl | hp
    · rw [List.length_take]; omega
    · exact c p hp

theorem flatten_inj_of {k : Nat} {A B : List (List T)} (hA : ∀ p ∈ A, p.length = k) (hB : ∀ p ∈ B, p.length = k)
    (hl : A.length = B.length) (h : A.flatten = B.flatten) : A = B := by
  induction A generalizing B with
  | nil => exact (List.length_eq_zero_iff.mp hl.symm).symm
  | cons a A ih =>
    cases B with
    | nil => simp at hl
    | cons b B =>
      rw [List.flatten_cons, List.flatten_cons] at h
      obtain ⟨h1, h2⟩ := List.append_inj h (by rw [hA a (by simp), hB b (by simp)])
      rw [h1, ih (fun p hp => hA p (by simp [hp])) (fun p hp => hB p (by simp [hp])) (by simpa using hl) h2]

/-- C08, `Center`, for every vector, number of points and stale content of the buffer: if fewer points are added
    than the first half of the vector has then `zero_pad_b` panics. Otherwise the added points are zeros, but as many
    of them as the first half has points are not written: they are what the buffer held before the call. -/
theorem C08_center_exact [Zero T] (v : DspVec T) (h : v.WF) (b : Buffer T) (points : Nat)
    (hb : BufferOk b v.data (points * v.stride)) (hp : v.points < points) :
    (points - v.points < v.points - v.points / 2 → v.zeroPadB b points .center = none) ∧
    (v.points - v.points / 2 ≤ points - v.points →
      ∃ v' b' l stale mem, v.zeroPadB b points .center = some (v', b', .ok ()) ∧ v.pts = some l ∧
        v'.pts = some (l.take (v.points - v.points / 2) ++
          List.replicate (points - v.points - (v.points - v.points / 2)) v.zeroPoint ++
          stale ++ l.drop (v.points - v.points / 2)) ∧
        b.borrow (points * v.stride) = some mem ∧
        stale.length = v.points - v.points / 2 ∧
        stale.flatten = (mem.drop ((points - v.points) * v.stride)).take ((v.points - v.points / 2) * v.stride) ∧
        v'.SameMeta v) := by
  obtain ⟨L, hL⟩ := h.exists_pts
  obtain ⟨hmem, ⟨s, hs⟩, hv1, hv2, hpt⟩ := cells_of_pts hL
  have hst : (if v.isComplex = true then 2 else 1) = v.stride := rfl
  have hpos := v.stride_pos
  have hlen : v.len = v.stride * L.length := hv2
  have hlt : ¬ v.stride * points ≤ v.len := by
    rw [hlen, hpt, Nat.not_le]; exact Nat.mul_lt_mul_of_pos_left hp hpos
  rw [Nat.mul_comm] at hb
  obtain ⟨t, t1, t2⟩ := borrow_ok b v.data _ hb
  have hq := zeroPadTarget_center v.stride hpos L hmem s t points (by omega) t2
  rw [hpt] at hq
  have hrun : v.zeroPadB b points .center =
      (zeroPadTarget t (L.flatten ++ s) (v.stride * v.points) (v.stride * points) v.stride .center).bind (fun target =>
        some ({ v with data := (b.trade target v.data).2, validLen := v.stride * points },
          (b.trade target v.data).1, .ok ())) := by
    simp only [zeroPadB, hst]
    rw [if_neg hlt, t1, hlen, hs, hpt]
    rfl
  refine ⟨fun hlt => ?_, fun hle => ?_⟩
  · rw [hrun, hq, if_neg (by omega)]; rfl
  · rw [if_pos hle] at hq
    have hkl : v.stride * (v.points - v.points / 2) ≤ v.stride * (points - (points - v.points)) :=
      Nat.mul_le_mul_left _ (by omega)
    obtain ⟨S, s1, s2, s3⟩ := exists_points v.stride
      ((t.drop (v.stride * (points - v.points))).take (v.stride * (v.points - v.points / 2)))
      (v.points - v.points / 2) (by
        rw [List.length_take, List.length_drop, t2, ← Nat.mul_sub]; omega)
    let R : List (List T) := L.take (v.points - v.points / 2) ++
          List.replicate (points - v.points - (v.points - v.points / 2)) (List.replicate v.stride (0 : T)) ++
          S ++ L.drop (v.points - v.points / 2)
    have hR : ∀ p ∈ R, p.length = v.stride := by
      intro p hp
      simp only [R, List.mem_append] at hp
      rcases hp with ((hp | hp) | hp) | hp
      · exact hmem p (List.mem_of_mem_take hp)
      · rw [List.eq_of_mem_replicate hp]; simp
      · exact s3 p hp
      · exact hmem p (List.mem_of_mem_drop hp)
    have hRl : R.length = points := by
      simp only [R, List.length_append, List.length_take, List.length_replicate, List.length_drop, s2, hpt]; omega
    have hRf : R.flatten = _ := rfl
    have hq' : zeroPadTarget t (L.flatten ++ s) (v.stride * v.points) (v.stride * points) v.stride .center =
        some R.flatten := by
      rw [hq]
      simp only [R, List.flatten_append, flatten_replicate_zero, s1]
    have hrl : R.flatten.length = v.stride * points := by rw [length_flatten_of hR, hRl]
    obtain ⟨rest, htr⟩ := trade_ok b v.data R.flatten (by rw [hrl]; exact hb)
    refine ⟨{ v with data := (b.trade R.flatten v.data).2, validLen := v.stride * points },
      (b.trade R.flatten v.data).1, L, S, t, ?_, hL, ?_, ?_, s2, ?_, rfl, rfl, rfl, ?_⟩
    · rw [hrun, hq']; rfl
    · show _ = some R
      refine pts_of_cells (s := rest) ?_ ?_ hR
      · show (b.trade _ _).2.cells = _
        rw [htr]
      · rw [hrl]
    · rw [Nat.mul_comm]; exact t1
    · rw [s1, Nat.mul_comm _ v.stride, Nat.mul_comm _ v.stride]
    · show (b.trade _ _).2.kind = _
      rw [htr]

/-- C08, `Surround`, for every vector and buffer: `zero_pad_b` puts `⌊added / 2⌋` zeros to the end (`zero_pad`:
    `⌊(added - 1) / 2⌋`), all others to the beginning. -/
theorem C08_surround_exact [Zero T] (v : DspVec T) (h : v.WF) (b : Buffer T) (points : Nat)
    (hb : BufferOk b v.data (points * v.stride)) (hp : v.points < points) :
    ∃ v' b' l, v.zeroPadB b points .surround = some (v', b', .ok ()) ∧ v.pts = some l ∧
      v'.pts = some (List.replicate (points - v.points - (points - v.points) / 2) v.zeroPoint ++ l ++
        List.replicate ((points - v.points) / 2) v.zeroPoint) ∧ v'.SameMeta v := by
  obtain ⟨v', b', l, a1, a2, a3, a4⟩ := zero_pad_b_spec v h b points hb .surround (by simp) hp
  refine ⟨v', b', l, a1, a2, ?_, a4⟩
  rw [a3]
  obtain ⟨-, -, -, -, hpt⟩ := cells_of_pts a2
  simp only [padSpec, surroundRightB, hpt]

theorem shifted_eq {α : Type} (z : α) (l : List α) : l ++ [z] = z :: l ↔ ∀ x ∈ l, x = z := by
  induction l with
  | nil => simp
  | cons a l ih =>
    rw [List.cons_append, List.cons.injEq]
    constructor
    · rintro ⟨rfl, h⟩ x hx
      rcases List.mem_cons.mp hx with rfl | hx
      · rfl
      · exact ih.mp h x hx
    · intro h
      have : a = z := h a (by simp)
      subst this
      exact ⟨rfl, ih.mpr fun x hx => h x (by simp [hx])⟩

theorem surround_shifted {α : Type} (z : α) (l : List α) (a b : Nat) :
    List.replicate (a + 1) z ++ l ++ List.replicate b z = List.replicate a z ++ l ++ List.replicate (b + 1) z ↔
      ∀ x ∈ l, x = z := by
  rw [List.replicate_succ' (n := a), List.replicate_succ (n := b), ← shifted_eq]
  have e1 : List.replicate a z ++ [z] ++ l ++ List.replicate b z =
      List.replicate a z ++ ((z :: l) ++ List.replicate b z) := by simp
  have e2 : List.replicate a z ++ l ++ z :: List.replicate b z =
      List.replicate a z ++ ((l ++ [z]) ++ List.replicate b z) := by simp
  rw [e1, e2, List.append_cancel_left_eq, List.append_cancel_right_eq]
  exact eq_comm

/-- C08: exactly when `zero_pad_b` gives what `zero_pad` gives, for every vector, padding option, number of points
    and stale content of the buffer: always for `End`; for `Surround` if the number of added points is odd or all
    points of the vector are zero; for `Center` if at least as many points are added as the first half of the vector
    has, and the unwritten cells of the buffer happen to hold zeros. -/
theorem C08_zero_pad_b_iff [Zero T] (v : DspVec T) (h : v.WF) (hk : NotInline v.data.kind)
    (b : Buffer T) (points : Nat)
    (hb : BufferOk b v.data (points * v.stride)) (hh : CanHold v.data (points * v.stride))
    (option : PaddingOption) (hp : v.points < points) :
    (∃ v1 v2 b', v.zeroPad points option = some (v1, .ok ()) ∧
      v.zeroPadB b points option = some (v2, b', .ok ()) ∧ v2.pts = v1.pts ∧ v1.pts ≠ none ∧ v2.SameMeta v1) ↔
    match option with
    | .end => True
    | .surround => (points - v.points) % 2 = 1 ∨ ∀ l, v.pts = some l → ∀ x ∈ l, x = v.zeroPoint
    | .center => v.points - v.points / 2 ≤ points - v.points ∧ ∀ mem, b.borrow (points * v.stride) = some mem →
        ∀ i, (points - v.points) * v.stride ≤ i → i < (points - v.points / 2) * v.stride → mem[i]? = some 0 := by
  obtain ⟨v1, l, a1, a2, a3, -, m1, m2, m3, m4⟩ := (C07_zero_pad v h hk points option).2.2 hp hh
  obtain ⟨hmem, -, -, -, hpt⟩ := cells_of_pts a2
  cases option with
  | «end» => exact ⟨fun _ => trivial, fun _ =>
      C08_zero_pad_b_partial v h hk b points hb hh .end hp (.inl rfl)⟩
  | surround =>
    obtain ⟨v2, b', l', c1, c2, c3, n1, n2, n3, n4⟩ := C08_surround_exact v h b points hb hp
    have : l' = l := by rw [a2] at c2; exact (Option.some.inj c2).symm
    subst this
    have hiff : v2.pts = v1.pts ↔ ((points - v.points) % 2 = 1 ∨ ∀ x ∈ l', x = v.zeroPoint) := by
      rw [a3, c3, Option.some.injEq]
      simp only [padSpec, surroundRight, hpt]
      by_cases hodd : (points - v.points) % 2 = 1
      · have : (points - v.points - 1) / 2 = (points - v.points) / 2 := by omega
        rw [this]
        exact ⟨fun _ => .inl hodd, fun _ => rfl⟩
      · obtain ⟨q, hq⟩ : ∃ q, points - v.points = 2 * (q + 1) := ⟨(points - v.points) / 2 - 1, by omega⟩
        have x1 : (points - v.points) / 2 = q + 1 := by omega
        have x2 : (points - v.points - 1) / 2 = q := by omega
        have x3 : points - v.points - (q + 1) = q + 1 := by omega
        have x4 : points - v.points - q = q + 1 + 1 := by omega
        rw [x1, x2, x3, x4, eq_comm, surround_shifted]
        exact ⟨.inr, fun h => h.resolve_left hodd⟩
    constructor
    · rintro ⟨w1, w2, b'', d1, d2, d3, -, -⟩
      rw [a1] at d1; rw [c1] at d2
      simp only [Option.some.injEq, Prod.mk.injEq] at d1 d2
      obtain ⟨rfl, -⟩ := d1
      obtain ⟨rfl, -⟩ := d2
      rcases hiff.mp d3 with q | q
      · exact .inl q
      · exact .inr fun l hl => by
          rw [a2] at hl; exact Option.some.inj hl ▸ q
    · intro q
      refine ⟨v1, v2, b', a1, c1, hiff.mpr ?_, by simp [a3],
        n1.trans m1.symm, n2.trans m2.symm, n3.trans m3.symm, n4.trans m4.symm⟩
      rcases q with q | q
      · exact .inl q
      · exact .inr (q l' a2)
  | center =>
    obtain ⟨hbad, hgood⟩ := C08_center_exact v h b points hb hp
    constructor
    · rintro ⟨w1, w2, b'', d1, d2, d3, -, -⟩
      have hle : v.points - v.points / 2 ≤ points - v.points := by
        by_contra hc
        rw [hbad (by omega)] at d2; exact absurd d2 (by simp)
      refine ⟨hle, ?_⟩
      obtain ⟨v2, b', l', stale, mem, c1, c2, c3, c4, c5, c6, -⟩ := hgood hle
      have : l' = l := by rw [a2] at c2; exact (Option.some.inj c2).symm
      subst this
      rw [a1] at d1; rw [c1] at d2
      simp only [Option.some.injEq, Prod.mk.injEq] at d1 d2
      obtain ⟨rfl, -⟩ := d1
      obtain ⟨rfl, -⟩ := d2
      intro mem' hm i hi1 hi2
      rw [c4] at hm
      obtain rfl := Option.some.inj hm
      rw [a3, c3, Option.some.injEq] at d3
      simp only [padSpec, hpt] at d3
      rw [List.append_cancel_right_eq, List.append_assoc, List.append_cancel_left_eq] at d3
      have hst : stale = List.replicate (v.points - v.points / 2) v.zeroPoint := by
        have : List.replicate (points - v.points) v.zeroPoint =
          List.replicate (points - v.points - (v.points - v.points / 2)) v.zeroPoint ++
          List.replicate (v.points - v.points / 2) v.zeroPoint := by
            rw [List.replicate_append_replicate]; congr 1; omega
        rw [this, List.append_cancel_left_eq] at d3
        exact d3
      have hz : (mem.drop ((points - v.points) * v.stride)).take ((v.points - v.points / 2) * v.stride) =
          List.replicate (v.stride * (v.points - v.points / 2)) 0 := by
        rw [← c6, hst]; exact flatten_replicate_zero _ _
      have := congrArg (fun x => x[i - (points - v.points) * v.stride]?) hz
      have hsum : (points - v.points) * v.stride + (v.points - v.points / 2) * v.stride =
          (points - v.points / 2) * v.stride := by rw [← Nat.add_mul]; congr 1; omega
      simp only [List.getElem?_take, List.getElem?_drop, List.getElem?_replicate] at this
      rw [if_pos (by omega), if_pos (by rw [Nat.mul_comm v.stride]; omega)] at this
      rwa [show (points - v.points) * v.stride + (i - (points - v.points) * v.stride) = i by omega] at this
    · rintro ⟨hle, hz⟩
      obtain ⟨v2, b', l', stale, mem, c1, c2, c3, c4, c5, c6, n1, n2, n3, n4⟩ := hgood hle
      have : l' = l := by rw [a2] at c2; exact (Option.some.inj c2).symm
      subst this
      refine ⟨v1, v2, b', a1, c1, ?_, by simp [a3],
        n1.trans m1.symm, n2.trans m2.symm, n3.trans m3.symm, n4.trans m4.symm⟩
      have hsum : (points - v.points) * v.stride + (v.points - v.points / 2) * v.stride =
          (points - v.points / 2) * v.stride := by rw [← Nat.add_mul]; congr 1; omega
      have hfl : stale.flatten = List.replicate (v.stride * (v.points - v.points / 2)) 0 := by
        rw [c6]
        apply List.ext_getElem?
        intro i
        rw [List.getElem?_take, List.getElem?_drop, List.getElem?_replicate, Nat.mul_comm v.stride]
        by_cases hi : i < (v.points - v.points / 2) * v.stride
        · rw [if_pos hi, if_pos hi, hz mem c4 _ (by omega) (by omega)]
        · rw [if_neg hi, if_neg hi]
      have hst : ∀ p ∈ stale, p.length = v.stride := by
        obtain ⟨q1, -, -, -, -⟩ := cells_of_pts c3
        have : v2.stride = v.stride := stride_congr n3
        intro p hp
        rw [← this]; exact q1 p (by simp [hp])
      have hse : stale = List.replicate (v.points - v.points / 2) v.zeroPoint := by
        rw [← flatten_replicate_zero] at hfl
        apply flatten_inj_of hst (fun p hp => by rw [List.eq_of_mem_replicate hp]; simp) (by simp [c5]) hfl
      rw [a3, c3, Option.some.injEq]
      simp only [padSpec, hpt]
      rw [hse, List.append_assoc (l'.take _), List.replicate_append_replicate]
      congr 3; omega

/-- Both cases of `Center` and `Surround`. -/
example :
    let v : DspVec Int := ⟨⟨.vec, [6, 7, 8]⟩, some 1, .time, .real, 3⟩
    v.WF ∧ CanHold v.data 7 ∧
    (v.zeroPadB (.single [1, 2, 3, 4, 5, 6, 7]) 7 .center).bind (fun r => r.1.pts) =
      some [[6], [7], [0], [0], [5], [6], [8]] ∧
    (v.zeroPadB (.single [1, 2, 3, 4]) 7 .center).bind (fun r => r.1.pts) =
      some [[6], [7], [0], [0], [0], [0], [8]] ∧
    (v.zeroPadB (.single [1, 2, 3, 4, 5, 6, 7]) 4 .center).isNone = true ∧
    (v.zeroPadB .noBuffer 5 .surround).bind (fun r => r.1.pts) = some [[0], [6], [7], [8], [0]] ∧
    (v.zeroPad 5 .surround).bind (fun r => r.1.pts) = some [[0], [0], [6], [7], [8]] := by
  refine ⟨by decide, .inr trivial, by decide, by decide, by decide, by decide, by decide⟩

end Dsp
