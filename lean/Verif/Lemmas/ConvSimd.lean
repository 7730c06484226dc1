import Verif.Model.Conv
import Verif.Spec.Conv
import Verif.Lemmas.Complex
import Verif.Lemmas.Chunk
import Verif.Lemmas.Pts
import Verif.Lemmas.Pad
import Verif.Props.Registers
import Mathlib.Algebra.BigOperators.Group.List.Basic
/-
Lemmas for the SIMD convolution.
-/
namespace Dsp
variable {α T : Type}

/-- How points are stored in registers: `enc` writes points as numbers, `step` numbers per point. -/
structure RegEnc [Zero α] [Add α] [Mul α] [Zero T] [Add T] (w step : Nat) (enc : List α → List T)
    (mulR : List T → List T → List T) (sumR : List T → α) (sum : List α → α) : Prop where
  pos : 0 < step
  dvd : ∃ s, w = step * s ∧ 0 < s
  nil : enc [] = []
  len : ∀ l, (enc l).length = step * l.length
  app : ∀ a b, enc (a ++ b) = enc a ++ enc b
  zero : ∀ n, enc (List.replicate n 0) = List.replicate (step * n) 0
  mul : ∀ a b, step * a.length = w → step * b.length = w → mulR (enc a) (enc b) = enc (List.zipWith (· * ·) a b)
  add : ∀ a b, a.length = b.length → regZip (· + ·) (enc a) (enc b) = enc (List.zipWith (· + ·) a b)
  hsum : ∀ a, sumR (enc a) = sum a
  loop : ∀ (s' : Nat) (h : List α) (c : Nat),
    shiftedLoop step (s' * step) (step * h.length + s' * step) c
        (enc (h.take (min c (h.length + s') - s'))).reverse =
      some (enc (List.replicate (c - (h.length + s')) 0 ++ (h.take (min c (h.length + s') - s')).reverse ++
        List.replicate (min c s') 0))

theorem shiftedLoop_real [Zero T] (s' : Nat) (h : List T) (c : Nat) :
    shiftedLoop 1 (s' * 1) (1 * h.length + s' * 1) c (h.take (min c (h.length + s') - s')).reverse =
      some (List.replicate (c - (h.length + s')) 0 ++ (h.take (min c (h.length + s') - s')).reverse ++
        List.replicate (min c s') 0) := by
  induction c with
  | zero => simp [shiftedLoop]
  | succ c ih =>
    unfold shiftedLoop
    by_cases h1 : c < s'
    · rw [if_pos (by left; omega)]
      have e1 : min (c + 1) (h.length + s') - s' = 0 := by omega
      have e2 : min c (h.length + s') - s' = 0 := by omega
      rw [e2] at ih; rw [e1, ih]
      have e3 : min (c + 1) s' = min c s' + 1 := by omega
      have e4 : c + 1 - (h.length + s') = 0 := by omega
      have e5 : c - (h.length + s') = 0 := by omega
      rw [e3, e4, e5]
      simp [List.replicate_succ]
    · by_cases h2 : h.length + s' ≤ c
      · rw [if_pos (by right; omega)]
        have e1 : min (c + 1) (h.length + s') - s' = min c (h.length + s') - s' := by omega
        have e3 : min (c + 1) s' = min c s' := by omega
        have e4 : c + 1 - (h.length + s') = (c - (h.length + s')) + 1 := by omega
        rw [e1, ih, e3, e4]
        simp [List.replicate_succ]
      · rw [if_neg (by omega), if_neg (by omega)]
        have e1 : min (c + 1) (h.length + s') - s' = (c - s') + 1 := by omega
        have e2 : min c (h.length + s') - s' = c - s' := by omega
        have hlt : c - s' < h.length := by omega
        rw [e2] at ih
        have e4 : c + 1 - (h.length + s') = 0 := by omega
        have e5 : c - (h.length + s') = 0 := by omega
        have e3 : min (c + 1) s' = min c s' := by omega
        rw [e1, e3, e4, List.take_add_one, List.getElem?_eq_getElem hlt]
        rw [e5] at ih
        simp only [Option.toList_some, List.reverse_append, List.reverse_singleton, List.singleton_append]
        rw [ih]
        simp

theorem shiftedLoop_complex [Zero T] (s' : Nat) (h : List (Cx T)) (c : Nat) :
    shiftedLoop 2 (s' * 2) (2 * h.length + s' * 2) c
        (fromComplex (h.take (min c (h.length + s') - s'))).reverse =
      some (fromComplex (List.replicate (c - (h.length + s')) 0 ++
        (h.take (min c (h.length + s') - s')).reverse ++ List.replicate (min c s') 0)) := by
  induction c with
  | zero => simp [shiftedLoop, fromComplex]
  | succ c ih =>
    unfold shiftedLoop
    have z : fromComplex [(0 : Cx T)] = [0, 0] := rfl
    by_cases h1 : c < s'
    · rw [if_pos (by left; omega)]
      have e1 : min (c + 1) (h.length + s') - s' = 0 := by omega
      have e2 : min c (h.length + s') - s' = 0 := by omega
      rw [e2] at ih; rw [e1, ih]
      have e3 : min (c + 1) s' = min c s' + 1 := by omega
      have e4 : c + 1 - (h.length + s') = 0 := by omega
      have e5 : c - (h.length + s') = 0 := by omega
      rw [e3, e4, e5]
      simp [List.replicate_succ, fromComplex]
    · by_cases h2 : h.length + s' ≤ c
      · rw [if_pos (by right; omega)]
        have e1 : min (c + 1) (h.length + s') - s' = min c (h.length + s') - s' := by omega
        have e3 : min (c + 1) s' = min c s' := by omega
        have e4 : c + 1 - (h.length + s') = (c - (h.length + s')) + 1 := by omega
        rw [e1, ih, e3, e4]
        simp [List.replicate_succ, fromComplex]
      · rw [if_neg (by omega), if_pos (by omega)]
        have e1 : min (c + 1) (h.length + s') - s' = (c - s') + 1 := by omega
        have e2 : min c (h.length + s') - s' = c - s' := by omega
        have hlt : c - s' < h.length := by omega
        rw [e2] at ih
        have e4 : c + 1 - (h.length + s') = 0 := by omega
        have e5 : c - (h.length + s') = 0 := by omega
        have e3 : min (c + 1) s' = min c s' := by omega
        rw [e1, e3, e4, List.take_add_one, List.getElem?_eq_getElem hlt]
        rw [e5] at ih
        simp only [Option.toList_some, fromComplex_append, fromComplex, List.reverse_append, List.reverse_cons,
          List.reverse_nil, List.nil_append, List.cons_append]
        rw [ih]
        simp [fromComplex]

theorem regEnc_real [CommRing T] (k : RegKind) :
    RegEnc k.len 1 (fun l : List T => l) (regZip (· * ·)) regSumReal List.sum where
  pos := by omega
  dvd := ⟨k.len, by omega, by cases k <;> decide⟩
  nil := rfl
  len l := by simp
  app _ _ := rfl
  zero n := by simp
  mul _ _ _ _ := rfl
  add _ _ _ := rfl
  hsum a := (C45_sums a []).1
  loop := shiftedLoop_real

theorem fromComplex_add [Add T] : ∀ a b : List (Cx T), a.length = b.length →
    regZip (· + ·) (fromComplex a) (fromComplex b) = fromComplex (List.zipWith (· + ·) a b)
  | [], [], _ => rfl
  | x :: a, y :: b, h => by
    have := fromComplex_add a b (by simpa using h)
    unfold regZip at this ⊢
    simp [fromComplex, this]

theorem regEnc_complex [Field T] (k : RegKind) :
    RegEnc k.len 2 (fromComplex (T := T)) (regMulComplex k) regSumComplex List.sum where
  pos := by omega
  dvd := ⟨k.len / 2, by cases k <;> decide, by cases k <;> decide⟩
  nil := rfl
  len l := by simp
  app _ _ := by simp
  zero n := fromComplex_replicate n 0
  mul a b h1 h2 := (C45_complex_pairs k).1 a b h1 h2
  add := fromComplex_add
  hsum a := by
    rw [(C45_sums [] a).2]
    ext
    · rw [Cx.sum_re]
    · rw [Cx.sum_im]
  loop := shiftedLoop_complex

section enc
variable [Zero α] [Add α] [Mul α] [Zero T] [Add T] {w step : Nat} {enc : List α → List T}
    {mulR : List T → List T → List T} {sumR : List T → α} {sm : List α → α}

theorem RegEnc.take (E : RegEnc w step enc mulR sumR sm) (l : List α) (n : Nat) :
    (enc l).take (step * n) = enc (l.take n) := by
  by_cases h : n ≤ l.length
  · conv_lhs => rw [← List.take_append_drop n l, E.app]
    rw [List.take_append_of_le_length (by rw [E.len]; simp [h]), List.take_of_length_le (by rw [E.len]; simp [h])]
  · rw [List.take_of_length_le (by rw [E.len]; exact Nat.mul_le_mul_left _ (by omega)),
      List.take_of_length_le (by omega)]

theorem RegEnc.drop (E : RegEnc w step enc mulR sumR sm) (l : List α) (n : Nat) :
    (enc l).drop (step * n) = enc (l.drop n) := by
  by_cases h : n ≤ l.length
  · conv_lhs => rw [← List.take_append_drop n l, E.app]
    rw [List.drop_append_of_le_length (by rw [E.len]; simp [h]), List.drop_of_length_le (by rw [E.len]; simp [h])]
    rfl
  · rw [List.drop_of_length_le (by rw [E.len]; exact Nat.mul_le_mul_left _ (by omega)),
      List.drop_of_length_le (by omega), E.nil]

/-- Registers which contain encoded points are encoded blocks of points. -/
theorem RegEnc.blocks (E : RegEnc w step enc mulR sumR sm) (s : Nat) (hw : w = step * s) (hs : 0 < s) :
    ∀ (regs : List (List T)) (X : List α), regs.flatten = enc X → (∀ r ∈ regs, r.length = w) →
      ∃ R : List (List α), regs = R.map enc ∧ R.flatten = X ∧ ∀ r ∈ R, r.length = s
  | [], X, h, _ => by
    have : (enc X).length = 0 := by rw [← h]; rfl
    rw [E.len] at this
    have hx : X = [] := by
      have hp := E.pos
      cases X with
      | nil => rfl
      | cons a l => simp at this; omega
    exact ⟨[], rfl, by simp [hx], by simp⟩
  | r :: regs, X, h, hl => by
    have hr : r.length = w := hl r (by simp)
    have h1 : r = enc (X.take s) := by
      rw [← E.take, ← h, ← hw, ← hr]; simp
    have h2 : regs.flatten = enc (X.drop s) := by
      rw [← E.drop, ← h, ← hw, ← hr]; simp
    obtain ⟨R, g1, g2, g3⟩ := E.blocks s hw hs regs (X.drop s) h2 (fun r hr => hl r (by simp [hr]))
    refine ⟨X.take s :: R, by simp [h1, g1], by simp [g2], ?_⟩
    intro q hq
    rcases List.mem_cons.mp hq with rfl | hq
    · have : step * (X.take s).length = step * s := by rw [← E.len, ← h1, hr, hw]
      exact Nat.eq_of_mul_eq_mul_left E.pos this
    · exact g3 q hq

/-- The accumulation of products in a register. -/
theorem RegEnc.accumulate (E : RegEnc w step enc mulR sumR sm) (s : Nat) (hw : w = step * s) :
    ∀ (A B : List (List α)) (acc : List α), A.length = B.length → (∀ r ∈ A, r.length = s) →
      (∀ r ∈ B, r.length = s) → acc.length = s →
      ((A.map enc).zip (B.map enc)).foldl (fun sum p => regZip (· + ·) sum (mulR p.1 p.2)) (enc acc) =
        enc ((A.zip B).foldl (fun sum p => List.zipWith (· + ·) sum (List.zipWith (· * ·) p.1 p.2)) acc)
  | [], [], acc, _, _, _, _ => rfl
  | a :: A, b :: B, acc, h, ha, hb, hacc => by
    have la : a.length = s := ha a (by simp)
    have lb : b.length = s := hb b (by simp)
    simp only [List.map_cons, List.zip_cons_cons, List.foldl_cons]
    rw [E.mul a b (by rw [la, hw]) (by rw [lb, hw]), E.add _ _ (by simp [la, lb, hacc])]
    exact E.accumulate s hw A B _ (by simpa using h) (fun r hr => ha r (by simp [hr]))
      (fun r hr => hb r (by simp [hr])) (by simp [la, lb, hacc])

end enc

section sums
variable [CommRing α]

theorem sum_zipWith_add : ∀ a b : List α, a.length = b.length →
    (List.zipWith (· + ·) a b).sum = a.sum + b.sum
  | [], [], _ => by simp
  | x :: a, y :: b, h => by
    have := sum_zipWith_add a b (by simpa using h)
    simp [this]; ring

theorem sum_accumulate (s : Nat) : ∀ (A B : List (List α)) (acc : List α), A.length = B.length →
    (∀ r ∈ A, r.length = s) → (∀ r ∈ B, r.length = s) → acc.length = s →
    ((A.zip B).foldl (fun sum p => List.zipWith (· + ·) sum (List.zipWith (· * ·) p.1 p.2)) acc).sum =
      acc.sum + (List.zipWith (· * ·) A.flatten B.flatten).sum
  | [], [], acc, _, _, _, _ => by simp
  | a :: A, b :: B, acc, h, ha, hb, hacc => by
    have la : a.length = s := ha a (by simp)
    have lb : b.length = s := hb b (by simp)
    simp only [List.zip_cons_cons, List.foldl_cons, List.flatten_cons]
    rw [sum_accumulate s A B _ (by simpa using h) (fun r hr => ha r (by simp [hr]))
      (fun r hr => hb r (by simp [hr])) (by simp [la, lb, hacc]),
      sum_zipWith_add _ _ (by simp [la, lb, hacc]), List.zipWith_append (by omega), List.sum_append]
    ring

theorem sum_zipWith_replicate_zero (a : List α) (n : Nat) :
    (List.zipWith (· * ·) a (List.replicate n 0)).sum = 0 := by
  induction a generalizing n with
  | nil => simp
  | cons x a ih => cases n with
    | zero => simp
    | succ n => simp [List.replicate_succ, ih]

/-- Padding one factor with zeros selects the part of the other one. -/
theorem sum_padded (W h : List α) (p q : Nat) (hW : W.length = p + h.length + q) :
    (List.zipWith (· * ·) W (List.replicate p 0 ++ h ++ List.replicate q 0)).sum =
      (List.zipWith (· * ·) ((W.drop p).take h.length) h).sum := by
  obtain ⟨a, b, c, rfl, h1, h2, h3⟩ := split3 W p h.length (by omega)
  rw [List.zipWith_append (by simp; omega), List.zipWith_append (by simp; omega), List.sum_append, List.sum_append,
    sum_zipWith_replicate_zero, sum_zipWith_replicate_zero]
  subst h1
  rw [List.append_assoc, List.drop_left, ← h2, List.take_left]
  simp

theorem sum_zipWith_reverse (W h : List α) (hl : W.length = h.length) :
    (List.zipWith (· * ·) W h.reverse).sum = (List.zipWith (· * ·) W.reverse h).sum := by
  rw [← List.sum_reverse, List.reverse_zipWith (by simp [hl]), List.reverse_reverse]

theorem foldl_add_sum (f : Nat → α) (l : List Nat) (z : α) :
    l.foldl (fun s k => s + f k) z = z + (l.map f).sum := by
  induction l generalizing z with
  | nil => simp
  | cons a l ih => simp [ih, add_assoc]

/-- Away from the ends of the vector the convolution does not wrap around: it is the sum over a
    window of the vector. -/
theorem convAt_interior (x h : List α) (i : Nat) (h1 : h.length ≤ i + (h.length - h.length / 2))
    (h2 : i + (h.length - h.length / 2) ≤ x.length) :
    convAt x h i = (List.zipWith (· * ·)
      ((x.drop (i + (h.length - h.length / 2) - h.length)).take h.length) h.reverse).sum := by
  have hlen : ((x.drop (i + (h.length - h.length / 2) - h.length)).take h.length).length = h.length := by
    simp; omega
  rw [sum_zipWith_reverse _ _ hlen]
  unfold convAt
  rw [foldl_add_sum, zero_add]
  congr 1
  apply List.ext_getElem (by simp; omega)
  intro k g1 g2
  have hk : k < h.length := by simpa using g1
  simp only [List.getElem_map, List.getElem_range, List.getElem_zipWith, List.getElem_reverse, hlen,
    List.getElem_take, List.getElem_drop]
  have e : ((i : Int) + ((h.length - 1) / 2 : Nat) - k) % (x.length : Int) =
      ((i + (h.length - h.length / 2) - h.length + (h.length - 1 - k) : Nat) : Int) := by
    rw [Int.emod_eq_of_lt (by omega) (by omega)]; omega
  unfold cyclic
  rw [e, Int.toNat_natCast, List.getElem?_eq_getElem (by omega)]
  simp [hk]

end sums

theorem chunks_whole {w : Nat} (hw : 0 < w) (l : List T) (h : l.length % w = 0) :
    ∃ regs, chunks w l = some regs ∧ regs.flatten = l ∧ ∀ r ∈ regs, r.length = w := by
  refine ⟨_, by unfold chunks; rw [if_neg (by omega)], flatten_blocks_all hw l, ?_⟩
  intro r hr
  simp only [List.mem_map, List.mem_range] at hr
  obtain ⟨k, hk, rfl⟩ := hr
  have hk' := (lt_ceilDiv_iff hw).mp hk
  rw [blk_length, Nat.min_eq_left]
  have := Nat.div_add_mod l.length w
  rw [h, Nat.add_zero, Nat.mul_comm] at this
  have hkk : k < l.length / w := by
    apply Nat.lt_of_mul_lt_mul_right (a := w); omega
  have := Nat.mul_le_mul_right w hkk
  rw [Nat.succ_mul] at this
  omega

/-- Rounding up to the next register adds the number of lanes which the shifted copy skips. -/
theorem round_up (s e : Nat) (hs : 0 < s) : (e + s - 1) / s * s = e + (s - e % s) % s := by
  have h1 := Nat.div_add_mod e s
  have h2 := Nat.mod_lt e hs
  by_cases h0 : e % s = 0
  · have : (e + s - 1) / s = e / s := by
      have : e + s - 1 = s * (e / s) + (s - 1) := by omega
      rw [this, Nat.mul_add_div hs, Nat.div_eq_of_lt (show s - 1 < s by omega), Nat.add_zero]
    rw [this, h0, Nat.sub_zero, Nat.mod_self, Nat.mul_comm]; omega
  · have : (e + s - 1) / s = e / s + 1 := by
      have : e + s - 1 = s * (e / s + 1) + (e % s - 1) := by rw [Nat.mul_add]; omega
      rw [this, Nat.mul_add_div hs, Nat.div_eq_of_lt (show e % s - 1 < s by omega), Nat.add_zero]
    rw [this, Nat.mod_eq_of_lt (by omega), Nat.add_mul, Nat.mul_comm (e / s)]; omega

section enc
variable [Zero α] [Add α] [Mul α] [Zero T] [Add T] {w step : Nat} {enc : List α → List T}
    {mulR : List T → List T → List T} {sumR : List T → α} {sm : List α → α}

theorem RegEnc.copy_spec (E : RegEnc w step enc mulR sumR sm) (s : Nat) (hw : w = step * s) (hs : 0 < s)
    (h : List α) (i : Nat) :
    ∃ (B : List (List α)) (p : Nat), shiftedCopy w step s (enc h) i = some (B.map enc) ∧
      B.flatten = List.replicate p 0 ++ h.reverse ++ List.replicate ((s - i) % s) 0 ∧
      (∀ r ∈ B, r.length = s) ∧ p + h.length + (s - i) % s = B.length * s ∧
      (∀ e, h.length + (s - i) % s ≤ e * s → B.length ≤ e) := by
  have hp := E.pos
  have hwp : 0 < w := by rw [hw]; exact Nat.mul_pos hp hs
  generalize hs' : (s - i) % s = s'
  have hmin : (enc h).length + s' * step = step * h.length + s' * step := by rw [E.len]
  have hr : ∃ r, ceilDiv (step * h.length + s' * step) w = r ∧ h.length + s' ≤ r * s ∧
      ∀ e, h.length + s' ≤ e * s → r ≤ e := by
    refine ⟨_, rfl, ?_, ?_⟩
    · by_contra hc
      have hlt : ceilDiv (step * h.length + s' * step) w < ceilDiv (step * h.length + s' * step) w := by
        rw [lt_ceilDiv_iff hwp]
        generalize ceilDiv (step * h.length + s' * step) w = r at hc
        have : r * s + 1 ≤ h.length + s' := by omega
        have := Nat.mul_le_mul_left step this
        rw [hw]
        have e1 : r * (step * s) = step * (r * s) := by ring
        have e2 : step * (h.length + s') = step * h.length + s' * step := by ring
        rw [e1, ← e2]
        have : step * (r * s + 1) = step * (r * s) + step := by ring
        omega
      exact Nat.lt_irrefl _ hlt
    · intro e he
      by_contra hc
      have hlt := (lt_ceilDiv_iff hwp).mp (Nat.lt_of_not_le hc)
      have := Nat.mul_le_mul_left step he
      rw [hw] at hlt
      have e1 : e * (step * s) = step * (e * s) := by ring
      have e2 : step * (h.length + s') = step * h.length + s' * step := by ring
      omega
  obtain ⟨r, hr1, hr2, hr3⟩ := hr
  have hc : r * w / step = r * s := by
    rw [hw, show r * (step * s) = step * (r * s) by ring, Nat.mul_div_cancel_left _ hp]
  have hloop := E.loop s' h (r * s)
  have e1 : min (r * s) (h.length + s') - s' = h.length := by omega
  have e2 : min (r * s) s' = s' := by omega
  rw [e1, e2, List.take_length] at hloop
  generalize hL : List.replicate (r * s - (h.length + s')) (0 : α) ++ h.reverse ++ List.replicate s' 0 = L at hloop
  have hLlen : L.length = r * s := by rw [← hL]; simp; omega
  obtain ⟨regs, g1, g2, g3⟩ := chunks_whole hwp (enc L) (by
    rw [E.len, hLlen, hw, show step * (r * s) = r * (step * s) by ring]; simp)
  obtain ⟨B, b1, b2, b3⟩ := E.blocks s hw hs regs L g2 g3
  have hB : B.length = r := by
    have := length_flatten_of b3
    rw [b2, hLlen, Nat.mul_comm] at this
    exact (Nat.eq_of_mul_eq_mul_left hs this).symm
  refine ⟨B, r * s - (h.length + s'), ?_, by rw [b2, hL], b3, by rw [hB]; omega, by rw [hB]; exact hr3⟩
  unfold shiftedCopy
  simp only [hs', hmin, hr1, hc, hloop, Option.bind_some, g1, b1]

theorem mapM_range_get {β : Type} (f : Nat → Option β) (n : Nat) (h : ∀ i < n, ∃ y, f i = some y) :
    ∃ l, (List.range n).mapM f = some l ∧ l.length = n ∧ ∀ i < n, l[i]? = f i := by
  induction n with
  | zero => exact ⟨[], rfl, rfl, by simp⟩
  | succ n ih =>
    obtain ⟨l, h1, h2, h3⟩ := ih (fun i hi => h i (by omega))
    obtain ⟨y, hy⟩ := h n (by omega)
    refine ⟨l ++ [y], ?_, by simp [h2], ?_⟩
    · rw [List.range_succ, List.mapM_append, h1]
      simp [hy]
    · intro i hi
      by_cases hin : i < n
      · rw [List.getElem?_append_left (by omega), h3 i hin]
      · have : i = n := by omega
        subst this
        rw [← h2, List.getElem?_concat_length, h2, hy]

theorem RegEnc.createShifted (E : RegEnc w step enc mulR sumR sm) (s : Nat) (hw : w = step * s) (hs : 0 < s)
    (h : List α) :
    ∃ shifts, createShiftedCopies w step (enc h) = some shifts ∧ shifts.length = s ∧
      ∀ i < s, shifts[i]? = shiftedCopy w step s (enc h) i := by
  unfold createShiftedCopies
  have : w / step = s := by rw [hw, Nat.mul_div_cancel_left _ E.pos]
  rw [this]
  exact mapM_range_get _ _ (fun i _ => by
    obtain ⟨B, p, h1, _⟩ := E.copy_spec s hw hs h i
    exact ⟨_, h1⟩)
end enc

/-- `W` are the points of `x` in the registers which overlap the `m` points before position `e`: `p` points before and `q` points behind.
    Registers have `s` points and begin at `lp`. -/
structure RegWindow (s lp : Nat) (x : List α) (e m p q : Nat) (W : List α) : Prop where
  before : p < s
  behind : q < s
  start : lp + p + m ≤ e
  first : s ∣ e - m - p - lp
  last : s ∣ e + q - lp
  fits : e + q ≤ x.length
  points : W = (x.drop (e - m - p)).take (p + m + q)

section form
variable [Zero α] [Add α] [Mul α] [Zero T] [Add T] {w step : Nat} {enc : List α → List T}
    {mulR : List T → List T → List T} {sumR : List T → α} {sm : List α → α}

/-- Without any law: one value of the SIMD convolution is the sum of the lanes of accumulated products of a window of the vector and
    the response, which is padded with zeros to whole registers. -/
theorem RegEnc.conv_form (E : RegEnc w step enc mulR sumR sm) (s : Nat) (hw : w = step * s) (hs : 0 < s)
    (h X : List α) (simd : List (List T)) (hsimd : simd.flatten = enc X) (hlen : ∀ r ∈ simd, r.length = w)
    (shifts : List (List (List T))) (hsh : createShiftedCopies w step (enc h) = some shifts)
    (convLen leftPts i : Nat) (h1 : leftPts ≤ i + convLen) (h2 : h.length ≤ i + convLen - leftPts)
    (h3 : i + convLen - leftPts ≤ X.length) :
    ∃ (A B : List (List α)) (p q : Nat), A.length = B.length ∧ (∀ r ∈ A, r.length = s) ∧ (∀ r ∈ B, r.length = s) ∧
      B.length ≤ h.length / s + 2 ∧ B.flatten = List.replicate p 0 ++ h.reverse ++ List.replicate q 0 ∧
      A.flatten.length = p + h.length + q ∧
      (A.flatten.drop p).take h.length = (X.drop (i + convLen - leftPts - h.length)).take h.length ∧
      RegWindow s 0 X (i + convLen - leftPts) h.length p q A.flatten ∧
      simdConvAt w mulR sumR simd shifts convLen leftPts i =
        some (sm ((A.zip B).foldl (fun sum p => List.zipWith (· + ·) sum (List.zipWith (· * ·) p.1 p.2))
          (List.replicate s 0))) := by
  obtain ⟨shifts', g1, g2, g3⟩ := E.createShifted s hw hs h
  rw [hsh] at g1
  obtain rfl := Option.some.inj g1
  obtain ⟨R, r1, r2, r3⟩ := E.blocks s hw hs simd X hsimd hlen
  generalize he0 : i + convLen - leftPts = e0 at *
  obtain ⟨B, p, b1, b2, b3, b4, b5⟩ := E.copy_spec s hw hs h (e0 % s)
  have hmod := Nat.mod_lt e0 hs
  have hround := round_up s e0 hs
  have hX : X.length = s * R.length := by rw [← r2]; exact length_flatten_of r3
  generalize hs' : (s - e0 % s) % s = s' at *
  have hs'lt : s' < s := by rw [← hs']; exact Nat.mod_lt _ hs
  generalize hen : (e0 + s - 1) / s = e at *
  have hBe : B.length ≤ e := b5 e (by omega)
  have heR : e ≤ R.length := by
    by_contra hc
    have h5 : R.length + 1 ≤ e := by omega
    have := Nat.mul_le_mul_right s h5
    rw [Nat.add_mul, Nat.one_mul, Nat.mul_comm R.length] at this
    omega
  have hz : List.replicate w (0 : T) = enc (List.replicate s 0) := by rw [E.zero, hw]
  have hA : ((R.drop (e - B.length)).take (e - (e - B.length))).length = B.length := by simp; omega
  have hAm : ∀ r ∈ (R.drop (e - B.length)).take (e - (e - B.length)), r.length = s := fun r hr =>
    r3 r (List.mem_of_mem_drop (List.mem_of_mem_take hr))
  have hfl : ((R.drop (e - B.length)).take (e - (e - B.length))).flatten =
      (X.drop (s * (e - B.length))).take (s * B.length) := by
    rw [← take_flatten_of (fun r hr => r3 r (List.mem_of_mem_drop hr)), ← drop_flatten_of r3, r2]
    congr 2; omega
  have hbe : s * (e - B.length) + s * B.length = e0 + s' := by
    rw [← Nat.mul_add, Nat.sub_add_cancel hBe, Nat.mul_comm]; exact hround
  have hbs : B.length * s = s * B.length := Nat.mul_comm _ _
  have hes : e * s ≤ s * R.length := by rw [Nat.mul_comm]; exact Nat.mul_le_mul_left _ heR
  refine ⟨(R.drop (e - B.length)).take (e - (e - B.length)), B, p, s', hA, hAm, b3, ?_, b2, ?_, ?_, ?_, ?_⟩
  · apply b5
    have := Nat.div_add_mod h.length s
    have := Nat.mod_lt h.length hs
    rw [Nat.add_mul, Nat.mul_comm (h.length / s)]; omega
  · rw [hfl]; simp; omega
  · rw [hfl, List.drop_take, List.drop_drop, List.take_take]
    congr 1
    · omega
    · congr 1; omega
  · have hps : p < s := by
      by_contra hc
      have hpos : 0 < B.length := by
        rcases Nat.eq_zero_or_pos B.length with h0 | h0
        · rw [h0, Nat.zero_mul] at b4; omega
        · exact h0
      have := b5 (B.length - 1) (by rw [Nat.sub_mul]; omega)
      omega
    refine ⟨hps, hs'lt, by omega, ⟨e - B.length, by omega⟩, ⟨e, ?_⟩, by rw [hX]; omega, ?_⟩
    · rw [Nat.mul_comm s e]; omega
    · rw [hfl]
      congr 1
      · omega
      · congr 1; omega
  · unfold simdConvAt
    rw [if_neg (by omega), g2, he0, g3 _ hmod, b1]
    simp only [Option.bind_some, List.length_map, hen]
    rw [if_neg (by omega), r1]
    rw [slice_ok _ _ _ (by omega) (by simp; omega)]
    simp only [Option.bind_some]
    rw [← List.map_drop, ← List.map_take]
    rw [hz, E.accumulate s hw _ B _ hA hAm b3 (by simp), E.hsum]

end form

section conv
variable [CommRing α] [Zero T] [Add T] {w step : Nat} {enc : List α → List T}
    {mulR : List T → List T → List T} {sumR : List T → α}

theorem RegEnc.conv_spec (E : RegEnc w step enc mulR sumR List.sum) (s : Nat) (hw : w = step * s) (hs : 0 < s)
    (h X : List α) (simd : List (List T)) (hsimd : simd.flatten = enc X) (hlen : ∀ r ∈ simd, r.length = w)
    (shifts : List (List (List T))) (hsh : createShiftedCopies w step (enc h) = some shifts)
    (convLen leftPts i : Nat) (h1 : leftPts ≤ i + convLen) (h2 : h.length ≤ i + convLen - leftPts)
    (h3 : i + convLen - leftPts ≤ X.length) :
    simdConvAt w mulR sumR simd shifts convLen leftPts i =
      some (List.zipWith (· * ·) ((X.drop (i + convLen - leftPts - h.length)).take h.length) h.reverse).sum := by
  obtain ⟨A, B, p, q, a1, a2, a3, a4, a5, a6, a7, -, a8⟩ := E.conv_form s hw hs h X simd hsimd hlen shifts hsh convLen leftPts i h1 h2 h3
  rw [a8, sum_accumulate s A B _ a1 a2 a3 (by simp), a5, sum_padded _ h.reverse p q (by simpa using a6), List.length_reverse, a7]
  simp

end conv
end Dsp
