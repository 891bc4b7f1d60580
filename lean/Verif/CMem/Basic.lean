import Verif.CMem.Model
import Verif.Word.Fp2
import Mathlib.Tactic.Linarith

/-!
# Arrays in memory: reading after writing, and the digit loops
-/

namespace Secuer.CMem

open Secuer.Word Secuer.Field

variable {m m' : Mem} {n k a b c : ℕ} {v w : List Digit}

@[simp] theorem rd_length (m : Mem) (n a : ℕ) : (rd m n a).length = n := by
  induction n generalizing a with
  | zero => rfl
  | succ n ih => simp [rd, ih]

theorem rd_getElem? (m : Mem) (n a i : ℕ) : (rd m n a)[i]? = if i < n then some (m (a + i)) else none := by
  induction n generalizing a i with
  | zero => simp [rd]
  | succ n ih =>
    cases i with
    | zero => simp [rd]
    | succ i =>
      simp only [rd, List.getElem?_cons_succ, ih, Nat.add_lt_add_iff_right]
      rw [show a + 1 + i = a + (i + 1) by omega]

theorem rd_congr (h : ∀ x, a ≤ x → x < a + n → m x = m' x) : rd m n a = rd m' n a := by
  induction n generalizing a with
  | zero => rfl
  | succ n ih =>
    simp only [rd]
    rw [h a (by omega) (by omega), ih fun x h1 h2 => h x (by omega) (by omega)]

theorem rd_add (m : Mem) (n k a : ℕ) : rd m (n + k) a = rd m n a ++ rd m k (a + n) := by
  induction n generalizing a with
  | zero => simp [rd]
  | succ n ih =>
    rw [show n + 1 + k = (n + k) + 1 by omega]
    simp only [rd, List.cons_append, ih]
    rw [show a + 1 + n = a + (n + 1) by omega]

theorem wr_of_lt {x : ℕ} (h : x < a) : wr m a v x = m x := by simp [wr, Nat.not_le.2 h]

theorem wr_of_ge {x : ℕ} (h : a + v.length ≤ x) : wr m a v x = m x := by
  rw [wr]
  split
  · rw [List.getElem?_eq_none (by omega)]; rfl
  · rfl

theorem wr_at (m : Mem) (a i : ℕ) (v : List Digit) : wr m a v (a + i) = (v[i]?).getD (m (a + i)) := by
  simp [wr]

@[simp] theorem wr_nil : wr m a [] = m := by
  funext x; simp [wr]

theorem wr_cons (m : Mem) (a : ℕ) (w : Digit) (v : List Digit) : wr m a (w :: v) = wr (upd m a w) (a + 1) v := by
  funext x
  rcases Nat.lt_trichotomy x a with h | h | h
  · rw [wr_of_lt h, wr_of_lt (by omega), upd, if_neg (by omega)]
  · subst h
    rw [wr_of_lt (a := x + 1) (by omega)]
    simp [wr, upd]
  · rw [wr, wr, if_pos (by omega), if_pos (by omega), upd, if_neg (by omega),
      show x - a = (x - (a + 1)) + 1 by omega, List.getElem?_cons_succ]

/-- Reading back what was written -/
theorem rd_wr_same (h : v.length = n) : rd (wr m a v) n a = v := by
  apply List.ext_getElem?
  intro i
  rw [rd_getElem?]
  split
  · next hi => rw [wr_at, List.getElem?_eq_getElem (by omega)]; rfl
  · rw [List.getElem?_eq_none (by omega)]

/-- Reading an array that is disjoint from the one written -/
theorem rd_wr_disj (h : a + v.length ≤ b ∨ b + n ≤ a) : rd (wr m a v) n b = rd m n b := by
  apply rd_congr
  intro x h1 h2
  rcases h with h | h
  · exact wr_of_ge (by omega)
  · exact wr_of_lt (by omega)

theorem rd_upd_disj {x : ℕ} {d : Digit} (h : x < b ∨ b + n ≤ x) : rd (upd m x d) n b = rd m n b := by
  apply rd_congr
  intro y h1 h2
  rw [upd, if_neg (by omega)]

/-- Writing twice to the same array -/
theorem wr_wr_same (h : v.length = w.length) : wr (wr m a v) a w = wr m a w := by
  funext x
  rw [wr, wr, wr]
  by_cases hx : a ≤ x
  · simp only [if_pos hx]
    by_cases hl : x - a < w.length
    · rw [List.getElem?_eq_getElem hl]; rfl
    · rw [List.getElem?_eq_none (l := w) (by omega), List.getElem?_eq_none (l := v) (by omega)]; rfl
  · simp only [if_neg hx]

/-- Writing two adjacent arrays -/
theorem wr_append (m : Mem) (a : ℕ) (v w : List Digit) : wr m a (v ++ w) = wr (wr m a v) (a + v.length) w := by
  induction v generalizing a m with
  | nil => simp
  | cons x v ih =>
    rw [List.cons_append, wr_cons, wr_cons, ih, show a + 1 + v.length = a + (x :: v).length by simp; omega]

/-- Writing to disjoint arrays, in either order -/
theorem wr_comm (h : a + v.length ≤ b ∨ b + w.length ≤ a) : wr (wr m a v) b w = wr (wr m b w) a v := by
  funext x
  by_cases h1 : b ≤ x ∧ x < b + w.length
  · have h2 : x < a ∨ a + v.length ≤ x := by omega
    obtain ⟨i, rfl⟩ := Nat.exists_eq_add_of_le h1.1
    have : wr (wr m b w) a v (b + i) = wr m b w (b + i) := by
      rcases h2 with h2 | h2
      · exact wr_of_lt h2
      · exact wr_of_ge h2
    rw [this, wr_at, wr_at, List.getElem?_eq_getElem (by omega)]; rfl
  · have h2 : x < b ∨ b + w.length ≤ x := by omega
    have e : wr (wr m a v) b w x = wr m a v x := by
      rcases h2 with h2 | h2
      · exact wr_of_lt h2
      · exact wr_of_ge h2
    have e' : wr m b w x = m x := by
      rcases h2 with h2 | h2
      · exact wr_of_lt h2
      · exact wr_of_ge h2
    rw [e]
    simp only [wr] at e' ⊢
    rw [e']

theorem upd_wr_end (m : Mem) (c : ℕ) (v : List Digit) (d : Digit) : upd (wr m c v) (c + v.length) d = wr m c (v ++ [d]) := by
  rw [wr_append, wr_cons, wr_nil]

theorem upd_wr_set {i : ℕ} (h : i < v.length) (d : Digit) : upd (wr m c v) (c + i) d = wr m c (v.set i d) := by
  funext x
  by_cases hx : c ≤ x
  · obtain ⟨j, rfl⟩ := Nat.exists_eq_add_of_le hx
    rw [upd, wr_at, wr_at, List.getElem?_set]
    by_cases hj : j = i
    · subst hj; simp [h]
    · rw [if_neg (by omega), if_neg (by omega)]
  · rw [upd, if_neg (by omega), wr_of_lt (by omega), wr_of_lt (by omega)]

/-- Storing what is already there -/
theorem wr_rd (m : Mem) (n a : ℕ) : wr m a (rd m n a) = m := by
  funext x
  by_cases hx : a ≤ x
  · obtain ⟨j, rfl⟩ := Nat.exists_eq_add_of_le hx
    rw [wr_at, rd_getElem?]
    split <;> rfl
  · exact wr_of_lt (by omega)

/-- An input array of `n` digits at `a` may be used with an output array of `n` digits at `c`: they are equal or disjoint -/
def Ok (n a c : ℕ) : Prop := a = c ∨ a + n ≤ c ∨ c + n ≤ a

theorem Ok.refl : Ok n a a := Or.inl rfl

theorem Ok.step {n a c : ℕ} (h : Ok (n + 1) a c) : Ok n (a + 1) (c + 1) := by
  unfold Ok at *; omega

theorem Ok.cell {n a c : ℕ} (h : Ok (n + 1) a c) : c < a + 1 ∨ a + 1 + n ≤ c := by
  unfold Ok at *; omega

/-! ## The loops -/

theorem addLoop_length : ∀ (x y : List Digit) (cy : UInt), x.length = y.length → (addLoop cy x y).2.length = x.length
  | [], [], _, _ => rfl
  | _ :: x, _ :: y, _, h => by
    simp only [addLoop, List.length_cons]
    rw [addLoop_length x y _ (by simpa using h)]

theorem subLoop_length : ∀ (x y : List Digit) (cy : UInt), x.length = y.length → (subLoop cy x y).2.length = x.length
  | [], [], _, _ => rfl
  | _ :: x, _ :: y, _, h => by
    simp only [subLoop, List.length_cons]
    rw [subLoop_length x y _ (by simpa using h)]

theorem addMem_eq : ∀ {n a b c : ℕ} (cy : UInt) (m : Mem), Ok n a c → Ok n b c →
    addMem n cy a b c m = ((addLoop cy (rd m n a) (rd m n b)).1, wr m c (addLoop cy (rd m n a) (rd m n b)).2)
  | 0, _, _, _, _, _, _, _ => by simp [addMem, addLoop, rd]
  | n + 1, a, b, c, cy, m, ha, hb => by
    simp only [addMem, rd, addLoop]
    rw [addMem_eq _ _ ha.step hb.step, rd_upd_disj ha.cell, rd_upd_disj hb.cell, wr_cons]

theorem subMem_eq : ∀ {n a b c : ℕ} (cy : UInt) (m : Mem), Ok n a c → Ok n b c →
    subMem n cy a b c m = ((subLoop cy (rd m n a) (rd m n b)).1, wr m c (subLoop cy (rd m n a) (rd m n b)).2)
  | 0, _, _, _, _, _, _, _ => by simp [subMem, subLoop, rd]
  | n + 1, a, b, c, cy, m, ha, hb => by
    simp only [subMem, rd, subLoop]
    rw [subMem_eq _ _ ha.step hb.step, rd_upd_disj ha.cell, rd_upd_disj hb.cell, wr_cons]

theorem addTab_eq : ∀ (t : List Digit) {n a c : ℕ} (cy : UInt) (m : Mem), t.length = n → Ok n a c →
    addTab t cy a c m = ((addLoop cy (rd m n a) t).1, wr m c (addLoop cy (rd m n a) t).2)
  | [], 0, _, _, _, _, _, _ => by simp [addTab, addLoop, rd]
  | w :: t, n + 1, a, c, cy, m, hl, ha => by
    simp only [addTab, rd, addLoop]
    rw [addTab_eq t (n := n) _ _ (by simpa using hl) ha.step, rd_upd_disj ha.cell, wr_cons]

theorem subTab_eq : ∀ (t : List Digit) {n a c : ℕ} (cy : UInt) (m : Mem), t.length = n → Ok n a c →
    subTab t cy a c m = ((subLoop cy (rd m n a) t).1, wr m c (subLoop cy (rd m n a) t).2)
  | [], 0, _, _, _, _, _, _ => by simp [subTab, subLoop, rd]
  | w :: t, n + 1, a, c, cy, m, hl, ha => by
    simp only [subTab, rd, subLoop]
    rw [subTab_eq t (n := n) _ _ (by simpa using hl) ha.step, rd_upd_disj ha.cell, wr_cons]

theorem negTab_eq : ∀ (t : List Digit) {n a : ℕ} (cy : UInt) (m : Mem), t.length = n →
    negTab t cy a m = ((subLoop cy t (rd m n a)).1, wr m a (subLoop cy t (rd m n a)).2)
  | [], 0, _, _, _, _ => by simp [negTab, subLoop, rd]
  | w :: t, n + 1, a, cy, m, hl => by
    simp only [negTab, rd, subLoop]
    rw [negTab_eq t (n := n) _ _ (by simpa using hl), rd_upd_disj (by omega), wr_cons]

theorem copyMem_eq : ∀ {n a c : ℕ} (m : Mem), Ok n a c → copyMem n a c m = wr m c (rd m n a)
  | 0, _, _, _, _ => by simp [copyMem, rd]
  | n + 1, a, c, m, ha => by
    simp only [copyMem, rd]
    rw [copyMem_eq _ ha.step, rd_upd_disj ha.cell, wr_cons]

theorem fillMem_eq : ∀ (t : List Digit) (c : ℕ) (m : Mem), fillMem t c m = wr m c t
  | [], _, _ => by simp [fillMem]
  | w :: t, c, m => by
    simp only [fillMem]
    rw [fillMem_eq t, wr_cons]

theorem shiftMem_eq : ∀ (n x : ℕ) (m : Mem), shiftMem n x m = wr m x (shiftr1 (rd m n x))
  | 0, _, _ => by simp [shiftMem, rd, shiftr1]
  | 1, _, _ => by simp [shiftMem, rd, shiftr1, wr_cons]
  | n + 2, x, m => by
    rw [shiftMem, shiftMem_eq (n + 1)]
    simp only [rd, shiftr1, wr_cons]
    rw [show upd m x (shiftR (m (x + 1)) (m x)) (x + 1) = m (x + 1) by simp [upd],
      rd_upd_disj (b := x + 1 + 1) (by omega)]

theorem shiftr1_length : ∀ x : List Digit, (shiftr1 x).length = x.length
  | [] => rfl
  | [_] => rfl
  | _ :: y :: x => by simp [shiftr1, shiftr1_length (y :: x)]

@[simp] theorem masked_length (k : Digit) (x : List Digit) : (masked k x).length = x.length := by simp [masked]

/-! ## The functions of `fp_generic.c` up to `fpcorrection` -/

section
variable {T : Tables} {p : ℕ} (g : Good T p)
include g

/-- `mp_sub434_p2` … -/
theorem subP2M_eq (ha : Ok T.n a c) (hb : Ok T.n b c) : subP2M T a b c m = wr m c (subP2C T (rd m T.n a) (rd m T.n b)) := by
  have hl := subLoop_length (rd m T.n a) (rd m T.n b) 0 (by simp)
  rw [rd_length] at hl
  simp only [subP2M, subP2C]
  rw [subMem_eq _ _ ha hb, addTab_eq _ _ _ g.len_x2 Ok.refl, rd_wr_same hl, wr_wr_same]
  rw [addLoop_length _ _ _ (by rw [hl, g.len_x2])]

/-- `mp_sub434_p4` … -/
theorem subP4M_eq (ha : Ok T.n a c) (hb : Ok T.n b c) : subP4M T a b c m = wr m c (subP4 T (rd m T.n a) (rd m T.n b)) := by
  have hl := subLoop_length (rd m T.n a) (rd m T.n b) 0 (by simp)
  rw [rd_length] at hl
  simp only [subP4M, subP4]
  rw [subMem_eq _ _ ha hb, addTab_eq _ _ _ g.len_x4 Ok.refl, rd_wr_same hl, wr_wr_same]
  rw [addLoop_length _ _ _ (by rw [hl, g.len_x4])]

/-- `fpadd434` … -/
theorem fpaddM_eq (ha : Ok T.n a c) (hb : Ok T.n b c) : fpaddM T a b c m = wr m c (fpaddC T (rd m T.n a) (rd m T.n b)) := by
  have hl := addLoop_length (rd m T.n a) (rd m T.n b) 0 (by simp)
  rw [rd_length] at hl
  have hl' := subLoop_length (addLoop 0 (rd m T.n a) (rd m T.n b)).2 T.x2 0 (by rw [hl, g.len_x2])
  rw [hl] at hl'
  simp only [fpaddM, fpaddC]
  rw [addMem_eq _ _ ha hb, subTab_eq _ _ _ g.len_x2 Ok.refl, rd_wr_same hl,
    addTab_eq _ _ _ (by rw [masked_length, g.len_x2]) Ok.refl, rd_wr_same hl']
  rw [wr_wr_same (by rw [hl, hl']), wr_wr_same]
  rw [addLoop_length _ _ _ (by rw [hl', masked_length, g.len_x2])]

/-- `fpsub434` … -/
theorem fpsubM_eq (ha : Ok T.n a c) (hb : Ok T.n b c) : fpsubM T a b c m = wr m c (fpsubC T (rd m T.n a) (rd m T.n b)) := by
  have hl := subLoop_length (rd m T.n a) (rd m T.n b) 0 (by simp)
  rw [rd_length] at hl
  simp only [fpsubM, fpsubC]
  rw [subMem_eq _ _ ha hb, addTab_eq _ _ _ (by rw [masked_length, g.len_x2]) Ok.refl, rd_wr_same hl, wr_wr_same]
  rw [addLoop_length _ _ _ (by rw [hl, masked_length, g.len_x2])]

/-- `fpneg434` … -/
theorem fpnegM_eq : fpnegM T a m = wr m a (fpneg T (rd m T.n a)) := by
  simp only [fpnegM, fpneg]
  rw [negTab_eq _ _ _ g.len_x2]

/-- `fpdiv2_434` … -/
theorem fpdiv2M_eq (ha : Ok T.n a c) : fpdiv2M T a c m = wr m c (fpdiv2 T (rd m T.n a)) := by
  have h0 : m a = (rd m T.n a).headD 0 := by
    have := g.n_pos
    obtain ⟨k, hk⟩ : ∃ k, T.n = k + 1 := ⟨T.n - 1, by omega⟩
    simp [hk, rd]
  have hl : ∀ k, (addLoop 0 (rd m T.n a) (masked k T.p)).2.length = T.n := fun k => by
    rw [addLoop_length _ _ _ (by simp [g.len_p]), rd_length]
  simp only [fpdiv2M, fpdiv2]
  rw [addTab_eq _ _ _ (by rw [masked_length, g.len_p]) ha, shiftMem_eq, rd_wr_same (hl _), h0, wr_wr_same]
  rw [shiftr1_length]

/-- `fpcorrection434` … -/
theorem fpcorrectionM_eq : fpcorrectionM T a m = wr m a (fpcorrection T (rd m T.n a)) := by
  have hl := subLoop_length (rd m T.n a) T.p 0 (by simp [g.len_p])
  rw [rd_length] at hl
  simp only [fpcorrectionM, fpcorrection]
  rw [subTab_eq _ _ _ g.len_p Ok.refl, addTab_eq _ _ _ (by rw [masked_length, g.len_p]) Ok.refl, rd_wr_same hl, wr_wr_same]
  rw [addLoop_length _ _ _ (by rw [hl, masked_length, g.len_p])]

end

/-- `mp_addfast` -/
theorem mpAddfastM_eq {T : Tables} (ha : Ok T.n a c) (hb : Ok T.n b c) :
    mpAddfastM T a b c m = wr m c (mpAddfastC (rd m T.n a) (rd m T.n b)) := by
  simp only [mpAddfastM, mpAddfastC, mpAdd]
  rw [addMem_eq _ _ ha hb]

end Secuer.CMem
