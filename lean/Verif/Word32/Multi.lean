import Verif.Word32.Basic
import Verif.Word.Multi
import Mathlib.Algebra.BigOperators.Intervals
import Mathlib.Algebra.BigOperators.Ring.Finset
import Mathlib.Data.List.GetD

/-!
# Arrays of 32-bit digits: addition, subtraction, shift, product, Montgomery reduction

The text of `Verif/Word/Multi.lean` with the other word size.
-/

namespace Secuer.Word32

open Secuer.Word (UInt Bit bit_zero bit_ite u0 u1 range'_sum product_columns sum_le_length)

open Finset

/-- The number an array of digits stands for -/
def val : List Digit → ℕ
  | [] => 0
  | x :: xs => x.toNat + 2 ^ 32 * val xs

theorem pow32_succ (n : ℕ) : 2 ^ (32 * (n + 1)) = 2 ^ 32 * 2 ^ (32 * n) := by
  rw [Nat.mul_add, Nat.mul_one, Nat.add_comm, Nat.pow_add]

theorem val_lt : ∀ x : List Digit, val x < 2 ^ (32 * x.length)
  | [] => by simp [val]
  | a :: xs => by
    have := val_lt xs
    have := a.isLt
    rw [List.length_cons, pow32_succ, val]
    omega

theorem val_append : ∀ x y : List Digit, val (x ++ y) = val x + 2 ^ (32 * x.length) * val y
  | [], y => by simp [val]
  | a :: xs, y => by
    rw [List.cons_append, val, val, val_append xs y, List.length_cons, pow32_succ]
    ring

theorem val_replicate_zero : ∀ n : ℕ, val (List.replicate n 0) = 0
  | 0 => rfl
  | n + 1 => by rw [List.replicate_succ, val, val_replicate_zero n]; rfl

theorem val_inj : ∀ {x y : List Digit}, x.length = y.length → val x = val y → x = y
  | [], [], _, _ => rfl
  | [], _ :: _, h, _ => by cases h
  | _ :: _, [], h, _ => by cases h
  | a :: xs, b :: ys, h, e => by
    rw [val, val] at e
    have h1 := a.isLt
    have h2 := b.isLt
    have e1 : a.toNat = b.toNat := by omega
    have e2 : val xs = val ys := by omega
    rw [BitVec.eq_of_toNat_eq e1, val_inj (Nat.succ.inj h) e2]

theorem addLoop_spec : ∀ {a b : List Digit} {c : UInt}, Bit c → a.length = b.length →
    (addLoop c a b).2.length = a.length ∧ Bit (addLoop c a b).1 ∧
      val (addLoop c a b).2 + 2 ^ (32 * a.length) * (addLoop c a b).1.toNat = val a + val b + c.toNat
  | [], [], c, hc, _ => by refine ⟨rfl, hc, ?_⟩; simp [addLoop, val]
  | [], _ :: _, _, _, h => by cases h
  | _ :: _, [], _, _, h => by cases h
  | x :: a, y :: b, c, hc, h => by
    obtain ⟨h1, h2⟩ := addc_spec hc x y
    obtain ⟨h3, h4, h5⟩ := addLoop_spec (a := a) (b := b) h1 (Nat.succ.inj h)
    refine ⟨?_, h4, ?_⟩
    · rw [addLoop, List.length_cons, List.length_cons, h3]
    · rw [addLoop, val, val, val, List.length_cons, pow32_succ]
      dsimp only
      generalize (addLoop (addc c x y).1 a b).1.toNat = k at *
      generalize val (addLoop (addc c x y).1 a b).2 = w at *
      generalize (2 : ℕ) ^ (32 * a.length) = r at *
      have : (addc c x y).2.toNat + 2 ^ 32 * w + 2 ^ 32 * r * k = (addc c x y).2.toNat + 2 ^ 32 * (w + r * k) := by ring
      rw [this, h5]
      omega

theorem subLoop_spec : ∀ {a b : List Digit} {c : UInt}, Bit c → a.length = b.length →
    (subLoop c a b).2.length = a.length ∧ Bit (subLoop c a b).1 ∧
      val (subLoop c a b).2 + val b + c.toNat = val a + 2 ^ (32 * a.length) * (subLoop c a b).1.toNat
  | [], [], c, hc, _ => by refine ⟨rfl, hc, ?_⟩; simp [subLoop, val]
  | [], _ :: _, _, _, h => by cases h
  | _ :: _, [], _, _, h => by cases h
  | x :: a, y :: b, c, hc, h => by
    obtain ⟨h1, h2⟩ := subc_spec hc x y
    obtain ⟨h3, h4, h5⟩ := subLoop_spec (a := a) (b := b) h1 (Nat.succ.inj h)
    refine ⟨?_, h4, ?_⟩
    · rw [subLoop, List.length_cons, List.length_cons, h3]
    · rw [subLoop, val, val, val, List.length_cons, pow32_succ]
      dsimp only
      generalize (subLoop (subc c x y).1 a b).1.toNat = k at *
      generalize val (subLoop (subc c x y).1 a b).2 = w at *
      generalize (2 : ℕ) ^ (32 * a.length) = r at *
      have : x.toNat + 2 ^ 32 * val a + 2 ^ 32 * r * k = x.toNat + 2 ^ 32 * (val a + r * k) := by ring
      rw [this, ← h5]
      omega

theorem masked_length (m : Digit) (x : List Digit) : (masked m x).length = x.length := List.length_map _

theorem val_masked {c : UInt} (h : Bit c) (x : List Digit) : val (masked (maskOf c) x) = c.toNat * val x := by
  rcases h.cases with rfl | rfl
  · have : maskOf 0 = 0 := rfl
    rw [this, u0, Nat.zero_mul]
    induction x with
    | nil => rfl
    | cons a x ih =>
      have e : masked 0 (a :: x) = (a &&& 0) :: masked 0 x := rfl
      have e0 : a &&& (0 : Digit) = 0 := BitVec.and_zero
      rw [e, val, ih, e0]
      rfl
  · have : maskOf 1 = BitVec.allOnes 32 := rfl
    rw [this, u1, Nat.one_mul]
    congr 1
    unfold masked
    conv_rhs => rw [← List.map_id x]
    apply List.map_congr_left
    intro a _
    exact BitVec.and_allOnes

theorem shiftR_toNat (h l : Digit) : (shiftR h l).toNat = l.toNat / 2 + 2 ^ 31 * (h.toNat % 2) := by
  unfold shiftR
  have e1 : (l >>> 1).toNat = l.toNat / 2 := by rw [BitVec.toNat_ushiftRight, Nat.shiftRight_eq_div_pow]
  have e2 : (h <<< (32 - 1)).toNat = 2 ^ 31 * (h.toNat % 2) := by
    rw [BitVec.toNat_shiftLeft, Nat.shiftLeft_eq]; omega
  have hl := l.isLt
  have lt : (l >>> 1).toNat < 2 ^ 31 := by omega
  rw [BitVec.toNat_xor, e2]
  rw [e1] at lt ⊢
  apply Nat.eq_of_testBit_eq
  intro i
  rw [Nat.testBit_xor, Nat.add_comm, Nat.testBit_two_pow_mul_add _ lt, Nat.testBit_two_pow_mul]
  by_cases hi : i < 31
  · simp [hi, Nat.not_le.2 hi]
  · have : (l.toNat / 2).testBit i = false :=
      Nat.testBit_lt_two_pow (lt_of_lt_of_le lt (Nat.pow_le_pow_right (by norm_num) (by omega)))
    simp [hi, this, Nat.le_of_not_lt hi]

theorem shiftr1_length : ∀ x : List Digit, (shiftr1 x).length = x.length
  | [] => rfl
  | [_] => rfl
  | x :: y :: xs => by rw [shiftr1, List.length_cons, shiftr1_length (y :: xs), List.length_cons, List.length_cons, List.length_cons]

theorem val_shiftr1 : ∀ x : List Digit, val (shiftr1 x) = val x / 2
  | [] => rfl
  | [x] => by
    show (x >>> 1).toNat + 2 ^ 32 * 0 = (x.toNat + 2 ^ 32 * 0) / 2
    rw [BitVec.toNat_ushiftRight, Nat.shiftRight_eq_div_pow]
    omega
  | x :: y :: xs => by
    rw [shiftr1, val, val_shiftr1 (y :: xs), shiftR_toNat, val, val, val]
    have := x.isLt
    omega

/-! ## Digits as a function of the index -/

/-- digit `k`, zero beyond the end -/
def dig (x : List Digit) (k : ℕ) : ℕ := (x.getD k 0).toNat

theorem dig_lt (x : List Digit) (k : ℕ) : dig x k < 2 ^ 32 := BitVec.isLt _

theorem dig_of_get {x : List Digit} {k : ℕ} {d : Digit} (h : x[k]? = some d) : dig x k = d.toNat := by
  rw [dig, List.getD_eq_getElem?_getD, h]; rfl

theorem val_eq_sum : ∀ x : List Digit, val x = ∑ k ∈ range x.length, dig x k * 2 ^ (32 * k)
  | [] => rfl
  | a :: xs => by
    rw [val, val_eq_sum xs, List.length_cons, Finset.sum_range_succ', Finset.mul_sum, Nat.add_comm]
    have e1 : ∀ k, dig (a :: xs) (k + 1) = dig xs k := fun _ => rfl
    have e2 : dig (a :: xs) 0 = a.toNat := rfl
    rw [e2, Nat.mul_zero, Nat.pow_zero, Nat.mul_one]
    refine congrArg (· + a.toNat) (Finset.sum_congr rfl fun k _ => ?_)
    rw [pow32_succ, e1, Nat.mul_left_comm]

/-! ## Accumulators -/

/-- The number the three accumulators hold -/
def Acc.val (s : Acc) : ℕ := s.v.toNat + 2 ^ 32 * s.u.toNat + 2 ^ 64 * s.t.toNat

theorem acc_add {s : Acc} {lo hi : Digit} {x : ℕ} (hx : lo.toNat + 2 ^ 32 * hi.toNat = x) (h : s.val + x < 2 ^ 96)
    {v u : Digit} {c c' : UInt} (h1 : v.toNat + 2 ^ 32 * c.toNat = lo.toNat + s.v.toNat)
    (h2 : u.toNat + 2 ^ 32 * c'.toNat = hi.toNat + s.u.toNat + c.toNat) (hc' : Bit c') :
    (⟨s.t + c'.setWidth 32, u, v⟩ : Acc).val = s.val + x := by
  unfold Acc.val at *
  dsimp only
  have hc1 : c'.toNat ≤ 1 := hc'
  rw [BitVec.toNat_add, setWidth_bit]
  have := s.t.isLt
  have := s.u.isLt
  have := s.v.isLt
  have := u.isLt
  have := v.isLt
  have : s.t.toNat + c'.toNat < 2 ^ 32 := by omega
  rw [Nat.mod_eq_of_lt this]
  omega

theorem Acc.val_mac (s : Acc) (x y : Digit) (h : s.val + x.toNat * y.toNat < 2 ^ 96) :
    (s.mac x y).val = s.val + x.toNat * y.toNat := by
  obtain ⟨h1, h2⟩ := addc_spec bit_zero (digitXDigit x y).1 s.v
  obtain ⟨h3, h4⟩ := addc_spec h1 (digitXDigit x y).2 s.u
  exact acc_add (digitXDigit_spec x y) h (by rw [h2, u0, Nat.add_zero]) h4 h3

theorem Acc.val_addWord (s : Acc) (w : Digit) (h : s.val + w.toNat < 2 ^ 96) :
    (s.addWord w).val = s.val + w.toNat := by
  obtain ⟨h1, h2⟩ := addc_spec bit_zero s.v w
  obtain ⟨h3, h4⟩ := addc_spec h1 s.u 0
  refine acc_add (lo := w) (hi := 0) ?_ h (by rw [h2, u0]; omega) (by rw [h4]; omega) h3
  rw [zero_toNat]; omega

theorem Acc.val_next (s : Acc) : s.v.toNat + 2 ^ 32 * s.next.val = s.val := by
  unfold Acc.val Acc.next
  dsimp only
  rw [zero_toNat]
  omega

/-! ## The product -/

theorem at?_some {x : List Digit} {i j : ℕ} (h : j ≤ i) (h' : i - j < x.length) :
    at? x i j = some (x[i - j]'h') := by
  unfold at?
  rw [if_pos h]
  exact List.getElem?_eq_getElem h'

theorem mulCol_spec {a b : List Digit} {i : ℕ} : ∀ (js : List ℕ) (s : Acc),
    (∀ j ∈ js, j < a.length ∧ j ≤ i ∧ i - j < b.length) →
    s.val + (js.map fun j => dig a j * dig b (i - j)).sum < 2 ^ 96 →
    ∃ s', mulCol a b i js s = some s' ∧ s'.val = s.val + (js.map fun j => dig a j * dig b (i - j)).sum
  | [], s, _, _ => ⟨s, rfl, by simp⟩
  | j :: js, s, hj, hs => by
    obtain ⟨h1, h2, h3⟩ := hj j (List.mem_cons_self ..)
    rw [List.map_cons, List.sum_cons] at hs ⊢
    have ea : a[j]? = some a[j] := List.getElem?_eq_getElem h1
    have eb := at?_some h2 h3
    have da := dig_of_get ea
    have db : dig b (i - j) = (b[i - j]'h3).toNat := dig_of_get (List.getElem?_eq_getElem h3)
    have hm : (s.mac a[j] (b[i - j]'h3)).val = s.val + dig a j * dig b (i - j) := by
      rw [da, db]
      apply Acc.val_mac
      rw [← da, ← db]; omega
    obtain ⟨s', e, hs'⟩ := mulCol_spec js (s.mac a[j] (b[i - j]'h3)) (fun k hk => hj k (List.mem_cons_of_mem _ hk))
      (by rw [hm]; omega)
    refine ⟨s', ?_, by rw [hs', hm]; omega⟩
    rw [mulCol, ea, eb]
    exact e

theorem dig_mul_le (a b : List Digit) (j k : ℕ) : dig a j * dig b k ≤ (2 ^ 32 - 1) * (2 ^ 32 - 1) :=
  Nat.mul_le_mul (by have := dig_lt a j; omega) (by have := dig_lt b k; omega)

/-- The columns `i₀, i₀+1, …` of a comba product -/
theorem mulCols_spec {a b : List Digit} {n : ℕ} (hn : n < 2 ^ 32) {js : ℕ → List ℕ} :
    ∀ (m i₀ : ℕ) (s : Acc) (c : List Digit),
    (∀ i, i₀ ≤ i → i < i₀ + m → (js i).length ≤ n ∧ ∀ j ∈ js i, j < a.length ∧ j ≤ i ∧ i - j < b.length) →
    s.val ≤ n * 2 ^ 32 →
    ∃ s' c', mulCols a b js (List.range' i₀ m) (s, c) = some (s', c ++ c') ∧ c'.length = m ∧ s'.val ≤ n * 2 ^ 32 ∧
      val c' + 2 ^ (32 * m) * s'.val =
        s.val + ∑ k ∈ range m, ((js (i₀ + k)).map fun j => dig a j * dig b (i₀ + k - j)).sum * 2 ^ (32 * k)
  | 0, i₀, s, c, _, hs => ⟨s, [], by simp [mulCols], rfl, hs, by simp [val]⟩
  | m + 1, i₀, s, c, hj, hs => by
    obtain ⟨hl, hm⟩ := hj i₀ (le_refl _) (by omega)
    have hb := sum_le_length (f := fun j => dig a j * dig b (i₀ - j)) (fun j => dig_mul_le a b j _) (js i₀)
    have hb2 : (js i₀).length * ((2 ^ 32 - 1) * (2 ^ 32 - 1)) ≤ n * ((2 ^ 32 - 1) * (2 ^ 32 - 1)) :=
      Nat.mul_le_mul_right _ hl
    obtain ⟨s1, e1, v1⟩ := mulCol_spec (js i₀) s hm (by omega)
    have hn1 := s1.val_next
    have hv := s1.v.isLt
    obtain ⟨s', c', e, hl', hs', v⟩ := mulCols_spec (a := a) (b := b) hn (js := js) m (i₀ + 1) s1.next (c ++ [s1.v])
      (fun i h h' => hj i (by omega) (by omega)) (by omega)
    refine ⟨s', s1.v :: c', ?_, by rw [List.length_cons, hl'], hs', ?_⟩
    · rw [List.range'_succ, mulCols, e1]
      show mulCols a b js (List.range' (i₀ + 1) m) (s1.next, c ++ [s1.v]) = _
      rw [e, List.append_assoc]
      rfl
    · rw [val, pow32_succ, Finset.sum_range_succ', Nat.add_zero]
      have e3 : ∑ k ∈ range m, ((js (i₀ + (k + 1))).map fun j => dig a j * dig b (i₀ + (k + 1) - j)).sum * 2 ^ (32 * (k + 1)) =
          2 ^ 32 * ∑ k ∈ range m, ((js (i₀ + 1 + k)).map fun j => dig a j * dig b (i₀ + 1 + k - j)).sum * 2 ^ (32 * k) := by
        rw [Finset.mul_sum]
        refine Finset.sum_congr rfl fun k _ => ?_
        rw [pow32_succ, show i₀ + (k + 1) = i₀ + 1 + k by omega]
        ring
      rw [e3]
      have : s1.v.toNat + 2 ^ 32 * val c' + 2 ^ 32 * 2 ^ (32 * m) * s'.val =
          s1.v.toNat + 2 ^ 32 * (val c' + 2 ^ (32 * m) * s'.val) := by ring
      rw [this, v]
      simp only [Nat.mul_zero, Nat.pow_zero, Nat.mul_one]
      omega

theorem val_mul {a b : List Digit} {n : ℕ} (ha : a.length = n) (hb : b.length = n) :
    val a * val b = ∑ k ∈ range (2 * n - 1), (∑ j ∈ Ico (k + 1 - n) (min (k + 1) n), dig a j * dig b (k - j)) * 2 ^ (32 * k) := by
  rw [val_eq_sum, val_eq_sum, ha, hb]
  have := product_columns (dig a) (dig b) n (2 ^ 32)
  simp only [← pow_mul] at this
  exact this

/-- `mp_mul` is exact. -/
theorem mpMul_spec {a b : List Digit} {n : ℕ} (hn : 0 < n) (hn' : n < 2 ^ 32) (ha : a.length = n) (hb : b.length = n) :
    ∃ c, mpMul n a b = some c ∧ c.length = 2 * n ∧ val c = val a * val b := by
  obtain ⟨s1, c1, e1, l1, b1, v1⟩ := mulCols_spec (a := a) (b := b) hn' (js := fun i => List.range (i + 1)) n 0 ⟨0, 0, 0⟩ []
    (by
      intro i _ h
      rw [List.length_range]
      refine ⟨by omega, fun j hj => ?_⟩
      rw [List.mem_range] at hj
      omega) (Nat.zero_le _)
  obtain ⟨s2, c2, e2, l2, b2, v2⟩ := mulCols_spec (a := a) (b := b) hn'
    (js := fun i => List.range' (i - n + 1) (n - (i - n + 1))) (n - 1) n s1 c1
    (by
      intro i h h'
      rw [List.length_range']
      refine ⟨by omega, fun j hj => ?_⟩
      rw [List.mem_range'_1] at hj
      omega) b1
  have hprod : val c1 + 2 ^ (32 * n) * (val c2 + 2 ^ (32 * (n - 1)) * s2.val) = val a * val b := by
    rw [v2, Nat.mul_add, ← Nat.add_assoc, v1, val_mul ha hb]
    have z : (⟨0, 0, 0⟩ : Acc).val = 0 := rfl
    rw [z, Nat.zero_add]
    have : 2 * n - 1 = n + (n - 1) := by omega
    rw [this, Finset.sum_range_add, Finset.mul_sum]
    congr 1
    · refine Finset.sum_congr rfl fun k hk => ?_
      rw [mem_range] at hk
      simp only [Nat.zero_add]
      rw [List.range_eq_range', range'_sum]
      congr 2
      rw [show k + 1 - n = 0 by omega, show min (k + 1) n = 0 + (k + 1) by omega]
    · refine Finset.sum_congr rfl fun k hk => ?_
      rw [mem_range] at hk
      rw [range'_sum, show n + k + 1 - n = n + k - n + 1 by omega, show min (n + k + 1) n = n + k - n + 1 + (n - (n + k - n + 1)) by omega,
        Nat.mul_add, pow_add]
      ring
  have hlt : val a * val b < 2 ^ (32 * n) * (2 ^ (32 * (n - 1)) * 2 ^ 32) := by
    have e : 2 ^ (32 * (n - 1)) * 2 ^ 32 = 2 ^ (32 * n) := by
      rw [← pow_add]; congr 1; omega
    rw [e]
    have h1 := val_lt a
    have h2 := val_lt b
    rw [ha] at h1
    rw [hb] at h2
    exact Nat.mul_lt_mul'' h1 h2
  rw [← hprod] at hlt
  have h3 : 2 ^ (32 * (n - 1)) * s2.val < 2 ^ (32 * (n - 1)) * 2 ^ 32 := by
    have h4 : 2 ^ (32 * n) * (val c2 + 2 ^ (32 * (n - 1)) * s2.val) < 2 ^ (32 * n) * (2 ^ (32 * (n - 1)) * 2 ^ 32) :=
      lt_of_le_of_lt (Nat.le_add_left _ _) hlt
    have h5 := Nat.lt_of_mul_lt_mul_left h4
    omega
  have h6 : s2.val < 2 ^ 32 := Nat.lt_of_mul_lt_mul_left h3
  have h7 : s2.val = s2.v.toNat := by
    unfold Acc.val at h6 ⊢
    omega
  refine ⟨c1 ++ c2 ++ [s2.v], ?_, ?_, ?_⟩
  · rw [mpMul, List.range_eq_range', e1]
    show (mulCols a b _ (List.range' n (n - 1)) (s1, [] ++ c1)).bind _ = _
    rw [List.nil_append, e2]
    rfl
  · simp only [List.length_append, List.length_cons, List.length_nil, l1, l2]
    omega
  · rw [List.append_assoc, val_append, val_append, l1, l2, ← hprod, h7]
    simp [val]

end Secuer.Word32
