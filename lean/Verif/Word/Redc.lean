import Verif.Word.Multi
import Mathlib.Data.Nat.ModEq

/-!
# Montgomery reduction
-/

namespace Secuer.Word

open Finset

/-- What the tables of a parameter set have to be, for the prime `p` -/
structure Good (T : Tables) (p : ℕ) : Prop where
  n_pos : 0 < T.n
  n_lt : T.n < 2 ^ 31
  z_pos : 0 < T.z
  z_le : T.z ≤ T.n
  len_p : T.p.length = T.n
  len_p1 : T.p1.length = T.n
  len_x2 : T.x2.length = T.n
  len_x4 : T.x4.length = T.n
  len_r2 : T.r2.length = T.n
  len_one : T.one.length = T.n
  val_p : val T.p = p
  val_p1 : val T.p1 = p + 1
  val_x2 : val T.x2 = 2 * p
  val_x4 : val T.x4 = 4 * p
  val_r2 : val T.r2 = 2 ^ (64 * T.n) * 2 ^ (64 * T.n) % p
  val_one : val T.one = 2 ^ (64 * T.n) % p
  low : ∀ k < T.z, dig T.p1 k = 0
  room : 256 * p < 2 ^ (64 * T.n)
  rand : 2 ^ (64 * (T.n - 1)) * 2 ^ (64 - T.nbits % 64) ≤ p
  pos : 2 < p
  odd : p % 2 = 1

variable {T : Tables} {p : ℕ}

theorem rdcCol_spec (g : Good T p) {mc : List Digit} (hmc : mc.length = T.n) {i : ℕ} {keep : ℕ → Bool} :
    ∀ (js : List ℕ) (s : Acc),
    (∀ j ∈ js, j < T.n ∧ j ≤ i ∧ i - j < T.n ∧ (keep j = false → i - j < T.z)) →
    s.val + (js.map fun j => dig mc j * dig T.p1 (i - j)).sum < 2 ^ 192 →
    ∃ s', rdcCol T mc i keep js s = some s' ∧ s'.val = s.val + (js.map fun j => dig mc j * dig T.p1 (i - j)).sum
  | [], s, _, _ => ⟨s, rfl, by simp⟩
  | j :: js, s, hj, hs => by
    obtain ⟨h1, h2, h3, h4⟩ := hj j (List.mem_cons_self ..)
    rw [List.map_cons, List.sum_cons] at hs ⊢
    have hjs := fun k hk => hj k (List.mem_cons_of_mem _ hk)
    cases hk : keep j with
    | false =>
      have z := g.low _ (h4 hk)
      rw [z, Nat.mul_zero, Nat.zero_add] at hs ⊢
      obtain ⟨s', e, hs'⟩ := rdcCol_spec g hmc js s hjs hs
      refine ⟨s', ?_, hs'⟩
      rw [rdcCol, hk]
      exact e
    | true =>
      rw [← hmc] at h1
      rw [← g.len_p1] at h3
      have ea : mc[j]? = some mc[j] := List.getElem?_eq_getElem h1
      have eb := at?_some h2 h3
      have da := dig_of_get ea
      have db : dig T.p1 (i - j) = (T.p1[i - j]'h3).toNat := dig_of_get (List.getElem?_eq_getElem h3)
      have hm : (s.mac mc[j] (T.p1[i - j]'h3)).val = s.val + dig mc j * dig T.p1 (i - j) := by
        rw [da, db]
        apply Acc.val_mac
        rw [← da, ← db]; omega
      obtain ⟨s', e, hs'⟩ := rdcCol_spec g hmc js (s.mac mc[j] (T.p1[i - j]'h3)) hjs (by rw [hm]; omega)
      refine ⟨s', ?_, by rw [hs', hm]; omega⟩
      rw [rdcCol, hk, if_pos rfl, ea, eb]
      exact e

theorem keepLow_false (g : Good T p) {i j : ℕ} (hi : i < T.n) (hj : j < i) (h : keepLow T i j = false) : i - j < T.z := by
  unfold keepLow at h
  rw [decide_eq_false_iff_not, BitVec.lt_def, BitVec.toNat_add, BitVec.toNat_sub, BitVec.toNat_ofNat, BitVec.toNat_ofNat,
    BitVec.toNat_ofNat] at h
  have := g.n_lt
  have := g.z_le
  have := g.z_pos
  have e1 : (1 : UInt).toNat = 1 := rfl
  rw [e1] at h
  omega

theorem keepHigh_false (g : Good T p) {count : UInt} {d j : ℕ} (hc : count.toNat = T.z - (d + 1))
    (hj : j < T.n) (hjd : d < j) (h : keepHigh T count j = false) : T.n + d - j < T.z := by
  unfold keepHigh at h
  rw [decide_eq_false_iff_not, BitVec.lt_def, BitVec.toNat_sub, BitVec.toNat_ofNat, BitVec.toNat_ofNat, hc] at h
  have := g.n_lt
  have := g.z_le
  have := g.z_pos
  omega

theorem dig_set {x : List Digit} {i : ℕ} (hi : i < x.length) (w : Digit) : dig (x.set i w) i = w.toNat := by
  rw [dig, List.getD_eq_getElem?_getD, List.getElem?_set_self hi]; rfl

theorem dig_set_ne {x : List Digit} {i k : ℕ} (h : i ≠ k) (w : Digit) : dig (x.set i w) k = dig x k := by
  rw [dig, List.getD_eq_getElem?_getD, List.getElem?_set_ne h, ← List.getD_eq_getElem?_getD]; rfl

theorem put?_some {x : List Digit} {i : ℕ} (hi : i < x.length) (w : Digit) : put? x i w = some (x.set i w) := if_pos hi

/-- sum of the column `i` in the product with `p + 1` -/
def colSum (T : Tables) (mc : List Digit) (lo hi i : ℕ) : ℕ := ∑ j ∈ Ico lo hi, dig mc j * dig T.p1 (i - j)

theorem rdcLow_spec (g : Good T p) {ma : List Digit} (hma : ma.length = 2 * T.n) :
    ∀ (m i₀ : ℕ) (s : Acc) (mc : List Digit), i₀ + m ≤ T.n → mc.length = T.n → s.val ≤ T.n * 2 ^ 64 →
    ∃ s' mc', rdcLow T ma (List.range' i₀ m) (s, mc) = some (s', mc') ∧ mc'.length = T.n ∧ s'.val ≤ T.n * 2 ^ 64 ∧
      (∀ k < i₀, dig mc' k = dig mc k) ∧
      ∑ k ∈ range m, dig mc' (i₀ + k) * 2 ^ (64 * k) + 2 ^ (64 * m) * s'.val =
        s.val + ∑ k ∈ range m, (colSum T mc' 0 (i₀ + k) (i₀ + k) + dig ma (i₀ + k)) * 2 ^ (64 * k)
  | 0, i₀, s, mc, _, hmc, hs => ⟨s, mc, rfl, hmc, hs, fun _ _ => rfl, by simp⟩
  | m + 1, i₀, s, mc, hi, hmc, hs => by
    have hn := g.n_lt
    have hp := g.n_pos
    have hb := sum_le_length (f := fun j => dig mc j * dig T.p1 (i₀ - j)) (fun j => dig_mul_le mc T.p1 j _) (List.range i₀)
    rw [List.length_range] at hb
    have hb2 : i₀ * ((2 ^ 64 - 1) * (2 ^ 64 - 1)) ≤ T.n * ((2 ^ 64 - 1) * (2 ^ 64 - 1)) :=
      Nat.mul_le_mul_right _ (by omega)
    obtain ⟨s1, e1, v1⟩ := rdcCol_spec g hmc (keep := keepLow T i₀) (List.range i₀) s (fun j hj => by
      rw [List.mem_range] at hj
      refine ⟨by omega, by omega, by omega, fun h => keepLow_false g (by omega) hj h⟩) (by omega)
    have hma' : i₀ < ma.length := by omega
    have ew : ma[i₀]? = some ma[i₀] := List.getElem?_eq_getElem hma'
    have dw := dig_of_get ew
    have hw := (ma[i₀]).isLt
    have v2 := s1.val_addWord ma[i₀] (by omega)
    generalize hs2 : s1.addWord ma[i₀] = s2 at v2
    have hn1 := s2.val_next
    have hv := s2.v.isLt
    have hset : (mc.set i₀ s2.v).length = T.n := by rw [List.length_set, hmc]
    obtain ⟨s', mc', e, hl', hs', hold, v⟩ := rdcLow_spec g hma m (i₀ + 1) s2.next (mc.set i₀ s2.v) (by omega) hset (by omega)
    have hq : ∀ k < i₀, dig mc' k = dig mc k := fun k hk => by
      rw [hold k (by omega), dig_set_ne (by omega)]
    have hqi : dig mc' i₀ = s2.v.toNat := by
      rw [hold i₀ (by omega), dig_set (by omega)]
    refine ⟨s', mc', ?_, hl', hs', hq, ?_⟩
    · rw [List.range'_succ, rdcLow, e1]
      show (ma[i₀]?.bind fun w => (put? mc i₀ (s1.addWord w).v).bind fun x => rdcLow T ma (List.range' (i₀ + 1) m) ((s1.addWord w).next, x)) = _
      rw [ew]
      show ((put? mc i₀ (s1.addWord ma[i₀]).v).bind fun x => rdcLow T ma (List.range' (i₀ + 1) m) ((s1.addWord ma[i₀]).next, x)) = _
      rw [hs2, put?_some (by omega)]
      exact e
    · rw [Finset.sum_range_succ', Finset.sum_range_succ', pow64_succ, Nat.add_zero, Nat.mul_zero, Nat.pow_zero, Nat.mul_one, Nat.mul_one, hqi]
      have e3 : ∑ k ∈ range m, (colSum T mc' 0 (i₀ + (k + 1)) (i₀ + (k + 1)) + dig ma (i₀ + (k + 1))) * 2 ^ (64 * (k + 1)) =
          2 ^ 64 * ∑ k ∈ range m, (colSum T mc' 0 (i₀ + 1 + k) (i₀ + 1 + k) + dig ma (i₀ + 1 + k)) * 2 ^ (64 * k) := by
        rw [Finset.mul_sum]
        refine Finset.sum_congr rfl fun k _ => ?_
        rw [pow64_succ, show i₀ + (k + 1) = i₀ + 1 + k by omega]
        ring
      have e4 : ∑ k ∈ range m, dig mc' (i₀ + (k + 1)) * 2 ^ (64 * (k + 1)) =
          2 ^ 64 * ∑ k ∈ range m, dig mc' (i₀ + 1 + k) * 2 ^ (64 * k) := by
        rw [Finset.mul_sum]
        refine Finset.sum_congr rfl fun k _ => ?_
        rw [pow64_succ, show i₀ + (k + 1) = i₀ + 1 + k by omega]
        ring
      rw [e3, e4]
      have e5 : colSum T mc' 0 i₀ i₀ = ((List.range i₀).map fun j => dig mc j * dig T.p1 (i₀ - j)).sum := by
        rw [List.range_eq_range', range'_sum, colSum, Nat.zero_add]
        refine Finset.sum_congr rfl fun j hj => ?_
        rw [mem_Ico] at hj
        rw [hq j hj.2]
      rw [e5, dw]
      generalize ∑ k ∈ range m, dig mc' (i₀ + 1 + k) * 2 ^ (64 * k) = A at *
      generalize ∑ k ∈ range m, (colSum T mc' 0 (i₀ + 1 + k) (i₀ + 1 + k) + dig ma (i₀ + 1 + k)) * 2 ^ (64 * k) = B at *
      have : 2 ^ 64 * A + s2.v.toNat + 2 ^ 64 * 2 ^ (64 * m) * s'.val = s2.v.toNat + 2 ^ 64 * (A + 2 ^ (64 * m) * s'.val) := by ring
      rw [this, v]
      omega

theorem rdcHigh_spec (g : Good T p) {ma : List Digit} (hma : ma.length = 2 * T.n) :
    ∀ (m d : ℕ) (count : UInt) (s : Acc) (mc : List Digit), d + m ≤ T.n - 1 → mc.length = T.n → s.val ≤ T.n * 2 ^ 64 →
    count.toNat = T.z - d →
    ∃ s' mc', rdcHigh T ma (List.range' (T.n + d) m) count (s, mc) = some (s', mc') ∧ mc'.length = T.n ∧ s'.val ≤ T.n * 2 ^ 64 ∧
      (∀ k < d, dig mc' k = dig mc k) ∧
      ∑ k ∈ range m, dig mc' (d + k) * 2 ^ (64 * k) + 2 ^ (64 * m) * s'.val =
        s.val + ∑ k ∈ range m, (colSum T mc (d + k + 1) T.n (T.n + d + k) + dig ma (T.n + d + k)) * 2 ^ (64 * k)
  | 0, d, count, s, mc, _, hmc, hs, _ => ⟨s, mc, rfl, hmc, hs, fun _ _ => rfl, by simp⟩
  | m + 1, d, count, s, mc, hi, hmc, hs, hcount => by
    have hn := g.n_lt
    have hp := g.n_pos
    have hz := g.z_le
    obtain ⟨count', hc', hcount'⟩ : ∃ c : UInt, c = (if count > 0 then count - 1 else count) ∧ c.toNat = T.z - (d + 1) := by
      refine ⟨_, rfl, ?_⟩
      by_cases h0 : count > 0
      · rw [if_pos h0, BitVec.toNat_sub, hcount]
        have h1 : 0 < count.toNat := h0
        have e1 : (1 : UInt).toNat = 1 := rfl
        rw [e1]
        omega
      · rw [if_neg h0]
        have h1 : ¬ 0 < count.toNat := h0
        omega
    have hb := sum_le_length (f := fun j => dig mc j * dig T.p1 (T.n + d - j)) (fun j => dig_mul_le mc T.p1 j _)
      (List.range' (T.n + d - T.n + 1) (T.n - (T.n + d - T.n + 1)))
    rw [List.length_range'] at hb
    have hb2 : (T.n - (T.n + d - T.n + 1)) * ((2 ^ 64 - 1) * (2 ^ 64 - 1)) ≤ T.n * ((2 ^ 64 - 1) * (2 ^ 64 - 1)) :=
      Nat.mul_le_mul_right _ (by omega)
    obtain ⟨s1, e1, v1⟩ := rdcCol_spec g hmc (i := T.n + d) (keep := keepHigh T count')
      (List.range' (T.n + d - T.n + 1) (T.n - (T.n + d - T.n + 1))) s (fun j hj => by
      rw [List.mem_range'_1] at hj
      refine ⟨by omega, by omega, by omega, fun h => keepHigh_false g hcount' (by omega) (by omega) h⟩) (by omega)
    have hma' : T.n + d < ma.length := by omega
    have ew : ma[T.n + d]? = some ma[T.n + d] := List.getElem?_eq_getElem hma'
    have dw := dig_of_get ew
    have hw := (ma[T.n + d]).isLt
    have v2 := s1.val_addWord ma[T.n + d] (by omega)
    generalize hs2 : s1.addWord ma[T.n + d] = s2 at v2
    have hn1 := s2.val_next
    have hv := s2.v.isLt
    have hset : (mc.set d s2.v).length = T.n := by rw [List.length_set, hmc]
    obtain ⟨s', mc', e, hl', hs', hold, v⟩ := rdcHigh_spec g hma m (d + 1) count' s2.next (mc.set d s2.v) (by omega) hset (by omega) hcount'
    have hq : ∀ k < d, dig mc' k = dig mc k := fun k hk => by
      rw [hold k (by omega), dig_set_ne (by omega)]
    have hqi : dig mc' d = s2.v.toNat := by
      rw [hold d (by omega), dig_set (by omega)]
    refine ⟨s', mc', ?_, hl', hs', hq, ?_⟩
    · rw [List.range'_succ, rdcHigh, ← hc']
      dsimp only
      rw [e1]
      show (ma[T.n + d]?.bind fun w => (put? mc (T.n + d - T.n) (s1.addWord w).v).bind fun x => rdcHigh T ma (List.range' (T.n + d + 1) m) count' ((s1.addWord w).next, x)) = _
      rw [ew]
      show ((put? mc (T.n + d - T.n) (s1.addWord ma[T.n + d]).v).bind fun x => rdcHigh T ma (List.range' (T.n + d + 1) m) count' ((s1.addWord ma[T.n + d]).next, x)) = _
      rw [hs2, Nat.add_sub_cancel_left, put?_some (by omega)]
      exact e
    · rw [Finset.sum_range_succ', Finset.sum_range_succ', pow64_succ, Nat.add_zero, Nat.add_zero, Nat.mul_zero, Nat.pow_zero, Nat.mul_one, Nat.mul_one, hqi]
      have e3 : ∑ k ∈ range m, (colSum T mc (d + (k + 1) + 1) T.n (T.n + d + (k + 1)) + dig ma (T.n + d + (k + 1))) * 2 ^ (64 * (k + 1)) =
          2 ^ 64 * ∑ k ∈ range m, (colSum T (mc.set d s2.v) (d + 1 + k + 1) T.n (T.n + (d + 1) + k) + dig ma (T.n + (d + 1) + k)) * 2 ^ (64 * k) := by
        rw [Finset.mul_sum]
        refine Finset.sum_congr rfl fun k _ => ?_
        have : colSum T (mc.set d s2.v) (d + 1 + k + 1) T.n (T.n + (d + 1) + k) = colSum T mc (d + (k + 1) + 1) T.n (T.n + d + (k + 1)) := by
          rw [colSum, colSum, show d + (k + 1) + 1 = d + 1 + k + 1 by omega, show T.n + d + (k + 1) = T.n + (d + 1) + k by omega]
          refine Finset.sum_congr rfl fun j hj => ?_
          rw [mem_Ico] at hj
          rw [dig_set_ne (by omega)]
        rw [pow64_succ, this, show T.n + d + (k + 1) = T.n + (d + 1) + k by omega]
        ring
      have e4 : ∑ k ∈ range m, dig mc' (d + (k + 1)) * 2 ^ (64 * (k + 1)) =
          2 ^ 64 * ∑ k ∈ range m, dig mc' (d + 1 + k) * 2 ^ (64 * k) := by
        rw [Finset.mul_sum]
        refine Finset.sum_congr rfl fun k _ => ?_
        rw [pow64_succ, show d + (k + 1) = d + 1 + k by omega]
        ring
      rw [e3, e4]
      have e5 : colSum T mc (d + 1) T.n (T.n + d) = ((List.range' (T.n + d - T.n + 1) (T.n - (T.n + d - T.n + 1))).map fun j => dig mc j * dig T.p1 (T.n + d - j)).sum := by
        rw [range'_sum, colSum, show T.n + d - T.n + 1 = d + 1 by omega, show d + 1 + (T.n - (d + 1)) = T.n by omega]
      rw [Nat.add_zero (T.n + d), e5, dw]
      generalize ∑ k ∈ range m, dig mc' (d + 1 + k) * 2 ^ (64 * k) = A at *
      generalize ∑ k ∈ range m, (colSum T (mc.set d s2.v) (d + 1 + k + 1) T.n (T.n + (d + 1) + k) + dig ma (T.n + (d + 1) + k)) * 2 ^ (64 * k) = B at *
      have : 2 ^ 64 * A + s2.v.toNat + 2 ^ 64 * 2 ^ (64 * m) * s'.val = s2.v.toNat + 2 ^ 64 * (A + 2 ^ (64 * m) * s'.val) := by ring
      rw [this, v]
      omega

/-- `rdc_mont`: the exact result of the division, as long as it is a number of `n` digits -/
theorem rdcMont_exact_wide (g : Good T p) {ma : List Digit} (hma : ma.length = 2 * T.n)
    (hlt : val ma + 2 ^ (64 * T.n) * p ≤ 2 ^ (64 * T.n) * 2 ^ (64 * T.n)) :
    ∃ c q, rdcMont T ma = some c ∧ c.length = T.n ∧ q < 2 ^ (64 * T.n) ∧ val c * 2 ^ (64 * T.n) = val ma + q * p := by
  have hn := g.n_lt
  have hp := g.n_pos
  have hp2 := g.pos
  have hroom := g.room
  obtain ⟨s1, q, e1, l1, b1, -, v1⟩ := rdcLow_spec g hma T.n 0 ⟨0, 0, 0⟩ (List.replicate T.n 0) (by omega)
    List.length_replicate (Nat.zero_le _)
  obtain ⟨s2, c, e2, l2, b2, -, v2⟩ := rdcHigh_spec g hma (T.n - 1) 0 (BitVec.ofNat 32 T.z) s1 q (by omega) l1 b1
    (by rw [BitVec.toNat_ofNat]; have := g.z_le; omega)
  rw [Nat.add_zero] at e2
  simp only [Nat.zero_add, Nat.add_zero] at v1 v2
  have z : (⟨0, 0, 0⟩ : Acc).val = 0 := rfl
  rw [z, Nat.zero_add] at v1
  have hw' : 2 * T.n - 1 < ma.length := by omega
  have ew : ma[2 * T.n - 1]? = some ma[2 * T.n - 1] := List.getElem?_eq_getElem hw'
  have dw := dig_of_get ew
  -- the two phases together
  have hq : val q = ∑ k ∈ range T.n, dig q k * 2 ^ (64 * k) := by rw [val_eq_sum, l1]
  have hmav : val ma = ∑ k ∈ range (T.n + (T.n - 1)), dig ma k * 2 ^ (64 * k) + dig ma (2 * T.n - 1) * 2 ^ (64 * (2 * T.n - 1)) := by
    rw [val_eq_sum, hma, show 2 * T.n = T.n + (T.n - 1) + 1 by omega, Finset.sum_range_succ, Nat.add_sub_cancel]
  have hprod := val_mul l1 g.len_p1
  rw [show 2 * T.n - 1 = T.n + (T.n - 1) by omega] at hprod
  have hcols1 : ∀ k < T.n, colSum T q 0 k k = ∑ j ∈ Ico (k + 1 - T.n) (min (k + 1) T.n), dig q j * dig T.p1 (k - j) := by
    intro k hk
    rw [colSum, show k + 1 - T.n = 0 by omega, show min (k + 1) T.n = k + 1 by omega, Finset.sum_Ico_succ_top (Nat.zero_le k),
      Nat.sub_self, g.low 0 g.z_pos, Nat.mul_zero, Nat.add_zero]
  have hcols2 : ∀ k < T.n - 1, colSum T q (k + 1) T.n (T.n + k) =
      ∑ j ∈ Ico (T.n + k + 1 - T.n) (min (T.n + k + 1) T.n), dig q j * dig T.p1 (T.n + k - j) := by
    intro k hk
    rw [colSum, show T.n + k + 1 - T.n = k + 1 by omega, show min (T.n + k + 1) T.n = T.n by omega]
  set R := 2 ^ (64 * T.n) with hR
  set X := ∑ k ∈ range (T.n - 1), dig c k * 2 ^ (64 * k) with hX
  have key : val q + R * (X + 2 ^ (64 * (T.n - 1)) * (s2.val + dig ma (2 * T.n - 1))) = val ma + val q * (p + 1) := by
    rw [← g.val_p1, hprod, hmav, Finset.sum_range_add, Finset.sum_range_add, Nat.mul_add, ← Nat.add_assoc, hq]
    have e3 : R * (2 ^ (64 * (T.n - 1)) * dig ma (2 * T.n - 1)) = dig ma (2 * T.n - 1) * 2 ^ (64 * (2 * T.n - 1)) := by
      rw [hR, ← Nat.mul_assoc, ← pow_add, show 64 * T.n + 64 * (T.n - 1) = 64 * (2 * T.n - 1) by omega, Nat.mul_comm]
    have e4 : R * X + R * (2 ^ (64 * (T.n - 1)) * s2.val) = R * s1.val +
        ∑ k ∈ range (T.n - 1), ((∑ j ∈ Ico (T.n + k + 1 - T.n) (min (T.n + k + 1) T.n), dig q j * dig T.p1 (T.n + k - j)) +
          dig ma (T.n + k)) * 2 ^ (64 * (T.n + k)) := by
      rw [← Nat.mul_add, v2, Nat.mul_add, Finset.mul_sum]
      congr 1
      refine Finset.sum_congr rfl fun k hk => ?_
      rw [mem_range] at hk
      rw [hcols2 k hk, Nat.mul_add 64, pow_add]
      ring
    have e5 : ∑ k ∈ range T.n, dig q k * 2 ^ (64 * k) + R * s1.val =
        ∑ k ∈ range T.n, ((∑ j ∈ Ico (k + 1 - T.n) (min (k + 1) T.n), dig q j * dig T.p1 (k - j)) + dig ma k) * 2 ^ (64 * k) := by
      rw [v1]
      refine Finset.sum_congr rfl fun k hk => ?_
      rw [mem_range] at hk
      rw [hcols1 k hk]
    simp only [Nat.add_mul, Finset.sum_add_distrib] at e4 e5
    have e6 : R * (2 ^ (64 * (T.n - 1)) * (s2.val + dig ma (2 * T.n - 1))) =
        R * (2 ^ (64 * (T.n - 1)) * s2.val) + dig ma (2 * T.n - 1) * 2 ^ (64 * (2 * T.n - 1)) := by
      rw [Nat.mul_add, Nat.mul_add, e3]
    rw [e6]
    omega
  have hqlt : val q < R := by have := val_lt q; rwa [l1] at this
  have key2 : R * (X + 2 ^ (64 * (T.n - 1)) * (s2.val + dig ma (2 * T.n - 1))) = val ma + val q * p := by
    rw [Nat.mul_add (val q), Nat.mul_one] at key
    omega
  have hqp : val q * p ≤ R * p := Nat.mul_le_mul_right _ hqlt.le
  have hRp : R = 2 ^ (64 * (T.n - 1)) * 2 ^ 64 := by rw [hR, ← pow_add]; congr 1; omega
  have hsmall : s2.val + dig ma (2 * T.n - 1) < 2 ^ 64 := by
    have h1 : R * (X + 2 ^ (64 * (T.n - 1)) * (s2.val + dig ma (2 * T.n - 1))) < R * R := by
      rw [key2]
      have hlt' : val q * p < R * p := Nat.mul_lt_mul_of_pos_right hqlt (by omega)
      omega
    have h2 := Nat.lt_of_mul_lt_mul_left h1
    have h3 : 2 ^ (64 * (T.n - 1)) * (s2.val + dig ma (2 * T.n - 1)) < 2 ^ (64 * (T.n - 1)) * 2 ^ 64 := by omega
    exact Nat.lt_of_mul_lt_mul_left h3
  obtain ⟨hb, hv⟩ := addc_spec bit_zero s2.v ma[2 * T.n - 1]
  have hs2v : s2.val = s2.v.toNat := by
    unfold Acc.val at hsmall ⊢
    omega
  have hv2 : (addc 0 s2.v ma[2 * T.n - 1]).2.toNat = s2.val + dig ma (2 * T.n - 1) := by
    rw [dw, hs2v]
    rw [dw, hs2v] at hsmall
    rw [u0] at hv
    omega
  refine ⟨c.set (T.n - 1) (addc 0 s2.v ma[2 * T.n - 1]).2, val q, ?_, by rw [List.length_set, l2], hqlt, ?_⟩
  · rw [rdcMont, List.range_eq_range', e1]
    show (rdcHigh T ma (List.range' T.n (T.n - 1)) (BitVec.ofNat 32 T.z) (s1, q)).bind _ = _
    rw [e2]
    show (ma[2 * T.n - 1]?.bind fun w => put? c (T.n - 1) (addc 0 s2.v w).2) = _
    rw [ew]
    exact put?_some (by omega) _
  · rw [← key2, Nat.mul_comm]
    congr 1
    generalize (addc 0 s2.v ma[2 * T.n - 1]).2 = w at hv2 ⊢
    rw [val_eq_sum, List.length_set, l2, show range T.n = range (T.n - 1 + 1) by congr 1; omega,
      Finset.sum_range_succ, dig_set (by omega), hv2]
    congr 1
    · refine Finset.sum_congr rfl fun k hk => ?_
      rw [mem_range] at hk
      rw [dig_set_ne (by omega)]
    · exact Nat.mul_comm _ _

/-- `rdc_mont`: the exact result of the division -/
theorem rdcMont_exact (g : Good T p) {ma : List Digit} (hma : ma.length = 2 * T.n)
    (hlt : val ma < 2 ^ (64 * T.n) * p) :
    ∃ c q, rdcMont T ma = some c ∧ c.length = T.n ∧ q < 2 ^ (64 * T.n) ∧ val c * 2 ^ (64 * T.n) = val ma + q * p := by
  refine rdcMont_exact_wide g hma ?_
  have h := Nat.mul_le_mul_left (2 ^ (64 * T.n)) g.room.le
  have e : 2 ^ (64 * T.n) * (256 * p) = 256 * (2 ^ (64 * T.n) * p) := by ring
  omega

end Secuer.Word
