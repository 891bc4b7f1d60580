import Verif.CMem.Basic

/-!
# `mp_mul` and `rdc_mont` on memory
-/

namespace Secuer.CMem

open Secuer.Word Secuer.Field

variable {m m' : Mem} {n k a b c : ℕ} {v w : List Digit}

theorem mulColM_eq {i : ℕ} : ∀ (js : List ℕ) (s : Acc), (∀ j ∈ js, j < n ∧ j ≤ i ∧ i - j < n) →
    mulCol (rd m n a) (rd m n b) i js s = some (mulColM m a b i js s)
  | [], _, _ => rfl
  | j :: js, s, h => by
    obtain ⟨h1, h2, h3⟩ := h j (by simp)
    rw [mulCol, rd_getElem?, if_pos h1, at?, if_pos h2, rd_getElem?, if_pos h3]
    simp only [Option.bind_eq_bind, Option.bind_some, mulColM]
    exact mulColM_eq js _ fun x hx => h x (by simp [hx])

theorem mulColM_congr {i : ℕ} : ∀ (js : List ℕ) (s : Acc), (∀ j ∈ js, m (a + j) = m' (a + j) ∧ m (b + (i - j)) = m' (b + (i - j))) →
    mulColM m a b i js s = mulColM m' a b i js s
  | [], _, _ => rfl
  | j :: js, s, h => by
    obtain ⟨h1, h2⟩ := h j (by simp)
    simp only [mulColM]
    rw [h1, h2, mulColM_congr js _ fun x hx => h x (by simp [hx])]

/-- The array `a` of `n` digits is disjoint from the array `c` of `k` digits -/
def Disj (n a k c : ℕ) : Prop := a + n ≤ c ∨ c + k ≤ a

theorem wr_disj {k i : ℕ} (h : Disj n a k c) (hv : v.length ≤ k) (hi : i < n) : wr m c v (a + i) = m (a + i) := by
  rcases h with h | h
  · exact wr_of_lt (by omega)
  · exact wr_of_ge (by omega)

theorem mulColsM_eq {js : ℕ → List ℕ} (ha : Disj n a (2 * n) c) (hb : Disj n b (2 * n) c) :
    ∀ (len k : ℕ) (s : Acc) (cc : List Digit), cc.length = k → k + len ≤ 2 * n →
      (∀ i, k ≤ i → i < k + len → ∀ j ∈ js i, j < n ∧ j ≤ i ∧ i - j < n) →
      ∃ s' cc', mulCols (rd m n a) (rd m n b) js (List.range' k len) (s, cc) = some (s', cc') ∧
        mulColsM a b c js (List.range' k len) (s, wr m c cc) = (s', wr m c cc') ∧ cc'.length = k + len
  | 0, k, s, cc, hc, _, _ => ⟨s, cc, rfl, rfl, by omega⟩
  | len + 1, k, s, cc, hc, hk, hj => by
    rw [List.range'_succ]
    simp only [mulCols, mulColsM]
    rw [mulColM_eq _ _ (hj k (by omega) (by omega))]
    have e : mulColM (wr m c cc) a b k (js k) s = mulColM m a b k (js k) s := by
      apply mulColM_congr
      intro j hjk
      obtain ⟨h1, h2, h3⟩ := hj k (by omega) (by omega) j hjk
      exact ⟨wr_disj ha (by omega) h1, wr_disj hb (by omega) h3⟩
    rw [e]
    obtain ⟨s', cc', h1, h2, h3⟩ := mulColsM_eq (js := js) ha hb len (k + 1) (mulColM m a b k (js k) s).next
      (cc ++ [(mulColM m a b k (js k) s).v]) (by simp [hc]) (by omega) fun i h1 h2 => hj i (by omega) (by omega)
    refine ⟨s', cc', ?_, ?_, by omega⟩
    · simpa using h1
    · rw [← h2, ← upd_wr_end, hc]

/-- `mp_mul` with an output disjoint from both inputs: the functional model does not fail, and the memory holds its result. -/
theorem mpMulM_eq (hn : 0 < n) (ha : Disj n a (2 * n) c) (hb : Disj n b (2 * n) c) :
    ∃ r, mpMul n (rd m n a) (rd m n b) = some r ∧ r.length = 2 * n ∧ mpMulM n a b c m = wr m c r := by
  obtain ⟨s, cc, h1, h2, h3⟩ := mulColsM_eq (m := m) (js := fun i => List.range (i + 1)) ha hb n 0 ⟨0, 0, 0⟩ [] rfl (by omega)
    (by intro i _ h j hj; rw [List.mem_range] at hj; omega)
  obtain ⟨s', cc', h1', h2', h3'⟩ := mulColsM_eq (m := m) (js := fun i => List.range' (i - n + 1) (n - (i - n + 1))) ha hb
    (n - 1) n s cc (by omega) (by omega)
    (by intro i _ h j hj; rw [List.mem_range'_1] at hj; omega)
  refine ⟨cc' ++ [s'.v], ?_, by simp; omega, ?_⟩
  · rw [mpMul, List.range_eq_range', h1]
    simp only [Option.bind_eq_bind, Option.bind_some]
    rw [h1']
    rfl
  · rw [wr_nil] at h2
    simp only [mpMulM]
    rw [List.range_eq_range', h2]
    rw [h2', ← upd_wr_end, show cc'.length = 2 * n - 1 by omega]

section
variable {T : Tables} {p : ℕ} (g : Good T p)
include g

theorem rdcColM_eq {i mc : ℕ} {keep : ℕ → Bool} {L : List Digit} (hL : L.length = T.n) : ∀ (js : List ℕ) (s : Acc),
    (∀ j ∈ js, j < T.n ∧ j ≤ i ∧ i - j < T.n) →
    rdcCol T L i keep js s = some (rdcColM T (wr m mc L) mc i keep js s)
  | [], _, _ => rfl
  | j :: js, s, h => by
    obtain ⟨h1, h2, h3⟩ := h j (by simp)
    simp only [rdcCol, rdcColM]
    by_cases hk : keep j
    · rw [if_pos hk, if_pos hk, at?, if_pos h2, wr_at, List.getElem?_eq_getElem (by omega),
        List.getElem?_eq_getElem (by rw [g.len_p1]; omega)]
      simp only [Option.bind_eq_bind, Option.bind_some, Option.getD_some]
      exact rdcColM_eq hL js _ fun x hx => h x (by simp [hx])
    · rw [if_neg hk, if_neg hk]
      exact rdcColM_eq hL js _ fun x hx => h x (by simp [hx])

theorem rdcLowM_eq {ma mc : ℕ} (hd : Disj (2 * T.n) ma T.n mc) : ∀ (len k : ℕ) (s : Acc) (L : List Digit), L.length = T.n →
    k + len ≤ T.n → ∃ s' L', rdcLow T (rd m (2 * T.n) ma) (List.range' k len) (s, L) = some (s', L') ∧
      rdcLowM T ma mc (List.range' k len) (s, wr m mc L) = (s', wr m mc L') ∧ L'.length = T.n
  | 0, _, s, L, hL, _ => ⟨s, L, rfl, rfl, hL⟩
  | len + 1, k, s, L, hL, hk => by
    rw [List.range'_succ]
    simp only [rdcLow, rdcLowM]
    rw [rdcColM_eq (m := m) (mc := mc) g hL _ _ (by intro j hj; rw [List.mem_range] at hj; omega), rd_getElem?,
      if_pos (by omega), wr_disj hd (by omega) (by omega)]
    simp only [Option.bind_eq_bind, Option.bind_some]
    rw [put?, if_pos (by omega)]
    simp only [Option.bind_some]
    rw [upd_wr_set (by omega)]
    exact rdcLowM_eq hd len (k + 1) _ _ (by simp [hL]) (by omega)

theorem rdcHighM_eq {ma mc : ℕ} (hd : Disj (2 * T.n) ma T.n mc) : ∀ (len k : ℕ) (count : UInt) (s : Acc) (L : List Digit),
    L.length = T.n → T.n ≤ k → k + len ≤ 2 * T.n - 1 →
      ∃ s' L', rdcHigh T (rd m (2 * T.n) ma) (List.range' k len) count (s, L) = some (s', L') ∧
      rdcHighM T ma mc (List.range' k len) count (s, wr m mc L) = (s', wr m mc L') ∧ L'.length = T.n
  | 0, _, _, s, L, hL, _, _ => ⟨s, L, rfl, rfl, hL⟩
  | len + 1, k, count, s, L, hL, hk, hk' => by
    rw [List.range'_succ]
    simp only [rdcHigh, rdcHighM]
    generalize (if count > 0 then count - 1 else count) = count'
    rw [rdcColM_eq (m := m) (mc := mc) g hL _ _ (by intro j hj; rw [List.mem_range'_1] at hj; omega), rd_getElem?,
      if_pos (by omega), wr_disj hd (by omega) (by omega)]
    simp only [Option.bind_eq_bind, Option.bind_some]
    rw [put?, if_pos (by omega)]
    simp only [Option.bind_some]
    rw [upd_wr_set (by omega)]
    exact rdcHighM_eq hd len (k + 1) _ _ _ (by simp [hL]) (by omega) (by omega)

/-- `rdc_mont` with disjoint input and output: the functional model does not fail, and the memory holds its result. -/
theorem rdcMontM_eq {ma mc : ℕ} (hd : Disj (2 * T.n) ma T.n mc) :
    ∃ r, rdcMont T (rd m (2 * T.n) ma) = some r ∧ r.length = T.n ∧ rdcMontM T ma mc m = wr m mc r := by
  have hn := g.n_pos
  obtain ⟨s, L, h1, h2, h3⟩ := rdcLowM_eq (m := m) g hd T.n 0 ⟨0, 0, 0⟩ (List.replicate T.n 0) (by simp) (by omega)
  obtain ⟨s', L', h1', h2', h3'⟩ := rdcHighM_eq (m := m) g hd (T.n - 1) T.n (BitVec.ofNat 32 T.z) s L h3 (by omega) (by omega)
  refine ⟨L'.set (T.n - 1) (addc 0 s'.v (m (ma + (2 * T.n - 1)))).2, ?_, by simp [h3'], ?_⟩
  · simp only [rdcMont]
    rw [List.range_eq_range', h1]
    simp only [Option.bind_eq_bind, Option.bind_some]
    rw [h1']
    simp only [Option.bind_some]
    rw [rd_getElem?, if_pos (by omega)]
    simp only [Option.bind_some]
    rw [put?, if_pos (by omega)]
  · simp only [rdcMontM]
    rw [fillMem_eq, List.range_eq_range', h2, h2']
    simp only
    rw [wr_disj hd (by omega) (by omega), upd_wr_set (by omega)]

end

end Secuer.CMem
