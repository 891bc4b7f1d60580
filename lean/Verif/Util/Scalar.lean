import Mathlib.Algebra.BigOperators.Ring.Nat
import Mathlib.GroupTheory.OrderOfElement
import Mathlib.Data.Nat.Count
import Mathlib.Data.Fintype.Card
import Mathlib.Data.Fintype.BigOperators
import Mathlib.Tactic.Ring
import Mathlib.Tactic.Positivity

/-!
# Random odd scalars

`random_mod_order_A` (`sidh.c:26-35`) followed by `buf[0] |= 1` and `decode_to_digits`
(`poik.c:954-960`), on bytes.
-/

namespace Secuer.Scalar

/-- The integer with the given little-endian bytes: what `decode_to_digits` (`fpx.c:60-72`) puts into the
words, seen as an integer. -/
def leNat : List UInt8 → ℕ
  | [] => 0
  | b :: bs => b.toNat + 256 * leNat bs

/-- `random_digits[SECRETKEY_A_BYTES-1] &= MASK_ALICE` (`sidh.c:32`) -/
def maskLast (mask : UInt8) : List UInt8 → List UInt8
  | [] => []
  | [b] => [b &&& mask]
  | b :: bs => b :: maskLast mask bs

/-- `buf[0] |= 1` (`poik.c:958`) -/
def setOdd : List UInt8 → List UInt8
  | [] => []
  | b :: bs => (b ||| 1) :: bs

/-- The scalar made from the random bytes `bs` (`poik.c:954-960`). -/
def oddScalar (mask : UInt8) (bs : List UInt8) : ℕ := leNat (setOdd (maskLast mask bs))

/-- `MASK_ALICE` (`P434_internal.h:41`, `P503_internal.h:41`, `P610_internal.h:41`, `P751_internal.h:41`)
by `OALICE_BITS` -/
def maskAlice : ℕ → UInt8
  | 216 => 0xFF
  | 250 => 0x03
  | 305 => 0x01
  | 372 => 0x0F
  | _ => 0

/-- `SECRETKEY_A_BYTES` (`P434_internal.h:52`) by `OALICE_BITS` -/
def keyBytes (e2 : ℕ) : ℕ := (e2 + 7) / 8

theorem leNat_lt : ∀ bs : List UInt8, leNat bs < 256 ^ bs.length
  | [] => by simp [leNat]
  | b :: bs => by
    have := leNat_lt bs
    have := b.toNat_lt
    simp only [leNat, List.length_cons, pow_succ]
    omega

theorem leNat_inj : ∀ {bs cs : List UInt8}, bs.length = cs.length → leNat bs = leNat cs → bs = cs
  | [], [], _, _ => rfl
  | b :: bs, c :: cs, hl, h => by
    simp only [leNat] at h
    have hb := b.toNat_lt
    have hc := c.toNat_lt
    have e1 : b.toNat = c.toNat := by omega
    have e2 : leNat bs = leNat cs := by omega
    rw [leNat_inj (by simpa using hl) e2, UInt8.toNat_inj.1 e1]

theorem or_one (n : ℕ) : n ||| 1 = 2 * (n / 2) + 1 := by
  apply Nat.eq_of_testBit_eq
  intro i
  rw [Nat.testBit_or]
  cases i with
  | zero => simp
  | succ i =>
    rw [Nat.testBit_succ, Nat.testBit_succ, Nat.testBit_succ]
    rw [show (2 * (n / 2) + 1) / 2 = n / 2 by omega]
    simp

theorem leNat_setOdd (bs : List UInt8) (h : bs ≠ []) : leNat (setOdd bs) = leNat bs ||| 1 := by
  cases bs with
  | nil => exact absurd rfl h
  | cons b bs =>
    simp only [setOdd, leNat, UInt8.toNat_or]
    rw [or_one, show (1 : UInt8).toNat = 1 from rfl, or_one]
    omega

theorem leNat_maskLast {mask : UInt8} {k : ℕ} (hk : mask.toNat = 2 ^ k - 1) (hk8 : k ≤ 8) :
    ∀ (bs : List UInt8), bs ≠ [] → leNat (maskLast mask bs) = leNat bs % 2 ^ (8 * (bs.length - 1) + k)
  | [], h => absurd rfl h
  | [b], _ => by
    simp only [maskLast, leNat, UInt8.toNat_and, hk, Nat.and_two_pow_sub_one_eq_mod]
    simp
  | b :: c :: bs, _ => by
    have ih := leNat_maskLast hk hk8 (c :: bs) (by simp)
    have hb := b.toNat_lt
    simp only [maskLast, leNat, List.length_cons, Nat.add_sub_cancel] at ih ⊢
    rw [ih, show 2 ^ (8 * (bs.length + 1) + k) = 256 * 2 ^ (8 * bs.length + k) by
        rw [show 8 * (bs.length + 1) + k = 8 + (8 * bs.length + k) by ring, pow_add 2 8]; norm_num,
      Nat.mod_mul, Nat.add_mul_mod_self_left, Nat.mod_eq_of_lt hb, Nat.add_mul_div_left _ _ (by norm_num : 0 < 256),
      Nat.div_eq_of_lt hb, zero_add]

/-- The exponents of the four parameter sets. -/
def Exponent (e2 : ℕ) : Prop := e2 = 216 ∨ e2 = 250 ∨ e2 = 305 ∨ e2 = 372

theorem oddScalar_eq {e2 : ℕ} (he : Exponent e2) {bs : List UInt8} (hl : bs.length = keyBytes e2) :
    oddScalar (maskAlice e2) bs = leNat bs % 2 ^ e2 ||| 1 := by
  have hk : ∃ k, (maskAlice e2).toNat = 2 ^ k - 1 ∧ k ≤ 8 ∧ 8 * (keyBytes e2 - 1) + k = e2 ∧ 0 < keyBytes e2 := by
    rcases he with rfl | rfl | rfl | rfl
    · exact ⟨8, by decide, by decide, by decide, by decide⟩
    · exact ⟨2, by decide, by decide, by decide, by decide⟩
    · exact ⟨1, by decide, by decide, by decide, by decide⟩
    · exact ⟨4, by decide, by decide, by decide, by decide⟩
  obtain ⟨k, h1, h2, h3, h4⟩ := hk
  have hne : bs ≠ [] := by rintro rfl; simp at hl; omega
  have hne' : maskLast (maskAlice e2) bs ≠ [] := by
    cases bs with
    | nil => exact absurd rfl hne
    | cons b bs => cases bs <;> simp [maskLast]
  rw [oddScalar, leNat_setOdd _ hne', leNat_maskLast h1 h2 bs hne, hl, h3]

/-! ### Counting -/

/-- The `n` little-endian bytes of an integer. -/
def leBytes : ℕ → ℕ → List UInt8
  | 0, _ => []
  | n + 1, r => UInt8.ofNat r :: leBytes n (r / 256)

theorem leBytes_length : ∀ n r, (leBytes n r).length = n
  | 0, _ => rfl
  | n + 1, r => by simp [leBytes, leBytes_length n]

theorem leNat_leBytes : ∀ n r, r < 256 ^ n → leNat (leBytes n r) = r
  | 0, r, h => by simp [leBytes, leNat] at h ⊢; omega
  | n + 1, r, h => by
    have hr : r / 256 < 256 ^ n := Nat.div_lt_of_lt_mul (by rw [pow_succ'] at h; exact h)
    simp only [leBytes, leNat, leNat_leBytes n _ hr, UInt8.toNat_ofNat']
    omega

/-- Byte strings of length `n` stand for the integers below `256^n`. -/
def bytesEquiv (n : ℕ) : {bs : List UInt8 // bs.length = n} ≃ Fin (256 ^ n) where
  toFun bs := ⟨leNat bs.1, lt_of_lt_of_eq (leNat_lt bs.1) (by rw [bs.2])⟩
  invFun r := ⟨leBytes n r.1, leBytes_length n r.1⟩
  left_inv bs := Subtype.ext (leNat_inj ((leBytes_length _ _).trans bs.2.symm)
    (leNat_leBytes _ _ (lt_of_lt_of_eq (leNat_lt bs.1) (by rw [bs.2]))))
  right_inv r := Fin.ext (leNat_leBytes n r.1 r.2)

/-- Numbers below `N * M` with a given residue modulo `N`. -/
theorem card_mod {N M s : ℕ} (hs : s < N) : Nat.card {r : Fin (N * M) // r.1 % N = s} = M := by
  have e : {r : Fin (N * M) // r.1 % N = s} ≃ Fin M :=
    { toFun := fun r => ⟨r.1.1 / N, Nat.div_lt_of_lt_mul r.1.2⟩
      invFun := fun q => ⟨⟨q.1 * N + s, by
        have := q.2
        calc q.1 * N + s < q.1 * N + N := by omega
          _ = (q.1 + 1) * N := by ring
          _ ≤ M * N := Nat.mul_le_mul_right _ this
          _ = N * M := Nat.mul_comm _ _⟩, by
        change (q.1 * N + s) % N = s
        rw [Nat.mul_comm, Nat.mul_add_mod, Nat.mod_eq_of_lt hs]⟩
      left_inv := fun r => by
        apply Subtype.ext; apply Fin.ext
        have := Nat.div_add_mod' r.1.1 N
        rw [r.2] at this
        exact this
      right_inv := fun q => by
        apply Fin.ext
        change (q.1 * N + s) / N = q.1
        rw [Nat.mul_comm, Nat.mul_add_div (by omega), Nat.div_eq_of_lt hs, add_zero] }
  rw [Nat.card_congr e, Nat.card_eq_fintype_card, Fintype.card_fin]

/-- Every odd number below `2^e2` is the scalar of equally many byte strings. -/
theorem card_oddScalar {e2 : ℕ} (he : Exponent e2) {s : ℕ} (hs : s < 2 ^ e2) (hodd : s % 2 = 1) :
    Nat.card {bs : List UInt8 // bs.length = keyBytes e2 ∧ oddScalar (maskAlice e2) bs = s} =
      2 ^ (8 * keyBytes e2 - e2 + 1) := by
  have hle : e2 ≤ 8 * keyBytes e2 ∧ 1 ≤ e2 := by
    rcases he with rfl | rfl | rfl | rfl <;> decide
  obtain ⟨M, hM⟩ : ∃ M, M = 2 ^ (8 * keyBytes e2 - e2) := ⟨_, rfl⟩
  have hN : 256 ^ keyBytes e2 = 2 ^ e2 * M := by
    rw [hM, ← pow_add, show 256 = 2 ^ 8 from rfl, ← pow_mul]
    congr 1; omega
  -- the scalar decides the residue up to its lowest bit
  have hr : ∀ r : ℕ, (r % 2 ^ e2 ||| 1 = s) ↔ r % 2 ^ e2 = s ∨ r % 2 ^ e2 = s - 1 := by
    intro r; rw [or_one]; omega
  have e : {bs : List UInt8 // bs.length = keyBytes e2 ∧ oddScalar (maskAlice e2) bs = s} ≃
      {r : Fin (2 ^ e2 * M) // r.1 % 2 ^ e2 = s ∨ r.1 % 2 ^ e2 = s - 1} :=
    (Equiv.subtypeSubtypeEquivSubtypeInter (fun bs : List UInt8 => bs.length = keyBytes e2)
      (fun bs => oddScalar (maskAlice e2) bs = s)).symm.trans
    (Equiv.subtypeEquiv ((bytesEquiv _).trans (finCongr hN)) (fun bs => by
      rw [oddScalar_eq he bs.2, hr]; rfl))
  rw [Nat.card_congr e]
  classical
  have hdis : Disjoint (fun r : Fin (2 ^ e2 * M) => r.1 % 2 ^ e2 = s) (fun r => r.1 % 2 ^ e2 = s - 1) := by
    rw [disjoint_iff_inf_le]
    rintro r ⟨h1, h2⟩
    change r.1 % 2 ^ e2 = s at h1
    change r.1 % 2 ^ e2 = s - 1 at h2
    omega
  have e1 := card_mod (M := M) hs
  have e2' := card_mod (M := M) (show s - 1 < 2 ^ e2 by omega)
  rw [Nat.card_eq_fintype_card] at e1 e2' ⊢
  rw [Fintype.card_subtype_or_disjoint _ _ hdis, e1, e2', hM, pow_succ]
  ring

/-- Every generator of the group generated by a point of order `2^e2` is obtained from equally many byte strings, and
nothing else is obtained. -/
theorem card_generator {G : Type} [AddCommGroup G] {e2 : ℕ} (he : Exponent e2) {P Q : G} (hP : addOrderOf P = 2 ^ e2)
    (hQ : AddSubgroup.zmultiples Q = AddSubgroup.zmultiples P) :
    Nat.card {bs : List UInt8 // bs.length = keyBytes e2 ∧ oddScalar (maskAlice e2) bs • P = Q} =
      2 ^ (8 * keyBytes e2 - e2 + 1) := by
  have h1 : 1 ≤ e2 := by rcases he with rfl | rfl | rfl | rfl <;> decide
  have hpos : 0 < addOrderOf P := by rw [hP]; positivity
  have hfin : IsOfFinAddOrder P := addOrderOf_pos_iff.1 hpos
  have hmem : Q ∈ AddSubmonoid.multiples P := by
    rw [hfin.mem_multiples_iff_mem_zmultiples, ← hQ]; exact AddSubgroup.mem_zmultiples Q
  obtain ⟨k, hk⟩ := (AddSubmonoid.mem_multiples_iff _ _).1 hmem
  obtain ⟨s, hs⟩ : ∃ s, s = k % 2 ^ e2 := ⟨_, rfl⟩
  have hsQ : s • P = Q := by rw [hs, ← hP, mod_addOrderOf_nsmul, hk]
  have hslt : s < 2 ^ e2 := by rw [hs]; exact Nat.mod_lt _ (by positivity)
  have hodd : s % 2 = 1 := by
    by_contra hne
    have h0 : s % 2 = 0 := by omega
    -- then `2^(e2-1)` kills `Q`, hence `P`
    have hQ0 : 2 ^ (e2 - 1) • Q = 0 := by
      rw [← hsQ, ← mul_smul, show 2 ^ (e2 - 1) * s = (s / 2) * 2 ^ e2 by
        rw [show e2 = (e2 - 1) + 1 by omega, pow_succ]
        have := Nat.div_add_mod s 2
        simp only [Nat.add_sub_cancel]
        rw [h0, add_zero] at this
        conv_lhs => rw [← this]
        ring, mul_smul, ← hP, addOrderOf_nsmul_eq_zero, smul_zero]
    have hPm : P ∈ AddSubgroup.zmultiples Q := by rw [hQ]; exact AddSubgroup.mem_zmultiples P
    obtain ⟨m, hm⟩ := AddSubgroup.mem_zmultiples_iff.1 hPm
    have hP0 : 2 ^ (e2 - 1) • P = 0 := by
      rw [← hm, ← natCast_zsmul, ← mul_smul, mul_comm, mul_smul, natCast_zsmul, hQ0, smul_zero]
    have := Nat.le_of_dvd (by positivity) (addOrderOf_dvd_of_nsmul_eq_zero hP0)
    rw [hP] at this
    exact absurd this (not_le.2 (Nat.pow_lt_pow_right (by norm_num) (by omega)))
  rw [← card_oddScalar he hslt hodd]
  refine Nat.card_congr (Equiv.subtypeEquivRight fun bs => and_congr_right fun hl => ?_)
  have hlt : oddScalar (maskAlice e2) bs < 2 ^ e2 := by
    rw [oddScalar_eq he hl, or_one]
    have := Nat.mod_lt (leNat bs) (show 0 < 2 ^ e2 by positivity)
    have h2 : 2 ^ e2 = 2 * 2 ^ (e2 - 1) := by rw [← pow_succ']; congr 1; omega
    omega
  rw [← hsQ]
  constructor
  · intro h
    exact nsmul_injOn_Iio_addOrderOf (by rw [hP]; exact hlt) (by rw [hP]; exact hslt) h
  · rintro rfl; rfl

/-- The point obtained always generates the same group. -/
theorem oddScalar_generator {G : Type} [AddCommGroup G] {e2 : ℕ} (he : Exponent e2) {P : G} (hP : addOrderOf P = 2 ^ e2)
    {bs : List UInt8} (hl : bs.length = keyBytes e2) :
    AddSubgroup.zmultiples (oddScalar (maskAlice e2) bs • P) = AddSubgroup.zmultiples P := by
  obtain ⟨s, hs⟩ : ∃ s, s = oddScalar (maskAlice e2) bs := ⟨_, rfl⟩
  have hodd : s % 2 = 1 := by rw [hs, oddScalar_eq he hl, or_one]; omega
  rw [← hs]
  apply le_antisymm
  · rw [AddSubgroup.zmultiples_le]
    exact nsmul_mem (AddSubgroup.mem_zmultiples P) _
  · rw [AddSubgroup.zmultiples_le]
    have hc : Nat.Coprime (addOrderOf P) s := by
      rw [hP]
      exact Nat.Coprime.pow_left _ ((Nat.coprime_two_left).2 (Nat.odd_iff.2 hodd))
    obtain ⟨m, hm⟩ := exists_nsmul_eq_self_of_coprime (x := P) hc.symm
    have : m • s • P ∈ AddSubgroup.zmultiples (s • P) := nsmul_mem (AddSubgroup.mem_zmultiples _) _
    rwa [hm] at this

end Secuer.Scalar
