import Verif.Word32.Model
import Verif.Word.Basic
import Mathlib.Tactic.Ring
import Mathlib.Tactic.Linarith
import Mathlib.Tactic.NormNum

/-!
# 32-bit digits: comparison, carry, product

The text of `Verif/Word/Basic.lean` with the other word size.
-/

namespace Secuer.Word32

open Secuer.Word (UInt Bit bit_zero bit_ite u0 u1)

theorem shift31 (z : Digit) : z >>> 31 = if z.msb then 1 else 0 := by
  apply BitVec.eq_of_toNat_eq
  rw [BitVec.toNat_ushiftRight, Nat.shiftRight_eq_div_pow, BitVec.msb_eq_decide]
  have := z.isLt
  by_cases h : 2 ^ (32 - 1) ≤ z.toNat
  · rw [decide_eq_true h]; simp only [if_true]
    show _ = 1
    omega
  · rw [decide_eq_false h]; simp only [Bool.false_eq_true, if_false]
    show _ = 0
    omega

theorem nonzeroCt_eq (x : Digit) : nonzeroCt x = if x = 0 then 0 else 1 := by
  unfold nonzeroCt
  rw [shift31]
  by_cases h : x = 0
  · subst h; rfl
  · rw [if_neg h]
    have : (x ||| (0 - x)).msb = true := by
      rw [BitVec.msb_or, BitVec.msb_eq_decide, BitVec.msb_eq_decide]
      have h0 : x.toNat ≠ 0 := fun e => h (BitVec.eq_of_toNat_eq e)
      have h1 : (0 - x).toNat = 2 ^ 32 - x.toNat := by
        have := x.isLt
        rw [BitVec.toNat_sub]
        show (2 ^ 32 - x.toNat + 0) % 2 ^ 32 = _
        omega
      rw [h1]
      have := x.isLt
      by_cases h2 : 2 ^ (32 - 1) ≤ x.toNat
      · rw [decide_eq_true h2]; rfl
      · rw [decide_eq_true (p := 2 ^ (32 - 1) ≤ 2 ^ 32 - x.toNat) (by omega), Bool.or_true]
    rw [this]; rfl

theorem zeroCt_eq (x : Digit) : zeroCt x = if x = 0 then 1 else 0 := by
  unfold zeroCt
  rw [nonzeroCt_eq]
  by_cases h : x = 0
  · rw [if_pos h, if_pos h]; rfl
  · rw [if_neg h, if_neg h]; rfl

theorem lessCt_eq (x y : Digit) : lessCt x y = if x.toNat < y.toNat then 1 else 0 := by
  unfold lessCt
  rw [shift31]
  have key : (x ^^^ ((x ^^^ y) ||| ((x - y) ^^^ y))).msb = decide (x.toNat < y.toNat) := by
    rw [BitVec.msb_xor, BitVec.msb_or, BitVec.msb_xor, BitVec.msb_xor]
    have hx := x.isLt
    have hy := y.isLt
    have hs : (x - y).toNat = if x.toNat < y.toNat then 2 ^ 32 + x.toNat - y.toNat else x.toNat - y.toNat := by
      rw [BitVec.toNat_sub]
      split <;> omega
    rw [BitVec.msb_eq_decide x, BitVec.msb_eq_decide y, BitVec.msb_eq_decide (x - y), hs]
    by_cases h1 : 2 ^ (32 - 1) ≤ x.toNat <;> by_cases h2 : 2 ^ (32 - 1) ≤ y.toNat <;>
      by_cases h3 : x.toNat < y.toNat
    all_goals
      first | rw [if_pos h3] | rw [if_neg h3]
    all_goals
      simp only [h1, h2, h3, decide_true, decide_false, Bool.xor_false, Bool.xor_true, Bool.not_true, Bool.not_false,
        Bool.false_or, Bool.true_or, Bool.true_bne, Bool.bne_true, Bool.false_bne, Bool.bne_false, bne_self_eq_false,
        Bool.not_eq_true', Bool.not_eq_false', decide_eq_true_eq, decide_eq_false_iff_not, Bool.not_not]
    all_goals first | rfl | omega
  rw [key]
  by_cases h : x.toNat < y.toNat
  · rw [if_pos h, decide_eq_true h]; rfl
  · rw [if_neg h, decide_eq_false h]; rfl

theorem one_toNat : (1 : Digit).toNat = 1 := rfl
theorem zero_toNat : (0 : Digit).toNat = 0 := rfl

theorem setWidth_bit (c : UInt) : (c.setWidth 32).toNat = c.toNat := by
  rw [BitVec.toNat_setWidth]
  have := c.isLt
  omega

/-- `ADDC` is exact. -/
theorem addc_spec {c : UInt} (hc : Bit c) (a b : Digit) :
    Bit (addc c a b).1 ∧ (addc c a b).2.toNat + 2 ^ 32 * (addc c a b).1.toNat = a.toNat + b.toNat + c.toNat := by
  have ha := a.isLt
  have hb := b.isLt
  have hc1 : c.toNat ≤ 1 := hc
  unfold addc
  dsimp only
  rw [lessCt_eq, lessCt_eq]
  have h1 : (a + c.setWidth 32).toNat = (a.toNat + c.toNat) % 2 ^ 32 := by rw [BitVec.toNat_add, setWidth_bit]
  have h2 : (b + (a + c.setWidth 32)).toNat = (b.toNat + (a + c.setWidth 32).toNat) % 2 ^ 32 := BitVec.toNat_add _ _
  have h0 := setWidth_bit c
  generalize b + (a + c.setWidth 32) = s at *
  generalize a + c.setWidth 32 = t at *
  generalize c.setWidth 32 = d at *
  by_cases h3 : t.toNat < d.toNat <;> by_cases h4 : s.toNat < t.toNat
  · rw [if_pos h3, if_pos h4]; omega
  · rw [if_pos h3, if_neg h4]
    refine ⟨le_refl 1, ?_⟩
    show _ + 2 ^ 32 * 1 = _
    omega
  · rw [if_neg h3, if_pos h4]
    refine ⟨le_refl 1, ?_⟩
    show _ + 2 ^ 32 * 1 = _
    omega
  · rw [if_neg h3, if_neg h4]
    refine ⟨Nat.zero_le _, ?_⟩
    show _ + 2 ^ 32 * 0 = _
    omega

/-- `SUBC` is exact. -/
theorem subc_spec {c : UInt} (hc : Bit c) (a b : Digit) :
    Bit (subc c a b).1 ∧ (subc c a b).2.toNat + b.toNat + c.toNat = a.toNat + 2 ^ 32 * (subc c a b).1.toNat := by
  have ha := a.isLt
  have hb := b.isLt
  unfold subc
  dsimp only
  rw [lessCt_eq, zeroCt_eq]
  simp only [BitVec.toNat_sub]
  have hz : a - b = 0 ↔ a.toNat = b.toNat := by
    constructor
    · intro h
      have := congrArg BitVec.toNat h
      rw [BitVec.toNat_sub] at this
      have e : (0 : Digit).toNat = 0 := rfl
      rw [e] at this
      omega
    · intro h
      rw [BitVec.eq_of_toNat_eq h]; exact BitVec.sub_self b
  rcases hc.cases with rfl | rfl
  · have e : (BitVec.setWidth 32 (0 : UInt)).toNat = 0 := rfl
    have e2 : ∀ x : UInt, 0 &&& x = 0 := fun x => BitVec.zero_and
    rw [e, e2, u0]
    by_cases h2 : a.toNat < b.toNat
    · rw [if_pos h2]
      refine ⟨le_refl 1, ?_⟩
      show _ = _ + 2 ^ 32 * 1
      omega
    · rw [if_neg h2]
      refine ⟨Nat.zero_le _, ?_⟩
      show _ = _ + 2 ^ 32 * 0
      omega
  · have e : (BitVec.setWidth 32 (1 : UInt)).toNat = 1 := rfl
    rw [e, u1]
    by_cases h2 : a.toNat < b.toNat
    · rw [if_pos h2, if_neg (by rw [hz]; omega)]
      refine ⟨le_refl 1, ?_⟩
      show _ = _ + 2 ^ 32 * 1
      omega
    · rw [if_neg h2]
      by_cases h3 : a.toNat = b.toNat
      · rw [if_pos (hz.2 h3)]
        refine ⟨le_refl 1, ?_⟩
        show _ = _ + 2 ^ 32 * 1
        omega
      · rw [if_neg (fun h => h3 (hz.1 h))]
        refine ⟨Nat.zero_le _, ?_⟩
        show _ = _ + 2 ^ 32 * 0
        omega

/-! ## The product of two digits -/

theorem low_toNat (x : Digit) : (x &&& ((-1 : Digit) >>> 16)).toNat = x.toNat % 2 ^ 16 := by
  rw [BitVec.toNat_and]
  exact Nat.and_two_pow_sub_one_eq_mod x.toNat 16

theorem high_toNat (x : Digit) : (x &&& ((-1 : Digit) <<< 16)).toNat = x.toNat / 2 ^ 16 * 2 ^ 16 := by
  have e : (-1 : Digit) <<< 16 = ~~~ ((-1 : Digit) >>> 16) := by decide
  have h : x = (x &&& ((-1 : Digit) <<< 16)) + (x &&& ((-1 : Digit) >>> 16)) := by
    rw [BitVec.add_eq_or_of_and_eq_zero]
    · rw [← BitVec.and_or_distrib_left]
      have : (-1 : Digit) <<< 16 ||| (-1 : Digit) >>> 16 = -1 := by decide
      rw [this]
      exact (BitVec.and_allOnes (x := x)).symm
    · rw [BitVec.and_assoc, ← BitVec.and_assoc (x := (-1 : Digit) <<< 16), BitVec.and_comm ((-1 : Digit) <<< 16) x,
        BitVec.and_assoc]
      have : (-1 : Digit) <<< 16 &&& (-1 : Digit) >>> 16 = 0 := by decide
      rw [this]
      simp
  have h1 := congrArg BitVec.toNat h
  rw [BitVec.toNat_add, low_toNat] at h1
  have h2 := (x &&& ((-1 : Digit) <<< 16)).isLt
  have h3 : (x &&& ((-1 : Digit) <<< 16)).toNat ≤ x.toNat := by
    rw [BitVec.toNat_and]; exact Nat.and_le_left
  have := x.isLt
  omega

/-- `^` of a low and a high half is their sum. -/
theorem xor_halves (a b : Digit) (ha : a.toNat < 2 ^ 16) (k : ℕ) (hb : b.toNat = k * 2 ^ 16) :
    (a ^^^ b).toNat = a.toNat + b.toNat := by
  rw [BitVec.toNat_xor, hb]
  apply Nat.eq_of_testBit_eq
  intro i
  rw [Nat.testBit_xor]
  have e : a.toNat + k * 2 ^ 16 = 2 ^ 16 * k + a.toNat := by ring
  rw [e, Nat.testBit_two_pow_mul_add _ ha, Nat.mul_comm k, Nat.testBit_two_pow_mul]
  by_cases h : i < 16
  · simp [h, Nat.not_le.2 h]
  · have : a.toNat.testBit i = false := Nat.testBit_lt_two_pow (lt_of_lt_of_le ha (Nat.pow_le_pow_right (by norm_num) (by omega)))
    simp [h, this, Nat.le_of_not_lt h]

theorem mul_half_lt {a b : ℕ} (ha : a < 2 ^ 16) (hb : b < 2 ^ 16) : a * b ≤ (2 ^ 16 - 1) * (2 ^ 16 - 1) :=
  Nat.mul_le_mul (by omega) (by omega)

/-- `digit_x_digit` is exact. -/
theorem digitXDigit_spec (a b : Digit) :
    (digitXDigit a b).1.toNat + 2 ^ 32 * (digitXDigit a b).2.toNat = a.toNat * b.toNat := by
  have ha := a.isLt
  have hb := b.isLt
  obtain ⟨al, hal⟩ : ∃ al, al = a.toNat % 2 ^ 16 := ⟨_, rfl⟩
  obtain ⟨ah, hah⟩ : ∃ ah, ah = a.toNat / 2 ^ 16 := ⟨_, rfl⟩
  obtain ⟨bl, hbl⟩ : ∃ bl, bl = b.toNat % 2 ^ 16 := ⟨_, rfl⟩
  obtain ⟨bh, hbh⟩ : ∃ bh, bh = b.toNat / 2 ^ 16 := ⟨_, rfl⟩
  have l1 : al < 2 ^ 16 := by omega
  have l2 : ah < 2 ^ 16 := by omega
  have l3 : bl < 2 ^ 16 := by omega
  have l4 : bh < 2 ^ 16 := by omega
  have ea : a.toNat = ah * 2 ^ 16 + al := by omega
  have eb : b.toNat = bh * 2 ^ 16 + bl := by omega
  have sh : ∀ x : Digit, (x >>> 16).toNat = x.toNat / 2 ^ 16 := fun x => by
    rw [BitVec.toNat_ushiftRight, Nat.shiftRight_eq_div_pow]
  have p1 := mul_half_lt l1 l3
  have p2 := mul_half_lt l1 l4
  have p3 := mul_half_lt l2 l3
  have p4 := mul_half_lt l2 l4
  have m1 : ((a &&& ((-1 : Digit) >>> 16)) * (b &&& ((-1 : Digit) >>> 16))).toNat = al * bl := by
    rw [BitVec.toNat_mul, low_toNat, low_toNat, ← hal, ← hbl, Nat.mod_eq_of_lt (by omega)]
  have m2 : ((a &&& ((-1 : Digit) >>> 16)) * (b >>> 16)).toNat = al * bh := by
    rw [BitVec.toNat_mul, low_toNat, sh, ← hal, ← hbh, Nat.mod_eq_of_lt (by omega)]
  have m3 : ((a >>> 16) * (b &&& ((-1 : Digit) >>> 16))).toNat = ah * bl := by
    rw [BitVec.toNat_mul, low_toNat, sh, ← hah, ← hbl, Nat.mod_eq_of_lt (by omega)]
  have m4 : ((a >>> 16) * (b >>> 16)).toNat = ah * bh := by
    rw [BitVec.toNat_mul, sh, sh, ← hah, ← hbh, Nat.mod_eq_of_lt (by omega)]
  rw [ea, eb]
  have ex : (ah * 2 ^ 16 + al) * (bh * 2 ^ 16 + bl) =
      ah * bh * 2 ^ 32 + (ah * bl + al * bh) * 2 ^ 16 + al * bl := by ring
  rw [ex]
  unfold digitXDigit
  dsimp only
  generalize (a &&& ((-1 : Digit) >>> 16)) * (b &&& ((-1 : Digit) >>> 16)) = albl at *
  generalize (a &&& ((-1 : Digit) >>> 16)) * (b >>> 16) = albh at *
  generalize (a >>> 16) * (b &&& ((-1 : Digit) >>> 16)) = ahbl at *
  generalize (a >>> 16) * (b >>> 16) = ahbh at *
  rw [← m1, ← m2, ← m3, ← m4]
  rw [← m1] at p1
  rw [← m2] at p2
  rw [← m3] at p3
  rw [← m4] at p4
  clear m1 m2 m3 m4 ex ea eb hal hah hbl hbh
  -- the first column
  have t1 : (albl >>> 16 + (ahbl &&& ((-1 : Digit) >>> 16)) + (albh &&& ((-1 : Digit) >>> 16))).toNat =
      albl.toNat / 2 ^ 16 + ahbl.toNat % 2 ^ 16 + albh.toNat % 2 ^ 16 := by
    rw [BitVec.toNat_add, BitVec.toNat_add, sh, low_toNat, low_toNat]
    omega
  generalize albl >>> 16 + (ahbl &&& ((-1 : Digit) >>> 16)) + (albh &&& ((-1 : Digit) >>> 16)) = temp at *
  have t2 : (ahbl >>> 16 + albh >>> 16 + (ahbh &&& ((-1 : Digit) >>> 16)) + temp >>> 16).toNat =
      ahbl.toNat / 2 ^ 16 + albh.toNat / 2 ^ 16 + ahbh.toNat % 2 ^ 16 + temp.toNat / 2 ^ 16 := by
    rw [BitVec.toNat_add, BitVec.toNat_add, BitVec.toNat_add, sh, sh, sh, low_toNat]
    omega
  generalize ahbl >>> 16 + albh >>> 16 + (ahbh &&& ((-1 : Digit) >>> 16)) + temp >>> 16 = temp2 at *
  have s1 : (temp <<< 16).toNat = temp.toNat % 2 ^ 16 * 2 ^ 16 := by
    rw [BitVec.toNat_shiftLeft, Nat.shiftLeft_eq]
    omega
  have s2 : ((ahbh &&& ((-1 : Digit) <<< 16)) + (temp2 &&& ((-1 : Digit) <<< 16))).toNat =
      (ahbh.toNat / 2 ^ 16 + temp2.toNat / 2 ^ 16) * 2 ^ 16 := by
    rw [BitVec.toNat_add, high_toNat, high_toNat]
    omega
  rw [xor_halves _ _ (by rw [low_toNat]; omega) _ s1, xor_halves _ _ (by rw [low_toNat]; omega) _ s2, low_toNat, s1,
    low_toNat, s2]
  omega

end Secuer.Word32
